/-
The multi-aggregator never faults while there is a handler, and what `size` counts.
-/
import Verif.Lemmas.Multi

namespace Wrtstat

set_option autoImplicit false

open Multi (about)
open Registry (Tame)
open Aggregator (AOp)

/-- A computation that succeeds with a result that passes a test. -/
def Passes {α : Type} (x : M α) (p : α → Bool) : Bool :=
  match x with
  | .ok a => p a
  | .error _ => false

theorem of_passes {α : Type} {x : M α} {p : α → Bool} (h : Passes x p = true) : ∃ a, x = .ok a ∧ p a = true := by
  cases x with
  | error e => cases h
  | ok a => exact ⟨a, rfl, h⟩

theorem aggregator_new_total {opt : AggregatorOpts} (hs : 0 < opt.step) (clk rand ts : Int) :
    ∃ a, Aggregator.new opt clk rand ts = .ok a := by
  unfold Aggregator.new Separator.new
  rw [Separator.getTs_eq (by omega)]
  exact ⟨_, rfl⟩

variable {env : Env} {opt : AggregatorOpts} {m M : Int}

theorem tame_exec {a : Aggregator} (hs : 0 < opt.step) (B : Reducer.Bounds env m M)
    (h : Tame env opt m M a) (op : AOp) (hc : op.clockOk) (hv : ∀ v ∈ op.vals, m ≤ v ∧ v ≤ M) :
    ∃ o, Aggregator.exec env { a := a } op = .ok o ∧ Tame env opt m M o.a := by
  obtain ⟨a', out, ⟨o, t1, t2, t3⟩, h'⟩ := Registry.tame_ops hs B [op] h (by simpa using hc) (by simpa using hv)
  unfold Aggregator.execAll at t1
  simp only [List.foldlM_cons, List.foldlM_nil] at t1
  obtain ⟨o1, e1, e2⟩ := bind_inv t1
  cases e2
  exact ⟨o, e1, by rw [t2]; exact h'⟩

theorem tame_push {a : Aggregator} (hs : 0 < opt.step) (B : Reducer.Bounds env m M)
    (h : Tame env opt m M a) {c1 c2 ts : Int} {x : AddArg} {handler : Bool} (hc : 0 ≤ c1 ∧ 0 ≤ c2)
    (hv : ∀ v ∈ x.values, m ≤ v ∧ v ≤ M) :
    ∃ ok out a', a.push env c1 c2 ts x handler = .ok (ok, out, a') ∧ Tame env opt m M a' := by
  obtain ⟨o, e, ht⟩ := tame_exec hs B h (.push c1 c2 ts x handler) hc hv
  obtain ⟨⟨ok, out, a'⟩, e1, e⟩ := bind_inv e
  cases e
  exact ⟨ok, out, a', e1, ht⟩

theorem tame_popOne {a : Aggregator} (hs : 0 < opt.step) (B : Reducer.Bounds env m M)
    (h : Tame env opt m M a) (force : Bool) :
    ∃ d a', AggMap.popOne env force a = .ok (d, a') ∧ Tame env opt m M a' := by
  cases force with
  | false =>
    obtain ⟨o, e, ht⟩ := tame_exec hs B h .pop trivial (by simp [AOp.vals])
    refine ⟨a.pop.1, a.pop.2, rfl, ?_⟩
    cases e
    exact ht
  | true =>
    obtain ⟨o, e, ht⟩ := tame_exec hs B h .forcePop trivial (by simp [AOp.vals])
    obtain ⟨⟨d, a'⟩, e1, e⟩ := bind_inv e
    cases e
    exact ⟨d, a', e1, ht⟩

namespace AggMap

theorem lookup_mem {m : AggMap} {n : Name} {a : Aggregator} (h : m.lookup n = some a) : (n, a) ∈ m := by
  induction m with
  | nil => cases h
  | cons p m ih =>
    obtain ⟨k, b⟩ := p
    by_cases hk : n = k
    · subst hk
      simp only [List.lookup_cons_self, Option.some.injEq] at h
      subst h
      simp
    · rw [List.lookup_cons, beq_false_of_ne hk] at h
      exact List.mem_cons_of_mem _ (ih h)

theorem mem_lookup {m : AggMap} {n : Name} {a : Aggregator} (hn : (m.map Prod.fst).Nodup) (h : (n, a) ∈ m) :
    m.lookup n = some a := by
  induction m with
  | nil => cases h
  | cons p m ih =>
    obtain ⟨k, b⟩ := p
    simp only [List.map_cons, List.nodup_cons] at hn
    rcases List.mem_cons.1 h with h1 | h1
    · cases h1
      simp
    · have : n ≠ k := by
        rintro rfl
        exact hn.1 (List.mem_map.2 ⟨(n, a), h1, rfl⟩)
      rw [List.lookup_cons, beq_false_of_ne this]
      exact ih hn.2 h1

/-- Every aggregator of the map is tame. -/
def TameMap (env : Env) (opt : AggregatorOpts) (m M : Int) (s : AggMap) : Prop :=
  ∀ n a, s.lookup n = some a → Tame env opt m M a

theorem popLoop_total (hs : 0 < opt.step) (B : Reducer.Bounds env m M) (force : Bool) (ns : List Name) :
    ∀ {s : AggMap}, TameMap env opt m M s → ∃ l s', popLoop env force true ns s = .ok (l, s') := by
  induction ns with
  | nil => intro s _; exact ⟨[], s, rfl⟩
  | cons n ns ih =>
    intro s ht
    unfold popLoop
    cases hl : s.lookup n with
    | none => exact ih ht
    | some a =>
      obtain ⟨d, a', e, ht'⟩ := tame_popOne hs B (ht n a hl) force
      obtain ⟨l, s', e'⟩ := ih (s := s.put n a') (by
        intro n' a'' h
        rw [lookup_put] at h
        by_cases hn : n' = n
        · rw [if_pos hn] at h
          cases h
          exact ht'
        · rw [if_neg hn] at h
          exact ht n' a'' h)
      simp only [e, bind_ok', Bool.true_eq_false, and_false, if_false, e']
      exact ⟨_, _, rfl⟩

end AggMap

namespace Multi

open AggMap (TameMap)

theorem popShards_total (hs : 0 < opt.step) (B : Reducer.Bounds env m M) (force : Bool) (ord : IterOrder)
    (ss : List AggMap) (ht : ∀ s ∈ ss, TameMap env opt m M s) :
    ∃ l ss', popShards env force true ord ss = .ok (l, ss') := by
  induction ss with
  | nil => exact ⟨_, _, rfl⟩
  | cons s ss ih =>
    obtain ⟨l, s', e⟩ := AggMap.popLoop_total hs B force (ord.order (s.map Prod.fst)) (ht s (by simp))
    obtain ⟨l', ss', e'⟩ := ih fun s hs => ht s (by simp [hs])
    unfold popShards AggMap.popAll
    simp only [e, bind_ok', e']
    exact ⟨_, _, rfl⟩

/-- Every aggregator is tame. -/
def TameM (env : Env) (opt : AggregatorOpts) (m M : Int) (x : Multi) : Prop :=
  ∀ n a, x.find n = some a → Tame env opt m M a

theorem MInv.shard_find {x : Multi} (hi : MInv x) {s : AggMap} (hs : s ∈ x.shards) {n : Name} {a : Aggregator}
    (h : s.lookup n = some a) : x.find n = some a := by
  obtain ⟨i, hlt, hi'⟩ := List.getElem_of_mem hs
  have hi'' : x.shards[i]? = some s := by rw [List.getElem?_eq_getElem hlt, hi']
  have hn : n ∈ s.map Prod.fst := List.mem_map.2 ⟨_, AggMap.lookup_mem h, rfl⟩
  rw [hi.find_eq (hi.home i s hi'' n hn).symm hi'', h]

/-- The values of an operation lie in `[m, M]`, its clock readings are not negative, and it has a
handler. -/
def MOp.fine (m M : Int) : MOp → Prop
  | .push p h => h = true ∧ (0 ≤ p.clk1 ∧ 0 ≤ p.clk2) ∧ ∀ v ∈ p.v.data, m ≤ v ∧ v ≤ M
  | .multiPush ps h => h = true ∧ ∀ p ∈ ps, (0 ≤ p.clk1 ∧ 0 ≤ p.clk2) ∧ ∀ v ∈ p.v.data, m ≤ v ∧ v ≤ M
  | .del _ => True
  | .pushout _ h _ => h = true

theorem push_total {x : Multi} (hs : 0 < x.opt.step) (hz : 0 < x.opt.hashSize) (B : Reducer.Bounds env m M) (hi : MInv x)
    (ht : TameM env x.opt.toAggregatorOpts m M x) (p : PushArg) (hc : 0 ≤ p.clk1 ∧ 0 ≤ p.clk2)
    (hv : ∀ v ∈ (AddArg.reduced p.v).values, m ≤ v ∧ v ≤ M) :
    ∃ ok l x', x.push env p.name p.v p.clk p.rand p.clk1 p.clk2 true = .ok (ok, l, x') ∧ MInv x' ∧ x'.opt = x.opt ∧
      TameM env x.opt.toAggregatorOpts m M x' := by
  have hlt : x.hash p.name % x.opt.hashSize < x.shards.length := by rw [hi.len]; exact Nat.mod_lt _ hz
  obtain ⟨a, ea, hta⟩ : ∃ a, AggMap.orNew x.opt ((x.shards[x.hash p.name % x.opt.hashSize]).lookup p.name) p.clk p.rand p.v.ts = .ok a ∧
      Tame env x.opt.toAggregatorOpts m M a := by
    cases hl : (x.shards[x.hash p.name % x.opt.hashSize]).lookup p.name with
    | some a => exact ⟨a, rfl, ht _ _ (hi.shard_find (List.getElem_mem hlt) hl)⟩
    | none =>
      obtain ⟨a, ea⟩ := aggregator_new_total (opt := x.opt.toAggregatorOpts) hs p.clk p.rand p.v.ts
      exact ⟨a, ea, Registry.tame_new hs ea⟩
  obtain ⟨ok, out, a', ep, hta'⟩ := tame_push (handler := true) (ts := p.v.ts) hs B hta hc hv
  have e : ∃ l x', x.push env p.name p.v p.clk p.rand p.clk1 p.clk2 true = .ok (ok, l, x') := by
    unfold Multi.push getPos shard AggMap.push
    rw [if_neg (by omega)]
    simp only [bind_ok', List.getElem?_eq_getElem hlt, ea, ep, Bool.true_eq_false, and_false, if_false]
    exact ⟨_, _, rfl⟩
  obtain ⟨l, x', e⟩ := e
  obtain ⟨k1, k2, a1, out1, a1', j1, j2, j3, j4⟩ := push_spec (p := p) hi e
  refine ⟨ok, l, x', e, k1, k2, ?_⟩
  intro n b hb
  rw [j4] at hb
  by_cases hn : n = p.name
  · rw [if_pos hn] at hb
    cases hb
    rw [hi.find_eq rfl (List.getElem?_eq_getElem hlt), ea] at j1
    cases j1
    rw [ep] at j2
    cases j2
    exact hta'
  · rw [if_neg hn] at hb
    exact ht n b hb

theorem multiPush_total (B : Reducer.Bounds env m M) (ps : List PushArg) :
    ∀ {x : Multi}, 0 < x.opt.step → 0 < x.opt.hashSize → MInv x → TameM env x.opt.toAggregatorOpts m M x →
    (∀ p ∈ ps, (0 ≤ p.clk1 ∧ 0 ≤ p.clk2) ∧ ∀ v ∈ (AddArg.reduced p.v).values, m ≤ v ∧ v ≤ M) →
    ∃ l x', multiPush env true ps x = .ok (l, x') ∧ MInv x' ∧ x'.opt = x.opt ∧ TameM env x.opt.toAggregatorOpts m M x' := by
  induction ps with
  | nil => intro x _ _ hi ht _; exact ⟨_, _, rfl, hi, rfl, ht⟩
  | cons p ps ih =>
    intro x hs hz hi ht hp
    obtain ⟨ok, l, x1, e, hi1, ho1, ht1⟩ := push_total hs hz B hi ht p (hp p (by simp)).1 (hp p (by simp)).2
    obtain ⟨l', x2, e', hi2, ho2, ht2⟩ := ih (by rw [ho1]; exact hs) (by rw [ho1]; exact hz) hi1 (by rw [ho1]; exact ht1)
      (fun q hq => hp q (by simp [hq]))
    rw [ho1] at ht2
    refine ⟨l ++ l', x2, ?_, hi2, ho2.trans ho1, ht2⟩
    simp only [multiPush, e, bind_ok', e']

theorem mexec_total {o : MObs} {op : MOp} (hs : 0 < o.m.opt.step) (hz : 0 < o.m.opt.hashSize) (B : Reducer.Bounds env m M)
    (hi : MInv o.m) (ht : TameM env o.m.opt.toAggregatorOpts m M o.m) (hop : op.fine m M) :
    ∃ o', mexec env o op = .ok o' ∧ MInv o'.m ∧ o'.m.opt = o.m.opt ∧ TameM env o.m.opt.toAggregatorOpts m M o'.m := by
  cases op with
  | push p h =>
    obtain ⟨rfl, hc, hv⟩ := hop
    obtain ⟨ok, l, x1, e, k⟩ := push_total hs hz B hi ht p hc hv
    simp only [mexec, e, bind_ok']
    exact ⟨_, rfl, k⟩
  | multiPush ps h =>
    obtain ⟨rfl, hp⟩ := hop
    obtain ⟨l, x1, e, k⟩ := multiPush_total B ps hs hz hi ht hp
    simp only [mexec, e, bind_ok']
    exact ⟨_, rfl, k⟩
  | del n =>
    have hlt : o.m.hash n % o.m.opt.hashSize < o.m.shards.length := by rw [hi.len]; exact Nat.mod_lt _ hz
    have e : ∃ b x', o.m.del n = .ok (b, x') := by
      unfold Multi.del getPos shard
      rw [if_neg (by omega)]
      simp only [bind_ok', List.getElem?_eq_getElem hlt]
      exact ⟨_, _, rfl⟩
    obtain ⟨b, x', e⟩ := e
    obtain ⟨k1, k2, _, k4⟩ := del_spec hi e
    simp only [mexec, e, bind_ok']
    refine ⟨_, rfl, k1, k2, ?_⟩
    intro n' a ha
    simp only at ha
    rw [k4] at ha
    by_cases hn : n' = n
    · rw [if_pos hn] at ha; cases ha
    · rw [if_neg hn] at ha
      exact ht n' a ha
  | pushout force h ord =>
    cases hop
    obtain ⟨l, ss, e⟩ := popShards_total hs B force ord o.m.shards
      (fun s hs n a hl => ht n a (hi.shard_find hs hl))
    have e' : o.m.popAll env force true ord = .ok (l, { o.m with shards := ss }) := by
      simp only [Multi.popAll, e, bind_ok']
    obtain ⟨k1, k2, k3⟩ := popAll_spec hi hz e'
    simp only [mexec, e', bind_ok']
    refine ⟨_, rfl, k1, k2, ?_⟩
    intro n a ha
    simp only at ha
    cases hf : o.m.find n with
    | none =>
      rw [((k3 n).1 hf).1] at ha
      cases ha
    | some a0 =>
      obtain ⟨d, a', j1, j2, _⟩ := (k3 n).2 a0 hf
      rw [j2] at ha
      cases ha
      obtain ⟨d1, a1, j3, j4⟩ := tame_popOne hs B (ht n a0 hf) force
      rw [j3] at j1
      cases j1
      exact j4

theorem mexecAll_total (B : Reducer.Bounds env m M) (ops : List MOp) :
    ∀ {o : MObs}, 0 < o.m.opt.step → 0 < o.m.opt.hashSize → MInv o.m → TameM env o.m.opt.toAggregatorOpts m M o.m →
    (∀ op ∈ ops, op.fine m M) → ∃ o', mexecAll env o ops = .ok o' := by
  induction ops with
  | nil => intro o _ _ _ _ _; exact ⟨o, rfl⟩
  | cons op ops ih =>
    intro o hs hz hi ht hop
    obtain ⟨o1, e, hi1, ho1, ht1⟩ := mexec_total hs hz B hi ht (hop op (by simp))
    obtain ⟨o', e'⟩ := ih (o := o1) (by rw [ho1]; exact hs) (by rw [ho1]; exact hz) hi1 (by rw [ho1]; exact ht1)
      (fun x hx => hop x (by simp [hx]))
    refine ⟨o', ?_⟩
    unfold mexecAll
    rw [List.foldlM_cons, e]
    exact e'

/-! ### `pushout` -/

theorem _root_.Wrtstat.AggMap.popLoop_clean {handler : Bool} (ns : List Name) : ∀ {s : AggMap},
    (∀ n a, s.lookup n = some a → a.agList = []) → ∃ s', AggMap.popLoop env false handler ns s = .ok ([], s') := by
  induction ns with
  | nil => intro s _; exact ⟨s, rfl⟩
  | cons n ns ih =>
    intro s hc
    unfold AggMap.popLoop
    cases hl : s.lookup n with
    | none => exact ih hc
    | some a =>
      have e : AggMap.popOne env false a = .ok (none, a) := by
        unfold AggMap.popOne Aggregator.pop
        rw [hc n a hl]
        rfl
      obtain ⟨s', e'⟩ := ih (s := s.put n a) (by
        intro n' a' h
        rw [AggMap.lookup_put] at h
        by_cases hn : n' = n
        · rw [if_pos hn] at h
          cases h
          exact hc n a hl
        · rw [if_neg hn] at h
          exact hc n' a' h)
      simp only [e, bind_ok', Option.isSome_none, Bool.false_eq_true, false_and, if_false, e']
      exact ⟨s', rfl⟩

theorem popShards_clean {handler : Bool} (ord : IterOrder) (ss : List AggMap)
    (hc : ∀ s ∈ ss, ∀ n a, s.lookup n = some a → a.agList = []) :
    ∃ ss', popShards env false handler ord ss = .ok ([], ss') := by
  induction ss with
  | nil => exact ⟨[], rfl⟩
  | cons s ss ih =>
    obtain ⟨s', e⟩ := AggMap.popLoop_clean (env := env) (handler := handler) (ord.order (s.map Prod.fst)) (hc s (by simp))
    obtain ⟨ss', e'⟩ := ih fun t ht => hc t (by simp [ht])
    unfold popShards AggMap.popAll
    simp only [e, bind_ok', e']
    exact ⟨_, rfl⟩

theorem _root_.Wrtstat.AggMap.popLoop_null {force : Bool} (ns : List Name) : ∀ {s s' : AggMap} {l : List PushReq},
    AggMap.popLoop env force false ns s = .ok (l, s') → l = [] := by
  induction ns with
  | nil => intro s s' l h; cases h; rfl
  | cons n ns ih =>
    intro s s' l h
    unfold AggMap.popLoop at h
    cases hl : s.lookup n with
    | none => rw [hl] at h; exact ih h
    | some a =>
      rw [hl] at h
      obtain ⟨⟨d, a'⟩, _, h⟩ := bind_inv h
      cases d with
      | some d => simp at h
      | none =>
        simp only [Option.isSome_none, Bool.false_eq_true, false_and, if_false] at h
        obtain ⟨⟨l1, s1⟩, h1, h⟩ := bind_inv h
        cases h
        simpa using ih h1

theorem popShards_null {force : Bool} {ord : IterOrder} (ss : List AggMap) : ∀ {ss' : List AggMap} {l : List PushReq},
    popShards env force false ord ss = .ok (l, ss') → l = [] := by
  induction ss with
  | nil => intro ss' l h; cases h; rfl
  | cons s ss ih =>
    intro ss' l h
    obtain ⟨⟨l1, s1⟩, h1, h⟩ := bind_inv h
    obtain ⟨⟨l2, s2⟩, h2, h⟩ := bind_inv h
    cases h
    rw [AggMap.popLoop_null _ h1, ih h2]
    rfl

/-! ### `size` -/

theorem keys_nodup (ss : List AggMap) (hn : ∀ s ∈ ss, (s.map Prod.fst).Nodup)
    (hd : ∀ (i j : Nat) (s t : AggMap), ss[i]? = some s → ss[j]? = some t → ∀ n ∈ s.map Prod.fst, n ∈ t.map Prod.fst → i = j) :
    (ss.flatMap fun s => s.map Prod.fst).Nodup := by
  induction ss with
  | nil => exact List.nodup_nil
  | cons s ss ih =>
    rw [List.flatMap_cons, List.nodup_append]
    refine ⟨hn s (by simp), ih (fun t ht => hn t (by simp [ht])) ?_, ?_⟩
    · intro i j s1 t1 h1 h2 n hn1 hn2
      have := hd (i + 1) (j + 1) s1 t1 (by simpa using h1) (by simpa using h2) n hn1 hn2
      omega
    · intro n hn1 n' hn2 e
      subst e
      obtain ⟨t, ht, hn2⟩ := List.mem_flatMap.1 hn2
      obtain ⟨i, hlt, hi⟩ := List.getElem_of_mem ht
      have := hd 0 (i + 1) s t rfl (by simp [List.getElem?_eq_getElem hlt, hi]) n hn1 hn2
      omega

theorem size_spec {x : Multi} (hi : MInv x) :
    ∃ names : List Name, names.Nodup ∧ (∀ n, n ∈ names ↔ (x.find n).isSome) ∧ x.size.1 = names.length ∧
      x.size.2 = (names.map fun n => ((x.find n).map Aggregator.dataSize).getD 0).sum := by
  refine ⟨x.shards.flatMap fun s => s.map Prod.fst, keys_nodup _ hi.nodup ?_, ?_, ?_, ?_⟩
  · intro i j s t h1 h2 n k1 k2
    rw [← hi.home i s h1 n k1, ← hi.home j t h2 n k2]
  · intro n
    rw [List.mem_flatMap]
    constructor
    · rintro ⟨s, hs, hn⟩
      obtain ⟨p, hp, rfl⟩ := List.mem_map.1 hn
      rw [hi.shard_find hs (AggMap.mem_lookup (hi.nodup s hs) hp)]
      rfl
    · intro h
      unfold find at h
      rw [List.isSome_findSome?] at h
      obtain ⟨s, hs, h⟩ := List.any_eq_true.1 h
      obtain ⟨a, ha⟩ := Option.isSome_iff_exists.1 h
      exact ⟨s, hs, List.mem_map.2 ⟨_, AggMap.lookup_mem ha, rfl⟩⟩
  · simp [Multi.size, List.length_flatMap]
  · have key : ∀ ss : List AggMap, (∀ s ∈ ss, s ∈ x.shards) →
        (ss.map fun s => (s.map fun p => p.2.dataSize).sum).sum =
        ((ss.flatMap fun s => s.map Prod.fst).map fun n => ((x.find n).map Aggregator.dataSize).getD 0).sum := by
      intro ss
      induction ss with
      | nil => intro _; rfl
      | cons s ss ih =>
        intro hsub
        rw [List.map_cons, List.sum_cons, List.flatMap_cons, List.map_append, List.sum_append,
          ih fun t ht => hsub t (by simp [ht]), List.map_map]
        congr 1
        congr 1
        apply List.map_congr_left
        intro p hp
        have hs := hsub s (by simp)
        simp only [Function.comp_def]
        rw [hi.shard_find hs (AggMap.mem_lookup (hi.nodup s hs) hp)]
        rfl
    exact key x.shards fun _ h => h

end Multi
end Wrtstat
