/-
The sections of a `multi_aggregator`: what they do one after the other, and what they are for one name.
-/
import Verif.Lemmas.MultiTotal
import Verif.Lemmas.Sharded
import Verif.Model.MultiMt

namespace Wrtstat

set_option autoImplicit false

open Multi Single

variable {env : Env} {n : Nat} {opt : MultiOpts} {hash : Name → Nat}

/-! ### The bodies -/

theorem AggMap.put_put (s : AggMap) (k : Name) (a b : Aggregator) : (s.put k a).put k b = s.put k b := by
  have hmem : k ∈ (s.put k a).map Prod.fst := (AggMap.mem_keys_put s k k a).2 (.inl rfl)
  unfold AggMap.put at hmem ⊢
  rw [if_pos hmem]
  by_cases h : k ∈ s.map Prod.fst
  · rw [if_pos h, if_pos h, List.map_map]
    apply List.map_congr_left
    intro p _
    by_cases hp : p.1 = k <;> simp [hp]
  · rw [if_neg h, if_neg h]
    simp only [List.map_cons, if_true, List.cons.injEq, true_and]
    rw [List.map_congr_left (g := id)]
    · simp
    · intro p hp
      rw [if_neg]
      · rfl
      · rintro rfl
        exact h (List.mem_map.2 ⟨p, hp, rfl⟩)

theorem AggMap.body_spec (sec : MuSec n) (s : AggMap) (r : M MuRes) (s' : AggMap)
    (h : (AggMap.body env opt n).Runs ((AggMap.body env opt n).start sec) s r s') : s.SecSpec env opt sec r s' := by
  have one : ∀ (l : MuPos n) (s : AggMap) (x : M (MuRes × AggMap)), (AggMap.body env opt n).next l s = (match x with
      | .error e => (s, .inr (.error e))
      | .ok (r, s') => (s', .inr (.ok r))) → ∀ r s', (AggMap.body env opt n).Runs l s r s' →
      (match x with
        | .ok (r0, s0) => r = .ok r0 ∧ s' = s0
        | .error e => r = .error e) := by
    intro l s x hx r s' h
    cases h with
    | last l s s' r hn =>
      rw [hx] at hn
      split at hn
      · cases hn; rfl
      · cases hn; exact ⟨rfl, rfl⟩
    | small l l' s s1 s' r hn _ =>
      rw [hx] at hn
      split at hn <;> cases hn
  cases sec with
  | push p handler =>
    cases h with
    | last l s s' r hn =>
      simp only [AggMap.body] at hn
      split at hn
      · cases hn
        rename_i e he
        simp only [SecSpec, sec, AggMap.push, he]
        rfl
      · cases hn
    | small l l' s s1 s' r hn hr =>
      simp only [AggMap.body] at hn
      split at hn
      · cases hn
      · rename_i a ha
        cases hn
        have := one (.inserted p handler) _ _ rfl _ _ hr
        simp only [SecSpec]
        have hsame : (s.put p.name a).sec (n := n) env opt (.push p handler) = s.sec (n := n) env opt (.push p handler) := by
          simp only [sec, AggMap.push, AggMap.lookup_put, if_true, ha, AggMap.put_put]
          rfl
        rw [hsame] at this
        exact this
  | del name => exact one _ s (s.sec env opt (.del name : MuSec n)) rfl _ _ h
  | pushout i force handler ord => exact one _ s (s.sec env opt (.pushout i force handler ord)) rfl _ _ h
  | size i => exact one _ s (s.sec env opt (.size i)) rfl _ _ h

/-! ### Sections in a row -/

/-- The object as it is in `Model/Multi.lean`. -/
def asMulti (opt : MultiOpts) (hash : Name → Nat) (g : Fin n → AggMap) : Multi :=
  { opt := { opt with hashSize := n }, hash := hash, shards := List.ofFn g }

/-- Sections one after the other, with no other thread in between. -/
def runSecs (env : Env) (opt : MultiOpts) (hash : Name → Nat) [NeZero n] (g : Fin n → AggMap) :
    List (MuSec n) → M (List MuRes × (Fin n → AggMap))
  | [] => .ok ([], g)
  | sec :: l => do
    let (r, s) ← (g (sec.pos hash)).sec env opt sec
    let (rs, g) ← runSecs env opt hash (Function.update g (sec.pos hash) s) l
    .ok (r :: rs, g)

theorem ofFn_update {α : Type} (g : Fin n → α) (i : Fin n) (s : α) :
    List.ofFn (Function.update g i s) = (List.ofFn g).set i s := by
  apply List.ext_getElem
  · simp
  · intro j h1 h2
    rw [List.getElem_set]
    simp only [List.length_ofFn] at h1
    simp only [List.getElem_ofFn]
    by_cases h : i.val = j
    · have : i = ⟨j, h1⟩ := Fin.ext h
      rw [if_pos h, ← this, Function.update_self]
    · rw [if_neg h, Function.update_of_ne]
      intro e
      exact h (congrArg Fin.val e).symm

theorem push_opt (opt opt' : MultiOpts) (h : opt.toAggregatorOpts = opt'.toAggregatorOpts) (s : AggMap) :
    s.push env opt = s.push env opt' := by
  funext a b c d e f g
  simp only [AggMap.push, AggMap.orNew, h]

theorem asMulti_pos [NeZero n] (g : Fin n → AggMap) (name : Name) :
    (asMulti opt hash g).getPos name = .ok (Fin.ofNat n (hash name)).val := by
  simp [getPos, asMulti, NeZero.ne n]

theorem asMulti_shard (g : Fin n → AggMap) (i : Fin n) : (asMulti opt hash g).shard i.val = .ok (g i) := by
  simp [shard, asMulti]

theorem asMulti_push [NeZero n] (g : Fin n → AggMap) (p : PushArg) (handler : Bool) :
    (asMulti opt hash g).push env p.name p.v p.clk p.rand p.clk1 p.clk2 handler =
      ((g (Fin.ofNat n (hash p.name))).push env opt p.name p.v p.clk p.rand p.clk1 p.clk2 handler).map fun x =>
        (x.1, x.2.1, asMulti opt hash (Function.update g (Fin.ofNat n (hash p.name)) x.2.2)) := by
  unfold Multi.push
  rw [asMulti_pos, bind_ok', asMulti_shard, bind_ok',
    push_opt (asMulti opt hash g).opt opt rfl]
  cases (g (Fin.ofNat n (hash p.name))).push env opt p.name p.v p.clk p.rand p.clk1 p.clk2 handler with
  | error e => rfl
  | ok x =>
    simp only [bind_ok', Except.map, asMulti, ofFn_update]

theorem asMulti_del [NeZero n] (g : Fin n → AggMap) (name : Name) :
    (asMulti opt hash g).del name = .ok (((g (Fin.ofNat n (hash name))).del name).1,
      asMulti opt hash (Function.update g (Fin.ofNat n (hash name)) ((g (Fin.ofNat n (hash name))).del name).2)) := by
  unfold Multi.del
  rw [asMulti_pos, bind_ok', asMulti_shard, bind_ok']
  simp only [asMulti, ofFn_update]

theorem run_multiPush [NeZero n] (handler : Bool) (ps : List PushArg) : ∀ g : Fin n → AggMap,
    (runSecs env opt hash g (ps.map fun p => .push p handler)).map (fun x => (x.1.flatMap MuRes.out, asMulti opt hash x.2)) =
      multiPush env handler ps (asMulti opt hash g) ∧
    ∀ x, runSecs env opt hash g (ps.map fun p => .push p handler) = .ok x → (x.1.map MuRes.names).sum = 0 ∧
      (x.1.map MuRes.samples).sum = 0 := by
  induction ps with
  | nil => intro g; exact ⟨rfl, fun x h => by cases h; simp⟩
  | cons p ps ih =>
    intro g
    simp only [List.map_cons, runSecs, multiPush, asMulti_push, MuSec.pos, AggMap.sec]
    cases hp : (g (Fin.ofNat n (hash p.name))).push env opt p.name p.v p.clk p.rand p.clk1 p.clk2 handler with
    | error e => exact ⟨rfl, fun x h => by cases h⟩
    | ok x =>
      obtain ⟨ok, l, s⟩ := x
      simp only [bind_ok', Except.map]
      obtain ⟨i1, i2⟩ := ih (Function.update g (Fin.ofNat n (hash p.name)) s)
      rw [← i1]
      cases hr : runSecs env opt hash (Function.update g (Fin.ofNat n (hash p.name)) s) (ps.map fun p => .push p handler) with
      | error e => exact ⟨rfl, fun x h => by cases h⟩
      | ok y =>
        obtain ⟨rs, g'⟩ := y
        refine ⟨rfl, fun x h => ?_⟩
        cases h
        have := i2 _ hr
        simpa using this

theorem run_pushout [NeZero n] (force handler : Bool) (ord : IterOrder) (is : List (Fin n)) : ∀ g : Fin n → AggMap, is.Nodup →
    match runSecs env opt hash g (is.map fun i => .pushout i force handler ord) with
    | .error e => popShards env force handler ord (is.map g) = .error e
    | .ok (rs, g') => popShards env force handler ord (is.map g) = .ok (rs.flatMap MuRes.out, is.map g') ∧
        (∀ i, i ∉ is → g' i = g i) ∧ rs.flatMap MuRes.flag = [] ∧ (rs.map MuRes.names).sum = 0 ∧ (rs.map MuRes.samples).sum = 0 := by
  induction is with
  | nil => intro g _; exact ⟨rfl, fun _ _ => rfl, rfl, rfl, rfl⟩
  | cons i is ih =>
    intro g hnd
    obtain ⟨hi, hnd⟩ := List.nodup_cons.1 hnd
    simp only [List.map_cons, runSecs, popShards, MuSec.pos, AggMap.sec]
    cases hp : (g i).popAll env force handler ord with
    | error e => rfl
    | ok x =>
      obtain ⟨l, s⟩ := x
      have := ih (Function.update g i s) hnd
      have hmap : is.map (Function.update g i s) = is.map g := by
        apply List.map_congr_left
        intro j hj
        rw [Function.update_of_ne]
        rintro rfl
        exact hi hj
      rw [hmap] at this
      simp only [bind_ok']
      cases hr : runSecs env opt hash (Function.update g i s) (is.map fun i => .pushout i force handler ord) with
      | error e =>
        rw [hr] at this
        simp only at this
        rw [this]
        rfl
      | ok y =>
        obtain ⟨rs, g'⟩ := y
        rw [hr] at this
        obtain ⟨k1, k2, k3, k4, k5⟩ := this
        simp only [bind_ok', k1]
        refine ⟨?_, ?_, ?_, ?_, ?_⟩
        · rw [k2 i hi, Function.update_self]; rfl
        · intro j hj
          rw [List.mem_cons, not_or] at hj
          rw [k2 j hj.2, Function.update_of_ne hj.1]
        · simp [k3]
        · simp [k4]
        · simp [k5]

theorem run_size [NeZero n] (is : List (Fin n)) : ∀ g : Fin n → AggMap,
    ∃ rs, runSecs env opt hash g (is.map fun i => .size i) = .ok (rs, g) ∧ rs.flatMap MuRes.flag = [] ∧
      rs.flatMap MuRes.out = [] ∧ (rs.map MuRes.names).sum = ((is.map g).map List.length).sum ∧
      (rs.map MuRes.samples).sum = ((is.map g).map fun s => (s.map fun p => p.2.dataSize).sum).sum := by
  induction is with
  | nil => intro g; exact ⟨[], rfl, rfl, rfl, rfl, rfl⟩
  | cons i is ih =>
    intro g
    obtain ⟨rs, h1, h2, h3, h4, h5⟩ := ih g
    refine ⟨_, by simp only [List.map_cons, runSecs, MuSec.pos, AggMap.sec, bind_ok', Function.update_eq_self, h1]; rfl, ?_, ?_, ?_, ?_⟩
    · simp [h2]
    · simp [h3]
    · simp only [List.map_cons, List.sum_cons, h4]
    · simp only [List.map_cons, List.sum_cons, h5]

/-- The sections of a call, made one after the other, are the call. -/
theorem run_call [NeZero n] (g : Fin n → AggMap) (c : MuCall) :
    (runSecs env opt hash g (c.plan n)).map (fun x => (c.put x.1, asMulti opt hash x.2)) = (asMulti opt hash g).call env c := by
  cases c with
  | push p handler =>
    simp only [MuCall.plan, runSecs, Multi.call, asMulti_push, AggMap.sec, MuSec.pos]
    cases (g (Fin.ofNat n (hash p.name))).push env opt p.name p.v p.clk p.rand p.clk1 p.clk2 handler with
    | error e => rfl
    | ok x => simp [bind_ok', Except.map, MuCall.put]
  | multiPush ps handler =>
    obtain ⟨h1, h2⟩ := run_multiPush (env := env) (opt := opt) (hash := hash) handler ps g
    simp only [MuCall.plan, Multi.call, ← h1]
    cases hr : runSecs env opt hash g (ps.map fun p => .push p handler) with
    | error e => rfl
    | ok x => simp [bind_ok', Except.map, MuCall.put, h2 x hr]
  | del name =>
    simp only [MuCall.plan, runSecs, Multi.call, asMulti_del, AggMap.sec, MuSec.pos, bind_ok', Except.map, MuCall.put]
    simp
  | pushout force handler ord =>
    have := run_pushout (env := env) (opt := opt) (hash := hash) force handler ord (List.finRange n) g (List.nodup_finRange n)
    simp only [MuCall.plan, Multi.call, Multi.popAll]
    have hsh : (asMulti opt hash g).shards = (List.finRange n).map g := List.ofFn_eq_map
    rw [hsh]
    cases hr : runSecs env opt hash g ((List.finRange n).map fun i => .pushout i force handler ord) with
    | error e =>
      rw [hr] at this
      simp only at this
      rw [this]
      rfl
    | ok x =>
      rw [hr] at this
      obtain ⟨k1, -, k3, k4, k5⟩ := this
      rw [k1]
      simp only [bind_ok', Except.map, MuCall.put, k3, k4, k5, asMulti, List.ofFn_eq_map]
  | size =>
    obtain ⟨rs, h1, h2, h3, h4, h5⟩ := run_size (env := env) (opt := opt) (hash := hash) (List.finRange n) g
    simp only [MuCall.plan, h1, Multi.call, Except.map, MuCall.put, h2, h3, h4, h5, Multi.size]
    simp only [asMulti, List.ofFn_eq_map]

/-! ### One shard is a `multi_aggregator` with one shard -/

/-- The object with the one shard `s`. -/
def oneShard (opt : MultiOpts) (s : AggMap) : Multi := { opt := { opt with hashSize := 1 }, hash := fun _ => 0, shards := [s] }

/-- A section of a shard as an operation on it. -/
def MuSec.op : MuSec n → List MOp
  | .push p handler => [.push p handler]
  | .del name => [.del name]
  | .pushout _ force handler ord => [.pushout force handler ord]
  | .size _ => []

/-- The answer of a section about a name. -/
def MuSec.answer (r : MuRes) : MuSec n → List (Name × Bool)
  | .push p _ => r.flag.map fun b => (p.name, b)
  | .del name => r.flag.map fun b => (name, b)
  | _ => []

theorem one_sec (s : AggMap) (sec : MuSec n) (dl : List PushReq) (an : List (Name × Bool)) :
    mexecAll env { m := oneShard opt s, delivered := dl, answers := an } sec.op =
      (s.sec env opt sec).map fun x => { m := oneShard opt x.2, delivered := dl ++ x.1.out, answers := an ++ sec.answer x.1 } := by
  cases sec with
  | push p handler =>
    simp only [MuSec.op, mexecAll, List.foldlM_cons, List.foldlM_nil, mexec, Multi.push, getPos, shard, oneShard]
    simp only [Nat.one_ne_zero, if_false, bind_ok', Nat.mod_one, List.getElem?_cons_zero, AggMap.sec,
      push_opt { opt with hashSize := 1 } opt rfl]
    cases s.push env opt p.name p.v p.clk p.rand p.clk1 p.clk2 handler with
    | error e => rfl
    | ok x => simp [bind_ok', Except.map, MuSec.answer]
  | del name =>
    simp only [MuSec.op, mexecAll, List.foldlM_cons, List.foldlM_nil, mexec, Multi.del, getPos, shard, oneShard]
    simp only [Nat.one_ne_zero, if_false, bind_ok', Nat.mod_one, List.getElem?_cons_zero, AggMap.sec]
    simp [Except.map, MuSec.answer]; rfl
  | pushout i force handler ord =>
    simp only [MuSec.op, mexecAll, List.foldlM_cons, List.foldlM_nil, mexec, Multi.popAll, popShards, oneShard, AggMap.sec]
    cases s.popAll env force handler ord with
    | error e => rfl
    | ok x => simp [bind_ok', Except.map, MuSec.answer]
  | size i => simp [MuSec.op, mexecAll, AggMap.sec, Except.map, MuSec.answer]; rfl

theorem one_inv {s : AggMap} (h : (s.map Prod.fst).Nodup) : MInv (oneShard opt s) := by
  refine ⟨rfl, ?_, ?_⟩
  · intro t ht
    simp only [oneShard, List.mem_singleton] at ht
    rwa [ht]
  · intro i t hi k _
    have := (List.getElem?_eq_some_iff.1 hi).1
    simp only [oneShard, List.length_singleton] at this ⊢
    omega

theorem one_find (s : AggMap) (name : Name) : (oneShard opt s).find name = s.lookup name := by
  simp only [Multi.find, oneShard, List.findSome?_cons, List.findSome?_nil]
  cases s.lookup name <;> rfl

/-! ### Executions of sections -/

/-- What a section is for one name. -/
def MuSec.forName [NeZero n] (hash : Name → Nat) (name : Name) : MuSec n → List NOp
  | .push p _ => if p.name = name then [.push p.v p.clk p.rand p.clk1 p.clk2 true] else []
  | .del k => if k = name then [.del] else []
  | .pushout i force _ _ => if Fin.ofNat n (hash name) = i then [.pop force] else []
  | .size _ => []

/-- Values in `[m, M]`, clock readings not negative, a handler. -/
def MuSec.fine (m M : Int) (sec : MuSec n) : Prop := ∀ op ∈ sec.op, op.fine m M

/-- The shape of the shards. -/
def ShInv [NeZero n] (env : Env) (opt : AggregatorOpts) (hash : Name → Nat) (m M : Int) (g : Fin n → AggMap) : Prop :=
  ∀ k, ((g k).map Prod.fst).Nodup ∧ (∀ name ∈ (g k).map Prod.fst, Fin.ofNat n (hash name) = k) ∧ AggMap.TameMap env opt m M (g k)

/-- A section of the shard of the name, or of another shard. -/
theorem sec_agrees [NeZero n] {m M : Int} {g : Fin n → AggMap} (hs : 0 < opt.step) (B : Reducer.Bounds env m M)
    (hi : ShInv env opt.toAggregatorOpts hash m M g) (sec : MuSec n) (hf : sec.fine m M) :
    ∃ r s', (g (sec.pos hash)).sec env opt sec = .ok (r, s') ∧
      ShInv env opt.toAggregatorOpts hash m M (Function.update g (sec.pos hash) s') ∧
      ∀ name dl an no, Agrees name ((g (Fin.ofNat n (hash name))).lookup name) dl an no →
        ∃ no', nexecAll env opt.toAggregatorOpts no (sec.forName hash name) = .ok no' ∧
          Agrees name ((Function.update g (sec.pos hash) s' (Fin.ofNat n (hash name))).lookup name) (dl ++ r.out)
            (an ++ sec.answer r) no' := by
  obtain ⟨hn, hh, ht⟩ := hi (sec.pos hash)
  have hinv := one_inv (opt := opt) hn
  have htm : TameM env opt.toAggregatorOpts m M (oneShard opt (g (sec.pos hash))) := by
    intro name a ha
    rw [one_find] at ha
    exact ht name a ha
  -- the section runs
  have hrun : ∃ r s', (g (sec.pos hash)).sec env opt sec = .ok (r, s') := by
    have := mexecAll_total (env := env) B sec.op (o := { m := oneShard opt (g (sec.pos hash)) }) hs Nat.one_pos hinv htm hf
    obtain ⟨o, ho⟩ := this
    rw [one_sec] at ho
    cases hx : (g (sec.pos hash)).sec env opt sec with
    | error e => rw [hx] at ho; cases ho
    | ok x => exact ⟨x.1, x.2, rfl⟩
  obtain ⟨r, s', hsec⟩ := hrun
  have hone : ∀ dl an, mexecAll env { m := oneShard opt (g (sec.pos hash)), delivered := dl, answers := an } sec.op =
      .ok { m := oneShard opt s', delivered := dl ++ r.out, answers := an ++ sec.answer r } := by
    intro dl an
    rw [one_sec, hsec]
    rfl
  -- the shape
  have hkeys : ∀ k ∈ s'.map Prod.fst, Fin.ofNat n (hash k) = sec.pos hash := by
    cases sec with
    | push p handler =>
      simp only [AggMap.sec] at hsec
      obtain ⟨⟨ok, l, s1⟩, h1, h2⟩ := bind_inv hsec
      cases h2
      obtain ⟨a, h3, h1⟩ := bind_inv h1
      obtain ⟨⟨ok', out, a'⟩, h4, h1⟩ := bind_inv h1
      simp only at h1
      split at h1
      · cases h1
      cases h1
      intro k hk
      rcases (AggMap.mem_keys_put _ _ _ _).1 hk with rfl | hk
      · rfl
      · exact hh k hk
    | del name =>
      cases hsec
      exact fun k hk => hh k ((AggMap.del_keys _ _).subset hk)
    | pushout i force handler ord =>
      simp only [AggMap.sec] at hsec
      obtain ⟨⟨l, s1⟩, h1, h2⟩ := bind_inv hsec
      cases h2
      have := (AggMap.popAll_spec hn h1).1
      rw [this]
      exact hh
    | size i => cases hsec; exact hh
  have hmin : MInv (oneShard opt s') := (mexecAll_agrees (name := []) sec.op (o := { m := oneShard opt (g (sec.pos hash)) })
    (no := { life := ((g (sec.pos hash)).lookup []).map fun a => { a := a } }) hinv Nat.one_pos (hone [] [])
    ⟨by rw [one_find]; cases (g (sec.pos hash)).lookup [] <;> rfl, rfl, rfl⟩).1
  have hnd : (s'.map Prod.fst).Nodup := hmin.nodup s' (by simp [oneShard])
  have htame : AggMap.TameMap env opt.toAggregatorOpts m M s' := by
    have htot : ∀ (ops : List MOp) (o o' : MObs), o.m.opt.toAggregatorOpts = opt.toAggregatorOpts → 0 < o.m.opt.hashSize → MInv o.m →
        TameM env opt.toAggregatorOpts m M o.m → (∀ op ∈ ops, op.fine m M) → mexecAll env o ops = .ok o' →
        TameM env opt.toAggregatorOpts m M o'.m := by
      intro ops
      induction ops with
      | nil => intro o o' _ _ _ ht _ h; cases h; exact ht
      | cons op ops ih =>
        intro o o' ho hz hi ht hf h
        obtain ⟨o1, e, hi1, ho1, ht1⟩ := mexec_total (env := env) (by rw [ho]; exact hs) hz B hi (by rw [ho]; exact ht) (hf op (by simp))
        unfold mexecAll at h
        rw [List.foldlM_cons, e] at h
        exact ih o1 o' (by rw [ho1, ho]) (by rw [ho1]; exact hz) hi1 (by rw [ho] at ht1; exact ht1)
          (fun x hx => hf x (by simp [hx])) h
    have := htot sec.op _ _ rfl Nat.one_pos hinv htm hf (hone [] [])
    intro name a ha
    apply this name a
    rw [one_find]
    exact ha
  refine ⟨r, s', hsec, ?_, ?_⟩
  · intro k
    by_cases hk : k = sec.pos hash
    · subst hk
      rw [Function.update_self]
      exact ⟨hnd, hkeys, htame⟩
    · rw [Function.update_of_ne hk]
      exact hi k
  · intro name dl an no ha
    by_cases hk : Fin.ofNat n (hash name) = sec.pos hash
    · rw [hk] at ha ⊢
      rw [Function.update_self]
      obtain ⟨_, _, no', e, a⟩ := mexecAll_agrees (name := name) (no := no) sec.op
        (o := { m := oneShard opt (g (sec.pos hash)), delivered := dl, answers := an }) hinv Nat.one_pos (hone dl an)
        (by simp only [one_find]; exact ha)
      refine ⟨no', ?_, by simp only [one_find] at a; exact a⟩
      have hforName : Multi.forName name sec.op = sec.forName hash name := by
        cases sec with
        | push p handler => simp [Multi.forName, MuSec.op, MOp.forName, MuSec.forName]
        | del k => simp [Multi.forName, MuSec.op, MOp.forName, MuSec.forName]
        | pushout i force handler ord =>
          have hk : Fin.ofNat n (hash name) = i := hk
          simp only [Multi.forName, MuSec.op, MuSec.forName, if_pos hk]
          rfl
        | size i => rfl
      rw [← hforName]
      exact e
    · rw [Function.update_of_ne hk]
      have hnot : name ∉ (g (sec.pos hash)).map Prod.fst := fun h => hk (hh name h)
      have hfn : sec.forName hash name = [] := by
        cases sec with
        | push p handler =>
          simp only [MuSec.forName]
          rw [if_neg]
          rintro rfl
          exact hk rfl
        | del k =>
          simp only [MuSec.forName]
          rw [if_neg]
          rintro rfl
          exact hk rfl
        | pushout i force handler ord =>
          simp only [MuSec.forName]
          exact if_neg hk
        | size i => rfl
      have hout : about name r.out = [] ∧ about name (sec.answer r) = [] := by
        cases sec with
        | push p handler =>
          have hne : p.name ≠ name := by
            rintro rfl
            exact hk rfl
          simp only [AggMap.sec] at hsec
          obtain ⟨⟨ok, l, s1⟩, h1, h2⟩ := bind_inv hsec
          cases h2
          obtain ⟨a, h3, h1⟩ := bind_inv h1
          obtain ⟨⟨ok', out, a'⟩, h4, h1⟩ := bind_inv h1
          simp only at h1
          split at h1
          · cases h1
          cases h1
          exact ⟨by rw [about_map', if_neg hne], by simp [MuSec.answer, about, hne]⟩
        | del k =>
          have hne : k ≠ name := by
            rintro rfl
            exact hk rfl
          cases hsec
          exact ⟨rfl, by simp [MuSec.answer, about, hne]⟩
        | pushout i force handler ord =>
          simp only [AggMap.sec] at hsec
          obtain ⟨⟨l, s1⟩, h1, h2⟩ := bind_inv hsec
          cases h2
          exact ⟨(((AggMap.popAll_spec hn h1).2 name).1 (AggMap.lookup_none.2 hnot)).2, rfl⟩
        | size i => cases hsec; exact ⟨rfl, rfl⟩
      refine ⟨no, by rw [hfn]; rfl, ha.agg, ?_, ?_⟩
      · rw [about_append, hout.1, List.append_nil, ha.delivered]
      · rw [about_append, hout.2, List.append_nil, ha.answers]

end Wrtstat
