/-
C173: the books of a multi aggregator whose handlers throw.
-/
import Verif.Props.ThrowBooks
import Verif.Props.ThrowingOut
import Verif.Props.MultiFull

namespace Wrtstat

set_option autoImplicit false

open Multi Single
open Aggregator

namespace Multi

/-! ### Histories with exceptions -/

/-- The number of requests of a `multi_push` that are pushed before one on which the handler throws. -/
def wholeX (env : Env) (thr : Thrower) : List PushReq → List PushArg → Multi → Nat
  | _, [], _ => 0
  | past, p :: ps, m =>
    match m.pushX env p fun r => thr (past ++ [r]) with
    | .ok (some _, l, m) => wholeX env thr (past ++ l) ps m + 1
    | _ => 0

/-- What is known of a call: whether it threw, the names of which the handler was given requests and, for a `multi_push` that threw, how many of its
requests were pushed before. -/
structure Outcome where
  threw : Bool
  given : List Name := []
  before : Nat := 0
deriving DecidableEq

/-- A call with a handler that may throw.  A request given to a handler that throws counts as handed over; a call that threw answers nothing. -/
def mexecX (env : Env) (o : MObs) (thr : Thrower) : MOp → M (MObs × Outcome)
  | .push p _ => do
    let (ok, l, m) ← o.m.pushX env p fun r => thr [r]
    .ok ({ m := m, delivered := o.delivered ++ l, answers := o.answers ++ ok.toList.map fun b => (p.name, b) },
      { threw := ok.isNone, given := l.map Prod.fst })
  | .multiPush ps _ => do
    let n := wholeX env thr [] ps o.m
    let (t, l, m) ← multiPushX env thr [] ps o.m
    .ok ({ o with m := m, delivered := o.delivered ++ l }, { threw := t, given := l.map Prod.fst, before := n })
  | .del name => do
    let (b, m) ← o.m.del name
    .ok ({ o with m := m, answers := o.answers ++ [(name, b)] }, { threw := false })
  | .pushout force _ ord => do
    let (l, t, m) ← o.m.popAllX env force thr ord
    .ok ({ o with m := m, delivered := o.delivered ++ l }, { threw := t, given := l.map Prod.fst })

/-- A client that goes on after exceptions and keeps in mind what is known of its calls.  Every call has its own handler. -/
def mkeepX (env : Env) : List (MOp × Thrower) → MObs → M (MObs × List (MOp × Outcome))
  | [], o => .ok (o, [])
  | (op, thr) :: ops, o => do
    let (o, r) ← mexecX env o thr op
    let (o, l) ← mkeepX env ops o
    .ok (o, (op, r) :: l)

/-! ### The books -/

/-- The page is torn out: it is entered and empty, and still open. -/
def Account.tear (A : Account) : Account :=
  match A.page with
  | some t => { A with on := [], made := A.made ++ [⟨t, A.on, false⟩] }
  | none => A

/-- The books of a name after a call. -/
def MOp.enterX (opt : AggregatorOpts) (name : Name) (A : Account) (c : MOp × Outcome) : Account :=
  if c.2.threw = false then c.1.enter opt name A
  else match c.1 with
    | .push p _ => if p.name = name then A.tear else A
    | .multiPush ps _ =>
      let A := ((ps.take c.2.before).filter fun p => p.name = name).foldl (fun A p => A.push opt p false) A
      if (ps[c.2.before]?).any fun p => p.name = name then A.tear else A
    | .del _ => A
    | .pushout _ _ _ => if name ∈ c.2.given then c.1.enter opt name A else A

/-- The books of a name after a history. -/
def accountX (opt : AggregatorOpts) (name : Name) (ops : List (MOp × Outcome)) : Account := ops.foldl (MOp.enterX opt name) {}

/-! ### Agreement -/

/-- The books of a name agree with the object. -/
structure Kept (env : Env) (opt : AggregatorOpts) (name : Name) (A : Account) (m : Multi) (del : List PushReq) (ans : List (Name × Bool)) : Prop where
  made : List.Forall₂ (Entry.Says env opt) A.made (about name del)
  said : about name ans = A.said
  life : match m.find name with
    | none => A.page = none ∧ A.on = []
    | some a => ∃ t, A.page = some t ∧ Shows env opt a t A.on

end Multi

namespace Single

/-- A push that throws. -/
theorem shows_pushX {env : Env} {opt : AggregatorOpts} {a a' : Aggregator} {t : Int} {on : List ReducedData} (hs : 0 < opt.step)
    (H : Shows env opt a t on) {v : ReducedData} {clk1 clk2 : Int} {thr : AggData → Bool} {out : List AggData}
    (h : a.pushX env clk1 clk2 v.ts (.reduced v) thr = .ok (none, out, a')) :
    Shows env opt a' t [] ∧ List.Forall₂ (Entry.Says env opt) [⟨t, on, false⟩] (out.map AggData.asReduced) := by
  obtain ⟨ok, a2, e1, -, -, -, e3⟩ := Aggregator.pushX_spec h
  obtain ⟨⟨d, rfl, -⟩, -⟩ := e3 rfl
  obtain ⟨made, k1, k2, -⟩ := shows_push (A := { page := some t, on := on }) (seen := false) hs H e1
  have hm : made = [⟨t, on, false⟩] := by
    simp only [Account.note, List.nil_append] at k1
    have hl := k2.length_eq
    rw [← k1] at hl ⊢
    split_ifs at hl ⊢ with c
    · rfl
    · simp at hl
  refine ⟨?_, hm ▸ k2⟩
  unfold Aggregator.pushX at h
  rw [if_neg (by simp [H.clean.2.2])] at h
  obtain ⟨T, h1, h⟩ := bind_inv h
  obtain ⟨T', h2, h⟩ := bind_inv h
  obtain ⟨⟨th, out1, next, r⟩, h3, h⟩ := bind_inv h
  obtain ⟨l, f1, f2, f3, f4⟩ := Separator.sepLoopX_spec h3
  simp only at h
  cases th with
  | false =>
    rw [if_neg (by simp)] at h
    split_ifs at h <;> cases h
  | true =>
    rw [if_pos rfl] at h
    cases h
    obtain ⟨-, -, hn, rfl, -⟩ := f4 rfl
    refine ⟨H.clean, H.out, ?_⟩
    exact (page_torn hs H.page h2 f1 hn).congr rfl rfl

/-- A pop. -/
theorem shows_pop {env : Env} {opt : AggregatorOpts} {a a' : Aggregator} {t : Int} {on : List ReducedData} {force : Bool} {d : Option AggData}
    (H : Shows env opt a t on) (h : AggMap.popOne env force a = .ok (d, a')) :
    (force = true ∧ on ≠ [] ∧ (∃ x, d = some x ∧ Entry.Says env opt ⟨t, on, true⟩ x) ∧ Shows env opt a' t []) ∨
      (¬ (force = true ∧ on ≠ []) ∧ d = none ∧ Shows env opt a' t on) := by
  cases force with
  | false =>
    have hpop : a.pop = (none, a) := by
      have : a.agList = [] := H.clean.1
      simp only [Aggregator.pop, this]
    have h : (.ok a.pop : M _) = .ok (d, a') := h
    rw [hpop] at h
    cases h
    exact .inr ⟨by simp, rfl, H⟩
  | true =>
    have hf : a.forcePop env = .ok (d, a') := h
    obtain ⟨hF, P, o1, o2, o3, o4⟩ := page_force H.page H.out H.clean.2.1 hf
    have hcl : Clean a' := ⟨o4.trans H.clean.1, o2, o3.trans H.clean.2.2⟩
    by_cases hon : on = []
    · right
      rw [if_pos (by simp [pageOf, hon])] at hF
      have hx : d = none := by
        cases d with
        | none => rfl
        | some x => cases hF
      exact ⟨by simp [hon], hx, hcl, o1.trans H.out, P.congr rfl (by simp [pageOf, hon])⟩
    · left
      rw [if_neg (by simpa [pageOf] using hon)] at hF
      refine ⟨rfl, hon, ?_, hcl, o1.trans H.out, P.congr rfl rfl⟩
      cases d with
      | none => cases hF
      | some x =>
        cases hF with
        | cons k1 k2 => exact ⟨x, rfl, _, k1.2, k1.1, rfl⟩

end Single

namespace Multi

variable {env : Env}

/-- Name by name. -/
theorem pushX_find {m m' : Multi} (hi : MInv m) {p : PushArg} {thr : PushReq → Bool} {res : Option Bool} {l : List PushReq}
    (h : m.pushX env p thr = .ok (res, l, m')) :
    MInv m' ∧ m'.opt = m.opt ∧ ∃ (a : Aggregator) (out : List AggData) (a' : Aggregator),
      AggMap.orNew m.opt (m.find p.name) p.clk p.rand p.v.ts = .ok a ∧
      a.pushX env p.clk1 p.clk2 p.v.ts (.reduced p.v) (fun d => thr (p.name, d.asReduced)) = .ok (res, out, a') ∧
      l = out.map (fun d => (p.name, d.asReduced)) ∧
      ∀ name, m'.find name = if name = p.name then some a' else m.find name := by
  obtain ⟨pos, h1, h⟩ := bind_inv h
  obtain ⟨s, h2, h⟩ := bind_inv h
  obtain ⟨⟨ok', l', s'⟩, h3, h⟩ := bind_inv h
  cases h
  unfold getPos at h1
  by_cases hz : m.opt.hashSize = 0
  · rw [if_pos hz] at h1; cases h1
  rw [if_neg hz] at h1
  simp only [Except.ok.injEq] at h1
  unfold shard at h2
  cases hs : m.shards[pos]? with
  | none => rw [hs] at h2; cases h2
  | some t =>
    rw [hs] at h2
    cases h2
    obtain ⟨a, e1, h3⟩ := bind_inv h3
    obtain ⟨⟨ok'', out, a'⟩, e2, h3⟩ := bind_inv h3
    cases h3
    have hpos : pos < m.shards.length := (List.getElem?_eq_some_iff.1 hs).1
    have hset : (m.shards.set pos (s.put p.name a'))[pos]? = some (s.put p.name a') := by
      rw [List.getElem?_set_self hpos]
    have hi' : MInv { m with shards := m.shards.set pos (s.put p.name a') } := by
      refine ⟨by simp [hi.len], ?_, ?_⟩
      · intro t ht
        rcases List.mem_or_eq_of_mem_set ht with ht | rfl
        · exact hi.nodup t ht
        · exact AggMap.nodup_put _ _ (hi.nodup s (List.mem_of_getElem? hs))
      · intro i t hit n hn
        simp only [List.getElem?_set] at hit
        by_cases hip : pos = i
        · subst hip
          simp only [if_true, hpos, Option.some.injEq] at hit
          subst hit
          rw [AggMap.mem_keys_put] at hn
          rcases hn with rfl | hn
          · exact h1
          · exact hi.home pos s hs n hn
        · rw [if_neg hip] at hit
          exact hi.home i t hit n hn
    refine ⟨hi', rfl, a, out, a', ?_, e2, rfl, ?_⟩
    · rw [hi.find_eq h1.symm hs]
      exact e1
    · intro name
      obtain ⟨t, ht⟩ : ∃ t, m.shards[m.hash name % m.opt.hashSize]? = some t := by
        refine ⟨_, List.getElem?_eq_getElem ?_⟩
        rw [hi.len]
        exact Nat.mod_lt _ (Nat.pos_of_ne_zero hz)
      rw [hi.find_eq rfl ht]
      by_cases hpp : pos = m.hash name % m.opt.hashSize
      · subst hpp
        rw [hs] at ht
        cases ht
        rw [hi'.find_eq rfl hset, AggMap.lookup_put]
      · have hne : name ≠ p.name := by
          rintro rfl
          exact hpp h1.symm
        rw [if_neg hne]
        apply hi'.find_eq rfl
        simp only [List.getElem?_set, if_neg hpp]
        exact ht

theorem about_one_ne {α : Type} {name n : Name} (h : n ≠ name) (l : List α) : about name (l.map fun d => (n, d)) = [] := by
  simp [about, h]

theorem about_one_eq {α : Type} {name : Name} (l : List α) : about name (l.map fun d => (name, d)) = l := by
  simp [about, List.filter_eq_self.2, Function.comp_def]

/-- One push. -/
theorem kept_pushX {opt : AggregatorOpts} {m m' : Multi} (hs : 0 < opt.step) (ho : m.opt.toAggregatorOpts = opt) (hi : MInv m) {p : PushArg} {thr : PushReq → Bool} {res : Option Bool}
    {l : List PushReq} (h : m.pushX env p thr = .ok (res, l, m')) {name : Name} {A : Account} {del : List PushReq} {ans : List (Name × Bool)}
    (K : Kept env opt name A m del ans) (seen : Bool) :
    MInv m' ∧ m'.opt = m.opt ∧
    Kept env opt name (if p.name = name then (if res.isNone then A.tear else A.push opt p seen) else A) m' (del ++ l)
      (ans ++ if seen then res.toList.map fun b => (p.name, b) else []) := by
  obtain ⟨hi', ho', a, out, a', e1, e2, rfl, e3⟩ := pushX_find hi h
  refine ⟨hi', ho', ?_⟩
  obtain ⟨k1, k2, k3⟩ := K
  by_cases hn : p.name = name
  · subst hn
    rw [if_pos rfl]
    have hab : about p.name (out.map fun d => (p.name, d.asReduced)) = out.map AggData.asReduced := by
      rw [show (out.map fun d => (p.name, d.asReduced)) = (out.map AggData.asReduced).map fun d => (p.name, d) by simp]
      exact about_one_eq _
    have H : Shows env opt a (A.page.getD (firstPage opt p.clk p.rand p.v.ts)) A.on := by
      cases hl : m.find p.name with
      | some a0 =>
        rw [hl] at k3 e1
        cases e1
        obtain ⟨t, f1, f2⟩ := k3
        rw [f1]
        exact f2
      | none =>
        rw [hl] at k3 e1
        rw [k3.1, k3.2]
        have e1 : Aggregator.new m.opt.toAggregatorOpts p.clk p.rand p.v.ts = .ok a := e1
        rw [ho] at e1
        exact shows_new hs e1
    cases res with
    | none =>
      simp only [Option.isNone_none, if_true, Option.toList_none, List.map_nil, ite_self, List.append_nil]
      obtain ⟨j1, j2⟩ := shows_pushX hs H e2
      have hp : ∃ t, A.page = some t := by
        cases hl : m.find p.name with
        | some a0 =>
          rw [hl] at k3
          exact ⟨_, k3.choose_spec.1⟩
        | none =>
          rw [hl] at k3
          rw [k3.2] at j2 H
          exfalso
          obtain ⟨ok, a2, g1, -, -, -, g3⟩ := Aggregator.pushX_spec e2
          obtain ⟨⟨d, rfl, -⟩, -⟩ := g3 rfl
          obtain ⟨made, q1, q2, -⟩ := shows_push (A := { page := none, on := [] }) (seen := false) hs H g1
          simp only [Account.note, List.nil_append, ne_eq, not_true_eq_false, and_false, if_false] at q1
          rw [← q1] at q2
          cases q2
      obtain ⟨t, ht⟩ := hp
      rw [ht] at j1 j2
      simp only [Option.getD_some] at j1 j2
      refine ⟨?_, ?_, ?_⟩
      · rw [about_append, hab]
        simp only [Account.tear, ht]
        exact List.rel_append k1 j2
      · rw [k2]; simp only [Account.tear, ht]
      · rw [e3, if_pos rfl]
        simp only [Account.tear, ht]
        exact ⟨t, rfl, j1⟩
    | some b =>
      simp only [Option.isNone_some, Bool.false_eq_true, if_false, Option.toList_some, List.map_cons, List.map_nil]
      obtain ⟨ok, a2, g1, -, -, g2, -⟩ := Aggregator.pushX_spec e2
      obtain ⟨rfl, rfl⟩ := g2 b rfl
      obtain ⟨made, q1, q2, q3, t', q4, q5⟩ := shows_push (seen := seen) hs H g1
      refine ⟨?_, ?_, ?_⟩
      · rw [about_append, hab]
        exact q1 ▸ List.rel_append k1 q2
      · rw [about_append, k2]
        refine Eq.trans ?_ q3.symm
        cases seen <;> simp [about]
      · rw [e3, if_pos rfl]
        exact ⟨t', q4, q5⟩
  · rw [if_neg hn]
    refine ⟨?_, ?_, ?_⟩
    · rw [about_append, show (out.map fun d => (p.name, d.asReduced)) = (out.map AggData.asReduced).map fun d => (p.name, d) by simp,
        about_one_ne hn, List.append_nil]
      exact k1
    · rw [about_append, k2]
      cases seen
      · simp [about]
      · simp only [if_true]
        rw [about_one_ne hn, List.append_nil]
    · rw [e3, if_neg (fun e => hn e.symm)]
      exact k3

/-- A `multi_push`. -/
theorem kept_multiPushX {opt : AggregatorOpts} (hs : 0 < opt.step) {thr : Thrower} {name : Name} {ans : List (Name × Bool)} (ps : List PushArg) :
    ∀ {past : List PushReq} {m m' : Multi} {t : Bool} {l : List PushReq} {A : Account} {del : List PushReq}, MInv m → m.opt.toAggregatorOpts = opt →
    multiPushX env thr past ps m = .ok (t, l, m') → Kept env opt name A m del ans →
    MInv m' ∧ m'.opt = m.opt ∧ (t = false → Kept env opt name ((MOp.multiPush ps true).enter opt name A) m' (del ++ l) ans) ∧
    (t = true → wholeX env thr past ps m < ps.length ∧
      Kept env opt name (MOp.enterX opt name A (.multiPush ps true, { threw := true, before := wholeX env thr past ps m })) m' (del ++ l) ans) := by
  induction ps with
  | nil =>
    intro past m m' t l A del hi ho h K
    cases h
    exact ⟨hi, rfl, fun _ => by rw [List.append_nil]; exact K, fun h => by cases h⟩
  | cons p ps ih =>
    intro past m m' t l A del hi ho h K
    rw [multiPushX] at h
    obtain ⟨⟨res, l1, m1⟩, h1, h⟩ := bind_inv h
    obtain ⟨i1, o1, K1⟩ := kept_pushX hs ho hi h1 K false
    simp only [Bool.false_eq_true, if_false, List.append_nil] at K1 h
    cases res with
    | none =>
      rw [if_pos rfl] at h
      cases h
      refine ⟨i1, o1, fun h => (by cases h), fun _ => ?_⟩
      have hw : wholeX env thr past (p :: ps) m = 0 := by rw [wholeX, h1]
      rw [hw]
      refine ⟨by simp, ?_⟩
      simp only [MOp.enterX, Bool.true_eq_false, if_false, List.take_zero, List.filter_nil, List.foldl_nil, List.getElem?_cons_zero, Option.any_some,
        decide_eq_true_eq]
      simpa using K1
    | some b =>
      rw [if_neg (by simp)] at h
      obtain ⟨⟨t2, l2, m2⟩, h2, h⟩ := bind_inv h
      cases h
      obtain ⟨i2, o2, f, g⟩ := ih i1 (by rw [o1]; exact ho) h2 K1
      have hw : wholeX env thr past (p :: ps) m = wholeX env thr (past ++ l1) ps m1 + 1 := by rw [wholeX, h1]
      refine ⟨i2, o2.trans o1, fun ht => ?_, fun ht => ?_⟩
      · have := f ht
        rw [← List.append_assoc]
        simp only [MOp.enter, Option.isNone_some, Bool.false_eq_true, if_false, List.filter_cons] at this ⊢
        by_cases hn : p.name = name
        · simpa [hn] using this
        · simpa [hn] using this
      · obtain ⟨g1, g2⟩ := g ht
        rw [hw, ← List.append_assoc]
        refine ⟨by simp; exact g1, ?_⟩
        simp only [MOp.enterX, Bool.true_eq_false, if_false, Option.isNone_some, Bool.false_eq_true, List.take_succ_cons, List.filter_cons,
          List.getElem?_cons_succ] at g2 ⊢
        by_cases hn : p.name = name
        · simpa [hn] using g2
        · simpa [hn] using g2

theorem mem_given {name : Name} {l : List PushReq} : name ∈ l.map Prod.fst ↔ about name l ≠ [] := by
  simp only [about, ne_eq, List.map_eq_nil_iff, List.filter_eq_nil_iff, List.mem_map]
  constructor
  · rintro ⟨x, hx, rfl⟩ h
    exact h x hx (by simp)
  · intro h
    by_contra hc
    exact h fun x hx hn => hc ⟨x, hx, by simpa using hn⟩

/-- `pushout` and `force_pushout`. -/
theorem kept_popAllX {opt : AggregatorOpts} {m m' : Multi} (hi : MInv m) (hz : 0 < m.opt.hashSize) {force hd : Bool} {thr : Thrower} {ord : IterOrder}
    {l : List PushReq} {t : Bool} (h : m.popAllX env force thr ord = .ok (l, t, m')) {name : Name} {A : Account} {del : List PushReq}
    {ans : List (Name × Bool)} (K : Kept env opt name A m del ans) :
    MInv m' ∧ m'.opt = m.opt ∧
    Kept env opt name (MOp.enterX opt name A (.pushout force hd ord, { threw := t, given := l.map Prod.fst })) m' (del ++ l) ans := by
  obtain ⟨hi', ho', k⟩ := popAllX_spec hi hz h
  refine ⟨hi', ho', ?_⟩
  obtain ⟨kn, ks⟩ := k name
  obtain ⟨k1, k2, k3⟩ := K
  have e0 : MOp.enterX opt name A (.pushout force hd ord, { threw := t, given := l.map Prod.fst }) =
      if t = false ∨ about name l ≠ [] then (MOp.pushout force hd ord).enter opt name A else A := by
    simp only [MOp.enterX, mem_given]
    by_cases ht : t = false
    · rw [if_pos ht, if_pos (.inl ht)]
    · rw [if_neg ht]
      by_cases ha : about name l ≠ []
      · rw [if_pos ha, if_pos (.inr ha)]
      · rw [if_neg ha, if_neg (by tauto)]
  rw [e0]
  cases hf : m.find name with
  | none =>
    rw [hf] at k3
    obtain ⟨f1, f2⟩ := kn hf
    have : (if t = false ∨ about name l ≠ [] then (MOp.pushout force hd ord).enter opt name A else A) = A := by
      simp only [MOp.enter, k3.1, ite_self]
    rw [this]
    exact ⟨by rw [about_append, f2, List.append_nil]; exact k1, k2, by rw [f1]; exact k3⟩
  | some a =>
    rw [hf] at k3
    obtain ⟨b, hb, H⟩ := k3
    rcases ks a hf with ⟨f1, f2, f3⟩ | ⟨d, a', f1, f2, f3⟩
    · rw [if_neg (by simp [f1, f3])]
      exact ⟨by rw [about_append, f3, List.append_nil]; exact k1, k2, by rw [f2]; exact ⟨b, hb, H⟩⟩
    · rcases shows_pop H f1 with ⟨g1, g2, ⟨x, rfl, g3⟩, g4⟩ | ⟨g1, rfl, g4⟩
      · rw [if_pos (.inr (by simp [f3]))]
        simp only [MOp.enter, hb, g1, true_and, if_pos g2]
        exact ⟨by rw [about_append, f3]; exact List.rel_append k1 (.cons g3 .nil), k2, by rw [f2]; exact ⟨b, rfl, g4⟩⟩
      · have : (if t = false ∨ about name l ≠ [] then (MOp.pushout force hd ord).enter opt name A else A) = A := by
          simp only [MOp.enter, hb, if_neg g1, ite_self]
        rw [this]
        exact ⟨by rw [about_append, f3]; simpa using k1, k2, by rw [f2]; exact ⟨b, hb, g4⟩⟩

theorem multiPushX_inv {thr : Thrower} (ps : List PushArg) : ∀ {past : List PushReq} {m m' : Multi} {t : Bool} {l : List PushReq}, MInv m →
    multiPushX env thr past ps m = .ok (t, l, m') → MInv m' ∧ m'.opt = m.opt := by
  induction ps with
  | nil => intro past m m' t l hi h; cases h; exact ⟨hi, rfl⟩
  | cons p ps ih =>
    intro past m m' t l hi h
    rw [multiPushX] at h
    obtain ⟨⟨res, l1, m1⟩, h1, h⟩ := bind_inv h
    obtain ⟨i1, o1, -⟩ := pushX_find hi h1
    simp only at h
    split_ifs at h
    · cases h; exact ⟨i1, o1⟩
    · obtain ⟨⟨t2, l2, m2⟩, h2, h⟩ := bind_inv h
      cases h
      obtain ⟨i2, o2⟩ := ih i1 h2
      exact ⟨i2, o2.trans o1⟩

/-- The request that was being pushed is of the name given last. -/
theorem wholeX_last {thr : Thrower} (ps : List PushArg) : ∀ {past : List PushReq} {m m' : Multi} {l : List PushReq}, MInv m →
    multiPushX env thr past ps m = .ok (true, l, m') →
    ∃ p, ps[wholeX env thr past ps m]? = some p ∧ (l.map Prod.fst).getLast? = some p.name := by
  induction ps with
  | nil => intro past m m' l hi h; cases h
  | cons p ps ih =>
    intro past m m' l hi h
    rw [multiPushX] at h
    obtain ⟨⟨res, l1, m1⟩, h1, h⟩ := bind_inv h
    obtain ⟨i1, o1, a, out, a', -, e2, rfl, -⟩ := pushX_find hi h1
    simp only at h
    cases res with
    | none =>
      rw [if_pos rfl] at h
      cases h
      obtain ⟨_, _, -, -, -, -, g3⟩ := Aggregator.pushX_spec e2
      obtain ⟨⟨d, rfl, -⟩, -⟩ := g3 rfl
      exact ⟨p, by rw [wholeX, h1]; rfl, rfl⟩
    | some b =>
      rw [if_neg (by simp)] at h
      obtain ⟨⟨t2, l2, m2⟩, h2, h⟩ := bind_inv h
      cases h
      obtain ⟨q, k1, k2⟩ := ih i1 h2
      refine ⟨q, by rw [wholeX, h1]; exact k1, ?_⟩
      rw [List.map_append, List.getLast?_append, k2]
      rfl

/-- A call. -/
theorem kept_mexecX {opt : AggregatorOpts} (hs : 0 < opt.step) {thr : Thrower} {o o' : MObs} {op : MOp} {r : Outcome} (hi : MInv o.m)
    (hz : 0 < o.m.opt.hashSize) (ho : o.m.opt.toAggregatorOpts = opt) (h : mexecX env o thr op = .ok (o', r)) :
    MInv o'.m ∧ o'.m.opt = o.m.opt ∧ ∀ {name : Name} {A : Account}, Kept env opt name A o.m o.delivered o.answers →
      Kept env opt name (MOp.enterX opt name A (op, r)) o'.m o'.delivered o'.answers := by
  cases op with
  | push p hd =>
    obtain ⟨⟨res, l, m'⟩, h1, h⟩ := bind_inv h
    cases h
    obtain ⟨i1, o1, -⟩ := pushX_find hi h1
    refine ⟨i1, o1, fun {name A} K => ?_⟩
    obtain ⟨-, -, K1⟩ := kept_pushX hs ho hi h1 K true
    simp only [if_true] at K1
    cases res with
    | none => simpa [MOp.enterX] using K1
    | some b => simpa [MOp.enterX, MOp.enter] using K1
  | multiPush ps hd =>
    obtain ⟨⟨t, l, m'⟩, h1, h⟩ := bind_inv h
    cases h
    refine ⟨?_, ?_, fun {name A} K => ?_⟩
    · exact (multiPushX_inv ps hi h1).1
    · exact (multiPushX_inv ps hi h1).2
    · obtain ⟨-, -, f, g⟩ := kept_multiPushX hs ps hi ho h1 K
      cases t with
      | false => exact f rfl
      | true => exact (g rfl).2
  | del n =>
    obtain ⟨⟨b, m'⟩, h1, h⟩ := bind_inv h
    cases h
    obtain ⟨i1, o1, rfl, e⟩ := del_spec hi h1
    refine ⟨i1, o1, fun {name A} K => ?_⟩
    obtain ⟨k1, k2, k3⟩ := K
    simp only [MOp.enterX, if_true, MOp.enter]
    by_cases hn : n = name
    · subst hn
      rw [if_pos rfl]
      refine ⟨k1, ?_, by rw [e, if_pos rfl]; exact ⟨rfl, rfl⟩⟩
      rw [about_append, k2]
      simp only [about, List.filter_cons, decide_true, if_true, List.filter_nil, List.map_cons, List.map_nil]
      congr 2
      cases hf : o.m.find n with
      | none => rw [hf] at k3; rw [k3.1]; rfl
      | some a => rw [hf] at k3; obtain ⟨t, e, -⟩ := k3; rw [e]; rfl
    · rw [if_neg hn]
      refine ⟨k1, ?_, by rw [e, if_neg (fun h => hn h.symm)]; exact k3⟩
      rw [about_append, k2]
      simp [about, hn]
  | pushout force hd ord =>
    obtain ⟨⟨l, t, m'⟩, h1, h⟩ := bind_inv h
    cases h
    obtain ⟨i1, o1, -⟩ := popAllX_spec hi hz h1
    exact ⟨i1, o1, fun {name A} K => (kept_popAllX hi hz h1 K).2.2⟩

theorem kept_mkeepX {opt : AggregatorOpts} (hs : 0 < opt.step) (ops : List (MOp × Thrower)) :
    ∀ {o o' : MObs} {l : List (MOp × Outcome)}, MInv o.m → 0 < o.m.opt.hashSize → o.m.opt.toAggregatorOpts = opt → mkeepX env ops o = .ok (o', l) →
    l.map Prod.fst = ops.map Prod.fst ∧ MInv o'.m ∧ o'.m.opt = o.m.opt ∧ ∀ {name : Name} {A : Account}, Kept env opt name A o.m o.delivered o.answers →
      Kept env opt name (l.foldl (MOp.enterX opt name) A) o'.m o'.delivered o'.answers := by
  induction ops with
  | nil => intro o o' l hi _ _ h; cases h; exact ⟨rfl, hi, rfl, fun K => K⟩
  | cons c ops ih =>
    intro o o' l hi hz ho h
    obtain ⟨op, thr⟩ := c
    rw [mkeepX] at h
    obtain ⟨⟨o1, r⟩, h1, h⟩ := bind_inv h
    obtain ⟨⟨o2, l'⟩, h2, h⟩ := bind_inv h
    cases h
    obtain ⟨i1, e1, K1⟩ := kept_mexecX hs hi hz ho h1
    obtain ⟨j1, i2, e2, K2⟩ := ih i1 (by rw [e1]; exact hz) (by rw [e1]; exact ho) h2
    exact ⟨by simp [j1], i2, e2.trans e1, fun K => K2 (K1 K)⟩

end Multi

/-! ### No fault -/

theorem Separator.sepLoopX_total {env : Env} {step ts : Int} (hs : 0 < step) {give : AggData → M (AggData × Bool)} (hg : ∀ d, ∃ p, give d = .ok p)
    {next : Int} {r : Reducer} (hd : ∃ x r', r.detach env = .ok (x, r')) : ∃ p, sepLoopX env step ts give next r = .ok p := by
  rw [sepLoopX]
  split_ifs
  · obtain ⟨x, r', hd⟩ := hd
    have he := Aggregator.detach_empty hd
    rw [hd, bind_ok']
    cases x with
    | none =>
      simp only [bind_ok', Bool.false_eq_true, if_false]
      rw [sepLoopX_empty hs he _ _ (le_refl _), bind_ok']
      exact ⟨_, rfl⟩
    | some d =>
      obtain ⟨⟨d1, th⟩, e⟩ := hg { d with ts := next - step }
      simp only [e, bind_ok']
      cases th with
      | true => exact ⟨_, rfl⟩
      | false =>
        simp only [Bool.false_eq_true, if_false]
        rw [sepLoopX_empty hs he _ _ (le_refl _), bind_ok']
        exact ⟨_, rfl⟩
  · exact ⟨_, rfl⟩

section

variable {env : Env} {opt : AggregatorOpts} {m M : Int}

theorem fits_pushX {a : Aggregator} (hs : 0 < opt.step) (B : Reducer.Bounds env m M) (h : Fits env opt m M a) (c1 c2 ts : Int) {x : AddArg}
    (thr : AggData → Bool) (hv : ∀ v ∈ x.values, m ≤ v ∧ v ≤ M) :
    ∃ res out a', a.pushX env c1 c2 ts x thr = .ok (res, out, a') ∧ Fits env opt m M a' := by
  obtain ⟨ok, out0, a0, h0, F0⟩ := fits_push (c1 := c1) (c2 := c2) (ts := ts) (handler := true) hs B h hv
  have h' : Fits env opt m M a := h
  obtain ⟨D, A⟩ := h
  have A : AtDesk env opt m M D a := A
  have hst : 0 < a.sep.step := by rw [A.books.page.step]; exact hs
  have key : ∃ p, a.pushX env c1 c2 ts x thr = .ok p := by
    unfold Aggregator.pushX
    split_ifs with he
    · exact ⟨_, rfl⟩
    · rw [getTs_align hst, bind_ok', getTs_align hst, bind_ok']
      obtain ⟨⟨th, out, next, r⟩, e⟩ := Separator.sepLoopX_total (ts := align a.sep.step (meant a.sep.resolution c2 (align a.sep.step (meant a.sep.resolution c1 ts)))) (next := a.sep.next) hst
        (give := fun d => do let d ← finish env.nth a.outSize d; .ok (d, thr d)) (fun d => by
          obtain ⟨d', e, -⟩ := finish_spec env.nth a.outSize d
          simp only [e, bind_ok']
          exact ⟨_, rfl⟩) (page_total B A).2
      simp only [e, bind_ok']
      split_ifs <;> exact ⟨_, rfl⟩
  obtain ⟨⟨res, out, a'⟩, e⟩ := key
  refine ⟨res, out, a', e, ?_⟩
  obtain ⟨ok', a2, g1, -, -, g2, -⟩ := Aggregator.pushX_spec e
  cases res with
  | some b =>
    obtain ⟨-, rfl⟩ := g2 b rfl
    rw [h0] at g1
    cases g1
    exact F0
  | none =>
    unfold Aggregator.pushX at e
    split_ifs at e
    · cases e
    · obtain ⟨T, h1, e⟩ := bind_inv e
      obtain ⟨T', h2, e⟩ := bind_inv e
      obtain ⟨⟨th, out1, next, r⟩, h3, e⟩ := bind_inv e
      obtain ⟨l, f1, f2, f3, f4⟩ := Separator.sepLoopX_spec h3
      simp only at e
      cases th with
      | false =>
        rw [if_neg (by simp)] at e
        split_ifs at e <;> cases e
      | true =>
        rw [if_pos rfl] at e
        cases e
        obtain ⟨-, -, hn, rfl, -⟩ := f4 rfl
        have P := page_torn hs A.books.page h2 f1 hn
        exact ⟨{ D with on := [] }, ⟨P.congr rfl rfl, A.books.out, A.books.raw, A.books.tray, A.books.en, A.books.queue, .nil⟩, A.live,
          fun y hy => by cases hy⟩

namespace AggMap

theorem popLoopX_fits (hs : 0 < opt.step) (B : Reducer.Bounds env m M) (force : Bool) (thr : Thrower) (ns : List Name) :
    ∀ {past : List PushReq} {s : AggMap}, FitMap env opt m M s → ∃ p, popLoopX env force thr past ns s = .ok p := by
  induction ns with
  | nil => intro past s _; exact ⟨_, rfl⟩
  | cons n ns ih =>
    intro past s ht
    unfold popLoopX
    cases hl : s.lookup n with
    | none => exact ih ht
    | some a =>
      obtain ⟨d, a', e, ht'⟩ := fits_popOne hs B (ht n a hl) force
      have hF : FitMap env opt m M (s.put n a') := by
        intro n' a'' h
        rw [lookup_put] at h
        by_cases hn : n' = n
        · rw [if_pos hn] at h
          cases h
          exact ht'
        · rw [if_neg hn] at h
          exact ht n' a'' h
      simp only [e, bind_ok']
      cases d with
      | none => exact ih hF
      | some d =>
        simp only
        split_ifs
        · exact ⟨_, rfl⟩
        · obtain ⟨⟨l, t, s'⟩, e'⟩ := ih (past := past ++ [(n, d)]) hF
          rw [e', bind_ok']
          exact ⟨_, rfl⟩

end AggMap

namespace Multi

open AggMap (FitMap)

theorem popShardsX_fits (hs : 0 < opt.step) (B : Reducer.Bounds env m M) (force : Bool) (thr : Thrower) (ord : IterOrder) (ss : List AggMap) :
    ∀ {past : List PushReq}, (∀ s ∈ ss, FitMap env opt m M s) → ∃ p, popShardsX env force thr ord past ss = .ok p := by
  induction ss with
  | nil => intro past _; exact ⟨_, rfl⟩
  | cons s ss ih =>
    intro past ht
    obtain ⟨⟨l, t, s'⟩, e⟩ := AggMap.popLoopX_fits hs B force thr (ord.order (s.map Prod.fst)) (past := past) (ht s (by simp))
    unfold popShardsX AggMap.popAllX
    rw [e, bind_ok']
    simp only
    split_ifs
    · exact ⟨_, rfl⟩
    · obtain ⟨⟨l', t', ss'⟩, e'⟩ := ih (past := past ++ l) fun s hs => ht s (by simp [hs])
      rw [e', bind_ok']
      exact ⟨_, rfl⟩

theorem pushX_fits {x : Multi} (hs : 0 < x.opt.step) (hz : 0 < x.opt.hashSize) (B : Reducer.Bounds env m M) (hi : MInv x)
    (ht : FitM env x.opt.toAggregatorOpts m M x) (p : PushArg) (thr : PushReq → Bool)
    (hv : ∀ v ∈ (AddArg.reduced p.v).values, m ≤ v ∧ v ≤ M) :
    ∃ res l x', x.pushX env p thr = .ok (res, l, x') ∧ FitM env x.opt.toAggregatorOpts m M x' := by
  have hlt : x.hash p.name % x.opt.hashSize < x.shards.length := by rw [hi.len]; exact Nat.mod_lt _ hz
  obtain ⟨a, ea, hta⟩ : ∃ a, AggMap.orNew x.opt ((x.shards[x.hash p.name % x.opt.hashSize]).lookup p.name) p.clk p.rand p.v.ts = .ok a ∧
      Fits env x.opt.toAggregatorOpts m M a := by
    cases hl : (x.shards[x.hash p.name % x.opt.hashSize]).lookup p.name with
    | some a => exact ⟨a, rfl, ht _ _ (hi.shard_find (List.getElem_mem hlt) hl)⟩
    | none =>
      obtain ⟨a, ea⟩ := aggregator_new_total (opt := x.opt.toAggregatorOpts) hs p.clk p.rand p.v.ts
      exact ⟨a, ea, fits_new hs ea⟩
  obtain ⟨res, out, a', ep, hta'⟩ := fits_pushX hs B hta p.clk1 p.clk2 p.v.ts (fun d => thr (p.name, d.asReduced)) hv
  have e : ∃ l x', x.pushX env p thr = .ok (res, l, x') := by
    unfold Multi.pushX getPos shard AggMap.pushX
    rw [if_neg (by omega)]
    simp only [bind_ok', List.getElem?_eq_getElem hlt, ea, ep]
    exact ⟨_, _, rfl⟩
  obtain ⟨l, x', e⟩ := e
  obtain ⟨k1, k2, a1, out1, a1', j1, j2, j3, j4⟩ := pushX_find hi e
  refine ⟨res, l, x', e, ?_⟩
  intro n b hb
  rw [j4] at hb
  by_cases hn : n = p.name
  · rw [if_pos hn] at hb
    cases hb
    rw [hi.find_eq rfl (List.getElem?_eq_getElem hlt), ea] at j1
    cases j1
    rw [ep] at j2
    cases j2
    exact hta'
  · rw [if_neg hn] at hb
    exact ht n b hb

theorem multiPushX_fits (B : Reducer.Bounds env m M) (thr : Thrower) (ps : List PushArg) :
    ∀ {past : List PushReq} {x : Multi}, 0 < x.opt.step → 0 < x.opt.hashSize → MInv x → FitM env x.opt.toAggregatorOpts m M x →
    (∀ p ∈ ps, ∀ v ∈ (AddArg.reduced p.v).values, m ≤ v ∧ v ≤ M) →
    ∃ t l x', multiPushX env thr past ps x = .ok (t, l, x') ∧ FitM env x.opt.toAggregatorOpts m M x' := by
  induction ps with
  | nil => intro past x _ _ hi ht _; exact ⟨_, _, _, rfl, ht⟩
  | cons p ps ih =>
    intro past x hs hz hi ht hp
    obtain ⟨res, l, x1, e, ht1⟩ := pushX_fits hs hz B hi ht p (fun r => thr (past ++ [r])) (hp p (by simp))
    obtain ⟨hi1, ho1, -⟩ := pushX_find hi e
    rw [multiPushX, e, bind_ok']
    simp only
    split_ifs
    · exact ⟨_, _, _, rfl, ht1⟩
    · obtain ⟨t, l', x2, e', ht2⟩ := ih (past := past ++ l) (by rw [ho1]; exact hs) (by rw [ho1]; exact hz) hi1 (by rw [ho1]; exact ht1)
        (fun q hq => hp q (by simp [hq]))
      rw [ho1] at ht2
      rw [e', bind_ok']
      exact ⟨_, _, _, rfl, ht2⟩

theorem mexecX_fits {o : MObs} {op : MOp} (hs : 0 < o.m.opt.step) (hz : 0 < o.m.opt.hashSize) (B : Reducer.Bounds env m M)
    (hi : MInv o.m) (ht : FitM env o.m.opt.toAggregatorOpts m M o.m) (thr : Thrower) (hop : op.within m M) :
    ∃ o' r, mexecX env o thr op = .ok (o', r) ∧ FitM env o.m.opt.toAggregatorOpts m M o'.m := by
  cases op with
  | push p h =>
    obtain ⟨ok, l, x1, e, k⟩ := pushX_fits hs hz B hi ht p (fun r => thr [r]) hop
    simp only [mexecX, e, bind_ok']
    exact ⟨_, _, rfl, k⟩
  | multiPush ps h =>
    obtain ⟨t, l, x1, e, k⟩ := multiPushX_fits B thr ps (past := []) hs hz hi ht hop
    simp only [mexecX, e, bind_ok']
    exact ⟨_, _, rfl, k⟩
  | del n =>
    obtain ⟨o1, e, -, -, k⟩ := mexec_fits (op := .del n) hs hz B hi ht trivial
    obtain ⟨⟨b, x'⟩, h1, h⟩ := bind_inv e
    cases h
    simp only [mexecX, h1, bind_ok']
    exact ⟨_, _, rfl, k⟩
  | pushout force h ord =>
    obtain ⟨⟨l, t, ss⟩, e⟩ := popShardsX_fits hs B force thr ord o.m.shards (past := []) (fun s hs n a hl => ht n a (hi.shard_find hs hl))
    have e' : o.m.popAllX env force thr ord = .ok (l, t, { o.m with shards := ss }) := by
      simp only [Multi.popAllX, e, bind_ok']
    obtain ⟨k1, k2, k3⟩ := popAllX_spec hi hz e'
    simp only [mexecX, e', bind_ok']
    refine ⟨_, _, rfl, ?_⟩
    intro n a ha
    simp only at ha
    cases hf : o.m.find n with
    | none =>
      rw [((k3 n).1 hf).1] at ha
      cases ha
    | some a0 =>
      rcases (k3 n).2 a0 hf with ⟨-, j2, -⟩ | ⟨d, a', j1, j2, _⟩
      · rw [j2] at ha
        cases ha
        exact ht n _ hf
      · rw [j2] at ha
        cases ha
        obtain ⟨d1, a1, j3, j4⟩ := fits_popOne hs B (ht n a0 hf) force
        rw [j3] at j1
        cases j1
        exact j4

theorem mkeepX_fits (B : Reducer.Bounds env m M) (ops : List (MOp × Thrower)) :
    ∀ {o : MObs}, 0 < o.m.opt.step → 0 < o.m.opt.hashSize → MInv o.m → FitM env o.m.opt.toAggregatorOpts m M o.m →
    (∀ c ∈ ops, c.1.within m M) → ∃ o' l, mkeepX env ops o = .ok (o', l) := by
  induction ops with
  | nil => intro o _ _ _ _ _; exact ⟨o, [], rfl⟩
  | cons c ops ih =>
    intro o hs hz hi ht hop
    obtain ⟨op, thr⟩ := c
    obtain ⟨o1, r, e, ht1⟩ := mexecX_fits hs hz B hi ht thr (hop (op, thr) (by simp))
    obtain ⟨hi1, ho1, -⟩ := kept_mexecX (opt := o.m.opt.toAggregatorOpts) hs hi hz rfl e
    obtain ⟨o', l, e'⟩ := ih (o := o1) (by rw [ho1]; exact hs) (by rw [ho1]; exact hz) hi1 (by rw [ho1]; exact ht1)
      (fun x hx => hop x (by simp [hx]))
    rw [mkeepX, e, bind_ok']
    simp only [e', bind_ok']
    exact ⟨_, _, rfl⟩

end Multi

end

/-! ### C173 -/

/-- The client knows of every call whether it threw and, if it did, of which names the handler was given requests and how many requests of a `multi_push`
came before; then for every name the requests handed over are the entries of its books, the answers are those in its books, and it is known if it has a
page. -/
theorem C173_account (env : Env) (hash : Name → Nat) (opt : MultiOpts) (ops : List (MOp × Thrower)) (o : MObs) (l : List (MOp × Outcome))
    (hs : 0 < opt.step) (hz : 0 < opt.hashSize) (h : mkeepX env ops { m := Multi.new hash opt } = .ok (o, l)) :
    l.map Prod.fst = ops.map Prod.fst ∧ ∀ name,
    let A := accountX opt.toAggregatorOpts name l
    List.Forall₂ (Entry.Says env opt.toAggregatorOpts) A.made (about name o.delivered) ∧ about name o.answers = A.said ∧
      (o.m.find name).map (fun a => a.sep.currentTime) = A.page := by
  obtain ⟨e, -, -, K⟩ := kept_mkeepX (opt := opt.toAggregatorOpts) hs ops (minv_new hash opt) hz rfl h
  refine ⟨e, fun name => ?_⟩
  have K := K (name := name) (A := {}) ⟨.nil, rfl, by
    have : (Multi.new hash opt).find name = none := by
      unfold Multi.find
      rw [List.findSome?_eq_none_iff.2]
      intro s hs
      simp only [Multi.new, List.mem_replicate] at hs
      rw [hs.2]
      rfl
    simp only [this]
    exact ⟨trivial, trivial⟩⟩
  intro A
  obtain ⟨k1, k2, k3⟩ := K
  refine ⟨k1, k2, ?_⟩
  cases hl : o.m.find name with
  | none => rw [hl] at k3; exact k3.1.symm
  | some a =>
    rw [hl] at k3
    obtain ⟨t, e, H⟩ := k3
    show _ = (accountX _ _ _).page
    unfold accountX
    rw [e]
    have h1 := H.page.begins
    have h2 := H.page.step
    simp only [Option.map_some, Separator.currentTime, h1, h2, pageOf]
    congr 1
    omega

/-- A call hands over request after request until its handler throws for the first time, and throws if that happens.  A `multi_push` that threw was
pushing a request of the name given last. -/
theorem C173_stop (env : Env) (hash : Name → Nat) (opt : MultiOpts) (ops : List (MOp × Thrower)) (o o' : MObs) (l : List (MOp × Outcome))
    (hs : 0 < opt.step) (hz : 0 < opt.hashSize) (h : mkeepX env ops { m := Multi.new hash opt } = .ok (o, l)) (thr : Thrower) (op : MOp) (r : Outcome)
    (hx : mexecX env o thr op = .ok (o', r)) :
    ∃ g, o'.delivered = o.delivered ++ g ∧ r.given = g.map Prod.fst ∧
      (r.threw = false → ∀ q, q <+: g → q ≠ [] → thr q = false) ∧
      (r.threw = true → g ≠ [] ∧ thr g = true ∧ ∀ q, q <+: g → q ≠ [] → q ≠ g → thr q = false) ∧
      (r.threw = true → ∀ ps hd, op = .multiPush ps hd → ∃ p, ps[r.before]? = some p ∧ r.given.getLast? = some p.name) := by
  obtain ⟨-, hi, ho, -⟩ := kept_mkeepX (opt := opt.toAggregatorOpts) hs ops (minv_new hash opt) hz rfl h
  cases op with
  | push p hd =>
    obtain ⟨⟨res, g, m'⟩, h1, hx⟩ := bind_inv hx
    cases hx
    have hmp : multiPushX env thr [] [p] o.m = .ok (res.isNone, g, m') := by
      rw [multiPushX]
      simp only [List.nil_append]
      rw [h1, bind_ok']
      cases res with
      | none => rfl
      | some b => simp [multiPushX, bind_ok']
    obtain ⟨k1, k2⟩ := C113_stop_partial env thr [p] o.m m' _ g hmp
    exact ⟨g, rfl, rfl, k1, k2, fun _ ps hd e => by cases e⟩
  | multiPush ps hd =>
    obtain ⟨⟨t, g, m'⟩, h1, hx⟩ := bind_inv hx
    cases hx
    obtain ⟨k1, k2⟩ := C113_stop_partial env thr ps o.m m' t g h1
    refine ⟨g, rfl, rfl, k1, k2, fun ht ps' hd' e => ?_⟩
    cases e
    simp only at ht
    subst ht
    exact wholeX_last ps hi h1
  | del n =>
    obtain ⟨⟨b, m'⟩, h1, hx⟩ := bind_inv hx
    cases hx
    refine ⟨[], by simp, rfl, fun _ q hq hne => ?_, fun h => (by cases h), fun h => (by cases h)⟩
    exact (hne (List.prefix_nil.1 hq)).elim
  | pushout force hd ord =>
    obtain ⟨⟨g, t, m'⟩, h1, hx⟩ := bind_inv hx
    cases hx
    obtain ⟨k1, k2⟩ := C112_multi_stop_partial env o.m m' force thr ord g t h1
    exact ⟨g, rfl, rfl, k1, k2, fun _ ps hd e => by cases e⟩

/-- With values between representable bounds no history faults, whichever handlers throw and whenever they do. -/
theorem C173_total (env : Env) (hash : Name → Nat) (opt : MultiOpts) (m M : Int) (ops : List (MOp × Thrower)) (hs : 0 < opt.step)
    (hz : 0 < opt.hashSize) (B : Reducer.Bounds env m M) (hv : ∀ c ∈ ops, c.1.within m M) :
    ∃ o l, mkeepX env ops { m := Multi.new hash opt } = .ok (o, l) := by
  refine mkeepX_fits B ops hs hz (minv_new hash opt) ?_ hv
  intro n a ha
  have : (Multi.new hash opt).find n = none := by
    unfold Multi.find
    rw [List.findSome?_eq_none_iff.2]
    intro s hs
    simp only [Multi.new, List.mem_replicate] at hs
    rw [hs.2]
    rfl
  rw [this] at ha
  cases ha

open ExMulti in
/-- The second push completes the window 1000 and its handler throws; the push is made again after a late one; a `multi_push` throws on its second request;
`force_pushout` throws on the first of two names and is called again. -/
example : let bad : Thrower := fun _ => true
    let good : Thrower := fun _ => false
    let ops : List (MOp × Thrower) := [(.push (arg na 1003 [5]) true, good), (.push (arg na 1012 [7]) true, bad), (.push (arg na 1004 [6]) true, good),
      (.push (arg na 1012 [7]) true, good), (.multiPush [arg nb 1004 [8], arg na 1027 [1], arg nb 1005 [9]] true, bad),
      (.pushout true true ord, bad), (.pushout true true ord, good)]
    Passes (mkeepX exactEnv ops { m := Multi.new (fun n => n.length) ExMulti.opt }) (fun p =>
      decide (p.2.map (fun c => (c.2.threw, c.2.given, c.2.before)) = [(false, [], 0), (true, [na], 0), (false, [], 0), (false, [na], 0), (true, [na], 1),
        (true, [nb], 0), (false, [], 0)]) &&
      decide ((about na p.1.delivered).map (fun d => (d.ts, d.count)) = [(1000, 1), (1000, 1), (1010, 1)]) &&
      decide (accountX ExMulti.opt.toAggregatorOpts na p.2 = { page := some 1010, on := [], made :=
        [⟨1000, [red 1003 [5]], false⟩, ⟨1000, [red 1004 [6]], false⟩, ⟨1010, [red 1012 [7]], false⟩], said := [true, true, true] })) = true := by
  decide +kernel

end Wrtstat
