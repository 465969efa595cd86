/-
Whether handlers may call what they are called from: C109.
-/
import Verif.Model.HandlerLocks
import Mathlib.Logic.Relation
import Mathlib.Data.Fintype.Basic
import Mathlib.Data.Fintype.Prod
import Mathlib.Data.Finite.Prod
import Mathlib.Order.WellFounded
import Mathlib.Data.Fintype.EquivFin
import Mathlib.Algebra.BigOperators.Group.Finset.Basic
import Mathlib.Algebra.Order.BigOperators.Group.Finset

namespace Wrtstat

set_option autoImplicit false
set_option linter.unusedSectionVars false

open Relation

namespace HSec

variable {L : Type}

mutual

/-- The handlers called under the mutex `l` take the mutex `l'` next only if `R l l'`. -/
def Follows (R : L → L → Prop) : HSec L → Prop
  | mk l inner => AllFollow R l inner

/-- The same for all the sections inside the one on `l`. -/
def AllFollow (R : L → L → Prop) (l : L) : List (HSec L) → Prop
  | [] => True
  | c :: cs => R l c.lock ∧ Follows R c ∧ AllFollow R l cs

end

end HSec

namespace MxState

variable {T L : Type} [DecidableEq T] [DecidableEq L]

/-- Reachable by threads that make the given calls. -/
def Reach (calls : T → List (HSec L)) (s : MxState T L) : Prop := ReflTransGen Step (init calls) s

/-- Some thread has not finished, and none can go on. -/
def Deadlock (s : MxState T L) : Prop := (∃ t, s.prog t ≠ []) ∧ ∀ s', ¬ Step s s'

/-- A thread locks a mutex that it has. -/
def Relock (s : MxState T L) : Prop := ∃ t l p, s.prog t = .lk l :: p ∧ s.own l = some t

/-- The claim for the handlers that follow `R`: whatever the threads call, and whatever the handlers call,
no execution deadlocks and no mutex is locked again by its owner. -/
def C109_Claim (L : Type) [DecidableEq L] (R : L → L → Prop) : Prop :=
  ∀ (T : Type) [DecidableEq T] (calls : T → List (HSec L)), (∀ t, ∀ c ∈ calls t, c.Follows R) →
    ∀ s, Reach calls s → ¬ Deadlock s ∧ ¬ Relock s

/-- The claim: handlers may call the multi-aggregators they are called from, or others. -/
def C109_FullClaim : Prop := ∀ (I : Type) [DecidableEq I] (n : Nat), C109_Claim (MuLock I n) (fun _ _ => True)

/-- One thread, one shard: a handler that pushes the name it got. -/
theorem C109_refuted : ¬ C109_FullClaim := by
  intro hc
  let nm : Name := ['a']
  let calls : Unit → List (HSec (MuLock Unit 1)) := fun _ =>
    MuLock.push (fun _ => 0) () nm (MuLock.push (fun _ => 0) () nm [])
  let s1 : MxState Unit (MuLock Unit 1) :=
    { prog := Function.update (init calls).prog () [.lk ((), 0), .ul ((), 0), .ul ((), 0)],
      own := Function.update (init calls).own ((), 0) (some ()) }
  have hr : Reach calls s1 := ReflTransGen.refl.tail (.lk _ () ((), 0) _ rfl rfl)
  refine (hc Unit 1 Unit calls ?_ s1 hr).2 ⟨(), ((), 0), _, rfl, rfl⟩
  intro t c hm
  simp only [calls, MuLock.push, List.mem_singleton] at hm
  subst hm
  exact ⟨trivial, trivial, trivial⟩

/-- Two threads, two shards, no mutex locked twice by a thread: each handler pushes a name of the other
shard. -/
theorem C109_crossing : ∃ (calls : Bool → List (HSec (MuLock Unit 2))) (s : MxState Bool (MuLock Unit 2)),
    (∀ t, ∀ c ∈ calls t, c.Follows (fun a b => a ≠ b)) ∧ Reach calls s ∧ Deadlock s := by
  let h : Name → Nat := fun n => n.length
  let n0 : Name := ['a', 'a']
  let n1 : Name := ['b']
  let calls : Bool → List (HSec (MuLock Unit 2)) := fun t =>
    if t then MuLock.push h () n0 (MuLock.push h () n1 []) else MuLock.push h () n1 (MuLock.push h () n0 [])
  let s1 : MxState Bool (MuLock Unit 2) :=
    { prog := Function.update (init calls).prog true [.lk ((), 1), .ul ((), 1), .ul ((), 0)],
      own := Function.update (init calls).own ((), 0) (some true) }
  let s2 : MxState Bool (MuLock Unit 2) :=
    { prog := Function.update s1.prog false [.lk ((), 0), .ul ((), 0), .ul ((), 1)],
      own := Function.update s1.own ((), 1) (some false) }
  refine ⟨calls, s2, ?_, (ReflTransGen.refl.tail (.lk _ true ((), 0) _ (by decide) rfl)).tail (.lk s1 false ((), 1) _ (by decide) rfl),
    ⟨true, by simp [s2, s1]⟩, ?_⟩
  · intro t c hm
    cases t <;> simp only [calls, MuLock.push, List.mem_singleton, if_true, Bool.false_eq_true, if_false] at hm <;>
      subst hm <;> exact ⟨by decide, trivial, trivial⟩
  · intro s' hs
    cases hs with
    | lk t l p h hf =>
      cases t
      · have : l = ((), 0) := by simpa [s2, s1, eq_comm] using congrArg List.head? h
        subst this
        simp [s2, s1] at hf
      · have : l = ((), 1) := by simpa [s2, s1, eq_comm] using congrArg List.head? h
        subst this
        simp [s2, s1] at hf
    | ul t l p h => cases t <;> simp [s2, s1] at h

/-! ### Threads whose handlers follow a relation without cycles -/

/-- How a thread that has the mutexes `st`, the last one first, goes on. -/
def Wf (R : L → L → Prop) : List L → List (MAct L) → Prop
  | st, [] => st = []
  | st, .lk l :: p => (∀ h, st.head? = some h → R h l) ∧ Wf R (l :: st) p
  | st, .ul l :: p => ∃ st', st = l :: st' ∧ Wf R st' p

/-- Each mutex was taken under the one before. -/
def Stacked (R : L → L → Prop) : List L → Prop
  | [] => True
  | [_] => True
  | l :: h :: st => R h l ∧ Stacked R (h :: st)

omit [DecidableEq L] in
theorem allFollow_iff (R : L → L → Prop) (l : L) (cs : List (HSec L)) :
    HSec.AllFollow R l cs ↔ ∀ c ∈ cs, R l c.lock ∧ c.Follows R := by
  induction cs with
  | nil => simp [HSec.AllFollow]
  | cons c cs ih => simp [HSec.AllFollow, ih, and_assoc]

mutual

theorem wf_acts (R : L → L → Prop) : (c : HSec L) → c.Follows R → (st : List L) → (p : List (MAct L)) →
    (∀ h, st.head? = some h → R h c.lock) → Wf R st p → Wf R st (c.acts ++ p)
  | .mk l inner, hc, st, p, hh, hp => by
    simp only [HSec.acts, List.cons_append, List.append_assoc, List.nil_append]
    simp only [HSec.Follows] at hc
    rw [allFollow_iff] at hc
    refine ⟨hh, wf_actsAll R inner (fun c hm => (hc c hm).2) (l :: st) _ ?_ ⟨st, rfl, hp⟩⟩
    intro h hs c hm
    injection hs with hs
    subst hs
    exact (hc c hm).1

theorem wf_actsAll (R : L → L → Prop) : (cs : List (HSec L)) → (∀ c ∈ cs, c.Follows R) → (st : List L) →
    (p : List (MAct L)) → (∀ h, st.head? = some h → ∀ c ∈ cs, R h c.lock) → Wf R st p → Wf R st (HSec.actsAll cs ++ p)
  | [], _, _, _, _, hp => hp
  | c :: cs, hc, st, p, hh, hp => by
    simp only [HSec.actsAll, List.append_assoc]
    exact wf_acts R c (hc c List.mem_cons_self) st _ (fun h hs => hh h hs c List.mem_cons_self)
      (wf_actsAll R cs (fun c hm => hc c (List.mem_cons_of_mem _ hm)) st p
        (fun h hs c hm => hh h hs c (List.mem_cons_of_mem _ hm)) hp)

end

omit [DecidableEq L] in
/-- What is below a mutex leads to it. -/
theorem Stacked.below {R : L → L → Prop} {h : L} {st : List L} (hs : Stacked R (h :: st)) :
    ∀ l ∈ h :: st, ReflTransGen R l h := by
  induction st generalizing h with
  | nil =>
    intro l hl
    rw [List.mem_singleton] at hl
    subst hl
    exact .refl
  | cons k st ih =>
    intro l hl
    rcases List.mem_cons.1 hl with rfl | hl
    · exact .refl
    · exact (ih hs.2 l hl).tail hs.1

/-- The invariant: a thread has what is on its stack. -/
def Inv (R : L → L → Prop) (s : MxState T L) : Prop :=
  ∀ t, ∃ st : List L, Stacked R st ∧ Wf R st (s.prog t) ∧ (∀ l, s.own l = some t ↔ l ∈ st) ∧ st.Nodup

theorem Inv.init {R : L → L → Prop} {calls : T → List (HSec L)} (hc : ∀ t, ∀ c ∈ calls t, c.Follows R) :
    Inv R (init calls) := by
  intro t
  refine ⟨[], trivial, ?_, by simp [MxState.init], List.nodup_nil⟩
  have := wf_actsAll R (calls t) (hc t) [] [] (by simp) rfl
  simpa [MxState.init] using this

theorem Inv.step {R : L → L → Prop} {s s' : MxState T L} (hi : Inv R s) (hs : Step s s') : Inv R s' := by
  cases hs with
  | lk t l p h hf =>
    intro u
    obtain ⟨st, h1, h2, h3, h4⟩ := hi u
    by_cases hu : u = t
    · subst hu
      rw [h] at h2
      refine ⟨l :: st, ?_, by simpa using h2.2, ?_, ?_⟩
      · cases st with
        | nil => trivial
        | cons k st => exact ⟨h2.1 k rfl, h1⟩
      · intro l'
        by_cases hl : l' = l
        · subst hl; simp
        · simp [hl, h3]
      · refine List.nodup_cons.2 ⟨fun hm => ?_, h4⟩
        rw [(h3 l).2 hm] at hf
        cases hf
    · refine ⟨st, h1, by simpa [hu] using h2, ?_, h4⟩
      intro l'
      by_cases hl : l' = l
      · subst hl
        have : l' ∉ st := fun hm => (by rw [(h3 l').2 hm] at hf; cases hf)
        simp [this, Ne.symm hu]
      · simp [hl, h3]
  | ul t l p h =>
    obtain ⟨st, h1, h2, h3, h4⟩ := hi t
    have ht := hi t
    rw [h] at h2
    obtain ⟨st', rfl, h2⟩ := h2
    have hown : s.own l = some t := (h3 l).2 List.mem_cons_self
    intro u
    by_cases hu : u = t
    · subst hu
      refine ⟨st', ?_, by simpa using h2, ?_, (List.nodup_cons.1 h4).2⟩
      · cases st' with
        | nil => trivial
        | cons k st' => exact h1.2
      · intro l'
        by_cases hl : l' = l
        · subst hl; simp [(List.nodup_cons.1 h4).1]
        · simp [hl, h3]
    · obtain ⟨su, g1, g2, g3, g4⟩ := hi u
      refine ⟨su, g1, by simpa [hu] using g2, ?_, g4⟩
      intro l'
      by_cases hl : l' = l
      · subst hl
        have : l' ∉ su := fun hm => (by
          have := (g3 l').2 hm
          rw [hown] at this
          injection this with this
          exact hu this.symm)
        simp [this]
      · simp [hl, g3]

theorem Reach.inv {R : L → L → Prop} {calls : T → List (HSec L)} {s : MxState T L} (h : Reach calls s)
    (hc : ∀ t, ∀ c ∈ calls t, c.Follows R) : Inv R s := by
  induction h with
  | refl => exact .init hc
  | tail _ hs ih => exact ih.step hs

/-- What a thread that has a mutex and wants another one does: the first leads to the second. -/
theorem Inv.wants {R : L → L → Prop} {s : MxState T L} (hi : Inv R s) {t : T} {l l' : L} {p : List (MAct L)}
    (ho : s.own l = some t) (hp : s.prog t = .lk l' :: p) : TransGen R l l' := by
  obtain ⟨st, h1, h2, h3, -⟩ := hi t
  have hm := (h3 l).1 ho
  rw [hp] at h2
  cases st with
  | nil => cases hm
  | cons k st => exact TransGen.tail' (h1.below l hm) (h2.1 k rfl)

/-- A thread that is blocked wants a mutex that another thread, itself not finished, has. -/
theorem Inv.blocked {R : L → L → Prop} {s : MxState T L} (hi : Inv R s) (hs : ∀ s', ¬ Step s s') {t : T}
    (ht : s.prog t ≠ []) : ∃ l p u, s.prog t = .lk l :: p ∧ s.own l = some u ∧ s.prog u ≠ [] := by
  cases hp : s.prog t with
  | nil => exact absurd hp ht
  | cons a p =>
    cases a with
    | ul l => exact absurd (Step.ul s t l p hp) (hs _)
    | lk l =>
      cases ho : s.own l with
      | none => exact absurd (Step.lk s t l p hp ho) (hs _)
      | some u =>
        refine ⟨l, p, u, rfl, ho, fun hu => ?_⟩
        obtain ⟨st, -, h2, h3, -⟩ := hi u
        rw [hu] at h2
        have := (h3 l).1 ho
        rw [show st = [] from h2] at this
        cases this

/-- Where the mutexes can be put in order so that handlers take them upwards, nothing blocks. -/
theorem Inv.goes {R : L → L → Prop} (hw : WellFounded (flip (TransGen R))) {s : MxState T L} (hi : Inv R s) :
    ¬ Deadlock s := by
  rintro ⟨⟨t, ht⟩, hs⟩
  obtain ⟨l, p, u, h1, h2, h3⟩ := hi.blocked hs ht
  have gen : ∀ l, ∀ t p, s.prog t = .lk l :: p → False := by
    intro l
    induction l using hw.induction with
    | _ l ih =>
      intro t p hp
      obtain ⟨l1, p1, u, h1, h2, h3⟩ := hi.blocked hs (t := t) (by rw [hp]; simp)
      rw [hp] at h1
      injection h1 with h1 _
      injection h1 with h1
      subst h1
      obtain ⟨l2, p2, -, h4, -⟩ := hi.blocked hs h3
      exact ih l2 (hi.wants h2 h4) u p2 h4
  exact gen l t p h1

/-- On a relation without cycles nobody locks what he has. -/
theorem Inv.noRelock {R : L → L → Prop} (hir : ∀ l, ¬ TransGen R l l) {s : MxState T L} (hi : Inv R s) : ¬ Relock s := by
  rintro ⟨t, l, p, hp, ho⟩
  exact hir l (hi.wants ho hp)

/-- A step of a schedule for the cycle: thread `l` has taken `l`. -/
theorem reach_cycle {L : Type} [DecidableEq L] (C : L → Prop) [DecidablePred C] (next : L → L) (done : List L)
    (hd : done.Nodup) (hC : ∀ l ∈ done, C l) :
    Reach (fun l : L => if C l then [HSec.mk l [.mk (next l) []]] else [])
      { prog := fun l => if C l then (if l ∈ done then [.lk (next l), .ul (next l), .ul l]
          else [.lk l, .lk (next l), .ul (next l), .ul l]) else [],
        own := fun l => if l ∈ done then some l else none } := by
  induction done with
  | nil =>
    have : (init (fun l : L => if C l then [HSec.mk l [.mk (next l) []]] else []) : MxState L L) =
        { prog := fun l => if C l then (if l ∈ [] then [.lk (next l), .ul (next l), .ul l]
          else [.lk l, .lk (next l), .ul (next l), .ul l]) else [],
          own := fun l => if l ∈ [] then some l else none } := by
      simp only [init, List.not_mem_nil, if_false, MxState.mk.injEq]
      refine ⟨?_, trivial⟩
      funext l
      split <;> simp [HSec.actsAll, HSec.acts]
    rw [← this]
    exact .refl
  | cons k done ih =>
    rw [List.nodup_cons] at hd
    have h := ih hd.2 (fun l hl => hC l (List.mem_cons_of_mem _ hl))
    have hk := hC k List.mem_cons_self
    refine ReflTransGen.tail h ?_
    have hstep := Step.lk (T := L) (L := L) _ k k [.lk (next k), .ul (next k), .ul k]
      (show (MxState.mk (T := L) (L := L) (fun l => if C l then (if l ∈ done then [.lk (next l), .ul (next l), .ul l]
          else [.lk l, .lk (next l), .ul (next l), .ul l]) else []) (fun l => if l ∈ done then some l else none)).prog k = _ by
        simp [hk, hd.1]) (by simp [hd.1])
    convert hstep using 2
    · funext l
      by_cases hl : l = k
      · subst hl; simp [hk]
      · simp [hl]
    · funext l
      by_cases hl : l = k
      · subst hl; simp
      · simp [hl]

/-- What remains: the claim holds exactly when the mutexes that handlers take under others form no cycle. -/
theorem C109_exact_partial (L : Type) [Finite L] [DecidableEq L] (R : L → L → Prop) :
    C109_Claim L R ↔ ∀ l, ¬ TransGen R l l := by
  classical
  constructor
  · intro hc l0 h0
    have hex : ∀ l, TransGen R l l → ∃ k, R l k ∧ TransGen R k k := by
      intro l hl
      obtain ⟨k, h1, h2⟩ := TransGen.head'_iff.1 hl
      exact ⟨k, h1, TransGen.tail' h2 h1⟩
    let next : L → L := fun l => if h : TransGen R l l then (hex l h).choose else l
    have hn : ∀ l, TransGen R l l → R l (next l) ∧ TransGen R (next l) (next l) := by
      intro l hl
      simp only [next, dif_pos hl]
      exact (hex l hl).choose_spec
    have := Fintype.ofFinite L
    let C : L → Prop := fun l => TransGen R l l
    let all : List L := (Finset.univ.filter C).toList
    have hall : ∀ l, l ∈ all ↔ C l := fun l => by simp [all]
    have hr := reach_cycle C next all (Finset.nodup_toList _) (fun l hl => (hall l).1 hl)
    refine (hc L _ ?_ _ hr).1 ⟨⟨l0, ?_⟩, ?_⟩
    · intro t c hm
      by_cases ht : C t
      · simp only [if_pos ht, List.mem_singleton] at hm
        subst hm
        exact ⟨(hn t ht).1, trivial, trivial⟩
      · simp only [if_neg ht] at hm
        cases hm
    · have h0' : C l0 := h0
      simp [h0', hall]
    · intro s' hs
      cases hs with
      | lk t l p h hf =>
        by_cases ht : C t
        · simp only [if_pos ht, hall] at h
          injection h with h _
          injection h with h
          subst h
          have := (hn t ht).2
          simp only [hall, if_pos (show C (next t) from this)] at hf
          cases hf
        · simp [ht] at h
      | ul t l p h =>
        by_cases ht : C t
        · simp [ht, hall] at h
        · simp [ht] at h
  · intro hir T _ calls hc s hr
    have hi := hr.inv hc
    have hw : WellFounded (flip (TransGen R)) := by
      have : IsTrans L (flip (TransGen R)) := ⟨fun a b c h1 h2 => TransGen.trans h2 h1⟩
      have : Std.Irrefl (flip (TransGen R)) := ⟨fun a h => hir a h⟩
      exact Finite.wellFounded_of_trans_of_irrefl _
    exact ⟨hi.goes hw, hi.noRelock hir⟩

/-- Handlers that do not call multi-aggregators at all. -/
theorem C109_none_partial (I : Type) [Finite I] [DecidableEq I] (n : Nat) : C109_Claim (MuLock I n) (fun _ _ => False) := by
  rw [C109_exact_partial]
  intro l h
  obtain ⟨k, h1, -⟩ := TransGen.head'_iff.1 h
  exact h1

/-- Cascades: handlers of a multi-aggregator may call those of a higher level, and only those: then no
execution deadlocks. -/
theorem C109_cascade_partial (I : Type) [Finite I] [DecidableEq I] (n : Nat) (level : I → Nat) :
    C109_Claim (MuLock I n) (fun a b => level a.1 < level b.1) := by
  rw [C109_exact_partial]
  intro l h
  have : ∀ a b : MuLock I n, TransGen (fun a b : MuLock I n => level a.1 < level b.1) a b → level a.1 < level b.1 := by
    intro a b hab
    induction hab with
    | single h => exact h
    | tail _ h ih => exact Nat.lt_trans ih h
  exact Nat.lt_irrefl _ (this l l h)

/-- A handler that calls its own multi-aggregator, whatever the name: the claim fails, already with one
shard and one thread. -/
theorem C109_same_object (I : Type) [Finite I] [DecidableEq I] (n : Nat) [NeZero n] (R : MuLock I n → MuLock I n → Prop) (o : I)
    (hR : ∀ i j : Fin n, R (o, i) (o, j)) : ¬ C109_Claim (MuLock I n) R := by
  rw [C109_exact_partial]
  exact fun h => h (o, 0) (.single (hR 0 0))

/-- Every step leaves less to do. -/
theorem step_shorter [Fintype T] {s s' : MxState T L} (h : Step s s') :
    ∑ t, (s'.prog t).length < ∑ t, (s.prog t).length := by
  have : ∃ t x p, s.prog t = x :: p ∧ s'.prog = Function.update s.prog t p := by
    cases h with
    | lk t l p h _ => exact ⟨t, _, p, h, rfl⟩
    | ul t l p h => exact ⟨t, _, p, h, rfl⟩
  obtain ⟨t, x, p, h1, h2⟩ := this
  rw [h2]
  refine Finset.sum_lt_sum (fun u _ => ?_) ⟨t, Finset.mem_univ t, ?_⟩
  · by_cases hu : u = t
    · subst hu; rw [Function.update_self, h1]; simp
    · rw [Function.update_of_ne hu]
  · rw [Function.update_self, h1]; simp

/-- Then all calls complete: every execution that cannot go on has completed all calls, every mutex is
free, and there is no infinite execution. -/
theorem C109_completes_partial (L : Type) [Finite L] [DecidableEq L] (R : L → L → Prop) (hR : ∀ l, ¬ TransGen R l l)
    [Finite T] (calls : T → List (HSec L)) (hc : ∀ t, ∀ c ∈ calls t, c.Follows R) :
    (∀ s, Reach calls s → (∀ s', ¬ Step s s') → (∀ t, s.prog t = []) ∧ ∀ l, s.own l = none) ∧
    ¬ ∃ f : Nat → MxState T L, f 0 = init calls ∧ ∀ i, Step (f i) (f (i + 1)) := by
  constructor
  · intro s hr hs
    have hnil : ∀ t, s.prog t = [] := fun t => by
      by_contra ht
      exact (((C109_exact_partial L R).2 hR) T calls hc s hr).1 ⟨⟨t, ht⟩, hs⟩
    refine ⟨hnil, fun l => ?_⟩
    cases ho : s.own l with
    | none => rfl
    | some u =>
      obtain ⟨st, -, h2, h3, -⟩ := hr.inv hc u
      rw [hnil u] at h2
      have := (h3 l).1 ho
      rw [show st = [] from h2] at this
      cases this
  · rintro ⟨f, -, hf⟩
    have := Fintype.ofFinite T
    have hlen : ∀ i, ∑ t, ((f i).prog t).length + i ≤ ∑ t, ((f 0).prog t).length := by
      intro i
      induction i with
      | zero => simp
      | succ i ih =>
        have := step_shorter (hf i)
        omega
    have := hlen (∑ t, ((f 0).prog t).length + 1)
    omega

/-! ### Examples -/

/-- What the calls do to the mutexes: a push whose handler pushes to another object; a pushout. -/
example : HSec.actsAll (MuLock.push (n := 2) (fun n => n.length) false ['a'] (MuLock.push (fun n => n.length) true ['b', 'b'] []))
      = [.lk (false, 1), .lk (true, 0), .ul (true, 0), .ul (false, 1)] ∧
    HSec.actsAll (MuLock.pushout (n := 2) () (fun i => if i = 1 then MuLock.del (fun n => n.length) () ['c', 'c'] else []))
      = [.lk ((), 0), .ul ((), 0), .lk ((), 1), .lk ((), 0), .ul ((), 0), .ul ((), 1)] ∧
    HSec.actsAll (MuLock.multiPush (n := 2) (fun n => n.length) () [(['a'], []), ([], [])]) =
      [.lk ((), 1), .ul ((), 1), .lk ((), 0), .ul ((), 0)] ∧
    HSec.actsAll (MuLock.size (n := 2) ()) = [.lk ((), 0), .ul ((), 0), .lk ((), 1), .ul ((), 1)] := by
  decide

/-- A cascade of two objects follows the levels, and is allowed; a call back is not. -/
example : (∀ c ∈ MuLock.push (n := 2) (fun n => n.length) false ['a'] (MuLock.push (fun n => n.length) true ['b', 'b'] []),
      c.Follows (fun a b => Bool.toNat a.1 < Bool.toNat b.1)) ∧
    ¬ ∀ c ∈ MuLock.push (n := 2) (fun n => n.length) true ['a'] (MuLock.push (fun n => n.length) false ['b', 'b'] []),
      c.Follows (fun a b => Bool.toNat a.1 < Bool.toNat b.1) := by
  constructor
  · intro c hc
    rw [MuLock.push, List.mem_singleton] at hc
    subst hc
    exact ⟨by decide, trivial, trivial⟩
  · intro h
    have := h _ (List.mem_singleton.2 rfl)
    exact absurd this.1 (by decide)

end MxState
end Wrtstat
