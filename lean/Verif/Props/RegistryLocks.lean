/-
Whether the registry can deadlock: C54.
-/
import Verif.Model.RegistryLocks
import Mathlib.Logic.Relation
import Mathlib.Algebra.BigOperators.Group.Finset.Basic
import Mathlib.Algebra.Order.BigOperators.Group.Finset

namespace Wrtstat

set_option autoImplicit false

open Relation

namespace LockState

variable {T A : Type} [DecidableEq T] [DecidableEq A]

/-- Reachable by threads that make the given calls. -/
def Reach (calls : T → List (RegCall A)) (s : LockState T A) : Prop := ReflTransGen Step (init calls) s

/-- Some thread has not finished, and none can go on. -/
def Deadlock (s : LockState T A) : Prop := (∃ t, s.prog t ≠ []) ∧ ∀ s', ¬ Step s s'

/-- The claim: no interleaving of any calls of any threads deadlocks. -/
def C54_FullClaim : Prop :=
  ∀ (T A : Type) [DecidableEq T] [DecidableEq A] (calls : T → List (RegCall A)) (s : LockState T A), Reach calls s →
    ¬ Deadlock s

/-- One thread pushes, its handler made for an id; another calls `enable`. -/
theorem C54_refuted : ¬ C54_FullClaim := by
  intro hc
  let calls : Bool → List (RegCall Unit) := fun t => if t then [.push () 1] else [.enable [()]]
  let s0 := init calls
  let s1 : LockState Bool Unit :=
    { s0 with prog := Function.update s0.prog true [.rd, .urd, .ul ()], own := Function.update s0.own () (some true) }
  let s2 : LockState Bool Unit :=
    { s1 with prog := Function.update s1.prog false [.lk (), .ul (), .uwr], wr := some false }
  have hr : Reach calls s2 :=
    (ReflTransGen.refl.tail (.lk s0 true () _ rfl rfl)).tail (.wr s1 false _ rfl rfl (fun _ => rfl))
  refine hc Bool Unit calls s2 hr ⟨⟨true, by simp [s2, s1]⟩, ?_⟩
  intro s' hs
  cases hs with
  | rd t p h hf => exact absurd hf (by simp [s2])
  | urd t p h => cases t <;> simp [s2, s1] at h
  | wr t p h hf hr => exact absurd hf (by simp [s2])
  | uwr t p h => cases t <;> simp [s2, s1] at h
  | lk t a p h hf => exact absurd hf (by cases a; simp [s2, s1])
  | ul t a p h => cases t <;> simp [s2, s1] at h

/-- How a thread that holds the rwlock `n` times for reading, or (`w`) for writing, and the mutex `o`, goes on.  With
`hand`, it may read while holding a mutex; with `inW`, it may take a mutex while writing. -/
def Fine (hand inW : Bool) : Nat → Bool → Option A → List (LockAct A) → Prop
  | n, w, o, [] => n = 0 ∧ w = false ∧ o = none
  | n, w, o, .rd :: p => w = false ∧ (o = none ∨ hand = true) ∧ Fine hand inW (n + 1) w o p
  | n, w, o, .urd :: p => w = false ∧ 0 < n ∧ (o = none ∨ hand = true) ∧ Fine hand inW (n - 1) w o p
  | n, w, o, .wr :: p => w = false ∧ n = 0 ∧ o = none ∧ Fine hand inW n true o p
  | n, w, o, .uwr :: p => w = true ∧ n = 0 ∧ o = none ∧ Fine hand inW n false o p
  | n, w, o, .lk a :: p => o = none ∧ (w = false ∨ inW = true) ∧ Fine hand inW n w (some a) p
  | n, w, o, .ul a :: p => o = some a ∧ Fine hand inW n w none p

/-- The calls that may be made. -/
def Allowed (hand inW : Bool) : RegCall A → Prop
  | .push _ n => hand = true ∨ n = 0
  | .enable l => inW = true ∨ l = []
  | _ => True

omit [DecidableEq A] in
theorem fine_popAll (hand inW : Bool) (l : List (Option A)) (p : List (LockAct A)) (hp : Fine hand inW 0 false none p) :
    Fine hand inW 1 false none (l.flatMap (fun o =>
      match o with
      | none => [.rd, .urd]
      | some a => [.rd, .urd, .lk a, .ul a, .lk a, .ul a]) ++ ([.urd] ++ p)) := by
  induction l with
  | nil => exact ⟨rfl, by omega, .inl rfl, hp⟩
  | cons o l ih =>
    cases o with
    | none =>
      simp only [List.flatMap_cons, List.cons_append, List.nil_append]
      exact ⟨rfl, .inl rfl, rfl, by omega, .inl rfl, ih⟩
    | some a =>
      simp only [List.flatMap_cons, List.cons_append, List.nil_append]
      exact ⟨rfl, .inl rfl, rfl, by omega, .inl rfl, rfl, .inl rfl, rfl, rfl, .inl rfl, rfl, ih⟩

omit [DecidableEq A] in
theorem fine_enable (hand : Bool) (l : List A) (p : List (LockAct A)) (hp : Fine hand true 0 false none p) :
    Fine hand true 0 true none (l.flatMap (fun a => [.lk a, .ul a]) ++ ([.uwr] ++ p)) := by
  induction l with
  | nil => exact ⟨rfl, rfl, rfl, hp⟩
  | cons a l ih =>
    simp only [List.flatMap_cons, List.cons_append, List.nil_append]
    exact ⟨rfl, .inr rfl, rfl, ih⟩

omit [DecidableEq A] in
theorem fine_push (inW : Bool) (a : A) (n : Nat) (p : List (LockAct A)) (hp : Fine true inW 0 false none p) :
    Fine true inW 0 false (some a) ((List.replicate n [.rd, .urd]).flatten ++ ([.ul a] ++ p)) := by
  induction n with
  | zero => exact ⟨rfl, hp⟩
  | succ n ih =>
    simp only [List.replicate_succ, List.flatten_cons, List.cons_append, List.nil_append]
    exact ⟨rfl, .inr rfl, rfl, by omega, .inr rfl, ih⟩

omit [DecidableEq A] in
theorem fine_call (hand inW : Bool) (c : RegCall A) (hc : Allowed hand inW c) (p : List (LockAct A))
    (hp : Fine hand inW 0 false none p) : Fine hand inW 0 false none (c.acts ++ p) := by
  cases c with
  | look => exact ⟨rfl, .inl rfl, rfl, by omega, .inl rfl, hp⟩
  | change => exact ⟨rfl, rfl, rfl, rfl, rfl, rfl, hp⟩
  | use a => exact ⟨rfl, .inl rfl, rfl, by omega, .inl rfl, rfl, .inl rfl, rfl, hp⟩
  | named a => exact ⟨rfl, rfl, rfl, rfl, rfl, rfl, rfl, .inl rfl, rfl, by omega, .inl rfl, rfl, .inl rfl, rfl, hp⟩
  | popAll l =>
    simp only [RegCall.acts, List.append_assoc, List.cons_append, List.nil_append]
    exact ⟨rfl, .inl rfl, fine_popAll hand inW l p hp⟩
  | enable l =>
    simp only [RegCall.acts, List.append_assoc, List.cons_append, List.nil_append]
    rcases hc with rfl | rfl
    · exact ⟨rfl, rfl, rfl, fine_enable hand l p hp⟩
    · exact ⟨rfl, rfl, rfl, rfl, rfl, rfl, hp⟩
  | push a n =>
    simp only [RegCall.acts, List.append_assoc, List.cons_append, List.nil_append]
    rcases hc with rfl | rfl
    · exact ⟨rfl, .inl rfl, fine_push inW a n p hp⟩
    · exact ⟨rfl, .inl rfl, rfl, hp⟩

omit [DecidableEq A] in
theorem fine_calls (hand inW : Bool) (cs : List (RegCall A)) (hc : ∀ c ∈ cs, Allowed hand inW c) :
    Fine hand inW 0 false none (cs.flatMap RegCall.acts) := by
  induction cs with
  | nil => exact ⟨rfl, rfl, rfl⟩
  | cons c cs ih =>
    rw [List.flatMap_cons]
    exact fine_call hand inW c (hc c (by simp)) _ (ih fun c h => hc c (by simp [h]))

/-- Every thread goes on in a fine way. -/
def Inv (hand inW : Bool) (s : LockState T A) : Prop :=
  ∀ t, ∃ o, (∀ a, s.own a = some t ↔ o = some a) ∧ Fine hand inW (s.rd t) (decide (s.wr = some t)) o (s.prog t)

omit [DecidableEq A] in
theorem inv_init (hand inW : Bool) (calls : T → List (RegCall A)) (hc : ∀ t, ∀ c ∈ calls t, Allowed hand inW c) :
    Inv hand inW (init calls) := fun t =>
  ⟨none, fun a => by simp [init], by simpa [init] using fine_calls hand inW (calls t) (hc t)⟩

theorem Inv.step {hand inW : Bool} {s s' : LockState T A} (h : Inv hand inW s) (hs : Step s s') : Inv hand inW s' := by
  cases hs with
  | rd t p hp hf =>
    intro u
    obtain ⟨o, h1, h2⟩ := h u
    refine ⟨o, h1, ?_⟩
    by_cases hu : u = t
    · subst hu
      rw [hp] at h2
      simpa using h2.2.2
    · simpa [hu] using h2
  | urd t p hp =>
    intro u
    obtain ⟨o, h1, h2⟩ := h u
    refine ⟨o, h1, ?_⟩
    by_cases hu : u = t
    · subst hu
      rw [hp] at h2
      simpa using h2.2.2.2
    · simpa [hu] using h2
  | wr t p hp hf hr =>
    intro u
    obtain ⟨o, h1, h2⟩ := h u
    refine ⟨o, h1, ?_⟩
    by_cases hu : u = t
    · subst hu
      rw [hp] at h2
      simpa using h2.2.2.2
    · rw [hf] at h2
      simpa [hu, Ne.symm hu] using h2
  | uwr t p hp =>
    have hw : s.wr = some t := by
      obtain ⟨o, -, h2⟩ := h t
      rw [hp] at h2
      simpa using h2.1
    intro u
    obtain ⟨o, h1, h2⟩ := h u
    refine ⟨o, h1, ?_⟩
    by_cases hu : u = t
    · subst hu
      rw [hp] at h2
      simpa using h2.2.2.2
    · rw [hw] at h2
      simpa [hu, Ne.symm hu] using h2
  | lk t a p hp hf =>
    intro u
    obtain ⟨o, h1, h2⟩ := h u
    by_cases hu : u = t
    · subst hu
      rw [hp] at h2
      obtain ⟨ho, -, h2⟩ := h2
      refine ⟨some a, fun b => ?_, by simpa using h2⟩
      by_cases hb : b = a
      · subst hb; simp
      · have := h1 b
        rw [ho] at this
        simp [Function.update_of_ne hb, this, Ne.symm hb]
    · refine ⟨o, fun b => ?_, by simpa [hu] using h2⟩
      by_cases hb : b = a
      · subst hb
        have := h1 b
        rw [hf] at this
        simp only [Function.update_self, Option.some.injEq, Ne.symm hu, false_iff]
        intro e
        exact absurd (this.2 e) (by simp)
      · simp only [Function.update_of_ne hb]; exact h1 b
  | ul t a p hp =>
    have hown : s.own a = some t := by
      obtain ⟨o, h1, h2⟩ := h t
      rw [hp] at h2
      exact (h1 a).2 h2.1
    intro u
    obtain ⟨o, h1, h2⟩ := h u
    by_cases hu : u = t
    · subst hu
      rw [hp] at h2
      obtain ⟨ho, h2⟩ := h2
      refine ⟨none, fun b => ?_, by simpa using h2⟩
      by_cases hb : b = a
      · subst hb; simp
      · have := h1 b
        rw [ho] at this
        simp [Function.update_of_ne hb, this, Ne.symm hb]
    · refine ⟨o, fun b => ?_, by simpa [hu] using h2⟩
      by_cases hb : b = a
      · subst hb
        have := h1 b
        rw [hown] at this
        simp only [Option.some.injEq, Ne.symm hu, false_iff] at this
        simp [this]
      · simp only [Function.update_of_ne hb]; exact h1 b

/-- A thread that holds the rwlock for reading and no mutex can go on if all mutexes are free. -/
theorem reader_goes {hand inW : Bool} {s : LockState T A} (h : Inv hand inW s) (t : T) (ht : s.prog t ≠ []) (hw : s.wr = none)
    (hfree : ∀ a, s.own a = none) (hwr : ∀ p, s.prog t ≠ .wr :: p) : ∃ s', Step s s' := by
  obtain ⟨o, h1, h2⟩ := h t
  cases hp : s.prog t with
  | nil => exact absurd hp ht
  | cons x p =>
    rw [hp] at h2
    cases x with
    | rd => exact ⟨_, .rd s t p hp hw⟩
    | urd => exact ⟨_, .urd s t p hp⟩
    | wr => exact absurd hp (hwr p)
    | uwr => exact ⟨_, .uwr s t p hp⟩
    | lk a => exact ⟨_, .lk s t a p hp (hfree a)⟩
    | ul a => exact ⟨_, .ul s t a p hp⟩

/-- If handlers do not read while a mutex is held, or nobody takes a mutex while writing, somebody can go on. -/
theorem Inv.goes {hand inW : Bool} {s : LockState T A} (h : Inv hand inW s) (hh : hand = false ∨ inW = false) (t : T)
    (ht : s.prog t ≠ []) : ∃ s', Step s s' := by
  by_cases hown : ∃ a u, s.own a = some u
  · obtain ⟨a, u, ha⟩ := hown
    obtain ⟨o, h1, h2⟩ := h u
    have ho := (h1 a).1 ha
    cases hp : s.prog u with
    | nil => rw [hp] at h2; rw [h2.2.2] at ho; simp at ho
    | cons x p =>
      rw [hp] at h2
      cases x with
      | rd =>
        have hhand : hand = true := by
          rcases h2.2.1 with e | e
          · rw [e] at ho; simp at ho
          · exact e
        have hinW : inW = false := by
          rcases hh with e | e
          · rw [e] at hhand; simp at hhand
          · exact e
        cases hw : s.wr with
        | none => exact ⟨_, .rd s u p hp hw⟩
        | some v =>
          obtain ⟨o', -, h2'⟩ := h v
          rw [show decide (s.wr = some v) = true by simp [hw]] at h2'
          cases hq : s.prog v with
          | nil => rw [hq] at h2'; simp [Fine] at h2'
          | cons y q =>
            rw [hq] at h2'
            cases y with
            | rd => simp [Fine] at h2'
            | urd => simp [Fine] at h2'
            | wr => simp [Fine] at h2'
            | uwr => exact ⟨_, .uwr s v q hq⟩
            | lk b => rw [hinW] at h2'; simp [Fine] at h2'
            | ul b => exact ⟨_, .ul s v b q hq⟩
      | urd => exact ⟨_, .urd s u p hp⟩
      | wr => rw [h2.2.2.1] at ho; simp at ho
      | uwr => exact ⟨_, .uwr s u p hp⟩
      | lk b => rw [h2.1] at ho; simp at ho
      | ul b => exact ⟨_, .ul s u b p hp⟩
  · have hfree : ∀ a, s.own a = none := fun a => by
      cases e : s.own a with
      | none => rfl
      | some u => exact absurd ⟨a, u, e⟩ hown
    cases hw : s.wr with
    | some v =>
      obtain ⟨o, -, h2⟩ := h v
      rw [show decide (s.wr = some v) = true by simp [hw]] at h2
      cases hq : s.prog v with
      | nil => rw [hq] at h2; simp [Fine] at h2
      | cons y q =>
        rw [hq] at h2
        cases y with
        | rd => simp [Fine] at h2
        | urd => simp [Fine] at h2
        | wr => simp [Fine] at h2
        | uwr => exact ⟨_, .uwr s v q hq⟩
        | lk b => exact ⟨_, .lk s v b q hq (hfree b)⟩
        | ul b => exact ⟨_, .ul s v b q hq⟩
    | none =>
      by_cases hrd : ∃ u, s.rd u ≠ 0
      · obtain ⟨u, hu⟩ := hrd
        obtain ⟨o, -, h2⟩ := h u
        refine reader_goes h u ?_ hw hfree ?_
        · intro e; rw [e] at h2; exact hu h2.1
        · intro p e; rw [e] at h2; exact hu h2.2.1
      · have hr : ∀ u, s.rd u = 0 := fun u => by
          by_contra e
          exact hrd ⟨u, e⟩
        by_cases hwr : ∃ p, s.prog t = .wr :: p
        · obtain ⟨p, hp⟩ := hwr
          exact ⟨_, .wr s t p hp hw hr⟩
        · exact reader_goes h t ht hw hfree fun p e => hwr ⟨p, e⟩

theorem Reach.inv {hand inW : Bool} {calls : T → List (RegCall A)} {s : LockState T A} (h : Reach calls s)
    (hc : ∀ t, ∀ c ∈ calls t, Allowed hand inW c) : Inv hand inW s := by
  induction h with
  | refl => exact inv_init hand inW calls hc
  | tail _ hs ih => exact ih.step hs

/-- The part that holds: without handlers that call `get_name` there is no deadlock.  Missing: those handlers. -/
theorem C54_no_handler_partial (calls : T → List (RegCall A)) (hc : ∀ t a n, RegCall.push a n ∈ calls t → n = 0)
    {s : LockState T A} (h : Reach calls s) : ¬ Deadlock s := by
  rintro ⟨⟨t, ht⟩, hno⟩
  obtain ⟨s', hs'⟩ := (h.inv (hand := false) (inW := true) (fun t c hm => by
    cases c <;> simp only [Allowed] <;> try trivial
    · exact .inl trivial
    · exact .inr (hc t _ _ hm))).goes (.inl rfl) t ht
  exact hno s' hs'

/-- The other part: with all handlers, but no call of `enable`, there is no deadlock.  Missing: `enable`. -/
theorem C54_no_enable_partial (calls : T → List (RegCall A)) (hc : ∀ t l, RegCall.enable l ∉ calls t)
    {s : LockState T A} (h : Reach calls s) : ¬ Deadlock s := by
  rintro ⟨⟨t, ht⟩, hno⟩
  obtain ⟨s', hs'⟩ := (h.inv (hand := true) (inW := false) (fun t c hm => by
    cases c <;> simp only [Allowed] <;> try trivial
    · exact absurd hm (hc t _)
    · exact .inl trivial)).goes (.inr rfl) t ht
  exact hno s' hs'

theorem step_length {s s' : LockState T A} (h : Step s s') :
    ∃ t x p, s.prog t = x :: p ∧ s'.prog = Function.update s.prog t p := by
  cases h with
  | rd t p h _ => exact ⟨t, _, p, h, rfl⟩
  | urd t p h => exact ⟨t, _, p, h, rfl⟩
  | wr t p h _ _ => exact ⟨t, _, p, h, rfl⟩
  | uwr t p h => exact ⟨t, _, p, h, rfl⟩
  | lk t a p h _ => exact ⟨t, _, p, h, rfl⟩
  | ul t a p h => exact ⟨t, _, p, h, rfl⟩

/-- Finitely many threads: every step leaves less to do, so that every execution comes to an end. -/
theorem C54_ends_partial [Fintype T] {s s' : LockState T A} (h : Step s s') :
    ∑ t, (s'.prog t).length < ∑ t, (s.prog t).length := by
  obtain ⟨t, x, p, h1, h2⟩ := step_length h
  rw [h2]
  refine Finset.sum_lt_sum (fun u _ => ?_) ⟨t, Finset.mem_univ t, ?_⟩
  · by_cases hu : u = t
    · subst hu; rw [Function.update_self, h1]; simp
    · rw [Function.update_of_ne hu]
  · rw [Function.update_self, h1]; simp

/-- Without those handlers, or without `enable`, every execution that cannot go on has completed all calls, and
nothing is locked. -/
theorem C54_completes_partial (calls : T → List (RegCall A))
    (hc : (∀ t a n, RegCall.push a n ∈ calls t → n = 0) ∨ (∀ t l, RegCall.enable l ∉ calls t))
    {s : LockState T A} (h : Reach calls s) (hs : ∀ s', ¬ Step s s') :
    (∀ t, s.prog t = []) ∧ (∀ t, s.rd t = 0) ∧ s.wr = none ∧ ∀ a, s.own a = none := by
  have hnil : ∀ t, s.prog t = [] := fun t => by
    by_contra ht
    rcases hc with hc | hc
    · exact C54_no_handler_partial calls hc h ⟨⟨t, ht⟩, hs⟩
    · exact C54_no_enable_partial calls hc h ⟨⟨t, ht⟩, hs⟩
  have hi := h.inv (hand := true) (inW := true) (fun t c _ => by
    cases c <;> simp only [Allowed] <;> try trivial
    · exact .inl trivial
    · exact .inl trivial)
  refine ⟨hnil, fun t => ?_, ?_, fun a => ?_⟩
  · obtain ⟨o, -, h2⟩ := hi t
    rw [hnil t] at h2
    exact h2.1
  · cases hw : s.wr with
    | none => rfl
    | some u =>
      obtain ⟨o, -, h2⟩ := hi u
      rw [hnil u, hw] at h2
      simp [Fine] at h2
  · cases ha : s.own a with
    | none => rfl
    | some u =>
      obtain ⟨o, h1, h2⟩ := hi u
      rw [hnil u] at h2
      rw [(h1 a).1 ha] at h2
      simp [Fine] at h2

/-- A thread that holds the mutex `a` while the
registry is being read by another thread can call `get_name`. -/
example : ∃ s : LockState Bool Unit, Reach (fun t => if t then [.push () 2] else [.popAll [some ()]]) s ∧
    s.rd true = 1 ∧ s.rd false = 1 ∧ s.own () = some true := by
  let s0 : LockState Bool Unit := init (fun t => if t then [.push () 2] else [.popAll [some ()]])
  let s1 : LockState Bool Unit :=
    { s0 with prog := Function.update s0.prog true [.rd, .urd, .rd, .urd, .ul ()], own := Function.update s0.own () (some true) }
  let s2 : LockState Bool Unit :=
    { s1 with prog := Function.update s1.prog false [.rd, .urd, .lk (), .ul (), .lk (), .ul (), .urd], rd := Function.update s1.rd false 1 }
  let s3 : LockState Bool Unit :=
    { s2 with prog := Function.update s2.prog true [.urd, .rd, .urd, .ul ()], rd := Function.update s2.rd true 1 }
  exact ⟨s3, ((ReflTransGen.refl.tail (.lk s0 true () _ rfl rfl)).tail (.rd s1 false _ rfl rfl)).tail (.rd s2 true _ rfl rfl),
    rfl, rfl, rfl⟩

end LockState
end Wrtstat
