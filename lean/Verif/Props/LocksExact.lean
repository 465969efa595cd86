/-
C182: which calls of threads can deadlock in the registry, exactly.
-/
import Verif.Props.RegistryLocks

namespace Wrtstat

set_option autoImplicit false

open Relation

namespace LockState

variable {T A : Type} [DecidableEq T] [DecidableEq A]

/-! ### When there is no deadlock -/

/-- As `Fine`, with the mutexes under which it may read, and those it may take while writing. -/
def FineOf (H W : A → Prop) : Nat → Bool → Option A → List (LockAct A) → Prop
  | n, w, o, [] => n = 0 ∧ w = false ∧ o = none
  | n, w, o, .rd :: p => w = false ∧ (∀ a, o = some a → H a) ∧ FineOf H W (n + 1) w o p
  | n, w, o, .urd :: p => w = false ∧ 0 < n ∧ FineOf H W (n - 1) w o p
  | n, w, o, .wr :: p => w = false ∧ n = 0 ∧ o = none ∧ FineOf H W n true o p
  | n, w, o, .uwr :: p => w = true ∧ n = 0 ∧ o = none ∧ FineOf H W n false o p
  | n, w, o, .lk a :: p => o = none ∧ (w = true → W a) ∧ FineOf H W n w (some a) p
  | n, w, o, .ul a :: p => o = some a ∧ FineOf H W n w none p

/-- The mutexes under which the calls read; those they take while writing. -/
def handled (cs : List (RegCall A)) (a : A) : Prop := ∃ n, RegCall.push a (n + 1) ∈ cs
def enabled (cs : List (RegCall A)) (a : A) : Prop := ∃ l, RegCall.enable l ∈ cs ∧ a ∈ l

omit [DecidableEq A] in
theorem fineOf_call (H W : A → Prop) (c : RegCall A) (hH : ∀ a n, c = .push a (n + 1) → H a) (hW : ∀ l a, c = .enable l → a ∈ l → W a)
    (p : List (LockAct A)) (hp : FineOf H W 0 false none p) : FineOf H W 0 false none (c.acts ++ p) := by
  have n0 : ∀ a, (none : Option A) = some a → H a := fun a h => by cases h
  have f0 : ∀ a, false = true → W a := fun a h => by cases h
  cases c with
  | look => exact ⟨rfl, n0, rfl, by omega, hp⟩
  | change => exact ⟨rfl, rfl, rfl, rfl, rfl, rfl, hp⟩
  | use a => exact ⟨rfl, n0, rfl, by omega, rfl, f0 a, rfl, hp⟩
  | named a => exact ⟨rfl, rfl, rfl, rfl, rfl, rfl, rfl, n0, rfl, by omega, rfl, f0 a, rfl, hp⟩
  | popAll l =>
    simp only [RegCall.acts, List.append_assoc, List.cons_append, List.nil_append]
    refine ⟨rfl, n0, ?_⟩
    clear hH hW
    induction l with
    | nil => exact ⟨rfl, by omega, hp⟩
    | cons o l ih =>
      cases o with
      | none =>
        simp only [List.flatMap_cons, List.cons_append, List.nil_append]
        exact ⟨rfl, n0, rfl, by omega, ih⟩
      | some a =>
        simp only [List.flatMap_cons, List.cons_append, List.nil_append]
        exact ⟨rfl, n0, rfl, by omega, rfl, f0 a, rfl, rfl, f0 a, rfl, ih⟩
  | enable l =>
    simp only [RegCall.acts, List.append_assoc, List.cons_append, List.nil_append]
    refine ⟨rfl, rfl, rfl, ?_⟩
    have hl : ∀ a ∈ l, W a := fun a h => hW l a rfl h
    clear hH hW
    induction l with
    | nil => exact ⟨rfl, rfl, rfl, hp⟩
    | cons a l ih =>
      simp only [List.flatMap_cons, List.cons_append, List.nil_append]
      exact ⟨rfl, fun _ => hl a (by simp), rfl, ih fun b h => hl b (by simp [h])⟩
  | push a n =>
    simp only [RegCall.acts, List.append_assoc, List.cons_append, List.nil_append]
    refine ⟨rfl, f0 a, ?_⟩
    cases n with
    | zero => exact ⟨rfl, hp⟩
    | succ n =>
      have ha : ∀ b, some a = some b → H b := fun b h => by cases h; exact hH a n rfl
      clear hH hW
      generalize n + 1 = k
      induction k with
      | zero => exact ⟨rfl, hp⟩
      | succ k ih =>
        simp only [List.replicate_succ, List.flatten_cons, List.cons_append, List.nil_append]
        exact ⟨rfl, ha, rfl, by omega, ih⟩

omit [DecidableEq A] in
theorem fineOf_calls (H W : A → Prop) (cs : List (RegCall A)) (hH : ∀ a, handled cs a → H a) (hW : ∀ a, enabled cs a → W a) :
    FineOf H W 0 false none (cs.flatMap RegCall.acts) := by
  induction cs with
  | nil => exact ⟨rfl, rfl, rfl⟩
  | cons c cs ih =>
    rw [List.flatMap_cons]
    refine fineOf_call H W c (fun a n e => hH a ⟨n, by simp [e]⟩) (fun l a e h => hW a ⟨l, by simp [e], h⟩) _
      (ih (fun a h => hH a ?_) (fun a h => hW a ?_))
    · obtain ⟨n, h⟩ := h; exact ⟨n, by simp [h]⟩
    · obtain ⟨l, h, h'⟩ := h; exact ⟨l, by simp [h], h'⟩

/-- Every thread goes on in such a way. -/
def InvOf (H W : T → A → Prop) (s : LockState T A) : Prop :=
  ∀ t, ∃ o, (∀ a, s.own a = some t ↔ o = some a) ∧ FineOf (H t) (W t) (s.rd t) (decide (s.wr = some t)) o (s.prog t)

theorem InvOf.step {H W : T → A → Prop} {s s' : LockState T A} (h : InvOf H W s) (hs : Step s s') : InvOf H W s' := by
  cases hs with
  | rd t p hp hf =>
    intro u
    obtain ⟨o, h1, h2⟩ := h u
    refine ⟨o, h1, ?_⟩
    by_cases hu : u = t
    · subst hu
      rw [hp] at h2
      simpa using h2.2.2
    · simpa [hu] using h2
  | urd t p hp =>
    intro u
    obtain ⟨o, h1, h2⟩ := h u
    refine ⟨o, h1, ?_⟩
    by_cases hu : u = t
    · subst hu
      rw [hp] at h2
      simpa using h2.2.2
    · simpa [hu] using h2
  | wr t p hp hf hr =>
    intro u
    obtain ⟨o, h1, h2⟩ := h u
    refine ⟨o, h1, ?_⟩
    by_cases hu : u = t
    · subst hu
      rw [hp] at h2
      simpa using h2.2.2.2
    · rw [hf] at h2
      simpa [hu, Ne.symm hu] using h2
  | uwr t p hp =>
    have hw : s.wr = some t := by
      obtain ⟨o, -, h2⟩ := h t
      rw [hp] at h2
      simpa using h2.1
    intro u
    obtain ⟨o, h1, h2⟩ := h u
    refine ⟨o, h1, ?_⟩
    by_cases hu : u = t
    · subst hu
      rw [hp] at h2
      simpa using h2.2.2.2
    · rw [hw] at h2
      simpa [hu, Ne.symm hu] using h2
  | lk t a p hp hf =>
    intro u
    obtain ⟨o, h1, h2⟩ := h u
    by_cases hu : u = t
    · subst hu
      rw [hp] at h2
      obtain ⟨ho, -, h2⟩ := h2
      refine ⟨some a, fun b => ?_, by simpa using h2⟩
      by_cases hb : b = a
      · subst hb; simp
      · have := h1 b
        rw [ho] at this
        simp [Function.update_of_ne hb, this, Ne.symm hb]
    · refine ⟨o, fun b => ?_, by simpa [hu] using h2⟩
      by_cases hb : b = a
      · subst hb
        have := h1 b
        rw [hf] at this
        simp only [Function.update_self, Option.some.injEq, Ne.symm hu, false_iff]
        intro e
        exact absurd (this.2 e) (by simp)
      · simp only [Function.update_of_ne hb]; exact h1 b
  | ul t a p hp =>
    have hown : s.own a = some t := by
      obtain ⟨o, h1, h2⟩ := h t
      rw [hp] at h2
      exact (h1 a).2 h2.1
    intro u
    obtain ⟨o, h1, h2⟩ := h u
    by_cases hu : u = t
    · subst hu
      rw [hp] at h2
      obtain ⟨ho, h2⟩ := h2
      refine ⟨none, fun b => ?_, by simpa using h2⟩
      by_cases hb : b = a
      · subst hb; simp
      · have := h1 b
        rw [ho] at this
        simp [Function.update_of_ne hb, this, Ne.symm hb]
    · refine ⟨o, fun b => ?_, by simpa [hu] using h2⟩
      by_cases hb : b = a
      · subst hb
        have := h1 b
        rw [hown] at this
        simp only [Option.some.injEq, Ne.symm hu, false_iff] at this
        simp [this]
      · simp only [Function.update_of_ne hb]; exact h1 b

theorem Reach.invOf {calls : T → List (RegCall A)} {s : LockState T A} (h : Reach calls s) :
    InvOf (fun t => handled (calls t)) (fun t => enabled (calls t)) s := by
  induction h with
  | refl =>
    exact fun t => ⟨none, fun a => by simp [init], by simpa [init] using fineOf_calls _ _ (calls t) (fun _ h => h) (fun _ h => h)⟩
  | tail _ hs ih => exact ih.step hs

/-- The one that has a mutex can go on, unless it wants to read. -/
theorem InvOf.owner {H W : T → A → Prop} {s : LockState T A} (h : InvOf H W s) {a : A} {u : T} (ha : s.own a = some u) :
    (∃ s', Step s s') ∨ ∃ p, s.prog u = .rd :: p ∧ H u a ∧ s.wr ≠ none ∧ s.wr ≠ some u := by
  obtain ⟨o, h1, h2⟩ := h u
  have ho := (h1 a).1 ha
  cases hp : s.prog u with
  | nil => rw [hp] at h2; rw [h2.2.2] at ho; simp at ho
  | cons x p =>
    rw [hp] at h2
    cases x with
    | rd =>
      cases hw : s.wr with
      | none => exact .inl ⟨_, .rd s u p hp hw⟩
      | some v =>
        refine .inr ⟨p, rfl, h2.2.1 a ho, by simp, ?_⟩
        have := h2.1
        rw [hw] at this
        simpa using this
    | urd => exact .inl ⟨_, .urd s u p hp⟩
    | wr => rw [h2.2.2.1] at ho; simp at ho
    | uwr => exact .inl ⟨_, .uwr s u p hp⟩
    | lk b => rw [h2.1] at ho; simp at ho
    | ul b => exact .inl ⟨_, .ul s u b p hp⟩

/-- If no thread reads under a mutex that another one takes while writing, somebody can go on. -/
theorem InvOf.goes {H W : T → A → Prop} {s : LockState T A} (h : InvOf H W s) (hh : ∀ t u a, t ≠ u → H t a → ¬ W u a) (t : T)
    (ht : s.prog t ≠ []) : ∃ s', Step s s' := by
  cases hw : s.wr with
  | some v =>
    obtain ⟨o', -, h2'⟩ := h v
    rw [show decide (s.wr = some v) = true by simp [hw]] at h2'
    cases hq : s.prog v with
    | nil => rw [hq] at h2'; simp [FineOf] at h2'
    | cons y q =>
      rw [hq] at h2'
      cases y with
      | rd => simp [FineOf] at h2'
      | urd => simp [FineOf] at h2'
      | wr => simp [FineOf] at h2'
      | uwr => exact ⟨_, .uwr s v q hq⟩
      | lk b =>
        cases hb : s.own b with
        | none => exact ⟨_, .lk s v b q hq hb⟩
        | some w =>
          rcases h.owner hb with x | ⟨p, hp, h3, -, h4⟩
          · exact x
          · exact absurd (h2'.2.1 rfl) (hh w v b (fun e => h4 (by rw [hw, e])) h3)
      | ul b => exact ⟨_, .ul s v b q hq⟩
  | none =>
    by_cases hown : ∃ a u, s.own a = some u
    · obtain ⟨a, u, ha⟩ := hown
      rcases h.owner ha with x | ⟨p, -, -, h4, -⟩
      · exact x
      · exact absurd hw h4
    · have hfree : ∀ a, s.own a = none := fun a => by
        cases e : s.own a with
        | none => rfl
        | some u => exact absurd ⟨a, u, e⟩ hown
      have go : ∀ u, s.prog u ≠ [] → (∀ p, s.prog u ≠ .wr :: p) → ∃ s', Step s s' := by
        intro u hu hwr
        cases hp : s.prog u with
        | nil => exact absurd hp hu
        | cons x p =>
          cases x with
          | rd => exact ⟨_, .rd s u p hp hw⟩
          | urd => exact ⟨_, .urd s u p hp⟩
          | wr => exact absurd hp (hwr p)
          | uwr => exact ⟨_, .uwr s u p hp⟩
          | lk a => exact ⟨_, .lk s u a p hp (hfree a)⟩
          | ul a => exact ⟨_, .ul s u a p hp⟩
      by_cases hrd : ∃ u, s.rd u ≠ 0
      · obtain ⟨u, hu⟩ := hrd
        obtain ⟨o, -, h2⟩ := h u
        refine go u ?_ ?_
        · intro e; rw [e] at h2; exact hu h2.1
        · intro p e; rw [e] at h2; exact hu h2.2.1
      · have hr : ∀ u, s.rd u = 0 := fun u => by
          by_contra e
          exact hrd ⟨u, e⟩
        by_cases hwr : ∃ p, s.prog t = .wr :: p
        · obtain ⟨p, hp⟩ := hwr
          exact ⟨_, .wr s t p hp hw hr⟩
        · exact go t ht fun p e => hwr ⟨p, e⟩

/-! ### When there is one -/

/-- Thread `t` can come to `p` in its program, and nothing else is different then. -/
def Comes (s : LockState T A) (t : T) (p : List (LockAct A)) : Prop :=
  ∃ s', ReflTransGen Step s s' ∧ s'.prog = Function.update s.prog t p ∧ s'.rd = s.rd ∧ s'.wr = s.wr ∧ s'.own = s.own

theorem Comes.refl (s : LockState T A) (t : T) {p : List (LockAct A)} (h : s.prog t = p) : Comes s t p :=
  ⟨s, .refl, by rw [← h, Function.update_eq_self], rfl, rfl, rfl⟩

theorem Comes.bind {s : LockState T A} {t : T} {p q : List (LockAct A)} (h : Comes s t p)
    (h' : ∀ s', s'.prog t = p → s'.rd = s.rd → s'.wr = s.wr → s'.own = s.own → Comes s' t q) : Comes s t q := by
  obtain ⟨s1, e1, e2, e3, e4, e5⟩ := h
  obtain ⟨s2, f1, f2, f3, f4, f5⟩ := h' s1 (by rw [e2, Function.update_self]) e3 e4 e5
  exact ⟨s2, e1.trans f1, by rw [f2, e2, Function.update_idem], f3.trans e3, f4.trans e4, f5.trans e5⟩

theorem comes_read {s : LockState T A} {t : T} {p : List (LockAct A)} (h : s.prog t = .rd :: .urd :: p) (hw : s.wr = none) : Comes s t p := by
  have g1 := Step.rd s t _ h hw
  have g2 := Step.urd { s with prog := Function.update s.prog t (.urd :: p), rd := Function.update s.rd t (s.rd t + 1) } t p (Function.update_self _ _ _)
  exact ⟨_, (ReflTransGen.single g1).tail g2, by simp, by simp, rfl, rfl⟩

theorem comes_mutex {s : LockState T A} {t : T} {a : A} {p : List (LockAct A)} (h : s.prog t = .lk a :: .ul a :: p) (ho : s.own a = none) :
    Comes s t p := by
  have g1 := Step.lk s t a _ h ho
  have g2 := Step.ul { s with prog := Function.update s.prog t (.ul a :: p), own := Function.update s.own a (some t) } t a p (Function.update_self _ _ _)
  refine ⟨_, (ReflTransGen.single g1).tail g2, by simp, rfl, rfl, ?_⟩
  simp only [Function.update_idem]
  rw [← ho, Function.update_eq_self]

theorem comes_mutexes {s : LockState T A} {t : T} (l : List A) {p : List (LockAct A)} (h : s.prog t = l.flatMap (fun a => [.lk a, .ul a]) ++ p)
    (ho : ∀ a ∈ l, s.own a = none) : Comes s t p := by
  induction l generalizing s with
  | nil => exact .refl s t h
  | cons a l ih =>
    simp only [List.flatMap_cons, List.cons_append, List.nil_append] at h
    refine (comes_mutex h (ho a (by simp))).bind fun s' e1 e2 e3 e4 => ih e1 fun b hb => ?_
    rw [e4]
    exact ho b (by simp [hb])

theorem comes_handlers {s : LockState T A} {t : T} (n : Nat) {p : List (LockAct A)} (h : s.prog t = (List.replicate n [.rd, .urd]).flatten ++ p)
    (hw : s.wr = none) : Comes s t p := by
  induction n generalizing s with
  | zero => exact .refl s t h
  | succ n ih =>
    simp only [List.replicate_succ, List.flatten_cons, List.cons_append, List.nil_append] at h
    exact (comes_read h hw).bind fun s' e1 e2 e3 e4 => ih e1 (e3.trans hw)

theorem comes_positions {s : LockState T A} {t : T} (l : List (Option A)) {p : List (LockAct A)}
    (h : s.prog t = l.flatMap (fun o =>
      match o with
      | none => [.rd, .urd]
      | some a => [.rd, .urd, .lk a, .ul a, .lk a, .ul a]) ++ p)
    (hw : s.wr = none) (ho : ∀ a, s.own a = none) : Comes s t p := by
  induction l generalizing s with
  | nil => exact .refl s t h
  | cons o l ih =>
    cases o with
    | none =>
      simp only [List.flatMap_cons, List.cons_append, List.nil_append] at h
      exact (comes_read h hw).bind fun s' e1 e2 e3 e4 => ih e1 (e3.trans hw) fun a => by rw [e4]; exact ho a
    | some a =>
      simp only [List.flatMap_cons, List.cons_append, List.nil_append] at h
      exact (comes_read h hw).bind fun s1 e1 e2 e3 e4 => (comes_mutex e1 (by rw [e4]; exact ho a)).bind fun s2 f1 f2 f3 f4 =>
        (comes_mutex f1 (by rw [f4, e4]; exact ho a)).bind fun s3 g1 g2 g3 g4 =>
          ih g1 (g3.trans (f3.trans (e3.trans hw))) fun b => by rw [g4, f4, e4]; exact ho b

/-- Nothing is locked. -/
def Unlocked (s : LockState T A) : Prop := s.wr = none ∧ (∀ u, s.rd u = 0) ∧ ∀ a, s.own a = none

theorem comes_call {s : LockState T A} {t : T} (c : RegCall A) {p : List (LockAct A)} (h : s.prog t = c.acts ++ p) (hu : Unlocked s) : Comes s t p := by
  obtain ⟨hw, hr, ho⟩ := hu
  have wrote : ∀ {s : LockState T A} {p : List (LockAct A)}, s.prog t = .wr :: .uwr :: p → s.wr = none → (∀ u, s.rd u = 0) → Comes s t p := by
    intro s p h hw hr
    have g1 := Step.wr s t _ h hw hr
    have g2 := Step.uwr { s with prog := Function.update s.prog t (.uwr :: p), wr := some t } t p (Function.update_self _ _ _)
    exact ⟨_, (ReflTransGen.single g1).tail g2, by simp, rfl, hw.symm, rfl⟩
  cases c with
  | look => exact comes_read h hw
  | change => exact wrote h hw hr
  | use a => exact (comes_read h hw).bind fun s' e1 e2 e3 e4 => comes_mutex e1 (by rw [e4]; exact ho a)
  | named a =>
    exact (wrote h hw hr).bind fun s1 e1 e2 e3 e4 => (comes_read e1 (e3.trans hw)).bind fun s' f1 f2 f3 f4 =>
      comes_mutex f1 (by rw [f4, e4]; exact ho a)
  | popAll l =>
    simp only [RegCall.acts, List.append_assoc, List.cons_append, List.nil_append] at h
    obtain ⟨s2, f1, f2, f3, f4, f5⟩ := comes_positions (s := { s with prog := Function.update s.prog t _, rd := Function.update s.rd t (s.rd t + 1) })
      (t := t) l (Function.update_self t _ s.prog) hw ho
    refine ⟨_, ((ReflTransGen.single (.rd s t _ h hw)).trans f1).tail (.urd s2 t p (by rw [f2, Function.update_self])), ?_, ?_, f4, f5⟩
    · simp [f2]
    · simp [f3]
  | enable l =>
    simp only [RegCall.acts, List.append_assoc, List.cons_append, List.nil_append] at h
    obtain ⟨s2, f1, f2, f3, f4, f5⟩ := comes_mutexes (s := { s with prog := Function.update s.prog t _, wr := some t })
      (t := t) l (Function.update_self t _ s.prog) (fun a _ => ho a)
    refine ⟨_, ((ReflTransGen.single (.wr s t _ h hw hr)).trans f1).tail (.uwr s2 t p (by rw [f2, Function.update_self])), ?_, f3, hw.symm, f5⟩
    simp [f2]
  | push a n =>
    simp only [RegCall.acts, List.append_assoc, List.cons_append, List.nil_append] at h
    obtain ⟨s2, f1, f2, f3, f4, f5⟩ := comes_handlers (s := { s with prog := Function.update s.prog t _, own := Function.update s.own a (some t) })
      (t := t) n (Function.update_self t _ s.prog) hw
    refine ⟨_, ((ReflTransGen.single (.lk s t a _ h (ho a))).trans f1).tail (.ul s2 t a p (by rw [f2, Function.update_self])), ?_, f3, f4, ?_⟩
    · simp [f2]
    · simp only [f5, Function.update_idem]
      rw [← ho a, Function.update_eq_self]

theorem comes_calls {s : LockState T A} {t : T} (cs : List (RegCall A)) {p : List (LockAct A)} (h : s.prog t = cs.flatMap RegCall.acts ++ p)
    (hu : Unlocked s) : Comes s t p := by
  induction cs generalizing s with
  | nil => exact .refl s t h
  | cons c cs ih =>
    rw [List.flatMap_cons, List.append_assoc] at h
    exact (comes_call c h hu).bind fun s' e1 e2 e3 e4 => ih e1 ⟨e3.trans hu.1, fun u => by rw [e2]; exact hu.2.1 u, fun a => by rw [e4]; exact hu.2.2 a⟩

/-- Thread `t` has the mutex `a` and wants to read, `u` writes and wants the mutex. -/
structure Stuck (t u : T) (a : A) (p q : List (LockAct A)) (s : LockState T A) : Prop where
  reads : s.prog t = .rd :: p
  takes : s.prog u = .lk a :: q
  wr : s.wr = some u
  own : s.own a = some t

/-- They are so for ever. -/
theorem Stuck.step {H W : T → A → Prop} {t u : T} {a : A} {p q : List (LockAct A)} {s s' : LockState T A} (h : Stuck t u a p q s)
    (hi : InvOf H W s) (hs : Step s s') : Stuck t u a p q s' := by
  obtain ⟨hp, hq, hw, ho⟩ := h
  have stay : ∀ (v : T) (x : LockAct A) (r : List (LockAct A)), s.prog v = x :: r → x ≠ .rd → x ≠ .lk a →
      Function.update s.prog v r t = .rd :: p ∧ Function.update s.prog v r u = .lk a :: q := by
    intro v x r hv h1 h2
    have ht : t ≠ v := fun e => by rw [← e, hp] at hv; cases hv; exact h1 rfl
    have hu : u ≠ v := fun e => by rw [← e, hq] at hv; cases hv; exact h2 rfl
    exact ⟨by rw [Function.update_of_ne ht, hp], by rw [Function.update_of_ne hu, hq]⟩
  cases hs with
  | rd v r hv hf => rw [hw] at hf; cases hf
  | urd v r hv =>
    obtain ⟨h1, h2⟩ := stay v _ r hv (by simp) (by simp)
    exact ⟨h1, h2, hw, ho⟩
  | wr v r hv hf hr => rw [hw] at hf; cases hf
  | uwr v r hv =>
    obtain ⟨o, -, h2⟩ := hi v
    rw [hv] at h2
    have := h2.1
    rw [hw] at this
    have e : u = v := by simpa using this
    rw [← e, hq] at hv
    cases hv
  | lk v b r hv hf =>
    have hb : b ≠ a := fun e => by rw [e, ho] at hf; cases hf
    obtain ⟨h1, h2⟩ := stay v _ r hv (by simp) (fun e => by cases e; exact hb rfl)
    exact ⟨h1, h2, hw, by show Function.update s.own b (some v) a = _; rw [Function.update_of_ne hb.symm, ho]⟩
  | ul v b r hv =>
    obtain ⟨o, h1', h2'⟩ := hi v
    rw [hv] at h2'
    have hbv := (h1' b).2 h2'.1
    have hb : b ≠ a := fun e => by
      rw [e, ho] at hbv
      cases hbv
      rw [hp] at hv
      cases hv
    obtain ⟨h1, h2⟩ := stay v _ r hv (by simp) (by simp)
    exact ⟨h1, h2, hw, by show Function.update s.own b none a = _; rw [Function.update_of_ne hb.symm, ho]⟩

/-- Two threads come to be stuck. -/
theorem gets_stuck {calls : T → List (RegCall A)} {t u : T} (htu : t ≠ u) {a : A} (ht : handled (calls t) a) (hu : enabled (calls u) a) :
    ∃ s p q, Reach calls s ∧ Stuck t u a p q s := by
  obtain ⟨n, hn⟩ := ht
  obtain ⟨l, hl, hal⟩ := hu
  obtain ⟨c1, c2, hc⟩ := List.append_of_mem hn
  obtain ⟨d1, d2, hd⟩ := List.append_of_mem hl
  obtain ⟨l1, l2, hll, hna⟩ := List.eq_append_cons_of_mem hal
  have pt : (init calls).prog t = c1.flatMap RegCall.acts ++ ((RegCall.push a (n + 1)).acts ++ c2.flatMap RegCall.acts) := by
    show (calls t).flatMap RegCall.acts = _
    rw [hc, List.flatMap_append, List.flatMap_cons]
  have pu : (init calls).prog u = d1.flatMap RegCall.acts ++ ((RegCall.enable l).acts ++ d2.flatMap RegCall.acts) := by
    show (calls u).flatMap RegCall.acts = _
    rw [hd, List.flatMap_append, List.flatMap_cons]
  have h0 : Unlocked (init calls) := ⟨rfl, fun _ => rfl, fun _ => rfl⟩
  obtain ⟨s1, e1, e2, e3, e4, e5⟩ := comes_calls c1 pt h0
  have h1 : Unlocked s1 := ⟨e4, fun v => by rw [e3]; rfl, fun b => by rw [e5]; rfl⟩
  obtain ⟨s2, f1, f2, f3, f4, f5⟩ := comes_calls (s := s1) (t := u) d1 (by rw [e2, Function.update_of_ne htu.symm]; exact pu) h1
  have h2 : Unlocked s2 := ⟨f4.trans h1.1, fun v => by rw [f3]; exact h1.2.1 v, fun b => by rw [f5]; exact h1.2.2 b⟩
  have qt : s2.prog t = .lk a :: .rd :: .urd :: ((List.replicate n [.rd, .urd]).flatten ++ ([.ul a] ++ c2.flatMap RegCall.acts)) := by
    rw [f2, Function.update_of_ne htu, e2, Function.update_self]
    simp [RegCall.acts, List.replicate_succ]
  have qu : s2.prog u = .wr :: (l1.flatMap (fun a => [.lk a, .ul a]) ++ (.lk a :: .ul a :: (l2.flatMap (fun a => [.lk a, .ul a]) ++ ([.uwr] ++ d2.flatMap RegCall.acts)))) := by
    rw [f2, Function.update_self, hll]
    simp [RegCall.acts]
  have g1 := Step.lk s2 t a _ qt (h2.2.2 a)
  have g2 := Step.wr _ u _ (by show Function.update s2.prog t _ u = _; rw [Function.update_of_ne htu.symm]; exact qu) h2.1 h2.2.1 |> fun x => (ReflTransGen.single g1).tail x
  obtain ⟨s3, k1, k2, k3, k4, k5⟩ := comes_mutexes (t := u) (s := { s2 with
      prog := Function.update (Function.update s2.prog t (.rd :: .urd :: ((List.replicate n [.rd, .urd]).flatten ++ ([.ul a] ++ c2.flatMap RegCall.acts)))) u
        (l1.flatMap (fun a => [.lk a, .ul a]) ++ (.lk a :: .ul a :: (l2.flatMap (fun a => [.lk a, .ul a]) ++ ([.uwr] ++ d2.flatMap RegCall.acts)))),
      own := Function.update s2.own a (some t), wr := some u }) l1 (Function.update_self u _ _) (fun b hb => by
    have hba : b ≠ a := fun e => hna (e ▸ hb)
    show Function.update s2.own a (some t) b = none
    rw [Function.update_of_ne hba]
    exact h2.2.2 b)
  refine ⟨s3, .urd :: ((List.replicate n [.rd, .urd]).flatten ++ ([.ul a] ++ c2.flatMap RegCall.acts)),
    .ul a :: (l2.flatMap (fun a => [.lk a, .ul a]) ++ ([.uwr] ++ d2.flatMap RegCall.acts)), ((e1.trans f1).trans g2).trans k1, ?_, ?_, k4, ?_⟩
  · rw [k2, Function.update_of_ne htu]
    show Function.update _ u _ t = _
    rw [Function.update_of_ne htu, Function.update_self]
  · rw [k2, Function.update_self]
  · rw [k5]
    exact Function.update_self a _ _

/-! ### C182 -/

/-- Threads can deadlock exactly if one of them pushes to an aggregator with a handler that asks for the name while another one calls `enable`
when that aggregator is in the registry. -/
theorem C182_exact [Fintype T] (calls : T → List (RegCall A)) :
    (∃ s, Reach calls s ∧ Deadlock s) ↔
      ∃ t u, t ≠ u ∧ ∃ a n l, RegCall.push a (n + 1) ∈ calls t ∧ RegCall.enable l ∈ calls u ∧ a ∈ l := by
  constructor
  · rintro ⟨s, h, ⟨t, ht⟩, hno⟩
    by_contra hx
    obtain ⟨s', hs'⟩ := h.invOf.goes (fun t u a htu hH hW => by
      obtain ⟨n, h1⟩ := hH
      obtain ⟨l, h2, h3⟩ := hW
      exact hx ⟨t, u, htu, a, n, l, h1, h2, h3⟩) t ht
    exact hno s' hs'
  · rintro ⟨t, u, htu, a, n, l, h1, h2, h3⟩
    obtain ⟨s, p, q, hr, hs⟩ := gets_stuck htu ⟨n, h1⟩ ⟨l, h2, h3⟩
    have fin : ∀ (k : Nat) (s : LockState T A), Reach calls s → Stuck t u a p q s → ∑ v, (s.prog v).length ≤ k →
        ∃ s', Reach calls s' ∧ Deadlock s' := by
      intro k
      induction k with
      | zero =>
        intro s hr hs hk
        have hp := hs.reads
        have := Finset.single_le_sum (f := fun v => (s.prog v).length) (fun _ _ => Nat.zero_le _) (Finset.mem_univ t)
        simp only [hp, List.length_cons] at this
        omega
      | succ k ih =>
        intro s hr hs hk
        by_cases hgo : ∃ s', Step s s'
        · obtain ⟨s', h'⟩ := hgo
          have := C54_ends_partial h'
          exact ih s' (hr.tail h') (hs.step hr.invOf h') (by omega)
        · have hp := hs.reads
          exact ⟨s, hr, ⟨t, by rw [hp]; simp⟩, fun s' h' => hgo ⟨s', h'⟩⟩
    exact fin _ s hr hs (Nat.le_refl _)

/-- Two threads that are stuck stay so, whatever the others do. -/
theorem C182_for_ever (calls : T → List (RegCall A)) (t u : T) (a : A) (p q : List (LockAct A)) (s s' : LockState T A) (h : Reach calls s)
    (ht : s.prog t = .rd :: p) (hu : s.prog u = .lk a :: q) (hw : s.wr = some u) (ho : s.own a = some t) (h' : ReflTransGen Step s s') :
    s'.prog t = .rd :: p ∧ s'.prog u = .lk a :: q := by
  have key : Stuck t u a p q s' ∧ Reach calls s' := by
    induction h' with
    | refl => exact ⟨⟨ht, hu, hw, ho⟩, h⟩
    | tail _ hs ih => exact ⟨ih.1.step ih.2.invOf hs, ih.2.tail hs⟩
  exact ⟨key.1.reads, key.1.takes⟩

/-- Infinitely many threads do not deadlock either without such a pair of calls. -/
theorem C182_free (calls : T → List (RegCall A))
    (h : ¬ ∃ t u, t ≠ u ∧ ∃ a n l, RegCall.push a (n + 1) ∈ calls t ∧ RegCall.enable l ∈ calls u ∧ a ∈ l) (s : LockState T A) (hs : Reach calls s) (t : T)
    (ht : s.prog t ≠ []) : ∃ s', Step s s' :=
  hs.invOf.goes (fun t u a htu hH hW => by
    obtain ⟨n, h1⟩ := hH
    obtain ⟨l, h2, h3⟩ := hW
    exact h ⟨t, u, htu, a, n, l, h1, h2, h3⟩) t ht

/-- With one, two of them can come to be blocked for ever. -/
theorem C182_blocks (calls : T → List (RegCall A)) (t u : T) (htu : t ≠ u) (a : A) (n : Nat) (l : List A) (h1 : RegCall.push a (n + 1) ∈ calls t)
    (h2 : RegCall.enable l ∈ calls u) (h3 : a ∈ l) :
    ∃ s, Reach calls s ∧ s.prog t ≠ [] ∧ s.prog u ≠ [] ∧ ∀ s', ReflTransGen Step s s' → s'.prog t = s.prog t ∧ s'.prog u = s.prog u := by
  obtain ⟨s, p, q, hr, hs⟩ := gets_stuck htu ⟨n, h1⟩ ⟨l, h2, h3⟩
  refine ⟨s, hr, by rw [hs.reads]; simp, by rw [hs.takes]; simp, fun s' h' => ?_⟩
  rw [hs.reads, hs.takes]
  exact C182_for_ever calls t u a p q s s' hr hs.reads hs.takes hs.wr hs.own h'

/-- One handler and one `enable` of the same aggregator suffice, in two threads; in one thread they do no harm, nor does `enable` of others. -/
example : ∃ s, Reach (fun b : Bool => if b then [RegCall.look, .push (7 : Nat) 1] else [.change, .enable [3, 7]]) s ∧ Deadlock s :=
  (C182_exact _).2 ⟨true, false, by decide, 7, 0, [3, 7], by simp, by simp, by simp⟩

example : ¬ ∃ s, Reach (fun b : Bool => if b then [RegCall.push (7 : Nat) 1, .enable [3, 7]] else [.change, .enable [3], .push 7 0]) s ∧ Deadlock s := by
  rw [C182_exact]
  rintro ⟨t, u, htu, a, n, l, h1, h2, h3⟩
  cases t <;> cases u <;> simp_all

end LockState
end Wrtstat
