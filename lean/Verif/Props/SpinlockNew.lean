/-
C181: spinlocks built by moving.
-/
import Verif.Model.SpinlockNew
import Verif.Lemmas.Percentile
import Verif.Lemmas.RegistryStep

namespace Wrtstat
namespace SpinNew

set_option autoImplicit false

variable {I : Type} [DecidableEq I]

/-- The claim: a lock can be built by moving another one. -/
def C181_FullClaim : Prop :=
  ∀ (c : Ctx Bool) (ops : List (Op Bool)) (s : St Bool), run c ops = .ok s → s.at_ true = none → (s.at_ false).isSome = true →
    ∃ s', step c s (.moveNew true false) = .ok s'

/-- The claim is refuted: until C++20 the move constructor exchanges an atomic that is not initialized. -/
theorem C181_refuted : ¬ C181_FullClaim := by
  intro h
  obtain ⟨s', e⟩ := h { cxx20 := false, zeroed := fun _ => false } [.make false] _ rfl rfl rfl
  cases e

/-- A step after which all is well, if it was before. -/
theorem step_inits {c : Ctx I} {s s' : St I} {op : Op I} (h : ∀ i a, s.at_ i = some a → a ≠ none) (e : step c s op = .ok s') :
    ∀ i a, s'.at_ i = some a → a ≠ none := by
  have put : ∀ (s : St I) (i : I) (b : Bool), (∀ i a, s.at_ i = some a → a ≠ none) → ∀ k a, (s.put i (some b)).at_ k = some a → a ≠ none := by
    intro s i b h k a hk
    by_cases hki : k = i
    · simp only [St.put, if_pos hki] at hk
      cases hk
      simp
    · simp only [St.put, if_neg hki] at hk
      exact h k a hk
  have exch : ∀ (x y : Atomic) (v o : Bool), exchange x v = .ok (o, y) → y = some v := by
    intro x y v o hx
    cases x <;> cases hx
    rfl
  cases op with
  | make i =>
    simp only [step] at e
    split at e
    · cases e
    · cases e
      exact put _ _ _ h
  | moveNew i j =>
    simp only [step] at e
    split at e
    · obtain ⟨v, -, e⟩ := bind_inv e
      obtain ⟨⟨o, a⟩, h1, e⟩ := bind_inv e
      cases e
      rw [exch _ _ _ _ h1]
      exact put _ _ _ h
    · cases e
  | assign i j =>
    simp only [step] at e
    split at e
    · obtain ⟨v, -, e⟩ := bind_inv e
      obtain ⟨⟨o, a⟩, h1, e⟩ := bind_inv e
      cases e
      rw [exch _ _ _ _ h1]
      exact put _ _ _ h
    · cases e
  | tryLock i =>
    simp only [step] at e
    split at e
    · cases e
    · obtain ⟨⟨o, a⟩, h1, e⟩ := bind_inv e
      cases e
      rw [exch _ _ _ _ h1]
      exact put _ _ _ h
  | unlock i =>
    simp only [step] at e
    split at e
    · cases e
    · cases e
      exact put _ _ _ h

/-- In every program that is defined so far all locks are initialized. -/
theorem run_inits {c : Ctx I} {ops : List (Op I)} {s : St I} (h : run c ops = .ok s) : ∀ i a, s.at_ i = some a → a ≠ none := by
  induction ops using List.reverseRecOn generalizing s with
  | nil => cases h; intro _ _ h; cases h
  | append_singleton ops op ih =>
    unfold run at h
    rw [List.foldlM_append] at h
    obtain ⟨s1, h1, h2⟩ := bind_inv h
    rw [List.foldlM_cons] at h2
    obtain ⟨s2, h3, h4⟩ := bind_inv h2
    cases h4
    exact step_inits (ih h1) h3

/-- What remains: after a program that is defined, a lock is built by a move exactly if there is one to move, none at the place, and the program
is compiled for C++20 or the place is in static or thread storage.  It has the flag of the other lock then, which keeps it. -/
theorem C181_exact_partial (c : Ctx I) (ops : List (Op I)) (s : St I) (h : run c ops = .ok s) (i j : I) :
    (∀ s', step c s (.moveNew i j) = .ok s' ↔
      s.at_ i = none ∧ (c.cxx20 = true ∨ c.zeroed i = true) ∧ ∃ b, s.at_ j = some (some b) ∧ s'.answers = s.answers ∧
        ∀ k, s'.at_ k = if k = i then some (some b) else s.at_ k) := by
  intro s'
  have hin := run_inits h
  constructor
  · intro e
    simp only [step] at e
    split at e
    · rename_i other hi hj
      obtain ⟨v, h1, e⟩ := bind_inv e
      obtain ⟨⟨o, a⟩, h2, e⟩ := bind_inv e
      cases e
      unfold Ctx.fresh at h2
      split_ifs at h2 with hc
      · cases h2
        cases other with
        | none => cases h1
        | some b =>
          cases h1
          exact ⟨hi, hc, _, hj, rfl, fun k => rfl⟩
      · cases h2
    · cases e
  · rintro ⟨h1, h2, b, h3, h4, h5⟩
    simp only [step, h1, h3, load, Ctx.fresh, if_pos h2, exchange, bind_ok']
    obtain ⟨f, l⟩ := s'
    simp only at h4 h5
    subst h4
    have : f = fun k => if k = i then some (some b) else s.at_ k := funext h5
    rw [this]
    rfl

/-- What remains: everything else is defined exactly if the locks it is about exist. -/
theorem C181_others_partial (c : Ctx I) (ops : List (Op I)) (s : St I) (h : run c ops = .ok s) (i j : I) :
    ((∃ s', step c s (.make i) = .ok s') ↔ s.at_ i = none) ∧
    ((∃ s', step c s (.assign i j) = .ok s') ↔ s.at_ i ≠ none ∧ s.at_ j ≠ none) ∧
    ((∃ s', step c s (.tryLock i) = .ok s') ↔ s.at_ i ≠ none) ∧
    ((∃ s', step c s (.unlock i) = .ok s') ↔ s.at_ i ≠ none) := by
  have hin := run_inits h
  have hi := hin i
  have hj := hin j
  simp only [step]
  generalize s.at_ i = x at hi ⊢
  generalize s.at_ j = y at hj ⊢
  rcases x with _ | _ | x
  · simp
  · exact absurd rfl (hi none rfl)
  · rcases y with _ | _ | y
    · simp [exchange, bind_ok']
    · exact absurd rfl (hj none rfl)
    · simp [exchange, load, bind_ok']

/-- What remains: a program that is defined does what it does in C++20, wherever its locks are. -/
theorem C181_same_partial (c : Ctx I) (ops : List (Op I)) (s : St I) (h : run c ops = .ok s) (c' : Ctx I) (hc : c'.cxx20 = true) : run c' ops = .ok s := by
  induction ops using List.reverseRecOn generalizing s with
  | nil => exact h
  | append_singleton ops op ih =>
    unfold run at h ⊢
    rw [List.foldlM_append] at h ⊢
    obtain ⟨s1, h1, h2⟩ := bind_inv h
    rw [show List.foldlM (step c') {} ops = .ok s1 from ih s1 h1]
    rw [bind_ok']
    rw [List.foldlM_cons] at h2 ⊢
    obtain ⟨s2, h3, h4⟩ := bind_inv h2
    cases h4
    have : step c' s1 op = .ok s := by
      cases op with
      | moveNew i j =>
        have h5 := ih s1 h1
        rw [C181_exact_partial c ops s1 h1] at h3
        rw [C181_exact_partial c' ops s1 h5]
        exact ⟨h3.1, .inl hc, h3.2.2⟩
      | make i => exact h3
      | assign i j => exact h3
      | tryLock i => exact h3
      | unlock i => exact h3
    rw [this]
    rfl

/-! ### A program -/

/-- A held lock is moved to a new one, which is held then, and both are released. -/
def exNew : List (Op Bool) :=
  [.make false, .tryLock false, .moveNew true false, .tryLock true, .unlock true, .tryLock true, .unlock false, .assign true false, .tryLock true]

example :
    (run { cxx20 := true, zeroed := fun _ => false } exNew).toOption.map (fun s => (s.answers, s.at_ true, s.at_ false)) =
      some ([(false, true), (true, false), (true, true), (true, true)], some (some true), some (some false)) ∧
    (run { cxx20 := false, zeroed := fun i => i } exNew).toOption.map (fun s => s.answers.length) = some 4 ∧
    (run { cxx20 := false, zeroed := fun i => !i } exNew).toOption.map (fun s => s.answers.length) = none := by decide +kernel

end SpinNew
end Wrtstat
