/-
C150: whether `lock()` of a spinlock returns.
-/
import Verif.Props.Locks

namespace Wrtstat

set_option autoImplicit false

namespace Spin

variable {T : Type} [DecidableEq T]

/-- The steps of `Spin.Step`, with the thread that makes them. -/
inductive StepBy : T → Spin T → Spin T → Prop
  | call (s : Spin T) (t : T) (h : s.pc t = .idle) : StepBy t s { s with pc := Function.update s.pc t .spin }
  | spin (s : Spin T) (t : T) (h : s.pc t = .spin) : StepBy t s (s.spinOnce t)
  | tryLock (s : Spin T) (t : T) (h : s.pc t ≠ .spin) : StepBy t s (s.tryLock t).2
  | unlock (s : Spin T) (t : T) (h : s.pc t = .hold) : StepBy t s (s.unlock t)

/-- They are the same steps. -/
theorem step_iff {s s' : Spin T} : Step s s' ↔ ∃ t, StepBy t s s' := by
  constructor
  · rintro (⟨t, h⟩ | ⟨t, h⟩ | ⟨t, h⟩ | ⟨t, h⟩)
    · exact ⟨t, .call s t h⟩
    · exact ⟨t, .spin s t h⟩
    · exact ⟨t, .tryLock s t h⟩
    · exact ⟨t, .unlock s t h⟩
  · rintro ⟨t, (⟨_, _, h⟩ | ⟨_, _, h⟩ | ⟨_, _, h⟩ | ⟨_, _, h⟩)⟩
    · exact .call s t h
    · exact .spin s t h
    · exact .tryLock s t h
    · exact .unlock s t h

/-- A run without end: the states, and who makes each step. -/
structure Run (T : Type) [DecidableEq T] where
  st : Nat → Spin T
  who : Nat → T
  start : st 0 = init
  step : ∀ n, StepBy (who n) (st n) (st (n + 1))

/-- A thread in `lock()` is given the processor again and again, and a thread that has the lock lets it go some time. -/
structure Run.Fair (r : Run T) : Prop where
  sched : ∀ n t, (r.st n).pc t = .spin → ∃ m, n ≤ m ∧ r.who m = t
  release : ∀ n t, (r.st n).pc t = .hold → ∃ m, n ≤ m ∧ (r.st m).pc t ≠ .hold

/-- Thread `t` gets the lock in step `n`. -/
def Run.Gets (r : Run T) (t : T) (n : Nat) : Prop := (r.st n).pc t ≠ .hold ∧ (r.st (n + 1)).pc t = .hold

/-- The claim: every call of `lock()` returns. -/
def C150_FullClaim : Prop :=
  ∀ (T : Type) [DecidableEq T] (r : Run T), r.Fair → ∀ n t, (r.st n).pc t = .spin → ∃ m, n ≤ m ∧ (r.st m).pc t = .hold

theorem Run.reach (r : Run T) (n : Nat) : Reach (r.st n) := by
  induction n with
  | zero => rw [r.start]; exact .refl
  | succ n ih => exact ih.tail (step_iff.2 ⟨_, r.step n⟩)

/-- A step in which nobody gets the lock: the flag is not set by it, and a thread in `lock()` stays there. -/
theorem Run.quiet (r : Run T) (n : Nat) (h : ∀ u, ¬ r.Gets u n) :
    ((r.st n).value = false → (r.st (n + 1)).value = false ∧ (r.st n).pc (r.who n) ≠ .spin) ∧
    (∀ t, (r.st n).pc t = .spin → (r.st (n + 1)).pc t = .spin) ∧
    (∀ t, (r.st n).pc t = .hold → (r.st (n + 1)).pc t ≠ .hold → (r.st (n + 1)).value = false) := by
  have hi := inv (r.reach n)
  have hs := r.step n
  unfold Run.Gets at h
  generalize r.st n = s at *
  generalize r.st (n + 1) = s' at *
  generalize r.who n = w at *
  have hfree : s.value = false → ∀ u, s.pc u ≠ .hold := fun hv u hu => by
    rw [hi.2.2 ⟨u, hu⟩] at hv
    cases hv
  rcases hs with ⟨_, _, hw⟩ | ⟨_, _, hw⟩ | ⟨_, _, hw⟩ | ⟨_, _, hw⟩
  · refine ⟨fun hv => ⟨hv, by rw [hw]; decide⟩, fun t ht => ?_, fun t ht hn => ?_⟩
    · by_cases e : t = w
      · subst e; simp
      · simpa [Function.update_of_ne e] using ht
    · exfalso
      have e : t ≠ w := by rintro rfl; rw [hw] at ht; cases ht
      exact hn (by simpa [Function.update_of_ne e] using ht)
  · by_cases hv : s.value = true
    · have e : s.spinOnce w = s := by
        obtain ⟨v, pc⟩ := s
        simp only at hv
        subst hv
        rfl
      rw [e]
      exact ⟨fun hf => absurd hf (by rw [hv]; decide), fun t ht => ht, fun t ht hn => absurd ht hn⟩
    · exact absurd ⟨hfree (by simpa using hv) w, by simp [spinOnce, exchange, hv]⟩ (h w)
  · by_cases hv : s.value = true
    · have e : (s.tryLock w).2 = s := by
        obtain ⟨v, pc⟩ := s
        simp only at hv
        subst hv
        rfl
      rw [e]
      exact ⟨fun hf => absurd hf (by rw [hv]; decide), fun t ht => ht, fun t ht hn => absurd ht hn⟩
    · exact absurd ⟨hfree (by simpa using hv) w, by simp [tryLock, exchange, hv]⟩ (h w)
  · refine ⟨fun hv => absurd hw (hfree hv w), fun t ht => ?_, fun _ _ _ => rfl⟩
    have e : t ≠ w := by rintro rfl; rw [hw] at ht; cases ht
    simpa [unlock, Function.update_of_ne e] using ht

/-- A flag that is clear is found by the thread that spins, unless another one is faster. -/
theorem Run.free_progress (r : Run T) (hf : r.Fair) (t : T) (n : Nat) (ht : (r.st n).pc t = .spin) (hv : (r.st n).value = false) :
    ∃ m u, n ≤ m ∧ r.Gets u m := by
  by_contra hno
  have hq : ∀ m, n ≤ m → ∀ u, ¬ r.Gets u m := fun m hm u hu => hno ⟨m, u, hm, hu⟩
  have key : ∀ k, (r.st (n + k)).pc t = .spin ∧ (r.st (n + k)).value = false := by
    intro k
    induction k with
    | zero => exact ⟨ht, hv⟩
    | succ k ih =>
      obtain ⟨q1, q2, _⟩ := r.quiet (n + k) (hq (n + k) (by omega))
      exact ⟨q2 t ih.1, (q1 ih.2).1⟩
  obtain ⟨m, hm, hw⟩ := hf.sched n t ht
  obtain ⟨k, rfl⟩ := Nat.exists_eq_add_of_le hm
  have := (r.quiet (n + k) (hq (n + k) hm)).1 (key k).2
  rw [hw] at this
  exact this.2 (key k).1

/-- As long as a thread is in `lock()`, the lock is got by some thread again. -/
theorem C150_progress_partial (r : Run T) (hf : r.Fair) (t : T) (n : Nat) (ht : (r.st n).pc t = .spin) :
    ∃ m u, n ≤ m ∧ r.Gets u m := by
  by_cases hv : (r.st n).value = false
  · exact r.free_progress hf t n ht hv
  · by_contra hno
    have hq : ∀ m, n ≤ m → ∀ u, ¬ r.Gets u m := fun m hm u hu => hno ⟨m, u, hm, hu⟩
    have hs : ∀ k, (r.st (n + k)).pc t = .spin := by
      intro k
      induction k with
      | zero => exact ht
      | succ k ih => exact (r.quiet (n + k) (hq (n + k) (by omega))).2.1 t ih
    obtain ⟨w, hw⟩ := (inv (r.reach n)).2.1 (by simpa using hv)
    obtain ⟨m, hm, hrel⟩ := hf.release n w hw
    -- the first time it has let the lock go
    have hex : ∃ k, (r.st (n + k)).pc w ≠ .hold := by
      obtain ⟨k, rfl⟩ := Nat.exists_eq_add_of_le hm
      exact ⟨k, hrel⟩
    classical
    have h1 := Nat.find_spec hex
    cases hk : Nat.find hex with
    | zero => rw [hk] at h1; exact h1 hw
    | succ k =>
      rw [hk] at h1
      have h2 : (r.st (n + k)).pc w = .hold := by
        by_contra h
        exact Nat.find_min hex (m := k) (by omega) h
      have h3 := (r.quiet (n + k) (hq (n + k) (by omega))).2.2 w h2 h1
      obtain ⟨m, u, h4, h5⟩ := r.free_progress hf t (n + (k + 1)) (hs (k + 1)) h3
      exact hq m (by omega) u h5

/-- A thread that is in `lock()` for ever is overtaken for ever. -/
theorem C150_overtaken_partial (r : Run T) (hf : r.Fair) (t : T) (n : Nat) (ht : ∀ m, n ≤ m → (r.st m).pc t = .spin) (N : Nat) :
    ∃ m u, N ≤ m ∧ u ≠ t ∧ r.Gets u m := by
  obtain ⟨m, u, h1, h2⟩ := C150_progress_partial r hf t (n + N) (ht _ (by omega))
  refine ⟨m, u, by omega, ?_, h2⟩
  rintro rfl
  have := ht (m + 1) (by omega)
  rw [h2.2] at this
  cases this

/-- A thread leaves `lock()` only with the lock. -/
theorem Run.spin_or_hold (r : Run T) (t : T) (n : Nat) (ht : (r.st n).pc t = .spin) :
    (r.st (n + 1)).pc t = .spin ∨ (r.st (n + 1)).pc t = .hold := by
  have hs := r.step n
  generalize r.st n = s at *
  generalize r.st (n + 1) = s' at *
  generalize r.who n = w at *
  rcases hs with ⟨_, _, hw⟩ | ⟨_, _, hw⟩ | ⟨_, _, hw⟩ | ⟨_, _, hw⟩
  · by_cases e : t = w
    · subst e; left; simp
    · left; simpa [Function.update_of_ne e] using ht
  · unfold spinOnce exchange
    cases s.value
    · by_cases e : t = w
      · subst e; right; simp
      · left; simpa [Function.update_of_ne e] using ht
    · left; exact ht
  · unfold tryLock exchange
    cases s.value
    · by_cases e : t = w
      · subst e; exact absurd ht hw
      · left; simpa [Function.update_of_ne e] using ht
    · left; exact ht
  · have e : t ≠ w := by rintro rfl; rw [hw] at ht; cases ht
    left
    simpa [unlock, Function.update_of_ne e] using ht

/-- A call of `lock()` that has not returned yet is still in `lock()`. -/
theorem Run.still (r : Run T) (t : T) (n : Nat) (ht : (r.st n).pc t = .spin) (hno : ∀ m, n ≤ m → (r.st m).pc t ≠ .hold) (m : Nat)
    (hm : n ≤ m) : (r.st m).pc t = .spin := by
  induction m, hm using Nat.le_induction with
  | base => exact ht
  | succ m hm ih =>
    rcases r.spin_or_hold t m ih with h | h
    · exact h
    · exact absurd h (hno (m + 1) (by omega))

/-- Exactly when a call of `lock()` never returns: iff while it waits the lock is got by others again and again. -/
theorem C150_exact_partial (r : Run T) (hf : r.Fair) (t : T) (n : Nat) (ht : (r.st n).pc t = .spin) :
    (∀ m, n ≤ m → (r.st m).pc t ≠ .hold) ↔
      ∀ N, ∃ m u, N ≤ m ∧ n ≤ m ∧ u ≠ t ∧ r.Gets u m ∧ ∀ k, n ≤ k → k ≤ m → (r.st k).pc t = .spin := by
  constructor
  · intro hno N
    have hall := r.still t n ht hno
    obtain ⟨m, u, h1, h2, h3⟩ := C150_overtaken_partial r hf t n hall (n + N)
    exact ⟨m, u, by omega, by omega, h2, h3, fun k hk _ => hall k hk⟩
  · intro h m hm he
    obtain ⟨m', u, h1, _, _, _, h5⟩ := h m
    rw [h5 m hm h1] at he
    cases he

/-- So it returns when the others get the lock only so many times. -/
theorem C150_returns_partial (r : Run T) (hf : r.Fair) (t : T) (n N : Nat) (ht : (r.st n).pc t = .spin)
    (h : ∀ m u, N ≤ m → u ≠ t → ¬ r.Gets u m) : ∃ m, n ≤ m ∧ (r.st m).pc t = .hold := by
  by_contra hno
  obtain ⟨m, u, h1, _, h2, h3, _⟩ := (C150_exact_partial r hf t n ht).1 (fun m hm he => hno ⟨m, hm, he⟩) N
  exact h m u h1 h2 h3

omit [DecidableEq T] in
theorem ext_pc {a b : Spin T} (h1 : a.value = b.value) (h2 : ∀ t, a.pc t = b.pc t) : a = b := by
  obtain ⟨v, p⟩ := a
  obtain ⟨v', p'⟩ := b
  have : p = p' := funext h2
  subst this
  simp only at h1
  subst h1
  rfl

/-! ### Two threads -/

/-- Thread `true` takes the lock again and again; thread `false` looks only while it is taken. -/
def overtakeAt (k : Nat) : Spin Bool :=
  match k with
  | 0 => { value := false, pc := fun b => if b then .idle else .spin }
  | 1 => { value := false, pc := fun b => if b then .spin else .spin }
  | _ => { value := true, pc := fun b => if b then .hold else .spin }

/-- The run: `false` calls `lock()`, and then again and again: `true` calls `lock()` and gets the lock, `false` looks, `true`
lets the lock go. -/
def overtake : Run Bool where
  st n := match n with
    | 0 => init
    | n + 1 => overtakeAt (n % 4)
  who n := match n with
    | 0 => false
    | n + 1 => decide (n % 4 ≠ 2)
  start := rfl
  step n := by
    cases n with
    | zero =>
      have e : overtakeAt 0 = { (init : Spin Bool) with pc := Function.update (init : Spin Bool).pc false .spin } :=
        ext_pc rfl fun b => by cases b <;> rfl
      show StepBy false init (overtakeAt 0)
      rw [e]
      exact .call init false rfl
    | succ n =>
      show StepBy (decide (n % 4 ≠ 2)) (overtakeAt (n % 4)) (overtakeAt ((n + 1) % 4))
      have h4 : n % 4 = 0 ∨ n % 4 = 1 ∨ n % 4 = 2 ∨ n % 4 = 3 := by omega
      rcases h4 with h | h | h | h
      · rw [h, show (n + 1) % 4 = 1 by omega]
        have e : overtakeAt 1 = { overtakeAt 0 with pc := Function.update (overtakeAt 0).pc true .spin } :=
          ext_pc rfl fun b => by cases b <;> rfl
        rw [e]
        exact .call (overtakeAt 0) true rfl
      · rw [h, show (n + 1) % 4 = 2 by omega]
        have e : overtakeAt 2 = (overtakeAt 1).spinOnce true := ext_pc rfl fun b => by cases b <;> rfl
        rw [e]
        exact .spin (overtakeAt 1) true rfl
      · rw [h, show (n + 1) % 4 = 3 by omega]
        exact .spin (overtakeAt 2) false rfl
      · rw [h, show (n + 1) % 4 = 0 by omega]
        have e : overtakeAt 0 = (overtakeAt 3).unlock true := ext_pc rfl fun b => by cases b <;> rfl
        rw [e]
        exact .unlock (overtakeAt 3) true rfl

theorem overtake_fair : overtake.Fair := by
  refine ⟨fun n t _ => ?_, fun n t _ => ⟨n * 4 + 1, by omega, ?_⟩⟩
  · cases t with
    | true =>
      refine ⟨n * 4 + 1, by omega, ?_⟩
      show decide (n * 4 % 4 ≠ 2) = true
      rw [Nat.mul_mod_left]
      rfl
    | false =>
      refine ⟨n * 4 + 2 + 1, by omega, ?_⟩
      show decide ((n * 4 + 2) % 4 ≠ 2) = false
      have : (n * 4 + 2) % 4 = 2 := by omega
      rw [this]
      rfl
  · show (overtakeAt (n * 4 % 4)).pc t ≠ .hold
    rw [Nat.mul_mod_left]
    cases t <;> decide

theorem overtake_waits (n : Nat) : (overtake.st (n + 1)).pc false = .spin := by
  show (overtakeAt (n % 4)).pc false = .spin
  have h4 : n % 4 = 0 ∨ n % 4 = 1 ∨ n % 4 = 2 ∨ n % 4 = 3 := by omega
  rcases h4 with h | h | h | h <;> rw [h] <;> rfl

theorem C150_refuted : ¬ C150_FullClaim := by
  intro h
  obtain ⟨m, h1, h2⟩ := h Bool overtake overtake_fair 1 false (overtake_waits 0)
  obtain ⟨k, rfl⟩ := Nat.exists_eq_add_of_le h1
  rw [Nat.add_comm, overtake_waits] at h2
  cases h2

/-- In this run thread `true` gets the lock in step 2, and every fourth step after it. -/
example (k : Nat) : overtake.Gets true (k * 4 + 2) := by
  refine ⟨?_, ?_⟩
  · show (overtakeAt ((k * 4 + 1) % 4)).pc true ≠ .hold
    have : (k * 4 + 1) % 4 = 1 := by omega
    rw [this]
    decide
  · show (overtakeAt ((k * 4 + 2) % 4)).pc true = .hold
    have : (k * 4 + 2) % 4 = 2 := by omega
    rw [this]
    rfl

end Spin
end Wrtstat
