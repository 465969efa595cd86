/-
C100: what `rwlock` does when it is released by a thread that does not hold it.
-/
import Verif.Props.Locks

namespace Wrtstat
namespace Rw

set_option autoImplicit false

variable {T : Type} [DecidableEq T]

/-- Thread `t` goes on alone, for at most so many steps, as long as it can. -/
def alone (s : Rw T) (t : T) : Nat → Rw T
  | 0 => s
  | n + 1 =>
    match exec s (.go t) with
    | none => s
    | some s' => alone s' t n

/-- `unlock()` of thread `t` from beginning to end, whether it holds the lock or not; it has six steps. -/
def strayUnlock (s : Rw T) (t : T) : Rw T := alone (s.goto t .unlockEnter) t 6

/-- `unlock_r()` of thread `t` from beginning to end, whether it holds the lock or not. -/
def strayUnlockR (s : Rw T) (t : T) : Rw T := alone (s.goto t .unlockREnter) t 6

/-! ### C100 -/

/-- The claim: a thread that releases what it does not hold is stopped. -/
def C100_FullClaim : Prop :=
  ∀ (T : Type) [DecidableEq T] [Fintype T] (s : Rw T) (t : T), Reach s → s.owner = none → s.pc t = .idle →
    (s.wr t = 0 → (strayUnlock s t).aborted = true) ∧ (s.rd t = 0 → (strayUnlockR s t).aborted = true)

/-- Thread 0 reads, thread 1 does not, and releases; thread 2 then writes while thread 0 still reads. -/
theorem C100_refuted : ¬ C100_FullClaim := by
  intro hc
  obtain ⟨s, hs⟩ : ∃ s, execEnd (init : Rw (Fin 3)) (doLockR 0) = some s := ⟨_, rfl⟩
  have hr := execEnd_reach hs
  obtain rfl := Option.some.inj hs
  have := (hc (Fin 3) _ 1 hr rfl rfl).2 rfl
  revert this
  decide +kernel

/-- `unlock()` by whatever thread: the process is stopped exactly if no thread holds the lock for writing; otherwise
the lock is free for writing afterwards, although the thread that held it has not released it. -/
theorem C100_unlock_partial [Fintype T] {s : Rw T} (h : Reach s) (ho : s.owner = none) (t : T) :
    ((strayUnlock s t).aborted = true ↔ ∀ u, s.wr u = 0) ∧
    ((∃ u, 0 < s.wr u) → (strayUnlock s t).writer = 0 ∧ (strayUnlock s t).owner = none ∧ (strayUnlock s t).pc t = .idle ∧
      ∀ u, u ≠ t → (strayUnlock s t).wr u = s.wr u) := by
  have hi := h.inv
  have ha := hi.alive
  have hW := hi.sumW
  have key : (∀ u, s.wr u = 0) ↔ s.writer = 0 := by
    rw [hW]
    constructor
    · intro hz
      rw [Finset.sum_eq_zero fun u _ => hz u]; rfl
    · intro hz u
      have := le_sum s.wr u
      omega
  by_cases hw : s.writer = 0
  · refine ⟨⟨fun _ => key.2 hw, fun _ => ?_⟩, fun ⟨u, hu⟩ => ?_⟩
    · simp [strayUnlock, alone, exec, ha, goto, entry, act, hw, ho]
    · have := key.2 hw u
      omega
  · have h1 : s.writer = 1 := by
      rcases hi.excl with e | e
      · exact absurd e hw
      · exact e.1
    refine ⟨⟨fun e => ?_, fun e => absurd (key.1 e) hw⟩, fun _ => ?_⟩
    · exfalso
      revert e
      simp [strayUnlock, alone, exec, ha, goto, entry, act, h1, ho, notifyW, notifyR]
    · simp +contextual [strayUnlock, alone, exec, ha, goto, entry, act, h1, ho, notifyW, notifyR, Function.update_of_ne]

/-- `unlock_r()` by whatever thread: the process is stopped exactly if no thread holds the lock for reading; otherwise
there is one reader less by the count, although the threads that read have not released anything. -/
theorem C100_unlock_r_partial [Fintype T] {s : Rw T} (h : Reach s) (ho : s.owner = none) (t : T) :
    ((strayUnlockR s t).aborted = true ↔ ∀ u, s.rd u = 0) ∧
    ((∃ u, 0 < s.rd u) → (strayUnlockR s t).readers = s.readers - 1 ∧ (strayUnlockR s t).owner = none ∧
      (strayUnlockR s t).pc t = .idle ∧ ∀ u, u ≠ t → (strayUnlockR s t).rd u = s.rd u) := by
  have hi := h.inv
  have ha := hi.alive
  have hR := hi.sumR
  have key : (∀ u, s.rd u = 0) ↔ s.readers = 0 := by
    rw [hR]
    constructor
    · intro hz
      rw [Finset.sum_eq_zero fun u _ => hz u]; rfl
    · intro hz u
      have := le_sum s.rd u
      omega
  by_cases hw : s.readers = 0
  · refine ⟨⟨fun _ => key.2 hw, fun _ => ?_⟩, fun ⟨u, hu⟩ => ?_⟩
    · simp [strayUnlockR, alone, exec, ha, goto, entry, act, hw, ho]
    · have := key.2 hw u
      omega
  · by_cases h1 : s.readers - 1 = 0
    · refine ⟨⟨fun e => ?_, fun e => absurd (key.1 e) hw⟩, fun _ => ?_⟩
      · exfalso
        revert e
        simp [strayUnlockR, alone, exec, ha, goto, entry, act, hw, h1, ho, notifyW]
      · simp +contextual [strayUnlockR, alone, exec, ha, goto, entry, act, hw, h1, ho, notifyW, Function.update_of_ne]
    · refine ⟨⟨fun e => ?_, fun e => absurd (key.1 e) hw⟩, fun _ => ?_⟩
      · exfalso
        revert e
        simp [strayUnlockR, alone, exec, ha, goto, entry, act, hw, h1, ho]
      · simp +contextual [strayUnlockR, alone, exec, ha, goto, entry, act, hw, h1, ho, Function.update_of_ne]

/-- After a stray `unlock_r()` a writer gets in while thread 0 still reads: the exclusion of C53 is lost. -/
theorem C100_breaks_partial :
    ∃ s : Rw (Fin 3), Reach s ∧ s.rd 0 = 1 ∧ s.rd 1 = 0 ∧
      (strayUnlockR s 1).aborted = false ∧ (strayUnlockR s 1).rd 0 = 1 ∧
      (alone ((strayUnlockR s 1).goto 2 .lockEnter) 2 6).wr 2 = 1 ∧
      (alone ((strayUnlockR s 1).goto 2 .lockEnter) 2 6).rd 0 = 1 ∧
      (alone ((strayUnlockR s 1).goto 2 .lockEnter) 2 6).pc 2 = .idle ∧
      (strayUnlockR (alone ((strayUnlockR s 1).goto 2 .lockEnter) 2 6) 0).aborted = true := by
  obtain ⟨s, hs⟩ : ∃ s, execEnd (init : Rw (Fin 3)) (doLockR 0) = some s := ⟨_, rfl⟩
  have hr := execEnd_reach hs
  obtain rfl := Option.some.inj hs
  refine ⟨_, hr, ?_⟩
  decide +kernel

/-- Nobody holds the lock: both releases stop the process. -/
example : (strayUnlock (init : Rw (Fin 3)) 1).aborted = true ∧ (strayUnlockR (init : Rw (Fin 3)) 1).aborted = true := by
  decide +kernel

end Rw
end Wrtstat
