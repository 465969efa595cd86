/-
Properties of the locks: C59 (spinlock), C53 and C70 (rwlock).
-/
import Verif.Lemmas.Rwlock
import Verif.Model.Spinlock
import Mathlib.Logic.Relation

namespace Wrtstat

set_option autoImplicit false

open Relation

/-! ### C59 -/

namespace Spin

variable {T : Type} [DecidableEq T]

/-- Reachable from the constructed lock. -/
def Reach (s : Spin T) : Prop := ReflTransGen Step init s

/-- At most one thread holds the lock, and the flag is set iff one does. -/
def Ok (s : Spin T) : Prop := (∀ t u, s.pc t = .hold → s.pc u = .hold → t = u) ∧ (s.value = true ↔ ∃ t, s.pc t = .hold)

theorem Ok.step {s s' : Spin T} (ih : s.Ok) (hs : Step s s') : s'.Ok := by
  unfold Ok
  obtain ⟨h1, h2⟩ := ih
  have got : ∀ (s : Spin T) (t : T), s.value = false → (s.value = true ↔ ∃ t, s.pc t = .hold) →
      (∀ a b, Function.update s.pc t .hold a = .hold → Function.update s.pc t .hold b = .hold → a = b) ∧
      (true = true ↔ ∃ a, Function.update s.pc t .hold a = .hold) := by
    intro s t hv hs
    have hno : ∀ a, s.pc a ≠ .hold := fun a ha => by rw [hs.2 ⟨a, ha⟩] at hv; simp at hv
    refine ⟨fun a b ha hb => ?_, by simp only [true_iff]; exact ⟨t, by simp⟩⟩
    by_cases hat : a = t
    · by_cases hbt : b = t
      · rw [hat, hbt]
      · rw [Function.update_of_ne hbt] at hb; exact absurd hb (hno b)
    · rw [Function.update_of_ne hat] at ha; exact absurd ha (hno a)
  cases hs with
  | call t h =>
    have hh : ∀ a, Function.update s.pc t .spin a = .hold ↔ s.pc a = .hold := by
      intro a
      by_cases hat : a = t
      · subst hat; simp [h]
      · rw [Function.update_of_ne hat]
    exact ⟨fun a b ha hb => h1 a b ((hh a).1 ha) ((hh b).1 hb), by simp only [hh]; exact h2⟩
  | spin t h =>
    unfold spinOnce exchange
    cases hv : s.value with
    | true => rw [hv] at h2; exact ⟨h1, h2⟩
    | false => exact got s t hv h2
  | tryLock t h =>
    unfold tryLock exchange
    cases hv : s.value with
    | true => rw [hv] at h2; exact ⟨h1, h2⟩
    | false => exact got s t hv h2
  | unlock t h =>
    have hh : ∀ a, Function.update s.pc t .idle a ≠ .hold := by
      intro a ha
      by_cases hat : a = t
      · subst hat; simp at ha
      · rw [Function.update_of_ne hat] at ha; exact hat (h1 a t ha h)
    unfold unlock
    exact ⟨fun a b ha => absurd ha (hh a), by simp [hh]⟩

theorem inv {s : Spin T} (h : Reach s) :
    (∀ t u, s.pc t = .hold → s.pc u = .hold → t = u) ∧ (s.value = true ↔ ∃ t, s.pc t = .hold) := by
  induction h with
  | refl => exact ⟨fun t u h => by simp [init] at h, by simp [init]⟩
  | tail _ hs ih => exact Ok.step ih hs

/-- At most one thread holds the lock. -/
theorem C59_exclusive {s : Spin T} (h : Reach s) (t u : T) (ht : s.pc t = .hold) (hu : s.pc u = .hold) : t = u :=
  (inv h).1 t u ht hu

/-- `try_lock()` succeeds iff no thread held the lock; then the caller holds it, otherwise nothing has changed. -/
theorem C59_try {s : Spin T} (h : Reach s) (t : T) :
    ((s.tryLock t).1 = true ↔ ∀ u, s.pc u ≠ .hold) ∧
    ((s.tryLock t).1 = true → (s.tryLock t).2.pc t = .hold) ∧ ((s.tryLock t).1 = false → (s.tryLock t).2 = s) := by
  obtain ⟨-, h2⟩ := inv h
  obtain ⟨v, pc⟩ := s
  unfold tryLock exchange
  cases v <;> simp at h2 ⊢
  · exact h2
  · exact h2

/-- A turn of the loop of `lock()` gets the lock iff no thread held it. -/
theorem C59_lock {s : Spin T} (h : Reach s) (t : T) (ht : s.pc t = .spin) :
    (s.spinOnce t).pc t = .hold ↔ ∀ u, s.pc u ≠ .hold := by
  obtain ⟨-, h2⟩ := inv h
  obtain ⟨v, pc⟩ := s
  unfold spinOnce exchange
  cases v <;> simp at h2 ht ⊢
  · exact h2
  · rw [ht]; simpa using h2

/-- After `unlock()` nobody holds the lock, so that the next attempt succeeds. -/
theorem C59_unlock {s : Spin T} (h : Reach s) (t u : T) (ht : s.pc t = .hold) :
    (∀ v, (s.unlock t).pc v ≠ .hold) ∧ ((s.unlock t).tryLock u).1 = true := by
  have h' : Reach (s.unlock t) := h.tail (.unlock s t ht)
  have hno : ∀ v, (s.unlock t).pc v ≠ .hold := fun v hv => by
    have := (inv h').2.2 ⟨v, hv⟩
    simp [unlock] at this
  exact ⟨hno, ((C59_try h' u).1).2 hno⟩

/-- Two threads: the first gets the lock, the second spins. -/
example : ∃ s : Spin Bool, Reach s ∧ s.pc true = .hold ∧ s.pc false = .spin ∧ s.spinOnce false = s ∧ (s.tryLock false).1 = false := by
  let s0 : Spin Bool := init
  let s1 : Spin Bool := { s0 with pc := Function.update s0.pc true .spin }
  let s2 := s1.spinOnce true
  let s3 : Spin Bool := { s2 with pc := Function.update s2.pc false .spin }
  refine ⟨s3, ReflTransGen.tail (ReflTransGen.tail (ReflTransGen.tail .refl (.call s0 true rfl)) (.spin s1 true rfl))
    (.call s2 false rfl), rfl, rfl, rfl, rfl⟩

end Spin

/-! ### C53 -/

namespace Rw

variable {T : Type} [DecidableEq T] [Fintype T]

/-- A thread that holds the lock for writing holds it once, and no other thread holds it in any way. -/
theorem C53_exclusive {s : Rw T} (h : Reach s) (t : T) (ht : 0 < s.wr t) :
    s.wr t = 1 ∧ (∀ u, s.rd u = 0) ∧ ∀ u, 0 < s.wr u → u = t := by
  have hi := h.inv
  have hW := hi.sumW
  have hR := hi.sumR
  have h1 := le_sum s.wr t
  have hex : s.writer = 1 ∧ s.readers = 0 := by
    rcases hi.excl with e | e
    · omega
    · exact e
  refine ⟨by omega, fun u => ?_, fun u hu => ?_⟩
  · have := le_sum s.rd u
    omega
  · by_contra hne
    have h2 := Finset.add_sum_erase Finset.univ s.wr (Finset.mem_univ t)
    have h3 : s.wr u ≤ ∑ x ∈ Finset.univ.erase t, s.wr x :=
      Finset.single_le_sum (f := s.wr) (fun _ _ => Nat.zero_le _) (Finset.mem_erase.2 ⟨hne, Finset.mem_univ u⟩)
    omega

/-- `abort()` is never called. -/
theorem C53_no_abort {s : Rw T} (h : Reach s) : s.aborted = false := h.inv.alive

omit [Fintype T] in
/-- `lock()` and `lock_r()` return as holder, `unlock()` and `unlock_r()` with one hold less; nothing else
changes what a thread holds. -/
theorem C53_holds {s s' : Rw T} (t : T) (h : act s t = some s') :
    (s.pc t = .lockInc → s'.wr t = s.wr t + 1) ∧ (s.pc t = .unlockDec → s'.wr t = s.wr t - 1) ∧
    (s.pc t = .lockRInc → s'.rd t = s.rd t + 1) ∧ (s.pc t = .unlockRDec → s'.rd t = s.rd t - 1) ∧
    (s.pc t ≠ .lockInc → s.pc t ≠ .unlockDec → s'.wr t = s.wr t) ∧
    (s.pc t ≠ .lockRInc → s.pc t ≠ .unlockRDec → s'.rd t = s.rd t) := by
  unfold act at h
  cases hp : s.pc t <;> rw [hp] at h <;> simp only [reduceCtorEq] at h <;> try split at h
  all_goals
    obtain rfl := Option.some.inj h
    simp [goto, notifyW, notifyR]

/-- Two readers hold the lock, the second writer to come sleeps. -/
example : ∃ s : Rw (Fin 3), Reach s ∧ s.rd 0 = 1 ∧ s.rd 1 = 1 ∧ s.pc 2 = .lockSleep := by
  obtain ⟨s, hs⟩ : ∃ s, execEnd (init : Rw (Fin 3)) [.lockR 0, .lockR 1, .lock 2, .go 0, .go 0, .go 0, .go 0, .go 0,
      .go 1, .go 1, .go 1, .go 1, .go 1, .go 2, .go 2] = some s := ⟨_, rfl⟩
  have hr := execEnd_reach hs
  obtain rfl := Option.some.inj hs
  exact ⟨_, hr, rfl, rfl, rfl⟩

/-! ### C70 -/

/-- If nobody holds the lock and nobody owns the internal mutex, then nobody sleeps. -/
theorem C70_no_lost_wakeup {s : Rw T} (h : Reach s) (hfree : ∀ t, s.wr t = 0 ∧ s.rd t = 0) (ho : s.owner = none) (t : T) :
    s.pc t ≠ .lockSleep ∧ s.pc t ≠ .lockRSleep := by
  have hi := h.inv
  have hW : s.writer = 0 := by
    rw [hi.sumW, Finset.sum_eq_zero fun u _ => (hfree u).1]; rfl
  have hR : s.readers = 0 := by
    rw [hi.sumR, Finset.sum_eq_zero fun u _ => (hfree u).2]; rfl
  have hno : ∀ u, (s.pc u).inside ≠ true := fun u hu => by
    rw [(hi.own u).1 hu] at ho
    simp at ho
  constructor
  · intro e
    rcases h.winv.slW t e with e | e | ⟨u, e⟩
    · exact e hW
    · exact e hR
    · exact hno u (willW_inside e)
  · intro e
    rcases h.winv.slR t e with e | ⟨u, e⟩
    · exact e hW
    · exact hno u (willR_inside e)

/-- A reader never sleeps unless some thread holds the lock for writing, or owns the internal mutex. -/
theorem C70_reader_wakeup {s : Rw T} (h : Reach s) (hfree : ∀ t, s.wr t = 0) (ho : s.owner = none) (t : T) :
    s.pc t ≠ .lockRSleep := by
  have hi := h.inv
  have hW : s.writer = 0 := by
    rw [hi.sumW, Finset.sum_eq_zero fun u _ => hfree u]; rfl
  intro e
  rcases h.winv.slR t e with e | ⟨u, e⟩
  · exact e hW
  · have := (hi.own u).1 (willR_inside e)
    rw [ho] at this
    simp at this

/-- If nobody holds the lock and some thread is in a call, then some thread can go on. -/
theorem C70_progress {s : Rw T} (h : Reach s) (hfree : ∀ t, s.wr t = 0 ∧ s.rd t = 0) (t : T) (ht : s.pc t ≠ .idle) :
    ∃ s', Run s s' := by
  have hi := h.inv
  cases ho : s.owner with
  | some u =>
    have hin := (hi.own u).2 ho
    have : ∃ s', act s u = some s' := by
      unfold act
      cases hp : s.pc u <;> rw [hp] at hin <;> simp [RwPc.inside] at hin <;> simp only <;> try split
      all_goals exact ⟨_, rfl⟩
    obtain ⟨s', hs'⟩ := this
    exact ⟨s', .act s s' u hs'⟩
  | none =>
    have hout : (s.pc t).inside ≠ true := fun e => by
      rw [(hi.own t).1 e] at ho
      simp at ho
    have hsl := C70_no_lost_wakeup h hfree ho t
    have : ∃ p, entry (s.pc t) = some p := by
      cases hp : s.pc t <;> rw [hp] at ht hout hsl <;> simp [RwPc.inside] at ht hout hsl <;> exact ⟨_, rfl⟩
    obtain ⟨p, hp⟩ := this
    exact ⟨_, .enter s t p hp ho⟩

/-! ### C71 -/

/-- The claim: there is no execution that repeats itself in which a thread sleeps in `lock()` all the time although
every thread releases the lock again and again. -/
def C71_FullClaim : Prop :=
  ∀ (T : Type) [DecidableEq T] [Fintype T] (s : Rw T) (l : List (Rw T)) (w : T), Reach s →
    List.IsChain Step (s :: (l ++ [s])) → (∀ t, ∃ a ∈ l, a.wr t = 0 ∧ a.rd t = 0) → ¬ (∀ a ∈ s :: l, a.pc w = .lockSleep)

/-- `lock_r()` of thread `t`, nobody else doing anything. -/
def doLockR (t : T) : List (Move T) := [.lockR t, .go t, .go t, .go t, .go t, .go t]

/-- `unlock_r()` of thread `t`, while another thread is reading. -/
def doUnlockR (t : T) : List (Move T) := [.unlockR t, .go t, .go t, .go t, .go t, .go t]

instance : DecidableEq (Rw (Fin 3)) := fun a b =>
  decidable_of_iff (a.owner = b.owner ∧ a.writer = b.writer ∧ a.readers = b.readers ∧ (∀ t, a.pc t = b.pc t) ∧
    (∀ t, a.wr t = b.wr t) ∧ (∀ t, a.rd t = b.rd t) ∧ a.aborted = b.aborted) (by
    cases a; cases b; simp only [Rw.mk.injEq, funext_iff])

/-- What is to be checked of a schedule: after `m1`, the schedule `m2` can be repeated for ever. -/
def Starves (m1 m2 : List (Move (Fin 3))) (w : Fin 3) : Bool :=
  match execEnd (init : Rw (Fin 3)) m1 with
  | none => false
  | some s =>
    match execAll s m2 with
    | none => false
    | some l => decide (l = l.dropLast ++ [s]) && decide (∀ t, ∃ a ∈ l.dropLast, a.wr t = 0 ∧ a.rd t = 0) &&
        decide (∀ a ∈ s :: l.dropLast, a.pc w = .lockSleep)

/-- The readers 0 and 1 take turns, each coming before the other one leaves; the writer 2 sleeps. -/
theorem C71_refuted : ¬ C71_FullClaim := by
  intro hc
  have h : Starves (doLockR 0 ++ [.lock 2, .go 2, .go 2]) (doLockR 1 ++ doUnlockR 0 ++ doLockR 0 ++ doUnlockR 1) 2 = true := by
    decide +kernel
  unfold Starves at h
  split at h
  · simp at h
  · rename_i s hs
    split at h
    · simp at h
    · rename_i l hl
      simp only [Bool.and_eq_true, decide_eq_true_eq] at h
      obtain ⟨⟨h1, h2⟩, h3⟩ := h
      have hch := execAll_chain hl
      rw [h1] at hch
      exact hc (Fin 3) s l.dropLast 2 (execEnd_reach hs) hch h2 h3

/-- The part that holds: if nobody holds the lock and nobody owns the internal mutex, a thread in `lock()` gets the
lock as soon as it is given three steps.  Missing: that this will happen. -/
theorem C71_free_partial {s : Rw T} (h : Reach s) (hfree : ∀ t, s.wr t = 0 ∧ s.rd t = 0) (ho : s.owner = none) (t : T)
    (ht : s.pc t = .lockEnter ∨ s.pc t = .lockSleep ∨ s.pc t = .lockWoken) :
    ∃ s', execEnd s [.go t, .go t, .go t] = some s' ∧ s'.wr t = 1 := by
  have hi := h.inv
  have hW : s.writer = 0 := by
    rw [hi.sumW, Finset.sum_eq_zero fun u _ => (hfree u).1]; rfl
  have hR : s.readers = 0 := by
    rw [hi.sumR, Finset.sum_eq_zero fun u _ => (hfree u).2]; rfl
  have he : entry (s.pc t) = some .lockTest := by
    rcases ht with e | e | e
    · rw [e]; rfl
    · exact absurd e (C70_no_lost_wakeup h hfree ho t).1
    · rw [e]; rfl
  have ha := hi.alive
  have hw := (hfree t).1
  have e1 : exec s (.go t) = some { s.goto t .lockTest with owner := some t } := by
    simp only [exec, ha, he, ho, if_true]
  have e2 : exec { s.goto t .lockTest with owner := some t } (.go t) =
      some ({ s.goto t .lockTest with owner := some t }.goto t .lockInc) := by
    simp [exec, ha, goto, entry, act, hW, hR]
  have e3 : exec ({ s.goto t .lockTest with owner := some t }.goto t .lockInc) (.go t) =
      some { ({ s.goto t .lockTest with owner := some t }.goto t .lockInc).goto t .lockCheckW with
        writer := s.writer + 1, wr := Function.update s.wr t (s.wr t + 1) } := by
    simp [exec, ha, goto, entry, act]
  refine ⟨_, by simp only [execEnd, execAll, e1, e2, e3, Option.map_some]; rfl, ?_⟩
  show Function.update s.wr t (s.wr t + 1) t = 1
  rw [Function.update_self, hw]

/-! ### C72 -/

/-- A thread that holds the lock for reading never sleeps in `lock_r()`, whatever the writers do. -/
theorem C72_read_again {s : Rw T} (h : Reach s) (t : T) (ht : 0 < s.rd t) : s.pc t ≠ .lockRSleep := by
  have : s.pc t = .lockRSleep → s.rd t = 0 := by
    clear ht
    induction h with
    | refl => intro _; rfl
    | tail h' hs ih => exact sleep_step (Reach.inv h') hs t ih
  intro e
  have := this e
  omega

/-- Thread 0 reads, the writer 2 waits, and thread 0 gets the lock for reading once more. -/
example : ∃ s : Rw (Fin 3), Reach s ∧ s.rd 0 = 2 ∧ s.pc 2 = .lockSleep := by
  obtain ⟨s, hs⟩ : ∃ s, execEnd (init : Rw (Fin 3)) (doLockR 0 ++ [.lock 2, .go 2, .go 2] ++ doLockR 0) = some s := ⟨_, rfl⟩
  have hr := execEnd_reach hs
  obtain rfl := Option.some.inj hs
  exact ⟨_, hr, rfl, rfl⟩

end Rw

end Wrtstat
