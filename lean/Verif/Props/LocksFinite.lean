/-
C126: readers and starvation; and what holds of writers and readers alike: calls that are not followed by ever more calls return.
-/
import Verif.Props.Locks

namespace Wrtstat

set_option autoImplicit false

open Relation

namespace Rw

variable {T : Type} [DecidableEq T]

/-! ### Readers -/

/-- In `lock_r()`, without the lock yet. -/
def waitsR : RwPc → Bool
  | .lockREnter | .lockRTest | .lockRSleep | .lockRWoken => true
  | _ => false

/-- The claim: there is no execution that repeats itself in which a thread is in `lock_r()` all the time without ever getting the
lock, although it is woken and runs, and every thread releases the lock again and again. -/
def C126_FullClaim : Prop :=
  ∀ (T : Type) [DecidableEq T] [Fintype T] (s : Rw T) (l : List (Rw T)) (w : T), Reach s →
    List.IsChain Step (s :: (l ++ [s])) → (∀ t, ∃ a ∈ l, a.wr t = 0 ∧ a.rd t = 0) → (∃ a ∈ l, a.pc w = .lockRTest) →
    ¬ (∀ a ∈ s :: l, waitsR (a.pc w) = true)

/-- What is to be checked of a schedule: after `m1`, the schedule `m2` can be repeated for ever. -/
def StarvesR (m1 m2 : List (Move (Fin 3))) (w : Fin 3) : Bool :=
  match execEnd (init : Rw (Fin 3)) m1 with
  | none => false
  | some s =>
    match execAll s m2 with
    | none => false
    | some l => decide (l = l.dropLast ++ [s]) && decide (∀ t, ∃ a ∈ l.dropLast, a.wr t = 0 ∧ a.rd t = 0) &&
        decide (∃ a ∈ l.dropLast, a.pc w = .lockRTest) && decide (∀ a ∈ s :: l.dropLast, waitsR (a.pc w) = true)

/-- `lock()` of thread `t`, the lock being free. -/
def doLock (t : T) : List (Move T) := [.lock t, .go t, .go t, .go t, .go t, .go t, .go t]

/-- `unlock()` of thread `t`. -/
def doUnlock (t : T) : List (Move T) := [.unlock t, .go t, .go t, .go t, .go t, .go t, .go t]

/-- One writer suffices: it releases the lock, which wakes the reader, and takes it again before the reader runs. -/
theorem C126_refuted : ¬ C126_FullClaim := by
  intro hc
  have h : StarvesR (doLock 0 ++ [.lockR 2, .go 2, .go 2]) (doUnlock 0 ++ doLock 0 ++ [.go 2, .go 2]) 2 = true := by
    decide +kernel
  unfold StarvesR at h
  split at h
  · simp at h
  · rename_i s hs
    split at h
    · simp at h
    · rename_i l hl
      simp only [Bool.and_eq_true, decide_eq_true_eq] at h
      obtain ⟨⟨⟨h1, h2⟩, h3⟩, h4⟩ := h
      have hch := execAll_chain hl
      rw [h1] at hch
      exact hc (Fin 3) s l.dropLast 2 (execEnd_reach hs) hch h2 h3 h4

variable [Fintype T]

/-- If nobody holds the lock for writing and nobody owns the internal mutex, a thread in `lock_r()` gets the lock as soon as it is
given four steps, whoever reads and whoever waits. -/
theorem C126_free_partial {s : Rw T} (h : Reach s) (hfree : ∀ t, s.wr t = 0) (ho : s.owner = none) (t : T)
    (ht : waitsR (s.pc t) = true) : ∃ s', execEnd s [.go t, .go t, .go t, .go t] = some s' ∧ s'.rd t = s.rd t + 1 := by
  have hi := h.inv
  have hW : s.writer = 0 := by
    rw [hi.sumW, Finset.sum_eq_zero fun u _ => hfree u]; rfl
  have he : entry (s.pc t) = some .lockRTest := by
    have h1 := C70_reader_wakeup h hfree ho t
    have h2 : (s.pc t).inside ≠ true := fun e => by
      rw [(hi.own t).1 e] at ho
      simp at ho
    cases hp : s.pc t <;> rw [hp] at ht h1 h2 <;> simp [waitsR, RwPc.inside] at ht h1 h2 <;> rfl
  have ha := hi.alive
  have e1 : exec s (.go t) = some { s.goto t .lockRTest with owner := some t } := by
    simp only [exec, ha, he, ho, if_true]
  let s1 : Rw T := { s.goto t .lockRTest with owner := some t }
  let s2 : Rw T := s1.goto t .lockRCheck
  let s3 : Rw T := s2.goto t .lockRInc
  let s4 : Rw T := { s3.goto t .lockRLeave with readers := s3.readers + 1, rd := Function.update s3.rd t (s3.rd t + 1) }
  have e2 : exec s1 (.go t) = some s2 := by simp [s1, s2, exec, ha, goto, entry, act, hW]
  have e3 : exec s2 (.go t) = some s3 := by simp [s1, s2, s3, exec, ha, goto, entry, act, hW]
  have e4 : exec s3 (.go t) = some s4 := by simp [s1, s2, s3, s4, exec, ha, goto, entry, act]
  have e1 : exec s (.go t) = some s1 := e1
  refine ⟨s4, by simp only [execEnd, execAll, e1, e2, e3, e4, Option.map_some]; rfl, ?_⟩
  show Function.update s.rd t (s.rd t + 1) t = _
  rw [Function.update_self]

/-! ### Calls return -/

/-- Executions from the constructed lock, with the numbers of calls, of spurious wake-ups and of steps inside calls. -/
inductive Counted : Rw T → Nat → Nat → Nat → Prop
  | init : Counted init 0 0 0
  | call {s s' : Rw T} {c k r : Nat} : Counted s c k r → s.aborted = false → Call s s' → Counted s' (c + 1) k r
  | spurious {s s' : Rw T} {c k r : Nat} : Counted s c k r → s.aborted = false → Spurious s s' → Counted s' c (k + 1) r
  | run {s s' : Rw T} {c k r : Nat} : Counted s c k r → s.aborted = false → Run s s' → Counted s' c k (r + 1)

omit [Fintype T] in
theorem Counted.reach {s : Rw T} {c k r : Nat} (h : Counted s c k r) : Reach s := by
  induction h with
  | init => exact .refl
  | call _ ha hs ih => exact ih.tail ⟨ha, .inl hs⟩
  | spurious _ ha hs ih => exact ih.tail ⟨ha, .inr (.inr hs)⟩
  | run _ ha hs ih => exact ih.tail ⟨ha, .inr (.inl hs)⟩

/-- How many steps a thread may still cause, itself and by waking others, `n` threads in all. -/
def rank (n : Nat) : RwPc → Nat
  | .idle | .lockSleep | .lockRSleep => 0
  | .lockLeave | .unlockLeave | .lockRLeave | .unlockRLeave => 1
  | .lockCheckR => 2
  | .lockCheckW => 3
  | .lockInc => 4
  | .lockTest => 5
  | .lockWoken | .lockEnter => 6
  | .lockRInc => 2
  | .lockRCheck => 3
  | .lockRTest => 4
  | .lockRWoken | .lockREnter => 5
  | .unlockNotifyR => 2 + 6 * n
  | .unlockNotifyW => 3 + 12 * n
  | .unlockCheck => 4 + 12 * n
  | .unlockDec => 5 + 12 * n
  | .unlockEnter => 6 + 12 * n
  | .unlockRNotify => 2 + 6 * n
  | .unlockRTest => 3 + 6 * n
  | .unlockRDec => 4 + 6 * n
  | .unlockRCheck => 5 + 6 * n
  | .unlockREnter => 6 + 6 * n

/-- How many steps may still be made. -/
def left (s : Rw T) : Nat := ∑ t, rank (Fintype.card T) (s.pc t)

theorem left_update (s : Rw T) (t : T) (p : RwPc) {s' : Rw T} (h : s'.pc = Function.update s.pc t p) :
    left s' + rank (Fintype.card T) (s.pc t) = left s + rank (Fintype.card T) p := by
  unfold left
  rw [h, ← Finset.add_sum_erase Finset.univ _ (Finset.mem_univ t), ← Finset.add_sum_erase Finset.univ (fun t => rank _ (s.pc t)) (Finset.mem_univ t)]
  have : ∑ x ∈ Finset.univ.erase t, rank (Fintype.card T) (Function.update s.pc t p x) =
      ∑ x ∈ Finset.univ.erase t, rank (Fintype.card T) (s.pc x) := by
    refine Finset.sum_congr rfl fun x hx => ?_
    rw [Function.update_of_ne (Finset.ne_of_mem_erase hx)]
  rw [this, Function.update_self]
  omega

omit [DecidableEq T] in
theorem left_notify (s : Rw T) {s' : Rw T} (h : ∀ t, rank (Fintype.card T) (s'.pc t) ≤ rank (Fintype.card T) (s.pc t) + 6) :
    left s' ≤ left s + 6 * Fintype.card T := by
  unfold left
  calc ∑ t, rank (Fintype.card T) (s'.pc t) ≤ ∑ t, (rank (Fintype.card T) (s.pc t) + 6) := Finset.sum_le_sum fun t _ => h t
    _ = _ := by rw [Finset.sum_add_distrib, Finset.sum_const, Finset.card_univ, mul_comm]; rfl

theorem left_lower {s : Rw T} (t : T) (p : RwPc) {s' : Rw T} (h : s'.pc = Function.update s.pc t p)
    (hr : rank (Fintype.card T) p + 1 ≤ rank (Fintype.card T) (s.pc t)) : left s' + 1 ≤ left s := by
  have := left_update s t p h
  omega

theorem left_act {s s' : Rw T} (t : T) (h : act s t = some s') (ha : s'.aborted = false) : left s' + 1 ≤ left s := by
  have hW : left s.notifyW ≤ left s + 6 * Fintype.card T := left_notify s fun u => by
    show rank _ (if s.pc u = .lockSleep then .lockWoken else s.pc u) ≤ _
    split_ifs with e
    · simp [e, rank]
    · omega
  have hR : left s.notifyR ≤ left s + 6 * Fintype.card T := left_notify s fun u => by
    show rank _ (if s.pc u = .lockRSleep then .lockRWoken else s.pc u) ≤ _
    split_ifs with e
    · simp [e, rank]
    · omega
  unfold act at h
  cases hp : s.pc t <;> rw [hp] at h <;> simp only [reduceCtorEq] at h <;> try split at h
  all_goals obtain rfl := Option.some.inj h
  case unlockNotifyW =>
    have := left_update s.notifyW t .unlockNotifyR (s' := s.notifyW.goto t .unlockNotifyR) rfl
    have e : s.notifyW.pc t = s.pc t := by simp [notifyW, hp]
    rw [e, hp] at this
    simp only [rank] at this
    omega
  case unlockNotifyR =>
    have := left_update s.notifyR t .unlockLeave (s' := s.notifyR.goto t .unlockLeave) rfl
    have e : s.notifyR.pc t = s.pc t := by simp [notifyR, hp]
    rw [e, hp] at this
    simp only [rank] at this
    omega
  case unlockRNotify =>
    have := left_update s.notifyW t .unlockRLeave (s' := s.notifyW.goto t .unlockRLeave) rfl
    have e : s.notifyW.pc t = s.pc t := by simp [notifyW, hp]
    rw [e, hp] at this
    simp only [rank] at this
    omega
  all_goals first
    | (simp at ha; done)
    | exact left_lower t _ rfl (by rw [hp]; simp only [rank]; omega)

theorem Counted.left {s : Rw T} {c k r : Nat} (h : Counted s c k r) :
    r + left s ≤ (12 * Fintype.card T + 6) * c + 6 * k := by
  induction h with
  | init => simp [Rw.left, Rw.init, rank]
  | @call s s' c k r h ha hs ih =>
    have key : ∀ (t : T) (p : RwPc), s.pc t = .idle → rank (Fintype.card T) p ≤ 12 * Fintype.card T + 6 →
        r + Rw.left (s.goto t p) ≤ (12 * Fintype.card T + 6) * (c + 1) + 6 * k := by
      intro t p e hp
      have := left_update s t p (s' := s.goto t p) rfl
      rw [e, show rank (Fintype.card T) .idle = 0 from rfl] at this
      rw [Nat.mul_add]
      omega
    cases hs with
    | lock t e => exact key t _ e (by simp only [rank]; omega)
    | unlock t e _ => exact key t _ e (by simp only [rank]; omega)
    | lockR t e => exact key t _ e (by simp only [rank]; omega)
    | unlockR t e _ => exact key t _ e (by simp only [rank]; omega)
  | @spurious s s' c k r h ha hs ih =>
    cases hs with
    | w t e =>
      have := left_update s t .lockWoken (s' := s.goto t .lockWoken) rfl
      rw [e] at this
      simp only [rank] at this
      omega
    | r t e =>
      have := left_update s t .lockRWoken (s' := s.goto t .lockRWoken) rfl
      rw [e] at this
      simp only [rank] at this
      omega
  | @run s s' c k r h ha hs ih =>
    have hal : s'.aborted = false := (Counted.run h ha hs).reach.inv.alive
    cases hs with
    | enter t p e _ =>
      have : Rw.left { s.goto t p with owner := some t } + 1 ≤ Rw.left s := left_lower t p rfl (by
        cases hp : s.pc t <;> rw [hp] at e <;> simp only [entry, Option.some.injEq, reduceCtorEq] at e <;> subst e <;>
          simp only [rank] <;> omega)
      rw [Nat.add_right_comm]
      exact (Nat.add_le_add_left this r).trans ih
    | act _ t e =>
      have := left_act t e hal
      omega

/-- Calls return unless they have to wait: `c` calls of `n` threads, with `k` spurious wake-ups, take at most `(12 n + 6) c + 6 k`
steps in all; and when no thread can go on, every thread has returned from its call, or sleeps because another thread holds the
lock. -/
theorem C126_returns_partial {s : Rw T} {c k r : Nat} (h : Counted s c k r) :
    r ≤ (12 * Fintype.card T + 6) * c + 6 * k ∧
    ((∀ s', ¬ Run s s') → ∀ t, s.pc t = .idle ∨ (s.pc t = .lockSleep ∧ ∃ u, 0 < s.wr u + s.rd u) ∨
      (s.pc t = .lockRSleep ∧ ∃ u, 0 < s.wr u)) := by
  refine ⟨by have := h.left; omega, fun hn t => ?_⟩
  have hr := h.reach
  have hi := hr.inv
  have ho : s.owner = none := by
    cases ho : s.owner with
    | none => rfl
    | some u =>
      exfalso
      have hin := (hi.own u).2 ho
      have : ∃ s', act s u = some s' := by
        unfold act
        cases hp : s.pc u <;> rw [hp] at hin <;> simp [RwPc.inside] at hin <;> simp only <;> try split
        all_goals exact ⟨_, rfl⟩
      obtain ⟨s', hs'⟩ := this
      exact hn s' (.act s s' u hs')
  have hno : ∀ u, (s.pc u).inside ≠ true := fun u hu => by
    rw [(hi.own u).1 hu] at ho
    simp at ho
  have he : entry (s.pc t) = none := by
    cases he : entry (s.pc t) with
    | none => rfl
    | some p => exact absurd (.enter s t p he ho) (hn _)
  have hin := hno t
  have cases3 : s.pc t = .idle ∨ s.pc t = .lockSleep ∨ s.pc t = .lockRSleep := by
    cases hp : s.pc t <;> rw [hp] at hin he <;> simp [RwPc.inside, entry] at hin he <;> simp
  have posW : s.writer ≠ 0 → ∃ u, 0 < s.wr u := by
    intro hw
    by_contra hc
    push Not at hc
    exact hw (by rw [hi.sumW, Finset.sum_eq_zero fun u _ => Nat.le_zero.1 (hc u)]; rfl)
  have posR : s.readers ≠ 0 → ∃ u, 0 < s.rd u := by
    intro hw
    by_contra hc
    push Not at hc
    exact hw (by rw [hi.sumR, Finset.sum_eq_zero fun u _ => Nat.le_zero.1 (hc u)]; rfl)
  rcases cases3 with e | e | e
  · exact .inl e
  · refine .inr (.inl ⟨e, ?_⟩)
    rcases hr.winv.slW t e with e | e | ⟨u, e⟩
    · obtain ⟨u, hu⟩ := posW e
      exact ⟨u, by omega⟩
    · obtain ⟨u, hu⟩ := posR e
      exact ⟨u, by omega⟩
    · exact absurd (willW_inside e) (hno u)
  · refine .inr (.inr ⟨e, ?_⟩)
    rcases hr.winv.slR t e with e | ⟨u, e⟩
    · exact posW e
    · exact absurd (willR_inside e) (hno u)

/-- So an execution without end has calls without end, or spurious wake-ups without end: whoever waits for ever is overtaken for
ever. -/
theorem C126_overtaken_partial (f : Nat → Rw T) (h0 : f 0 = init) (hs : ∀ n, Step (f n) (f (n + 1))) (n : Nat) :
    ∃ m, n ≤ m ∧ (Call (f m) (f (m + 1)) ∨ Spurious (f m) (f (m + 1))) := by
  by_contra hc
  push Not at hc
  have h1 : ∀ n, ∃ c k r, Counted (f n) c k r := by
    intro n
    induction n with
    | zero => exact ⟨0, 0, 0, by rw [h0]; exact .init⟩
    | succ n ih =>
      obtain ⟨c, k, r, ih⟩ := ih
      obtain ⟨ha, h | h | h⟩ := hs n
      · exact ⟨_, _, _, .call ih ha h⟩
      · exact ⟨_, _, _, .run ih ha h⟩
      · exact ⟨_, _, _, .spurious ih ha h⟩
  obtain ⟨c, k, r, h⟩ := h1 n
  have h2 : ∀ i, Counted (f (n + i)) c k (r + i) := by
    intro i
    induction i with
    | zero => exact h
    | succ i ih =>
      obtain ⟨ha, h | h | h⟩ := hs (n + i)
      · exact absurd h (hc (n + i) (by omega)).1
      · exact .run ih ha h
      · exact absurd h (hc (n + i) (by omega)).2
  have := (C126_returns_partial (h2 ((12 * Fintype.card T + 6) * c + 6 * k + 1))).1
  omega

/-- The move begins a call. -/
def Move.begins : Move T → Bool
  | .go _ => false
  | _ => true

omit [Fintype T] in
theorem counted_exec {s s' : Rw T} {m : Move T} {c k r : Nat} (h : Counted s c k r) (he : exec s m = some s') :
    Counted s' (c + if m.begins then 1 else 0) k (r + if m.begins then 0 else 1) := by
  have key : ∀ t, m = .go t → Run s s' := by
    rintro t rfl
    simp only [exec] at he
    split at he
    · split at he
      · rename_i p hp
        split at he
        · rename_i ho
          obtain rfl := Option.some.inj he
          exact .enter s t p hp ho
        · simp at he
      · exact .act s s' t he
    · simp at he
  obtain ⟨ha, -⟩ := exec_step he
  cases m with
  | go t => exact .run h ha (key t rfl)
  | lock t =>
    simp only [exec] at he
    split at he
    · rename_i hc; obtain rfl := Option.some.inj he; exact .call h ha (.lock s t hc.2)
    · simp at he
  | unlock t =>
    simp only [exec] at he
    split at he
    · rename_i hc; obtain rfl := Option.some.inj he; exact .call h ha (.unlock s t hc.2.1 hc.2.2)
    · simp at he
  | lockR t =>
    simp only [exec] at he
    split at he
    · rename_i hc; obtain rfl := Option.some.inj he; exact .call h ha (.lockR s t hc.2)
    · simp at he
  | unlockR t =>
    simp only [exec] at he
    split at he
    · rename_i hc; obtain rfl := Option.some.inj he; exact .call h ha (.unlockR s t hc.2.1 hc.2.2)
    · simp at he

/-- Thread 0 holds the lock for writing, thread 1 sleeps in `lock_r()`: two calls, eight steps, and no thread can go on. -/
example : ∃ s : Rw (Fin 2), Counted s 2 0 8 ∧ s.wr 0 = 1 ∧ s.pc 0 = .idle ∧ s.pc 1 = .lockRSleep := by
  have step : ∀ {s : Rw (Fin 2)} {c k r : Nat} (m : Move (Fin 2)) (s' : Rw (Fin 2)), exec s m = some s' → Counted s c k r →
      Counted s' (c + if m.begins then 1 else 0) k (r + if m.begins then 0 else 1) := fun _ _ he h => counted_exec h he
  exact ⟨_, step (.go 1) _ rfl (step (.go 1) _ rfl (step (.lockR 1) _ rfl (step (.go 0) _ rfl (step (.go 0) _ rfl (step (.go 0) _ rfl
    (step (.go 0) _ rfl (step (.go 0) _ rfl (step (.go 0) _ rfl (step (.lock 0) _ rfl .init))))))))), rfl, rfl, rfl⟩

end Rw

end Wrtstat
