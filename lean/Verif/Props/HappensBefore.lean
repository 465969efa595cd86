/-
Property C103: data that is only accessed under a spinlock, or only written under `rwlock::lock()` and only read under
`rwlock::lock()` or `rwlock::lock_r()`, is free of data races.

Mutual exclusion (C59, C53) says that the accesses do not overlap; here it is shown that they are ordered by what the
memory model calls happens-before, so that each thread sees what the threads before it have written.
-/
import Verif.Model.HappensBefore
import Verif.Props.Locks
import Mathlib.Tactic.SplitIfs

namespace Wrtstat

set_option autoImplicit false

open Relation

namespace Clocks

variable {T : Type} [DecidableEq T]

theorem view_acquire (c : Clocks T) (t v u : T) :
    (c.acquire t).view v u = if v = t then max (c.view t u) (c.sync u) else c.view v u := by
  unfold acquire
  by_cases h : v = t
  · subst h; simp
  · simp [h]

theorem view_access (f : T → T → Nat) (t v u : T) :
    Function.update f t (Function.update (f t) t (f t t + 1)) v u = if v = t ∧ u = t then f t t + 1 else f v u := by
  by_cases h : v = t
  · subst h
    rw [Function.update_self]
    by_cases hu : u = v
    · subst hu; simp
    · simp [hu]
  · simp [h]

/-- A thread knows its own accesses. -/
def Own (c : Clocks T) : Prop := ∀ u, c.wrote u ≤ c.view u u ∧ c.read u ≤ c.view u u

theorem Own.acquire {c : Clocks T} (h : c.Own) (t : T) : (c.acquire t).Own := by
  intro u
  rw [view_acquire]
  have := h u
  show c.wrote u ≤ _ ∧ c.read u ≤ _
  split
  · rename_i e; subst e; omega
  · exact this

theorem Own.doWrite {c : Clocks T} (h : c.Own) (t : T) : (c.doWrite t).Own := by
  intro u
  have := h u
  show Function.update c.wrote t _ u ≤ Function.update c.view t _ u u ∧ c.read u ≤ Function.update c.view t _ u u
  rw [view_access]
  by_cases e : u = t
  · subst e; simp; omega
  · simpa [e] using this

theorem Own.doRead {c : Clocks T} (h : c.Own) (t : T) : (c.doRead t).Own := by
  intro u
  have := h u
  show c.wrote u ≤ Function.update c.view t _ u u ∧ Function.update c.read t _ u ≤ Function.update c.view t _ u u
  rw [view_access]
  by_cases e : u = t
  · subst e; simp; omega
  · simpa [e] using this

/-- After its own access a thread knows what it knew, and the access. -/
theorem WriteOk.doWrite {c : Clocks T} {t : T} (h : c.WriteOk t) : (c.doWrite t).WriteOk t := by
  intro u
  have := h u
  show Function.update c.wrote t _ u ≤ Function.update c.view t _ t u ∧ c.read u ≤ Function.update c.view t _ t u
  rw [view_access]
  by_cases e : u = t
  · subst e; simp; omega
  · simpa [e] using this

theorem WriteOk.doRead {c : Clocks T} {t : T} (h : c.WriteOk t) : (c.doRead t).WriteOk t := by
  intro u
  have := h u
  show c.wrote u ≤ Function.update c.view t _ t u ∧ Function.update c.read t _ u ≤ Function.update c.view t _ t u
  rw [view_access]
  by_cases e : u = t
  · subst e; simp; omega
  · simpa [e] using this

/-- A read of any thread leaves what others need to know for reading. -/
theorem ReadOk.doRead {c : Clocks T} {v : T} (h : c.ReadOk v) (t : T) : (c.doRead t).ReadOk v := by
  intro u
  have := h u
  show c.wrote u ≤ Function.update c.view t _ v u
  rw [view_access]
  split
  · rename_i e; obtain ⟨rfl, rfl⟩ := e; omega
  · exact this

omit [DecidableEq T] in
theorem WriteOk.readOk {c : Clocks T} {t : T} (h : c.WriteOk t) : c.ReadOk t := fun u => (h u).1

end Clocks

/-! ### spinlock -/

namespace Spin

open Clocks

variable {T : Type} [DecidableEq T]

/-- Reachable from the constructed lock. -/
def ReachHb (x : Spin T × Clocks T) : Prop := ReflTransGen SpinHb (init, Clocks.init) x

/-- Forgetting the clocks gives the executions of C59. -/
theorem ReachHb.reach {x : Spin T × Clocks T} (h : ReachHb x) : Reach x.1 := by
  induction h with
  | refl => exact .refl
  | tail _ hs ih =>
    cases hs with
    | call s c t h => exact ih.tail (.call s t h)
    | spin s c t h => exact ih.tail (.spin s t h)
    | tryLock s c t h => exact ih.tail (.tryLock s t h)
    | unlock s c t h => exact ih.tail (.unlock s t h)
    | write | read => exact ih

structure HInv (s : Spin T) (c : Clocks T) : Prop where
  own : c.Own
  free : s.value = false → ∀ u, c.wrote u ≤ c.sync u ∧ c.read u ≤ c.sync u
  held : ∀ t, s.pc t = .hold → c.WriteOk t

/-- The exchange of a thread that may get the lock. -/
theorem HInv.exchange {s : Spin T} {c : Clocks T} (hr : Reach s) (h : HInv s c) (t : T) :
    HInv { value := true, pc := if s.value then s.pc else Function.update s.pc t .hold } ((c.acquire t).release t) := by
  refine ⟨h.own.acquire t, by simp, fun u hu => ?_⟩
  have key : ∀ v, c.wrote v ≤ (c.acquire t).view u v ∧ c.read v ≤ (c.acquire t).view u v := by
    intro v
    rw [view_acquire]
    cases hv : s.value with
    | true =>
      simp only [hv, if_true] at hu
      have := h.held u hu v
      split
      · rename_i e; subst e; omega
      · exact this
    | false =>
      simp only [hv, Bool.false_eq_true, if_false] at hu
      have hf := h.free hv v
      split
      · omega
      · rename_i e
        rw [Function.update_of_ne e] at hu
        have := (inv hr).2.2 ⟨u, hu⟩
        rw [hv] at this; cases this
  exact key

theorem ReachHb.hinv {x : Spin T × Clocks T} (h : ReachHb x) : HInv x.1 x.2 := by
  induction h with
  | refl => exact ⟨fun u => by simp [Clocks.init], fun _ u => by simp [Clocks.init], fun t h => by simp [init] at h⟩
  | tail hx hs ih =>
    have hr := ReachHb.reach hx
    cases hs with
    | call s c t h =>
      refine ⟨ih.own, ih.free, fun u hu => ih.held u ?_⟩
      by_cases e : u = t
      · subst e; simp at hu
      · simpa [Function.update_of_ne e] using hu
    | spin s c t h => exact ih.exchange hr t
    | tryLock s c t h => exact ih.exchange hr t
    | unlock s c t h =>
      refine ⟨ih.own, fun _ u => ih.held t h u, fun u hu => ?_⟩
      simp only [unlock] at hu
      by_cases e : u = t
      · subst e; simp at hu
      · rw [Function.update_of_ne e] at hu
        exact absurd ((inv hr).1 u t hu h) e
    | write s c t h =>
      refine ⟨ih.own.doWrite t, fun hv => ?_, fun u hu => ?_⟩
      · have := (inv hr).2.2 ⟨t, h⟩
        rw [hv] at this; cases this
      · obtain rfl := (inv hr).1 u t hu h
        exact (ih.held u hu).doWrite
    | read s c t h =>
      refine ⟨ih.own.doRead t, fun hv => ?_, fun u hu => ?_⟩
      · have := (inv hr).2.2 ⟨t, h⟩
        rw [hv] at this; cases this
      · obtain rfl := (inv hr).1 u t hu h
        exact (ih.held u hu).doRead

/-- A thread that holds a spinlock may write and read the guarded data: all accesses so far happen before. -/
theorem C103_spinlock {s : Spin T} {c : Clocks T} (h : ReachHb (s, c)) (t : T) (ht : s.pc t = .hold) :
    c.WriteOk t ∧ c.ReadOk t :=
  ⟨h.hinv.held t ht, (h.hinv.held t ht).readOk⟩

/-- Two threads: the first has written and given the lock back, the second has it now; without the lock its access would
have been a race. -/
example : ∃ (s : Spin Bool) (c : Clocks Bool), ReachHb (s, c) ∧ s.pc false = .hold ∧ c.wrote true = 1 ∧ c.WriteOk false ∧
    ∃ (s' : Spin Bool) (c' : Clocks Bool), ReachHb (s', c') ∧ s'.pc false = .idle ∧ c'.wrote true = 1 ∧ ¬ c'.ReadOk false := by
  have h1 : ReachHb ((_, _) : Spin Bool × Clocks Bool) := ReflTransGen.tail .refl (.tryLock _ _ true (by simp [init]))
  have h2 := h1.tail (.write _ _ true rfl)
  have h3 := h2.tail (.unlock _ _ true rfl)
  have h4 := h3.tail (.tryLock _ _ false (by decide))
  refine ⟨_, _, h4, rfl, rfl, (C103_spinlock h4 false rfl).1, _, _, h2, rfl, rfl, fun h => ?_⟩
  exact absurd (h true) (by decide)

end Spin

/-! ### rwlock -/

namespace Rw

open Clocks

variable {T : Type} [DecidableEq T] [Fintype T]

/-- Reachable from the constructed lock. -/
def ReachHb (x : Rw T × Clocks T) : Prop := ReflTransGen RwHb (init, Clocks.init) x

/-- Forgetting the clocks gives the executions of C53. -/
theorem ReachHb.reach {x : Rw T × Clocks T} (h : ReachHb x) : Reach x.1 := by
  induction h with
  | refl => exact .refl
  | tail _ hs ih =>
    have ha : Rw.aborted _ = false := C53_no_abort ih
    cases hs with
    | call s s' c h => exact ih.tail ⟨ha, .inl h⟩
    | spurious s s' c h => exact ih.tail ⟨ha, .inr (.inr h)⟩
    | enter s c t p h ho => exact ih.tail ⟨ha, .inr (.inl (.enter s t p h ho))⟩
    | act s s' c t h => exact ih.tail ⟨ha, .inr (.inl (.act s s' t h))⟩
    | write | read => exact ih

/-- What the owner of the mutex may have done to the holds. -/
theorem act_holds {s s' : Rw T} {t : T} (hi : Inv s) (h : act s t = some s') :
    s.owner = some t ∧ (s'.owner = some t ∨ s'.owner = none) ∧
    (∀ u, u ≠ t → s'.wr u = s.wr u ∧ s'.rd u = s.rd u) ∧
    (0 < s'.wr t → 0 < s.wr t ∨ (∀ u, s.wr u = 0 ∧ s.rd u = 0)) ∧
    (0 < s'.rd t → 0 < s.rd t ∨ ∀ u, s.wr u = 0) := by
  have hin : (s.pc t).inside = true := by
    unfold Rw.act at h
    cases hp : s.pc t <;> rw [hp] at h <;> simp at h <;> rfl
  have ho := (hi.own t).1 hin
  have hok := hi.oks t
  have hW := hi.sumW
  have hR := hi.sumR
  have hw0 : s.writer = 0 → ∀ u, s.wr u = 0 := fun e u => by have := le_sum s.wr u; omega
  have hr0 : s.readers = 0 → ∀ u, s.rd u = 0 := fun e u => by have := le_sum s.rd u; omega
  refine ⟨ho, ?_⟩
  unfold Rw.act at h
  cases hp : s.pc t <;> rw [hp] at h hok <;> simp only [reduceCtorEq] at h <;> simp only [ok] at hok <;>
    (try split_ifs at h) <;> obtain rfl := Option.some.inj h
  case lockInc =>
    refine ⟨.inl ho, fun u hu => ⟨Function.update_of_ne hu _ _, rfl⟩, fun _ => .inr fun u => ⟨hw0 hok.1 u, hr0 hok.2 u⟩, fun e => .inl e⟩
  case lockRInc =>
    refine ⟨.inl ho, fun u hu => ⟨rfl, Function.update_of_ne hu _ _⟩, fun e => .inl e, fun _ => .inr fun u => hw0 hok u⟩
  case unlockDec =>
    exact ⟨.inl ho, fun u hu => ⟨Function.update_of_ne hu _ _, rfl⟩, fun _ => .inl hok, fun e => .inl e⟩
  case unlockRDec =>
    exact ⟨.inl ho, fun u hu => ⟨rfl, Function.update_of_ne hu _ _⟩, fun e => .inl e, fun _ => .inl hok⟩
  all_goals
    first
    | exact ⟨.inl ho, fun u hu => ⟨rfl, rfl⟩, fun e => .inl e, fun e => .inl e⟩
    | exact ⟨.inr rfl, fun u hu => ⟨rfl, rfl⟩, fun e => .inl e, fun e => .inl e⟩

structure HInv (s : Rw T) (c : Clocks T) : Prop where
  own : c.Own
  /-- the owner of the mutex knows what the mutex carries -/
  owner : ∀ t, s.owner = some t → ∀ u, c.sync u ≤ c.view t u
  /-- the mutex carries every write, except of a thread that still holds the lock for writing or owns the mutex -/
  wrote : ∀ u, c.wrote u ≤ c.sync u ∨ 0 < s.wr u ∨ s.owner = some u
  read : ∀ u, c.read u ≤ c.sync u ∨ 0 < s.wr u ∨ 0 < s.rd u ∨ s.owner = some u
  writer : ∀ t, 0 < s.wr t → c.WriteOk t
  reader : ∀ t, 0 < s.rd t → c.ReadOk t

omit [DecidableEq T] [Fintype T] in
/-- Steps that touch neither clocks, nor holds, nor the mutex. -/
theorem HInv.same {s s' : Rw T} {c : Clocks T} (h : HInv s c) (ho : s'.owner = s.owner) (hw : s'.wr = s.wr)
    (hr : s'.rd = s.rd) : HInv s' c := by
  obtain ⟨h1, h2, h3, h4, h5, h6⟩ := h
  exact ⟨h1, by rw [ho]; exact h2, by rw [ho, hw]; exact h3, by rw [ho, hw, hr]; exact h4, by rw [hw]; exact h5,
    by rw [hr]; exact h6⟩

theorem HInv.act {s s' : Rw T} {c : Clocks T} {t : T} (hi : Inv s) (h : HInv s c) (hs : Rw.act s t = some s') :
    HInv s' (if s'.owner = none then c.release t else c) := by
  obtain ⟨ho, ho', hne, hwt, hrt⟩ := act_holds hi hs
  have hk := h.owner t ho
  -- what `t` knows when nobody holds the lock
  have kw : (∀ u, s.wr u = 0) → c.ReadOk t := by
    intro hz u
    rcases h.wrote u with e | e | e
    · exact e.trans (hk u)
    · exact absurd (hz u) (by omega)
    · rw [ho] at e
      obtain rfl := Option.some.inj e
      exact (h.own t).1
  have kr : (∀ u, s.wr u = 0 ∧ s.rd u = 0) → c.WriteOk t := by
    intro hz u
    refine ⟨kw (fun u => (hz u).1) u, ?_⟩
    rcases h.read u with e | e | e | e
    · exact e.trans (hk u)
    · exact absurd (hz u).1 (by omega)
    · exact absurd (hz u).2 (by omega)
    · rw [ho] at e
      obtain rfl := Option.some.inj e
      exact (h.own t).2
  have hwriter : ∀ v, 0 < s'.wr v → c.WriteOk v := by
    intro v hv
    by_cases e : v = t
    · subst e
      rcases hwt hv with e | e
      · exact h.writer v e
      · exact kr e
    · exact h.writer v (by rw [← (hne v e).1]; exact hv)
  have hreader : ∀ v, 0 < s'.rd v → c.ReadOk v := by
    intro v hv
    by_cases e : v = t
    · subst e
      rcases hrt hv with e | e
      · exact h.reader v e
      · exact kw e
    · exact h.reader v (by rw [← (hne v e).2]; exact hv)
  have hout : ∀ u, u ≠ t → s.owner ≠ some u := fun u hu e => by
    rw [ho] at e; exact hu (Option.some.inj e).symm
  rcases ho' with e | e
  · rw [if_neg (by rw [e]; simp)]
    refine ⟨h.own, fun v hv => ?_, fun u => ?_, fun u => ?_, hwriter, hreader⟩
    · rw [e] at hv; obtain rfl := Option.some.inj hv; exact hk
    · by_cases hu : u = t
      · subst hu; exact .inr (.inr e)
      · rw [(hne u hu).1, e, ← ho]; exact h.wrote u
    · by_cases hu : u = t
      · subst hu; exact .inr (.inr (.inr e))
      · rw [(hne u hu).1, (hne u hu).2, e, ← ho]; exact h.read u
  · rw [if_pos e]
    refine ⟨h.own, fun v hv => ?_, fun u => ?_, fun u => ?_, hwriter, hreader⟩
    · rw [e] at hv; cases hv
    · show c.wrote u ≤ c.view t u ∨ _
      by_cases hu : u = t
      · subst hu; exact .inl (h.own u).1
      · rw [(hne u hu).1]
        rcases h.wrote u with e | e | e
        · exact .inl (e.trans (hk u))
        · exact .inr (.inl e)
        · exact absurd e (hout u hu)
    · show c.read u ≤ c.view t u ∨ _
      by_cases hu : u = t
      · subst hu; exact .inl (h.own u).2
      · rw [(hne u hu).1, (hne u hu).2]
        rcases h.read u with e | e | e | e
        · exact .inl (e.trans (hk u))
        · exact .inr (.inl e)
        · exact .inr (.inr (.inl e))
        · exact absurd e (hout u hu)

theorem ReachHb.hinv {x : Rw T × Clocks T} (h : ReachHb x) : HInv x.1 x.2 := by
  induction h with
  | refl =>
    exact ⟨fun u => by simp [Clocks.init], by simp [init], fun u => by simp [Clocks.init], fun u => by simp [Clocks.init],
      by simp [init], by simp [init]⟩
  | tail hx hs ih =>
    have hr := ReachHb.reach hx
    have hi := hr.inv
    cases hs with
    | call s s' c h => cases h <;> exact ih.same rfl rfl rfl
    | spurious s s' c h => cases h <;> exact ih.same rfl rfl rfl
    | enter s c t p h ho =>
      have hv : ∀ v u, c.view v u ≤ (c.acquire t).view v u := fun v u => by
        rw [view_acquire]
        split
        · rename_i e; subst e; omega
        · exact le_refl _
      refine ⟨ih.own.acquire t, fun v hv u => ?_, fun u => ?_, fun u => ?_, fun v hw u => ?_, fun v hr u => ?_⟩
      · obtain rfl := Option.some.inj hv
        rw [view_acquire, if_pos rfl]
        exact le_max_right _ _
      · rcases ih.wrote u with e | e | e
        · exact .inl e
        · exact .inr (.inl e)
        · rw [ho] at e; cases e
      · rcases ih.read u with e | e | e | e
        · exact .inl e
        · exact .inr (.inl e)
        · exact .inr (.inr (.inl e))
        · rw [ho] at e; cases e
      · exact ⟨(ih.writer v hw u).1.trans (hv v u), (ih.writer v hw u).2.trans (hv v u)⟩
      · exact (ih.reader v hr u).trans (hv v u)
    | act s s' c t h => exact ih.act hi h
    | write s c t hp h =>
      obtain ⟨-, hno, hone⟩ := C53_exclusive hr t h
      have hout : s.owner ≠ some t := fun e => by
        have := (hi.own t).2 e
        rw [show s.pc t = .idle from hp] at this; cases this
      refine ⟨ih.own.doWrite t, fun v hv u => ?_, fun u => ?_, fun u => ?_, fun v hw => ?_, fun v hr => ?_⟩
      · have := ih.owner v hv u
        show c.sync u ≤ Function.update c.view t _ v u
        rw [view_access, if_neg]
        · exact this
        · rintro ⟨rfl, -⟩; exact hout hv
      · by_cases e : u = t
        · subst e; exact .inr (.inl h)
        · show Function.update c.wrote t _ u ≤ _ ∨ _
          rw [Function.update_of_ne e]; exact ih.wrote u
      · exact ih.read u
      · obtain rfl := hone v hw
        exact (ih.writer v hw).doWrite
      · exact absurd (hno v) (Nat.ne_of_gt hr)
    | read s c t hp h =>
      have hout : s.owner ≠ some t := fun e => by
        have := (hi.own t).2 e
        rw [show s.pc t = .idle from hp] at this; cases this
      refine ⟨ih.own.doRead t, fun v hv u => ?_, ih.wrote, fun u => ?_, fun v hw => ?_, fun v hr => ?_⟩
      · have := ih.owner v hv u
        show c.sync u ≤ Function.update c.view t _ v u
        rw [view_access, if_neg]
        · exact this
        · rintro ⟨rfl, -⟩; exact hout hv
      · by_cases e : u = t
        · subst e
          rcases h with h | h
          · exact .inr (.inl h)
          · exact .inr (.inr (.inl h))
        · show Function.update c.read t _ u ≤ _ ∨ _
          rw [Function.update_of_ne e]; exact ih.read u
      · obtain ⟨-, hno, hone⟩ := C53_exclusive hr v hw
        have : t = v := by
          rcases h with h | h
          · exact hone t h
          · exact absurd (hno t) (Nat.ne_of_gt h)
        subst this
        exact (ih.writer t hw).doRead
      · exact (ih.reader v hr).doRead t

/-- A thread that holds a `rwlock` for writing may write and read the guarded data, one that holds it for reading may read
it: the accesses that could conflict happen before. -/
theorem C103_rwlock {s : Rw T} {c : Clocks T} (h : ReachHb (s, c)) (t : T) :
    (0 < s.wr t → c.WriteOk t ∧ c.ReadOk t) ∧ (0 < s.rd t → c.ReadOk t) :=
  ⟨fun ht => ⟨h.hinv.writer t ht, (h.hinv.writer t ht).readOk⟩, fun ht => h.hinv.reader t ht⟩

/-- Steps of a schedule, with accesses. -/
inductive HMove (T : Type) where
  | move (m : Move T) | write (t : T) | read (t : T)

omit [Fintype T] in
/-- The step chosen, if there is one. -/
def execHb (x : Rw T × Clocks T) : HMove T → Option (Rw T × Clocks T)
  | .move (.go t) =>
    match entry (x.1.pc t) with
    | some p => if x.1.owner = none then some ({ x.1.goto t p with owner := some t }, x.2.acquire t) else none
    | none => (Rw.act x.1 t).map fun s' => (s', if s'.owner = none then x.2.release t else x.2)
  | .move (.lock t) => if x.1.pc t = .idle then some (x.1.goto t .lockEnter, x.2) else none
  | .move (.unlock t) => if x.1.pc t = .idle ∧ 0 < x.1.wr t then some (x.1.goto t .unlockEnter, x.2) else none
  | .move (.lockR t) => if x.1.pc t = .idle then some (x.1.goto t .lockREnter, x.2) else none
  | .move (.unlockR t) => if x.1.pc t = .idle ∧ 0 < x.1.rd t then some (x.1.goto t .unlockREnter, x.2) else none
  | .write t => if x.1.pc t = .idle ∧ 0 < x.1.wr t then some (x.1, x.2.doWrite t) else none
  | .read t => if x.1.pc t = .idle ∧ (0 < x.1.wr t ∨ 0 < x.1.rd t) then some (x.1, x.2.doRead t) else none

omit [Fintype T] in
theorem execHb_step {x y : Rw T × Clocks T} {m : HMove T} (h : execHb x m = some y) : RwHb x y := by
  obtain ⟨s, c⟩ := x
  cases m with
  | write t =>
    simp only [execHb] at h
    split at h
    · rename_i hc; obtain rfl := Option.some.inj h; exact .write s c t hc.1 hc.2
    · cases h
  | read t =>
    simp only [execHb] at h
    split at h
    · rename_i hc; obtain rfl := Option.some.inj h; exact .read s c t hc.1 hc.2
    · cases h
  | move m =>
    cases m with
    | lock t =>
      simp only [execHb] at h
      split at h
      · rename_i hc; obtain rfl := Option.some.inj h; exact .call s _ c (.lock s t hc)
      · cases h
    | unlock t =>
      simp only [execHb] at h
      split at h
      · rename_i hc; obtain rfl := Option.some.inj h; exact .call s _ c (.unlock s t hc.1 hc.2)
      · cases h
    | lockR t =>
      simp only [execHb] at h
      split at h
      · rename_i hc; obtain rfl := Option.some.inj h; exact .call s _ c (.lockR s t hc)
      · cases h
    | unlockR t =>
      simp only [execHb] at h
      split at h
      · rename_i hc; obtain rfl := Option.some.inj h; exact .call s _ c (.unlockR s t hc.1 hc.2)
      · cases h
    | go t =>
      simp only [execHb] at h
      split at h
      · rename_i p hp
        split at h
        · rename_i ho; obtain rfl := Option.some.inj h; exact .enter s c t p hp ho
        · cases h
      · cases ha : Rw.act s t with
        | none => rw [ha] at h; cases h
        | some s' => rw [ha] at h; obtain rfl := Option.some.inj h; exact .act s s' c t ha

omit [Fintype T] in
theorem execHb_all {ms : List (HMove T)} : ∀ {x y : Rw T × Clocks T}, ms.foldlM execHb x = some y →
    ReflTransGen RwHb x y := by
  induction ms with
  | nil => intro x y h; obtain rfl := Option.some.inj h; exact .refl
  | cons m ms ih =>
    intro x y h
    rw [List.foldlM_cons] at h
    cases hm : execHb x m with
    | none => rw [hm] at h; cases h
    | some z => rw [hm] at h; exact ReflTransGen.head (execHb_step hm) (ih h)

/-- `lock()`, a write and `unlock()` of thread 0; then `lock_r()` of thread 1, or not. -/
def exHb (n : Nat) : List (HMove (Fin 2)) :=
  let l : List (HMove (Fin 2)) := [.move (.lock 0)] ++ List.replicate 6 (.move (.go 0)) ++ [.write 0, .move (.unlock 0)] ++ List.replicate 6 (.move (.go 0))
    ++ [.move (.lockR 1)] ++ List.replicate 5 (.move (.go 1)) ++ [.read 1]
  l.take n

/-- After thread 1 has got the lock it knows the write of thread 0; before that, a read would have been a race. -/
example : ∃ (s : Rw (Fin 2)) (c : Clocks (Fin 2)), ReachHb (s, c) ∧ s.rd 1 = 1 ∧ c.wrote 0 = 1 ∧ c.read 1 = 1 ∧ c.ReadOk 1 ∧
    ∃ (s' : Rw (Fin 2)) (c' : Clocks (Fin 2)), ReachHb (s', c') ∧ s'.pc 1 = .lockREnter ∧ c'.wrote 0 = 1 ∧ ¬ c'.ReadOk 1 := by
  obtain ⟨⟨s, c⟩, h⟩ : ∃ x, (exHb 22).foldlM execHb (init, Clocks.init) = some x := ⟨_, rfl⟩
  obtain ⟨⟨s', c'⟩, h'⟩ : ∃ x, (exHb 16).foldlM execHb (init, Clocks.init) = some x := ⟨_, rfl⟩
  have e : ((exHb 22).foldlM execHb (init, Clocks.init)).map (fun x => (x.1.rd 1, x.2.wrote 0, x.2.read 1)) = some (1, 1, 1) := by
    decide +kernel
  have e' : ((exHb 16).foldlM execHb (init, Clocks.init)).map (fun x => (x.1.pc 1, x.2.wrote 0, x.2.view 1 0)) =
      some (.lockREnter, 1, 0) := by decide +kernel
  rw [h] at e
  rw [h'] at e'
  simp only [Option.map_some, Option.some.injEq, Prod.mk.injEq] at e e'
  obtain ⟨e1, e2, e3⟩ := e
  obtain ⟨e4, e5, e6⟩ := e'
  refine ⟨s, c, execHb_all h, e1, e2, e3, (C103_rwlock (execHb_all h) 1).2 (by omega), s', c', execHb_all h', e4, e5, fun hr => ?_⟩
  have := hr 0
  omega

end Rw

end Wrtstat
