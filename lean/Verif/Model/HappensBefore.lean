/-
The locks (wrtstat/system/spinlock.hpp, wrtstat/system/rwlock.hpp) together with the happens-before relation of the C++
memory model, kept in vector clocks.

Each access to the guarded data is an event of its thread.  `view t u = n` says that the first `n` events of thread `u`
happen before whatever `t` does next.  A synchronising object carries the view of the last operation that released it.
The operations of `std::atomic` without argument are sequentially consistent, hence acquire and release.  The guarded
data itself is not atomic: two accesses, at least one of them a write, that are not ordered by happens-before are a data
race, which is undefined behaviour.
-/
import Verif.Model.Spinlock
import Verif.Model.Rwlock
import Mathlib.Order.Lattice
import Mathlib.Order.Lattice.Nat

namespace Wrtstat

set_option autoImplicit false

/-- What each thread knows of the events of the others, what the synchronising object carries, and the last event of each
thread that wrote, or read, the guarded data. -/
structure Clocks (T : Type) where
  view : T → T → Nat
  sync : T → Nat
  wrote : T → Nat
  read : T → Nat

namespace Clocks

variable {T : Type} [DecidableEq T]

/-- At the start everything is known to everybody. -/
def init : Clocks T := { view := fun _ _ => 0, sync := fun _ => 0, wrote := fun _ => 0, read := fun _ => 0 }

/-- `t` acquires: it learns what the object carries. -/
def acquire (c : Clocks T) (t : T) : Clocks T :=
  { c with view := Function.update c.view t fun u => max (c.view t u) (c.sync u) }

/-- `t` releases: the object carries what `t` knows. -/
def release (c : Clocks T) (t : T) : Clocks T := { c with sync := c.view t }

/-- `t` writes the guarded data. -/
def doWrite (c : Clocks T) (t : T) : Clocks T :=
  { c with view := Function.update c.view t (Function.update (c.view t) t (c.view t t + 1))
           wrote := Function.update c.wrote t (c.view t t + 1) }

/-- `t` reads the guarded data. -/
def doRead (c : Clocks T) (t : T) : Clocks T :=
  { c with view := Function.update c.view t (Function.update (c.view t) t (c.view t t + 1))
           read := Function.update c.read t (c.view t t + 1) }

/-- A write of `t` now is no data race: every access so far happens before it. -/
def WriteOk (c : Clocks T) (t : T) : Prop := ∀ u, c.wrote u ≤ c.view t u ∧ c.read u ≤ c.view t u

/-- A read of `t` now is no data race: every write so far happens before it. -/
def ReadOk (c : Clocks T) (t : T) : Prop := ∀ u, c.wrote u ≤ c.view t u

end Clocks

/-- Threads that use a spinlock and access the guarded data while they hold it.  `value.exchange(true)` reads the last value
in the order of modification, acquires and releases whether it gets the lock or not; `value = false` releases. -/
inductive SpinHb {T : Type} [DecidableEq T] : Spin T × Clocks T → Spin T × Clocks T → Prop
  | call (s : Spin T) (c : Clocks T) (t : T) (h : s.pc t = .idle) :
      SpinHb (s, c) ({ s with pc := Function.update s.pc t .spin }, c)
  | spin (s : Spin T) (c : Clocks T) (t : T) (h : s.pc t = .spin) : SpinHb (s, c) (s.spinOnce t, (c.acquire t).release t)
  | tryLock (s : Spin T) (c : Clocks T) (t : T) (h : s.pc t ≠ .spin) : SpinHb (s, c) ((s.tryLock t).2, (c.acquire t).release t)
  | unlock (s : Spin T) (c : Clocks T) (t : T) (h : s.pc t = .hold) : SpinHb (s, c) (s.unlock t, c.release t)
  | write (s : Spin T) (c : Clocks T) (t : T) (h : s.pc t = .hold) : SpinHb (s, c) (s, c.doWrite t)
  | read (s : Spin T) (c : Clocks T) (t : T) (h : s.pc t = .hold) : SpinHb (s, c) (s, c.doRead t)

/-- Threads that use a `rwlock`, write the guarded data while they hold it for writing and read it while they hold it in
any way.  The internal mutex acquires when it is locked, also at the end of a wait, and releases when it is unlocked, also
at the begin of a wait.  Nothing else synchronises. -/
inductive RwHb {T : Type} [DecidableEq T] : Rw T × Clocks T → Rw T × Clocks T → Prop
  | call (s s' : Rw T) (c : Clocks T) (h : Rw.Call s s') : RwHb (s, c) (s', c)
  | spurious (s s' : Rw T) (c : Clocks T) (h : Rw.Spurious s s') : RwHb (s, c) (s', c)
  | enter (s : Rw T) (c : Clocks T) (t : T) (p : RwPc) (h : Rw.entry (s.pc t) = some p) (ho : s.owner = none) :
      RwHb (s, c) ({ s.goto t p with owner := some t }, c.acquire t)
  | act (s s' : Rw T) (c : Clocks T) (t : T) (h : Rw.act s t = some s') :
      RwHb (s, c) (s', if s'.owner = none then c.release t else c)
  | write (s : Rw T) (c : Clocks T) (t : T) (hp : s.pc t = .idle) (h : 0 < s.wr t) : RwHb (s, c) (s, c.doWrite t)
  | read (s : Rw T) (c : Clocks T) (t : T) (hp : s.pc t = .idle) (h : 0 < s.wr t ∨ 0 < s.rd t) :
      RwHb (s, c) (s, c.doRead t)

end Wrtstat
