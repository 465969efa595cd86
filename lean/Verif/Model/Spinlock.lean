/-
`spinlock` (wrtstat/system/spinlock.hpp), used by any number of threads.

The one shared variable is an atomic; every access to it is one step.  Moving is in SpinlockMove.lean.
-/
import Mathlib.Logic.Function.Basic

namespace Wrtstat

set_option autoImplicit false

/-- Where a thread is: outside, in the loop of `lock()`, or past a successful `lock()` or `try_lock()`. -/
inductive SpinPc where
  | idle
  | spin
  | hold
deriving DecidableEq, Repr

/-- The atomic `value` (spinlock.hpp:51) and the position of each thread. -/
structure Spin (T : Type) where
  value : Bool
  pc : T → SpinPc

namespace Spin

variable {T : Type} [DecidableEq T]

/-- The constructor (spinlock.hpp:16-17). -/
def init : Spin T := { value := false, pc := fun _ => .idle }

/-- `value.exchange(true)`: the old value, and the new one. -/
def exchange (value : Bool) : Bool × Bool := (value, true)

/-- One turn of the loop of `lock()` (spinlock.hpp:34-37). -/
def spinOnce (s : Spin T) (t : T) : Spin T :=
  let (old, value) := exchange s.value
  { value := value, pc := if old then s.pc else Function.update s.pc t .hold }

/-- `try_lock()` (spinlock.hpp:39-42): the result and the state afterwards. -/
def tryLock (s : Spin T) (t : T) : Bool × Spin T :=
  let (old, value) := exchange s.value
  (!old, { value := value, pc := if old then s.pc else Function.update s.pc t .hold })

/-- `unlock()` (spinlock.hpp:44-47). -/
def unlock (s : Spin T) (t : T) : Spin T := { value := false, pc := Function.update s.pc t .idle }

/-- The steps of the threads.  Use is well bracketed: only a thread that holds the lock calls `unlock()`, and
a thread that holds it or is in `lock()` does not call `lock()`. -/
inductive Step : Spin T → Spin T → Prop
  | call (s : Spin T) (t : T) (h : s.pc t = .idle) : Step s { s with pc := Function.update s.pc t .spin }
  | spin (s : Spin T) (t : T) (h : s.pc t = .spin) : Step s (s.spinOnce t)
  | tryLock (s : Spin T) (t : T) (h : s.pc t ≠ .spin) : Step s (s.tryLock t).2
  | unlock (s : Spin T) (t : T) (h : s.pc t = .hold) : Step s (s.unlock t)

end Spin
end Wrtstat
