/-
`rwlock` and `read_lock` (wrtstat/system/rwlock.hpp), used by any number of threads.

The counters are only touched by the owner of the internal mutex; each statement is one step.  The wait on a
condition variable releases the mutex and puts the thread to sleep in one step; a sleeping thread wakes up
after a notification, or for no reason at all, and then asks for the mutex again.
-/
import Mathlib.Logic.Function.Basic
import Mathlib.Data.Int.Notation

namespace Wrtstat

set_option autoImplicit false

/-- Where a thread is.  `Enter`: called, not yet owner of the mutex; `Sleep`: in `wait`; `Woken`: about to ask
for the mutex again; `Leave`: about to release the mutex and return; the others, owner of the mutex, before the
statement named. -/
inductive RwPc where
  | idle
  | lockEnter | lockTest | lockSleep | lockWoken | lockInc | lockCheckW | lockCheckR | lockLeave
  | unlockEnter | unlockDec | unlockCheck | unlockNotifyW | unlockNotifyR | unlockLeave
  | lockREnter | lockRTest | lockRSleep | lockRWoken | lockRCheck | lockRInc | lockRLeave
  | unlockREnter | unlockRCheck | unlockRDec | unlockRTest | unlockRNotify | unlockRLeave
deriving DecidableEq, Repr

namespace RwPc

/-- The thread owns the internal mutex. -/
def inside : RwPc → Bool
  | idle | lockEnter | lockSleep | lockWoken | unlockEnter | lockREnter | lockRSleep | lockRWoken | unlockREnter => false
  | _ => true

end RwPc

/-- The data members (rwlock.hpp:20-30), the position of each thread, and how often each thread holds the lock
for writing and for reading: from the increment in `lock` to the decrement in `unlock`. -/
structure Rw (T : Type) where
  owner : Option T
  writer : Int
  readers : Int
  pc : T → RwPc
  wr : T → Nat
  rd : T → Nat
  aborted : Bool

namespace Rw

variable {T : Type} [DecidableEq T]

/-- The constructor (rwlock.hpp:34-40). -/
def init : Rw T :=
  { owner := none, writer := 0, readers := 0, pc := fun _ => .idle, wr := fun _ => 0, rd := fun _ => 0, aborted := false }

/-- Thread `t` goes on to `p`. -/
def goto (s : Rw T) (t : T) (p : RwPc) : Rw T := { s with pc := Function.update s.pc t p }

/-- `_can_write.notify_all()`. -/
def notifyW (s : Rw T) : Rw T := { s with pc := fun t => if s.pc t = .lockSleep then .lockWoken else s.pc t }

/-- `_can_read.notify_all()`. -/
def notifyR (s : Rw T) : Rw T := { s with pc := fun t => if s.pc t = .lockRSleep then .lockRWoken else s.pc t }

/-- Which call a thread that is not inside may enter, and where it stands once it owns the mutex. -/
def entry : RwPc → Option RwPc
  | .lockEnter => some .lockTest
  | .lockWoken => some .lockTest
  | .unlockEnter => some .unlockDec
  | .lockREnter => some .lockRTest
  | .lockRWoken => some .lockRTest
  | .unlockREnter => some .unlockRCheck
  | _ => none

/-- What the owner of the mutex does next.  `none`: it is not the owner. -/
def act (s : Rw T) (t : T) : Option (Rw T) :=
  match s.pc t with
  -- lock() (rwlock.hpp:46-55)
  | .lockTest =>
    if s.writer = 0 ∧ s.readers = 0 then some (s.goto t .lockInc) else some { s.goto t .lockSleep with owner := none }
  | .lockInc =>
    some { s.goto t .lockCheckW with writer := s.writer + 1, wr := Function.update s.wr t (s.wr t + 1) }
  | .lockCheckW => if s.writer ≠ 1 then some { s with aborted := true } else some (s.goto t .lockCheckR)
  | .lockCheckR => if s.readers ≠ 0 then some { s with aborted := true } else some (s.goto t .lockLeave)
  -- unlock() (rwlock.hpp:57-65)
  | .unlockDec =>
    some { s.goto t .unlockCheck with writer := s.writer - 1, wr := Function.update s.wr t (s.wr t - 1) }
  | .unlockCheck => if s.writer ≠ 0 then some { s with aborted := true } else some (s.goto t .unlockNotifyW)
  | .unlockNotifyW => some ((s.notifyW).goto t .unlockNotifyR)
  | .unlockNotifyR => some ((s.notifyR).goto t .unlockLeave)
  -- lock_r() (rwlock.hpp:67-74)
  | .lockRTest => if s.writer = 0 then some (s.goto t .lockRCheck) else some { s.goto t .lockRSleep with owner := none }
  | .lockRCheck => if s.writer ≠ 0 then some { s with aborted := true } else some (s.goto t .lockRInc)
  | .lockRInc =>
    some { s.goto t .lockRLeave with readers := s.readers + 1, rd := Function.update s.rd t (s.rd t + 1) }
  -- unlock_r() (rwlock.hpp:76-84)
  | .unlockRCheck => if s.readers = 0 then some { s with aborted := true } else some (s.goto t .unlockRDec)
  | .unlockRDec =>
    some { s.goto t .unlockRTest with readers := s.readers - 1, rd := Function.update s.rd t (s.rd t - 1) }
  | .unlockRTest => if s.readers = 0 then some (s.goto t .unlockRNotify) else some (s.goto t .unlockRLeave)
  | .unlockRNotify => some ((s.notifyW).goto t .unlockRLeave)
  -- the end of the scope of the guard
  | .lockLeave | .unlockLeave | .lockRLeave | .unlockRLeave => some { s.goto t .idle with owner := none }
  | _ => none

/-- The calls.  Use is well bracketed: a thread only releases what it holds.  It may ask again for what it
holds (`pop_` does so for reading, aggregator_registry.cpp:266-282). -/
inductive Call : Rw T → Rw T → Prop
  | lock (s : Rw T) (t : T) (h : s.pc t = .idle) : Call s (s.goto t .lockEnter)
  | unlock (s : Rw T) (t : T) (h : s.pc t = .idle) (hw : 0 < s.wr t) : Call s (s.goto t .unlockEnter)
  | lockR (s : Rw T) (t : T) (h : s.pc t = .idle) : Call s (s.goto t .lockREnter)
  | unlockR (s : Rw T) (t : T) (h : s.pc t = .idle) (hr : 0 < s.rd t) : Call s (s.goto t .unlockREnter)

/-- The steps inside a call. -/
inductive Run : Rw T → Rw T → Prop
  | enter (s : Rw T) (t : T) (p : RwPc) (h : entry (s.pc t) = some p) (ho : s.owner = none) :
      Run s { s.goto t p with owner := some t }
  | act (s s' : Rw T) (t : T) (h : act s t = some s') : Run s s'

/-- A thread in `wait` wakes up without notification. -/
inductive Spurious : Rw T → Rw T → Prop
  | w (s : Rw T) (t : T) (h : s.pc t = .lockSleep) : Spurious s (s.goto t .lockWoken)
  | r (s : Rw T) (t : T) (h : s.pc t = .lockRSleep) : Spurious s (s.goto t .lockRWoken)

/-- The steps of the threads; nothing happens after `abort()`. -/
def Step (s s' : Rw T) : Prop := s.aborted = false ∧ (Call s s' ∨ Run s s' ∨ Spurious s s')

end Rw
end Wrtstat
