/-
`pool` (wrtstat/system/pool.hpp), used by any number of threads.

`empty()` and `filled()` take the lock for reading, the changes take it for writing: each of these is one step
(C53), and between the test and the change the other threads go on.  A buffer is its contents; capacities
are not modelled.
-/
import Verif.Model.Std
import Mathlib.Logic.Function.Basic

namespace Wrtstat

set_option autoImplicit false

/-- A buffer: its contents. -/
abbrev Buf := List Int

/-- Where a thread is: outside, past the test of `create()` or past the test of `free(d)`. -/
inductive PoolPc where
  | idle
  | popping
  | pushing (d : Buf)
deriving DecidableEq, Repr

/-- The pool, the positions of the threads, the buffers handed out so far by `create()`, the buffers handed back by
`free()` to its caller, and whether undefined behaviour has happened. -/
structure Pool (T : Type) where
  itemSize : Nat
  poolSize : Nat
  items : List Buf
  pc : T → PoolPc
  out : List Buf
  back : List Buf
  ub : Bool

namespace Pool

variable {T : Type} [DecidableEq T]

/-- The constructor (pool.hpp:19-23). -/
def init (itemSize poolSize : Nat) : Pool T :=
  { itemSize := itemSize, poolSize := poolSize, items := [], pc := fun _ => .idle, out := [], back := [], ub := false }

/-- `empty()` (pool.hpp:36-40). -/
def empty (s : Pool T) : Bool := s.items.isEmpty

/-- `filled()` (pool.hpp:42-46). -/
def filled (s : Pool T) : Bool := s.items.length == s.poolSize

/-- `d->resize(n)`. -/
def resize (d : Buf) (n : Nat) : Buf := d.take n ++ List.replicate (n - d.length) 0

/-- `d->clear()`. -/
def clear (_ : Buf) : Buf := []

/-- `create()` up to the lock, or to the end (pool.hpp:49-57). -/
def createTest (s : Pool T) (t : T) : Pool T :=
  if s.empty then { s with out := s.out ++ [clear (resize [] s.itemSize)] }
  else { s with pc := Function.update s.pc t .popping }

/-- The rest of `create()` (pool.hpp:58-65). -/
def createPop (s : Pool T) (t : T) : Pool T :=
  match s.items.getLast? with
  | none => { s with ub := true }
  | some d => { s with items := s.items.dropLast, out := s.out ++ [d], pc := Function.update s.pc t .idle }

/-- `free(d)` with a buffer, up to the lock, or to the end (pool.hpp:67-83). -/
def freeTest (s : Pool T) (t : T) (d : Buf) : Pool T :=
  if s.filled then { s with back := s.back ++ [d] }
  else { s with pc := Function.update s.pc t (.pushing (clear (resize d s.itemSize))) }

/-- The rest of `free(d)` (pool.hpp:85-88). -/
def freePush (s : Pool T) (t : T) (d : Buf) : Pool T :=
  { s with items := s.items ++ [d], pc := Function.update s.pc t .idle }

/-- The steps of thread `t`; nothing happens after undefined behaviour. -/
inductive Step (t : T) : Pool T → Pool T → Prop
  | createTest (s : Pool T) (hu : s.ub = false) (h : s.pc t = .idle) : Step t s (s.createTest t)
  | createPop (s : Pool T) (hu : s.ub = false) (h : s.pc t = .popping) : Step t s (s.createPop t)
  | freeTest (s : Pool T) (d : Buf) (hu : s.ub = false) (h : s.pc t = .idle) : Step t s (s.freeTest t d)
  | freePush (s : Pool T) (d : Buf) (hu : s.ub = false) (h : s.pc t = .pushing d) : Step t s (s.freePush t d)

end Pool
end Wrtstat
