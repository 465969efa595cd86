/-
Building spinlocks by moving (wrtstat/system/spinlock.hpp; wrtstat/manager/mutex/spinlock.hpp is the same file).

The move constructor has no initializer for `value`, a `std::atomic<bool>`, and its body exchanges it.  Until C++20 the default constructor of
an atomic leaves it uninitialized, and every operation on it but an initialization is undefined; since C++20 it is `false`.  An atomic in
static or thread storage is zeroed before the constructor runs.  Here an operation is one step: the two accesses of a move are taken apart in
Model/SpinlockMove.lean.
-/
import Verif.Model.Types

namespace Wrtstat
namespace SpinNew

set_option autoImplicit false

/-- An atomic; `none`: not initialized. -/
abbrev Atomic := Option Bool

/-- How the program is compiled, and which addresses are in static or thread storage. -/
structure Ctx (I : Type) where
  cxx20 : Bool
  zeroed : I → Bool

/-- An atomic after its default constructor. -/
def Ctx.fresh {I : Type} (c : Ctx I) (i : I) : Atomic := if c.cxx20 = true ∨ c.zeroed i = true then some false else none

/-- The value of an atomic; what was in it, and what is in it after an exchange. -/
def load (a : Atomic) : M Bool := match a with | none => .error .ub | some b => .ok b
def exchange (a : Atomic) (v : Bool) : M (Bool × Atomic) := match a with | none => .error .ub | some b => .ok (b, some v)

/-- What a program does with its locks. -/
inductive Op (I : Type) where
  | make (i : I)
  | moveNew (i j : I)
  | assign (i j : I)
  | tryLock (i : I)
  | unlock (i : I)

/-- The locks, by address, and the answers of `try_lock`. -/
structure St (I : Type) where
  at_ : I → Option Atomic := fun _ => none
  answers : List (I × Bool) := []

variable {I : Type} [DecidableEq I]

/-- Change what is at an address. -/
def St.put (s : St I) (i : I) (a : Atomic) : St I := { s with at_ := fun k => if k = i then some a else s.at_ k }

/-- One operation: the constructor (spinlock.hpp:16-17), the move constructor (19-22), the move assignment (24-28), `try_lock` (39-42; `lock`,
34-37, is `try_lock` until it answers yes) and `unlock` (44-47). -/
def step (c : Ctx I) (s : St I) : Op I → M (St I)
  | .make i =>
    match s.at_ i with
    | some _ => .error .ub
    | none => .ok (s.put i (some false))
  | .moveNew i j =>
    match s.at_ i, s.at_ j with
    | none, some other => do
      let v ← load other
      let (_, a) ← exchange (c.fresh i) v
      .ok (s.put i a)
    | _, _ => .error .ub
  | .assign i j =>
    match s.at_ i, s.at_ j with
    | some this, some other => do
      let v ← load other
      let (_, a) ← exchange this v
      .ok (s.put i a)
    | _, _ => .error .ub
  | .tryLock i =>
    match s.at_ i with
    | none => .error .ub
    | some a => do
      let (old, a) ← exchange a true
      .ok { s.put i a with answers := s.answers ++ [(i, !old)] }
  | .unlock i =>
    match s.at_ i with
    | none => .error .ub
    | some _ => .ok (s.put i (some false))

/-- A program. -/
def run (c : Ctx I) (ops : List (Op I)) : M (St I) := ops.foldlM (step c) {}

end SpinNew
end Wrtstat
