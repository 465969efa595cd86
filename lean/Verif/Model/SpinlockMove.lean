/-
Moving spinlocks, and `spinlock_n` (wrtstat/system/spinlock.hpp).
-/
import Verif.Model.Spinlock
import Verif.Model.Registry

namespace Wrtstat

set_option autoImplicit false

/-- Any number of spinlocks.  A move is two accesses to atomics, `other.value` is loaded, then it is exchanged for the value
of the target: between them the other threads go on.  `moving t` is the target and the value loaded, while `t` is
between the two. -/
structure SpinMv (I T : Type) where
  lock : I → Spin T
  moving : T → Option (I × Bool)

namespace SpinMv

variable {I T : Type} [DecidableEq I] [DecidableEq T]

def init : SpinMv I T := { lock := fun _ => Spin.init, moving := fun _ => none }

/-- The first half of `operator=(const spinlock&&)` (spinlock.hpp:24-28); the constructor (spinlock.hpp:19-22) is the same
with a lock that is used for the first time, if its flag is initialized (Model/SpinlockNew.lean). -/
def load (s : SpinMv I T) (t : T) (target other : I) : SpinMv I T :=
  { s with moving := Function.update s.moving t (some (target, (s.lock other).value)) }

/-- The second half. -/
def store (s : SpinMv I T) (t : T) (target : I) (v : Bool) : SpinMv I T :=
  { lock := Function.update s.lock target { s.lock target with value := v }
    moving := Function.update s.moving t none }

/-- The steps of the threads. -/
inductive Step : SpinMv I T → SpinMv I T → Prop
  | on (s : SpinMv I T) (i : I) (l : Spin T) (h : Spin.Step (s.lock i) l) :
      Step s { s with lock := Function.update s.lock i l }
  | load (s : SpinMv I T) (t : T) (target other : I) (h : s.moving t = none) : Step s (s.load t target other)
  | store (s : SpinMv I T) (t : T) (target : I) (v : Bool) (h : s.moving t = some (target, v)) : Step s (s.store t target v)

end SpinMv

/-- `spinlock_n<N>` with a hash of the keys (spinlock.hpp:57-77).  `own t k`: thread `t` has locked with key `k` and not
unlocked yet. -/
structure SpinN (N : Nat) (T : Type) where
  locs : Fin N → Spin T
  own : T → Name → Bool

namespace SpinN

variable {N : Nat} {T : Type} [DecidableEq T]

def init : SpinN N T := { locs := fun _ => Spin.init, own := fun _ _ => false }

/-- `get(key)` (spinlock.hpp:64-72): the position in `locs`. -/
def slot (hash : Name → Nat) (hN : 0 < N) (k : Name) : Fin N := ⟨hash k % N, Nat.mod_lt _ hN⟩

/-- `get(k).try_lock()`. -/
def tryLock (hash : Name → Nat) (hN : 0 < N) (s : SpinN N T) (t : T) (k : Name) : Bool × SpinN N T :=
  let i := slot hash hN k
  let (b, l) := (s.locs i).tryLock t
  (b, { locs := Function.update s.locs i l
        own := if b then Function.update s.own t (Function.update (s.own t) k true) else s.own })

/-- `get(k).unlock()`. -/
def unlock (hash : Name → Nat) (hN : 0 < N) (s : SpinN N T) (t : T) (k : Name) : SpinN N T :=
  let i := slot hash hN k
  { locs := Function.update s.locs i ((s.locs i).unlock t)
    own := Function.update s.own t (Function.update (s.own t) k false) }

/-- The steps of the threads: `lock()` is `try_lock()` again and again until it succeeds; a thread unlocks what it has
locked, by the same key. -/
inductive Step (hash : Name → Nat) (hN : 0 < N) : SpinN N T → SpinN N T → Prop
  | tryLock (s : SpinN N T) (t : T) (k : Name) : Step hash hN s (tryLock hash hN s t k).2
  | unlock (s : SpinN N T) (t : T) (k : Name) (h : s.own t k = true) : Step hash hN s (unlock hash hN s t k)

end SpinN
end Wrtstat
