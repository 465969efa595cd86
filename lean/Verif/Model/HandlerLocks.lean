/-
The mutexes held while handlers run (multi_aggregator.cpp:35-103, basic_multi_aggregator.cpp:18-92,
aggregator_mt.cpp:28-64), and threads whose handlers make calls themselves.

Only the locks are modelled, as in Model/RegistryLocks.lean.  A handler runs while the mutex of the shard
(of the aggregator) whose record it gets is held; what it calls takes mutexes again.  A `std::mutex` that
is taken goes to nobody, its owner included: to lock it again is undefined, and where it does not fail it
blocks for ever.
-/
import Verif.Model.Registry
import Mathlib.Logic.Function.Basic

namespace Wrtstat

set_option autoImplicit false

/-- A critical section on the mutex `l`: the calls that handlers make during it, as the sections they are
made of, in order. -/
inductive HSec (L : Type) where
  | mk (l : L) (inner : List (HSec L))

/-- Take or release a mutex. -/
inductive MAct (L : Type) where
  | lk (l : L)
  | ul (l : L)
deriving DecidableEq

namespace HSec

variable {L : Type}

/-- The mutex. -/
def lock : HSec L → L
  | mk l _ => l

mutual

/-- What a section does to the mutexes: `std::lock_guard` for its whole length. -/
def acts : HSec L → List (MAct L)
  | mk l inner => .lk l :: (actsAll inner ++ [.ul l])

/-- Sections one after the other. -/
def actsAll : List (HSec L) → List (MAct L)
  | [] => []
  | c :: cs => acts c ++ actsAll cs

end

end HSec

/-- Sections of calls on multi-aggregators `I` with `n` shards each. -/
abbrev MuLock (I : Type) (n : Nat) := I × Fin n

namespace MuLock

variable {I : Type} {n : Nat} [NeZero n]

/-- `get_pos_` (multi_aggregator.cpp:107-110). -/
def pos (hash : Name → Nat) (name : Name) : Fin n := ⟨hash name % n, Nat.mod_lt _ (Nat.pos_of_ne_zero (NeZero.ne n))⟩

/-- `push` (multi_aggregator.cpp:35-51): `inner` is all that the handler calls, over all records. -/
def push (hash : Name → Nat) (o : I) (name : Name) (inner : List (HSec (MuLock I n))) : List (HSec (MuLock I n)) :=
  [.mk (o, pos hash name) inner]

/-- `multi_push` (multi_aggregator.cpp:53-58). -/
def multiPush (hash : Name → Nat) (o : I) (ps : List (Name × List (HSec (MuLock I n)))) : List (HSec (MuLock I n)) :=
  ps.flatMap fun p => push hash o p.1 p.2

/-- `del` (multi_aggregator.cpp:60-67). -/
def del (hash : Name → Nat) (o : I) (name : Name) : List (HSec (MuLock I n)) := [.mk (o, pos hash name) []]

/-- `pushout`, `force_pushout` (multi_aggregator.cpp:70-90): shard by shard. -/
def pushout (o : I) (inner : Fin n → List (HSec (MuLock I n))) : List (HSec (MuLock I n)) :=
  (List.finRange n).map fun i => .mk (o, i) (inner i)

/-- `size` (multi_aggregator.cpp:92-103). -/
def size (o : I) : List (HSec (MuLock I n)) := (List.finRange n).map fun i => .mk (o, i) []

end MuLock

/-- What each thread still has to do, and who has what. -/
structure MxState (T L : Type) where
  prog : T → List (MAct L)
  own : L → Option T

namespace MxState

variable {T L : Type} [DecidableEq T] [DecidableEq L]

/-- The threads are about to make their calls. -/
def init (calls : T → List (HSec L)) : MxState T L := { prog := fun t => HSec.actsAll (calls t), own := fun _ => none }

/-- The steps. -/
inductive Step : MxState T L → MxState T L → Prop
  | lk (s : MxState T L) (t : T) (l : L) (p : List (MAct L)) (h : s.prog t = .lk l :: p) (hf : s.own l = none) :
      Step s { prog := Function.update s.prog t p, own := Function.update s.own l (some t) }
  | ul (s : MxState T L) (t : T) (l : L) (p : List (MAct L)) (h : s.prog t = .ul l :: p) :
      Step s { prog := Function.update s.prog t p, own := Function.update s.own l none }

end MxState
end Wrtstat
