/-
Model of the moves of the older hash map, wrtstat/manager/aggregator_hashmap.{hpp,cpp}, which wrtstat/CMakeLists.txt no longer compiles.

The member `_hash_size` (manager/aggregator_hashmap.hpp:33) is in no initializer list and is never used but for the move assignment, which
copies it (manager/aggregator_hashmap.cpp:25).  In objects with static or thread storage duration it is 0 before the constructor runs; in
others it is indeterminate, and to copy it is undefined.  The two lists are moved as in Model/MultiMove.lean.
-/
import Verif.Model.Legacy
import Verif.Model.MultiMove

namespace Wrtstat
namespace Legacy

/-- A hash map: the members that `multi_aggregator` has too, and `_hash_size`; `none`: indeterminate. -/
structure HMap where
  m : Multi
  hashSize : Option Nat

/-- `_hash_size` before the constructor runs, in storage that is zeroed or not. -/
def blank (zeroed : Bool) : Option Nat := if zeroed = true then some 0 else none

/-- The constructor (manager/aggregator_hashmap.cpp:6-10). -/
def HMap.new (zeroed : Bool) (hash : Name → Nat) (opt : MultiOpts) : HMap := { m := Multi.new hash opt, hashSize := blank zeroed }

/-- The move constructor (manager/aggregator_hashmap.cpp:12-18): the new object, and what is left.  `_hash_size` is not initialized. -/
def HMap.moveNew (zeroed : Bool) (h : HMap) : HMap × HMap :=
  ({ m := h.m.moveNew.1, hashSize := blank zeroed }, { h with m := h.m.moveNew.2 })

/-- The move assignment (manager/aggregator_hashmap.cpp:20-28) to another object. -/
def HMap.moveAssign (target h : HMap) : M (HMap × HMap) :=
  match h.hashSize with
  | none => .error .ub
  | some n => .ok ({ m := (target.m.moveAssign h.m).1, hashSize := some n }, { h with m := (target.m.moveAssign h.m).2 })

/-- The move assignment of an object to itself. -/
def HMap.moveSelf (h : HMap) : M HMap :=
  match h.hashSize with
  | none => .error .ub
  | some n => .ok { m := h.m.moveSelf, hashSize := some n }

/-- The objects of a program, by address; `none`: there is no object. -/
abbrev HHeap (I : Type) := I → Option HMap

variable {I : Type} [DecidableEq I]

/-- Change what is at an address. -/
def HHeap.put (h : HHeap I) (i : I) (m : HMap) : HHeap I := fun k => if k = i then some m else h k

/-- Move the object at `j` to `i`: a construction where nothing is, an assignment where an object is.  `zeroed` tells which addresses are in
static or thread storage. -/
def HHeap.move (zeroed : I → Bool) (h : HHeap I) (i j : I) : M (HHeap I) :=
  match h j with
  | none => .error .ub
  | some src =>
    match h i with
    | none => .ok ((h.put i (src.moveNew (zeroed i)).1).put j (src.moveNew (zeroed i)).2)
    | some tgt =>
      if i = j then do
        let m ← src.moveSelf
        .ok (h.put i m)
      else do
        let (a, b) ← tgt.moveAssign src
        .ok ((h.put i a).put j b)

end Legacy
end Wrtstat
