/-
Model of the moves of wrtstat/multi_aggregator/multi_aggregator.{hpp,cpp}.

The two lists of a `multi_aggregator` are vectors of `unique_ptr`, moved together; the model has one
list (Model/Multi.lean).  A vector moved from is empty: the standard asks for it of the constructor,
and of the assignment when the allocators are equal, as those of `std::allocator` are; of an
assignment to itself it asks nothing, and libstdc++ leaves the vector empty.  The shards do not change
their place in memory, so that nothing that points into them (the pools) is concerned.
-/
import Verif.Model.Multi

namespace Wrtstat

namespace Multi

/-- What is left of an object moved from (multi_aggregator.cpp:18-33): options and hash are copied,
the lists are emptied. -/
def movedFrom (m : Multi) : Multi := { m with shards := [] }

/-- The move constructor (multi_aggregator.cpp:18-24): the new object, and what is left. -/
def moveNew (m : Multi) : Multi × Multi := ({ opt := m.opt, hash := m.hash, shards := m.shards }, m.movedFrom)

/-- The move assignment (multi_aggregator.cpp:26-33) to an object that is not the one moved from: the
object assigned to, and what is left.  What the target held is destroyed. -/
def moveAssign (target m : Multi) : Multi × Multi :=
  ({ target with opt := m.opt, hash := m.hash, shards := m.shards }, m.movedFrom)

/-- The move assignment of an object to itself: every line assigns a member to itself. -/
def moveSelf (m : Multi) : Multi := m.movedFrom

/-- The objects of a program, by address.  `none`: there is no object. -/
abbrev Heap (I : Type) := I → Option Multi

variable {I : Type} [DecidableEq I]

/-- Change what is at an address. -/
def Heap.put (h : Heap I) (i : I) (m : Multi) : Heap I := fun k => if k = i then some m else h k

/-- `new (i) multi_aggregator(std::move(*j))` where nothing is at `i`, `*i = std::move(*j)` where an
object is. -/
def Heap.move (h : Heap I) (i j : I) : M (Heap I) :=
  match h j with
  | none => .error .ub
  | some src =>
    match h i with
    | none => .ok ((h.put i src.moveNew.1).put j src.moveNew.2)
    | some tgt => if i = j then .ok (h.put i src.moveSelf) else .ok ((h.put i (tgt.moveAssign src).1).put j (tgt.moveAssign src).2)

end Multi
end Wrtstat
