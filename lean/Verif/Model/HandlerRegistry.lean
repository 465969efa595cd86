/-
The locks of `aggregator_registry` and of its aggregators (Model/RegistryLocks.lean) when user code makes
calls as well: handlers, which run under the mutex of the aggregator whose record they get
(aggregator_mt.cpp:28-44), and the initializer, which runs while the registry is locked for writing
(aggregator_registry.cpp:82-103).
-/
import Verif.Model.RegistryLocks

namespace Wrtstat

set_option autoImplicit false

/-- The calls, as far as locks are concerned, with the calls that user code makes during them. -/
inductive UCall (A : Type) where
  /-- `aggregators_count`, `get_name`, `get_aggregator` by id, calls by an unknown id
  (aggregator_registry.cpp:13-17, 65-69, 113-125). -/
  | look
  /-- `create_aggregator` (77-106), and with nothing inside `set_initializer` and `del` (71-75, 254-264):
  `inner` is what the initializer calls. -/
  | change (inner : List (UCall A))
  /-- The calls by id that find `a` and report to nobody (19-45, 149-168). -/
  | use (a : A)
  /-- The calls by name that then find `a` (26-31, 108-111, 199-221). -/
  | named (inner : List (UCall A)) (a : A)
  /-- `pop_all`, `force_pop_all` (47-62, 266-282). -/
  | popAll (l : List (Option A))
  /-- `enable` (242-252). -/
  | enable (l : List A)
  /-- A pusher of `a` (aggregator_mt.cpp:28-44): `inner` is what its handler calls, over all records.  The
  handlers made by `make_handler_` of `wrtstat` call `get_name` and then what the user gave
  (wrtstat.cpp:321-354). -/
  | push (a : A) (inner : List (UCall A))

namespace UCall

variable {A : Type}

mutual

/-- The locks taken by a call, in order. -/
def acts : UCall A → List (LockAct A)
  | look => [.rd, .urd]
  | change inner => .wr :: (actsAll inner ++ [.uwr])
  | use a => [.rd, .urd, .lk a, .ul a]
  | named inner a => .wr :: (actsAll inner ++ [.uwr, .rd, .urd, .lk a, .ul a])
  | popAll l =>
    .rd :: (l.flatMap (fun o =>
      match o with
      | none => [.rd, .urd]
      | some a => [.rd, .urd, .lk a, .ul a, .lk a, .ul a]) ++ [.urd])
  | enable l => .wr :: (l.flatMap (fun a => [.lk a, .ul a]) ++ [.uwr])
  | push a inner => .lk a :: (actsAll inner ++ [.ul a])

/-- Calls one after the other. -/
def actsAll : List (UCall A) → List (LockAct A)
  | [] => []
  | c :: cs => acts c ++ actsAll cs

end

end UCall

namespace LockState

variable {T A : Type}

/-- The threads are about to make their calls. -/
def initU (calls : T → List (UCall A)) : LockState T A :=
  { prog := fun t => UCall.actsAll (calls t), rd := fun _ => 0, wr := none, own := fun _ => none }

end LockState
end Wrtstat
