/-
The locks taken by the older registry (`wrtstat/manager/aggregator_registry.cpp`), its pushers and the handlers of the
older `meter_manager`.

The older sources have their own copies of the rwlock and of the aggregator with a mutex
(`wrtstat/manager/mutex/rwlock.hpp`, `wrtstat/aggregator.cpp:318-420`); the rwlock is the current one but for an include, so the
steps of `Model/RegistryLocks.lean` are used.  As there, only locks are modelled, a thread may make any calls, and the
mutex of an aggregator being made is left out.
-/
import Verif.Model.RegistryLocks

namespace Wrtstat

set_option autoImplicit false

/-- What an id or a name leads to: it is `bad_id` or empty, no aggregator is found, or this one. -/
inductive OldFound (A : Type) where
  | bad
  | unknown
  | found (a : A)

/-- The calls of the older registry, as far as locks are concerned. -/
inductive OldCall (A : Type) where
  /-- `aggregators_count`, `get_name` (manager/aggregator_registry.cpp:14-18, 48-52). -/
  | count
  /-- `del` (213-224). -/
  | del
  /-- `create_aggregator` (54-75); does the name have a letter? -/
  | create (named : Bool)
  /-- The calls by one id or three (20-25, 34-46, 118-165): `add`, `pop`, `force_pop` and the pushers. -/
  | byIds (l : List (OldFound A))
  /-- The calls by one name or three (27-32, 167-199): all aggregators are made first. -/
  | byNames (l : List (OldFound A))
  /-- `enable` (201-211): the aggregators in the registry. -/
  | enable (l : List A)
  /-- `aggregator_mt::push` of aggregator `a` by a pusher (aggregator.cpp:341-357): under its mutex, the handler asks for the name
  `n` times (meter_manager.cpp:237-257). -/
  | push (a : A) (n : Nat)

namespace OldCall

variable {A : Type}

/-- `create_aggregator` (54-75). -/
def createActs : OldFound A → List (LockAct A)
  | .bad => []
  | _ => [.wr, .uwr]

/-- `get_aggregator` by id (82-94), and what is done with the aggregator under its mutex. -/
def idActs : OldFound A → List (LockAct A)
  | .bad => []
  | .unknown => [.rd, .urd]
  | .found a => [.rd, .urd, .lk a, .ul a]

/-- The locks taken by a call, in order. -/
def acts : OldCall A → List (LockAct A)
  | count => [.rd, .urd]
  | del => [.wr, .uwr]
  | create named => if named then [.wr, .uwr] else []
  | byIds l => l.flatMap idActs
  | byNames l => l.flatMap createActs ++ l.flatMap idActs
  | enable l => [.wr] ++ l.flatMap (fun a => [.lk a, .ul a]) ++ [.uwr]
  | push a n => [.lk a] ++ (List.replicate n [.rd, .urd]).flatten ++ [.ul a]

end OldCall

/-- The threads are about to make calls of the older registry. -/
def LockState.initOld {T A : Type} (calls : T → List (OldCall A)) : LockState T A :=
  { prog := fun t => (calls t).flatMap OldCall.acts, rd := fun _ => 0, wr := none, own := fun _ => none }

end Wrtstat
