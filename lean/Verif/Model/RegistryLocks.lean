/-
The locks taken by the operations of `aggregator_registry` and of the pushers, and threads that take them.

Only the locks are modelled.  What an operation does next can depend on data (which aggregator is found, how often a
handler is called); all possibilities are covered because a thread may make any list of calls, each with any
aggregators and any number of handler calls.  The mutex of an aggregator being made inside `create_aggregator` is
left out: no other thread can know this aggregator.  User code (handlers other than those made by `make_handler_`,
the initializer) takes none of these locks.  By C53, `lock()` of the rwlock goes on when nobody holds it and `lock_r()`
when nobody holds it for writing.
-/
import Mathlib.Logic.Function.Basic

namespace Wrtstat

set_option autoImplicit false

/-- What is done to the rwlock of the registry and to the mutexes of the aggregators. -/
inductive LockAct (A : Type) where
  | rd | urd | wr | uwr
  | lk (a : A) | ul (a : A)

/-- The calls, as far as locks are concerned. -/
inductive RegCall (A : Type) where
  /-- `aggregators_count`, `get_name`, `get_aggregator`, and the calls by id whose id is unknown
  (aggregator_registry.cpp:13-17, 65-69, 113-125). -/
  | look
  /-- `set_initializer`, `create_aggregator`, `del` (71-106, 254-264). -/
  | change
  /-- The calls by id that find aggregator `a`: `add`, `pop`, `force_pop`, `create_simple_pusher` and so on (19-45, 149-168). -/
  | use (a : A)
  /-- The calls by name that then find aggregator `a` (26-31, 108-111, 199-221). -/
  | named (a : A)
  /-- `pop_all`, `force_pop_all` (47-62, 266-282): the aggregators found, at each position. -/
  | popAll (l : List (Option A))
  /-- `enable` (242-252). -/
  | enable (l : List A)
  /-- A pusher of aggregator `a` whose handler is called `n` times; each time, if it was made for an id (wrtstat.cpp,
  `make_handler_`), it calls `get_name`.  With `n = 0`, a pusher with another handler, or one that has nothing to
  report (aggregator_mt.cpp:28-44). -/
  | push (a : A) (n : Nat)

namespace RegCall

variable {A : Type}

/-- The locks taken by a call, in order. -/
def acts : RegCall A → List (LockAct A)
  | look => [.rd, .urd]
  | change => [.wr, .uwr]
  | use a => [.rd, .urd, .lk a, .ul a]
  | named a => [.wr, .uwr, .rd, .urd, .lk a, .ul a]
  | popAll l =>
    [.rd] ++ l.flatMap (fun o =>
      match o with
      | none => [.rd, .urd]
      | some a => [.rd, .urd, .lk a, .ul a, .lk a, .ul a]) ++ [.urd]
  | enable l => [.wr] ++ l.flatMap (fun a => [.lk a, .ul a]) ++ [.uwr]
  | push a n => [.lk a] ++ (List.replicate n [.rd, .urd]).flatten ++ [.ul a]

end RegCall

/-- What each thread still has to do, and who holds what. -/
structure LockState (T A : Type) where
  prog : T → List (LockAct A)
  rd : T → Nat
  wr : Option T
  own : A → Option T

namespace LockState

variable {T A : Type} [DecidableEq T] [DecidableEq A]

/-- The threads are about to make their calls. -/
def init (calls : T → List (RegCall A)) : LockState T A :=
  { prog := fun t => (calls t).flatMap RegCall.acts, rd := fun _ => 0, wr := none, own := fun _ => none }

/-- The steps: thread `t` does the next thing, if it is not blocked. -/
inductive Step : LockState T A → LockState T A → Prop
  | rd (s : LockState T A) (t : T) (p : List (LockAct A)) (h : s.prog t = .rd :: p) (hf : s.wr = none) :
      Step s { s with prog := Function.update s.prog t p, rd := Function.update s.rd t (s.rd t + 1) }
  | urd (s : LockState T A) (t : T) (p : List (LockAct A)) (h : s.prog t = .urd :: p) :
      Step s { s with prog := Function.update s.prog t p, rd := Function.update s.rd t (s.rd t - 1) }
  | wr (s : LockState T A) (t : T) (p : List (LockAct A)) (h : s.prog t = .wr :: p) (hf : s.wr = none)
      (hr : ∀ u, s.rd u = 0) : Step s { s with prog := Function.update s.prog t p, wr := some t }
  | uwr (s : LockState T A) (t : T) (p : List (LockAct A)) (h : s.prog t = .uwr :: p) :
      Step s { s with prog := Function.update s.prog t p, wr := none }
  | lk (s : LockState T A) (t : T) (a : A) (p : List (LockAct A)) (h : s.prog t = .lk a :: p) (hf : s.own a = none) :
      Step s { s with prog := Function.update s.prog t p, own := Function.update s.own a (some t) }
  | ul (s : LockState T A) (t : T) (a : A) (p : List (LockAct A)) (h : s.prog t = .ul a :: p) :
      Step s { s with prog := Function.update s.prog t p, own := Function.update s.own a none }

end LockState
end Wrtstat
