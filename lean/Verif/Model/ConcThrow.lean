/-
Threads using one registry (wrtstat/aggregator/aggregator_registry.cpp) whose handlers may throw.

A handler is called by a pusher (aggregator_registry.cpp:148-168, aggregator/basic_aggregator.cpp:45-52) or by an aggregator reached through
the registry.  At that time the thread holds the mutex of one aggregator and not the registry lock; the exception unwinds the guard of
the mutex and leaves the call.

Simplifications: those of `ConcRegistry`.  Whether a handler throws on a record is left open: a call that has a record to give may go on as in
`ConcRegistry`, or end with an exception.
-/
import Verif.Model.ConcRegistry
import Verif.Model.ThrowingMt

namespace Wrtstat
namespace Registry

set_option autoImplicit false

open Aggregator (AOp)

/-- What a call with a handler asks of the aggregator it has. -/
def RegOp.asks (a : Aggregator) : RegOp → Option AOp
  | .call p c1 c2 ts x => if p.p.token = true ∧ a.alive = true then some (.push c1 c2 ts x p.p.handler) else none
  | .direct _ op => some op
  | _ => none

/-- An operation that ends with an exception: the records its handler was given, and the aggregator it leaves behind. -/
def breaks (env : Env) (a : Aggregator) (thr : AggData → Bool) : AOp → Option (List AggData × Aggregator)
  | .push c1 c2 ts x true =>
    match a.pushX env c1 c2 ts x thr with
    | .ok (none, out, a) => some (out, a)
    | _ => none
  | .separate c ts true f =>
    match a.separateX env c ts f thr with
    | .ok (none, out, a) => some (out, a)
    | _ => none
  | _ => none

/-- The registry and its threads.  `said` and `threw` only record what was asked of each aggregator, with whether it ended with an exception, and
the calls that did, with the records their handlers were given. -/
structure XReg (T : Type) where
  c : CReg T
  said : List (Nat × AOp × Bool) := []
  threw : List (T × RegOp × List AggData) := []

namespace XReg

variable {T : Type} [DecidableEq T]

/-- A step after which the registry and the threads are `c`, without an exception. -/
def calm (s : XReg T) (c : CReg T) : XReg T :=
  { s with c := c, said := s.said ++ (c.log.drop s.c.log.length).map fun e => (e.2.1, e.2.2, false) }

/-- The call of thread `t` ends with an exception of its handler. -/
def throws (env : Env) (s : XReg T) (t : T) (thr : AggData → Bool) : Option (XReg T) :=
  match s.c.pc t with
  | .have op k =>
    match s.c.aggOf k with
    | none => none
    | some a =>
      match op.asks a with
      | none => none
      | some o =>
        match breaks env a thr o with
        | none => none
        | some (out, a') =>
          some { c := (s.c.setAgg t k a' [] out).goto t .idle, said := s.said ++ [(k, o, true)], threw := s.threw ++ [(t, op, out)] }
  | _ => none

/-- The steps of a system in which threads make only calls in `P`. -/
inductive Step [Fintype T] (env : Env) (P : RegOp → Prop) : XReg T → XReg T → Prop
  | calm (s : XReg T) (c : CReg T) (h : CReg.Step env P s.c c) : Step env P s (s.calm c)
  | threw (s s' : XReg T) (t : T) (thr : AggData → Bool) (h : s.throws env t thr = some s') : Step env P s s'

/-- The next step of thread `t`, whose handler throws on the records that `thr` says. -/
def go [Fintype T] (env : Env) (s : XReg T) (t : T) (thr : AggData → Bool) : Option (XReg T) :=
  match s.throws env t thr with
  | some s' => some s'
  | none => (s.c.move env t).map s.calm

/-- Threads go on one after the other; `none` if some can not. -/
def goes [Fintype T] (env : Env) (thr : AggData → Bool) (s : XReg T) : List T → Option (XReg T)
  | [] => some s
  | t :: ts => match s.go env t thr with
    | some s' => goes env thr s' ts
    | none => none

/-- A schedule: as in `ConcRegistry`, or the handler of a thread throws. -/
inductive XTurn (T : Type) where
  | turn (e : CReg.Turn T)
  | throw (t : T) (thr : AggData → Bool)

/-- Run a schedule; `none` if some turn is impossible. -/
def play [Fintype T] (env : Env) (s : XReg T) : List (XTurn T) → Option (XReg T)
  | [] => some s
  | .turn e :: l => match CReg.play env s.c [e] with
    | some c => play env (s.calm c) l
    | none => none
  | .throw t thr :: l => match s.throws env t thr with
    | some s' => play env s' l
    | none => none

end XReg

end Registry
end Wrtstat
