/-
`aggregator_mt` (wrtstat/aggregator/aggregator_mt.cpp) with handlers that may throw.

Every operation is `{ std::lock_guard lk(_mutex); return basic_aggregator::operation(...); }`: an exception unwinds the guard, so
the mutex is released when the call is left, as by a return (`Mon.Step.unlock`).
-/
import Verif.Model.Monitor
import Verif.Model.ThrowingOut

namespace Wrtstat

set_option autoImplicit false

/-- `basic_aggregator::separate` with a handler (basic_aggregator.cpp:106-111, separator.cpp:147-167): the result, unless it threw,
the records handed over and the object.  An exception leaves it before the records of the separator are fetched. -/
def Aggregator.separateX (env : Env) (a : Aggregator) (clk ts : Int) (force : Bool) (thr : AggData → Bool) :
    M (Option Bool × List AggData × Aggregator) := do
  let t ← a.sep.getTs clk ts
  if force = false ∧ t < a.sep.next then do
    let a ← Aggregator.aggregate0_ env.nth a
    .ok (some false, [], a)
  else do
    let give := fun (d : AggData) => do
      let d ← (.ok d : M AggData)
      .ok (d, thr d)
    let (th, out, next, r) ← Separator.sepLoopX env a.sep.step t give a.sep.next a.sep.reducer
    let a := { a with sep := { a.sep with next := next, reducer := r } }
    if th = true then .ok (none, out, a)
    else do
      let a ← Aggregator.aggregate0_ env.nth a
      .ok (some true, out, a)

/-- An operation, and on which records its handler throws. -/
structure XOp where
  op : MtOp
  thr : AggData → Bool

/-- An operation returns, or throws when the handler was given these records. -/
inductive XRet where
  | back (r : MtRet)
  | threw (out : List AggData)
deriving DecidableEq

/-- How a call with a handler ends. -/
def XRet.of (ok : Option Bool) (out : List AggData) : XRet :=
  match ok with
  | none => .threw out
  | some b => .back (.handed b out)

/-- An operation of `aggregator_mt` without the mutex. -/
def Aggregator.mtExecX (env : Env) (a : Aggregator) (x : XOp) : M (XRet × Aggregator) :=
  match x.op with
  | .push c1 c2 ts v true => do
    let (ok, out, a) ← a.pushX env c1 c2 ts v x.thr
    .ok (.of ok out, a)
  | .separate c ts true f => do
    let (ok, out, a) ← a.separateX env c ts f x.thr
    .ok (.of ok out, a)
  | op => do
    let (r, a) ← a.mtExec env op
    .ok (.back r, a)

/-- The operations in sequence.  After a fault the state is anything. -/
def Aggregator.XSpec (env : Env) (a : Aggregator) (x : XOp) (r : M XRet) (a' : Aggregator) : Prop :=
  match a.mtExecX env x with
  | .ok (r0, a0) => r = .ok r0 ∧ a' = a0
  | .error e => r = .error e

/-- Positions in the bodies: at the beginning, or before `aggregate0_` at the end of `separate`. -/
inductive XPos where
  | start (x : XOp)
  | fetch (r : MtRet)

/-- Bodies: `separate` with a handler first works on the separator, then, unless it threw, fetches its records; the others are
taken in one step. -/
def Aggregator.xBody (env : Env) : Body Aggregator XOp (M XRet) XPos where
  start := .start
  next
    | .start ⟨.separate c ts true f, thr⟩, a =>
      match a.sep.getTs c ts with
      | .error e => (a, .inr (.error e))
      | .ok t =>
        if f = false ∧ t < a.sep.next then (a, .inl (.fetch (.handed false [])))
        else match Separator.sepLoopX env a.sep.step t (fun d => do let d ← (.ok d : M AggData); .ok (d, thr d)) a.sep.next a.sep.reducer with
          | .error e => (a, .inr (.error e))
          | .ok (th, out, next, r) =>
            ({ a with sep := { a.sep with next := next, reducer := r } },
              if th = true then .inr (.ok (.threw out)) else .inl (.fetch (.handed true out)))
    | .start x, a =>
      match a.mtExecX env x with
      | .error e => (a, .inr (.error e))
      | .ok (r, a') => (a', .inr (.ok r))
    | .fetch r, a =>
      match Aggregator.aggregate0_ env.nth a with
      | .error e => (a, .inr (.error e))
      | .ok a' => (a', .inr (.ok (.back r)))

end Wrtstat
