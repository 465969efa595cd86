/-
Handlers that use the aggregator they are called from (basic_aggregator.cpp, separator.cpp; `aggregator`, no threads).

`Model/Aggregator.lean` gives the records handed to a handler; here the handler runs in the place where the code calls it:
after the window has been detached and before `_next_time` is advanced.  One handler serves all calls: on each record it
performs the operations `H` says, and operations with a handler call it again.  The first argument bounds the depth of
calls and the turns of loops; running out of it is reported as divergence.
-/
import Verif.Spec.AggregatorSpec

namespace Wrtstat
namespace Aggregator

set_option autoImplicit false

/-- What `push_handler_` hands over (basic_aggregator.cpp:279-287), and what `separate` does (basic_aggregator.cpp:106-111). -/
def handOver (env : Env) (raw : Bool) (a : Aggregator) (d : AggData) : M AggData :=
  if raw then .ok d else finish env.nth a.outSize d

mutual

/-- One operation, by the client or by the handler. -/
def execR (env : Env) (H : AggData → List AOp) : Nat → AObs → AOp → M AObs
  | 0, _, _ => .error .diverge
  | k + 1, o, .push clk1 clk2 ts x true =>
    -- basic_aggregator.cpp:45-52, separator.cpp:66-96
    if o.a.enabled = false then .ok o
    else do
      let t ← o.a.sep.getTs clk1 ts
      let t' ← o.a.sep.getTs clk2 t
      let o' ← loopR env H false k t' o
      if t < o'.a.sep.next - o'.a.sep.step then .ok o'
      else .ok { o' with a := { o'.a with sep := { o'.a.sep with reducer := o'.a.sep.reducer.add env x } }
                         accepted := o'.accepted ++ [(t, x)] }
  | k + 1, o, .separate clk ts true _ => do
    -- basic_aggregator.cpp:106-111, separator.cpp:147-167
    let t ← o.a.sep.getTs clk ts
    let o ← loopR env H true k t o
    let a ← aggregate0_ env.nth o.a
    .ok { o with a := a }
  | _ + 1, o, op => exec env o op

/-- The loop of `separator::separate` (separator.cpp:154-165) with the handler. -/
def loopR (env : Env) (H : AggData → List AOp) (raw : Bool) : Nat → Int → AObs → M AObs
  | 0, _, _ => .error .diverge
  | k + 1, ts, o =>
    if o.a.sep.next ≤ ts then do
      let (d, r) ← o.a.sep.reducer.detach env
      let next := o.a.sep.next
      let o := { o with a := { o.a with sep := { o.a.sep with reducer := r } } }
      let o ← (match d with
        | none => .ok o
        | some d => do
          let d ← handOver env raw o.a { d with ts := next - o.a.sep.step }
          (H d).foldlM (execR env H k) { o with received := o.received ++ [d] })
      loopR env H raw k ts { o with a := { o.a with sep := { o.a.sep with next := o.a.sep.next + o.a.sep.step } } }
    else .ok o

end

/-- A history. -/
def execAllR (env : Env) (H : AggData → List AOp) (k : Nat) (o : AObs) (ops : List AOp) : M AObs := ops.foldlM (execR env H k) o

end Aggregator
end Wrtstat
