/-
Handlers that throw (basic_aggregator.cpp, separator.cpp; `aggregator`, no threads).

The handler runs where the code calls it, as in `Model/Reentrant.lean`, and may throw.  The code catches nothing: the call
made by the client ends with the exception, in the state in which the handler was called (`std::unique_ptr` arguments and
`std::function` objects are destroyed while the stack unwinds, the members of the aggregator are left as they are).

What the handler does depends on the records it has been given so far, the present one being the last.  It performs
operations on the aggregator, whose exceptions it catches or lets pass, and throws in the end or returns.  A record given
to a handler that throws counts as received: the handler owned it.
The first argument bounds the depth of calls and the turns of loops; running out of it is reported as divergence.
-/
import Verif.Model.Reentrant

namespace Wrtstat
namespace Aggregator

set_option autoImplicit false

/-- What a handler does in one call. -/
structure HAct where
  ops : List AOp := []
  catches : Bool := false
  throws : Bool := false

/-- A handler: its behaviour for the records received so far. -/
abbrev THandler := List AggData → HAct

/-- Operations one after the other; the flag says whether an exception was thrown.  With `catches` exceptions are caught
and the rest is carried out, otherwise they end the sequence. -/
def seqX (f : AObs → AOp → M (AObs × Bool)) (catches : Bool) : List AOp → AObs → M (AObs × Bool)
  | [], o => .ok (o, false)
  | op :: ops, o => do
    let (o, th) ← f o op
    if th = true ∧ catches = false then .ok (o, true) else seqX f catches ops o

mutual

/-- One operation, by the client or by the handler, and whether it throws. -/
def execX (env : Env) (H : THandler) : Nat → AObs → AOp → M (AObs × Bool)
  | 0, _, _ => .error .diverge
  | k + 1, o, .push clk1 clk2 ts x true =>
    -- basic_aggregator.cpp:45-52, separator.cpp:66-96
    if o.a.enabled = false then .ok (o, false)
    else do
      let t ← o.a.sep.getTs clk1 ts
      let t' ← o.a.sep.getTs clk2 t
      let (o, th) ← loopX env H false k t' o
      if th = true then .ok (o, true)
      else if t < o.a.sep.next - o.a.sep.step then .ok (o, false)
      else .ok ({ o with a := { o.a with sep := { o.a.sep with reducer := o.a.sep.reducer.add env x } }
                         accepted := o.accepted ++ [(t, x)] }, false)
  | k + 1, o, .separate clk ts true _ => do
    -- basic_aggregator.cpp:106-111, separator.cpp:147-167
    let t ← o.a.sep.getTs clk ts
    let (o, th) ← loopX env H true k t o
    if th = true then .ok (o, true)
    else do
      let a ← aggregate0_ env.nth o.a
      .ok ({ o with a := a }, false)
  | _ + 1, o, op => do
    let o ← exec env o op
    .ok (o, false)

/-- The loop of `separator::separate` (separator.cpp:154-165): an exception leaves it before `_next_time` is advanced. -/
def loopX (env : Env) (H : THandler) (raw : Bool) : Nat → Int → AObs → M (AObs × Bool)
  | 0, _, _ => .error .diverge
  | k + 1, ts, o =>
    if o.a.sep.next ≤ ts then do
      let (d, r) ← o.a.sep.reducer.detach env
      let next := o.a.sep.next
      let o := { o with a := { o.a with sep := { o.a.sep with reducer := r } } }
      let (o, th) ← (match d with
        | none => .ok (o, false)
        | some d => do
          let d ← handOver env raw o.a { d with ts := next - o.a.sep.step }
          let act := H (o.received ++ [d])
          let (o, th) ← seqX (execX env H k) act.catches act.ops { o with received := o.received ++ [d] }
          .ok (o, th || act.throws))
      if th = true then .ok (o, true)
      else loopX env H raw k ts { o with a := { o.a with sep := { o.a.sep with next := o.a.sep.next + o.a.sep.step } } }
    else .ok (o, false)

end

/-- A client that catches what is thrown and goes on. -/
def execAllX (env : Env) (H : THandler) (k : Nat) (o : AObs) (ops : List AOp) : M AObs := do
  let (o, _) ← seqX (execX env H k) true ops o
  .ok o

/-- A client that makes a call that threw once more. -/
def execTwice (env : Env) (H : THandler) (k : Nat) (o : AObs) (op : AOp) : M (AObs × Bool) := do
  let (o, th) ← execX env H k o op
  if th = true then execX env H k o op else .ok (o, false)

end Aggregator
end Wrtstat
