/-
Client histories of a wrtstat object.
-/
import Verif.Spec.RegistrySpec
import Verif.Model.Wrtstat

namespace Wrtstat
namespace Wrt

open Registry (RegOp RObs rexecAll)

/-- Client operations.  `reg` is any operation of the underlying registry (`wrtstat` forwards most of
them, wrtstat.cpp:73-86, 268-311, and gives access to the registry, 263-266). -/
inductive WOp where
  | reg (op : RegOp)
  | meterId (id : Nat)
  | meterName (q : Ask) (name : Name) (now : Int)
  | compositeId (t r w : Nat) (summary : Bool)
  | compositeName (ord : Order) (qt qr qw : Ask) (nt nr nw : Name) (now : Int) (summary : Bool)
  | call (p : WPusher) (clk1 clk2 ts v : Int) (count : Nat)
  | callC (p : CPusher) (kt kr kw : Clks) (ts span : Int) (count : Nat) (readed writed : Int)
  | pushout (force : Bool) (clk : Nat → Int)

/-- Answers. -/
inductive WResp where
  | reg (x : Registry.Resp)
  | meter (p : Option WPusher)
  | composite (p : Option CPusher)
  | unit
  | num (n : Nat)
deriving DecidableEq

/-- Execute an operation: the answer, what reaches the user's handler, and the new state. -/
def step (env : Env) (w : Wrt) : WOp → M (WResp × List (Name × AggData) × Wrt)
  | .reg op => do
    let (x, r) ← w.reg.step env op
    .ok (.reg x, [], { w with reg := r })
  | .meterId id => do
    let p ← w.meterId id
    .ok (.meter p, [], w)
  | .meterName q name now => do
    let (p, w) ← w.meterName env q name now
    .ok (.meter p, [], w)
  | .compositeId t r x s => do
    let p ← w.compositeId t r x s
    .ok (.composite p, [], w)
  | .compositeName ord qt qr qw nt nr nw now s => do
    let (p, w) ← w.compositeName env ord qt qr qw nt nr nw now s
    .ok (.composite p, [], w)
  | .call p clk1 clk2 ts v count => do
    let (l, w) ← w.call env p clk1 clk2 ts v count
    .ok (.unit, l, w)
  | .callC p kt kr kw ts span count rd wr => do
    let (l, w) ← w.callC env p kt kr kw ts span count rd wr
    .ok (.unit, l, w)
  | .pushout force clk => do
    let (n, l, w) ← w.pushout env force clk
    .ok (.num n, l, w)

/-- The call a (possibly null) meter function stands for. -/
def callOp (p : Option WPusher) (k : Clks) (ts v : Int) (count : Nat) : List RegOp :=
  p.toList.map fun p => .call p.rp k.1 k.2 ts (.one v count)

/-- The creations a composite meter stands for, in the order chosen. -/
def createOps (ord : Order) (qt qr qw : Ask) (nt nr nw : Name) (now : Int) : List RegOp :=
  match ord with
  | .trw => [.create qt nt now, .create qr nr now, .create qw nw now]
  | .twr => [.create qt nt now, .create qw nw now, .create qr nr now]
  | .rtw => [.create qr nr now, .create qt nt now, .create qw nw now]
  | .rwt => [.create qr nr now, .create qw nw now, .create qt nt now]
  | .wtr => [.create qw nw now, .create qt nt now, .create qr nr now]
  | .wrt => [.create qw nw now, .create qr nr now, .create qt nt now]

/-- The registry operations an operation stands for. -/
def WOp.regOps : WOp → List RegOp
  | .reg op => [op]
  | .meterId _ => []
  | .meterName q name now => [.create q name now]
  | .compositeId _ _ _ _ => []
  | .compositeName ord qt qr qw nt nr nw now _ => createOps ord qt qr qw nt nr nw now
  | .call p c1 c2 ts v count => [.call p.rp c1 c2 ts (.one v count)]
  | .callC p kt kr kw ts span count rd wr =>
    callOp p.time kt ts span count ++ callOp p.read kr ts rd (if p.summary then toSize rd else count) ++
      callOp p.write kw ts wr (if p.summary then toSize wr else count)
  | .pushout force clk => [.popAll force clk]

/-- What an observer knows of a run: the object, and what reached the handler. -/
structure WObs where
  w : Wrt
  handed : List (Name × AggData) := []

/-- Execute one operation. -/
def wexec (env : Env) (o : WObs) (op : WOp) : M WObs := do
  let (_, l, w) ← o.w.step env op
  .ok { w := w, handed := o.handed ++ l }

/-- Execute a history. -/
def wexecAll (env : Env) (o : WObs) (ops : List WOp) : M WObs := ops.foldlM (wexec env) o

/-- One event recorded in the aggregator of a name; nothing if the name is not live (in particular if
it is empty). -/
def recordUnder (r : Registry) (n : Name) (k : Clks) (ts v : Int) (count : Nat) (handler : Bool) :
    List (Nat × Aggregator.AOp) :=
  (r.cellOf n).toList.map fun c => (c.ref, .push k.1 k.2 ts (.one v count) handler)

/-- The registry history of a history. -/
def regHist (ops : List WOp) : List RegOp := ops.flatMap WOp.regOps

end Wrt
end Wrtstat
