/-
The separator and the aggregator with the laps of the loop of `separator::separate` (separator.cpp:154-165) counted.  Every
function is the function of the same name in `Model/Separator.lean` or `Model/Aggregator.lean`, with the number of laps of its
call as a further result.
-/
import Verif.Model.Aggregator

namespace Wrtstat

set_option autoImplicit false

namespace Separator

/-- The loop of `separator::separate` (separator.cpp:154-165). -/
def sepLoopN (env : Env) (step ts : Int) (next : Int) (r : Reducer) : M (Nat × List AggData × Int × Reducer) :=
  if _h : next ≤ ts then
    if _hs : 0 < step then do
      let (o, r) ← r.detach env
      let (n, out, next', r) ← sepLoopN env step ts (next + step) r
      .ok (n + 1, (o.map fun d => { d with ts := next - step }).toList ++ out, next', r)
    else .error .diverge
  else .ok (0, [], next, r)
termination_by (ts - next + 1).toNat
decreasing_by omega

/-- `separator::separate` (separator.cpp:147-167). -/
def separateN (env : Env) (s : Separator) (clk ts : Int) (handler force : Bool) :
    M (Nat × Bool × List AggData × Separator) := do
  let ts ← s.getTs clk ts
  if force = false ∧ ts < s.next then .ok (0, false, [], s)
  else do
    let (n, out, next, r) ← sepLoopN env s.step ts s.next s.reducer
    if handler then
      .ok (n, true, out, { s with next := next, reducer := r })
    else
      .ok (n, true, [], { s with next := next, reducer := r, sepList := s.sepList ++ out })

/-- `separator::add` and `separator::push` (separator.cpp:26-96). -/
def pushN (env : Env) (s : Separator) (clk1 clk2 ts : Int) (a : AddArg) (handler : Bool) :
    M (Nat × Bool × List AggData × Separator) := do
  let ts ← s.getTs clk1 ts
  let (n, _, out, s) ← s.separateN env clk2 ts handler false
  if ts < s.next - s.step then .ok (n, false, out, s)
  else .ok (n, true, out, { s with reducer := s.reducer.add env a })

end Separator

namespace Aggregator

/-- `basic_aggregator::add` (basic_aggregator.cpp:33-43, 55-65, 79-87). -/
def addN (env : Env) (a : Aggregator) (clk1 clk2 ts : Int) (x : AddArg) : M (Nat × Bool × Aggregator) :=
  if a.enabled = false then .ok (0, true, a)
  else do
    let (n, ok, _, sep) ← a.sep.pushN env clk1 clk2 ts x false
    let a := { a with sep := sep }
    if ok = false then .ok (n, false, a)
    else do
      let a ← aggregate0_ env.nth a
      .ok (n, true, a)

/-- `basic_aggregator::push` (basic_aggregator.cpp:45-52, 67-77, 89-98). -/
def pushN (env : Env) (a : Aggregator) (clk1 clk2 ts : Int) (x : AddArg) (handler : Bool) :
    M (Nat × Bool × List AggData × Aggregator) :=
  if a.enabled = false then .ok (0, true, [], a)
  else if handler = false then do
    let (n, ok, a) ← a.addN env clk1 clk2 ts x
    .ok (n, ok, [], a)
  else do
    let (n, ok, out, sep) ← a.sep.pushN env clk1 clk2 ts x true
    let out ← out.mapM (finish env.nth a.outSize)
    .ok (n, ok, out, { a with sep := sep })

/-- `basic_aggregator::separate` (basic_aggregator.cpp:106-111). -/
def separateN (env : Env) (a : Aggregator) (clk ts : Int) (handler force : Bool) :
    M (Nat × Bool × List AggData × Aggregator) := do
  let (n, res, out, sep) ← a.sep.separateN env clk ts handler force
  let a ← aggregate0_ env.nth { a with sep := sep }
  .ok (n, res, out, a)

end Aggregator
end Wrtstat
