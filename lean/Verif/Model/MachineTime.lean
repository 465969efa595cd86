/-
The separator and the aggregator with 64-bit times (wrtstat/aggregator/separator.cpp).

`Verif/Model/Separator.lean` computes with unbounded integers.  Here every sum, difference, product and quotient of times is
checked: `time_type` is a signed type of 64 bits, and a result out of its range is undefined behaviour.  The functions that
do no arithmetic on times are those of the other model.
-/
import Verif.Spec.AggregatorSpec

namespace Wrtstat

set_option autoImplicit false

/-- The result of an operation on `time_type`. -/
def fit (x : Int) : M Int := if InI64 x then .ok x else .error .ub

namespace Separator

/-- `separator::get_ts` (separator.cpp:139-145). -/
def getTsWithT (step : Int) (resolution : Resolution) (clk ts : Int) : M Int :=
  let now := if ts ≠ 0 ∨ resolution = .none then ts else clk
  if step = 0 then .error .divByZero
  else do
    let q ← fit (now.tdiv step)
    fit (q * step)

/-- `separator::get_ts` on an object. -/
def getTsT (s : Separator) (clk ts : Int) : M Int := getTsWithT s.step s.resolution clk ts

/-- `separator::separator` (separator.cpp:5-18).  The remainder is undefined where the quotient is. -/
def newT (opt : SeparatorOpts) (clk rand ts : Int) : M Separator := do
  let ts ← getTsWithT opt.step opt.resolution clk ts
  let ts ← if opt.soiled ≠ 0 then do
      let x := Int.bmod (rand * rand) (2 ^ 64)
      let _ ← fit (x.tdiv opt.soiled)
      fit (ts - x.tmod opt.soiled)
    else .ok ts
  let next ← fit (ts + opt.step)
  .ok { reducer := Reducer.new opt.toReducerOpts
        step := opt.step
        next := next
        resolution := opt.resolution }

/-- The record of the window that ends at `next`, if there is one. -/
def stampT (step next : Int) : Option AggData → M (Option AggData)
  | none => .ok none
  | some d => do
    let t ← fit (next - step)
    .ok (some { d with ts := t })

/-- The loop of `separator::separate` (separator.cpp:154-165). -/
def sepLoopT (env : Env) (step ts : Int) (next : Int) (r : Reducer) : M (List AggData × Int × Reducer) :=
  if _h : next ≤ ts then
    if _hs : 0 < step then do
      let (o, r) ← r.detach env
      let o ← stampT step next o
      let _ ← fit (next + step)
      let (out, next', r) ← sepLoopT env step ts (next + step) r
      .ok (o.toList ++ out, next', r)
    else .error .diverge
  else .ok ([], next, r)
termination_by (ts - next + 1).toNat
decreasing_by omega

/-- `separator::separate` (separator.cpp:147-167). -/
def separateT (env : Env) (s : Separator) (clk ts : Int) (handler force : Bool) :
    M (Bool × List AggData × Separator) := do
  let ts ← s.getTsT clk ts
  if force = false ∧ ts < s.next then .ok (false, [], s)
  else do
    let (out, next, r) ← sepLoopT env s.step ts s.next s.reducer
    if handler then
      .ok (true, out, { s with next := next, reducer := r })
    else
      .ok (true, [], { s with next := next, reducer := r, sepList := s.sepList ++ out })

/-- `separator::push` and `separator::add` (separator.cpp:26-96). -/
def pushT (env : Env) (s : Separator) (clk1 clk2 ts : Int) (a : AddArg) (handler : Bool) :
    M (Bool × List AggData × Separator) := do
  let ts ← s.getTsT clk1 ts
  let (_, out, s) ← s.separateT env clk2 ts handler false
  let cur ← fit (s.next - s.step)
  if ts < cur then .ok (false, out, s)
  else .ok (true, out, { s with reducer := s.reducer.add env a })

/-- `separator::add` (separator.cpp:26-64). -/
def addT (env : Env) (s : Separator) (clk1 clk2 ts : Int) (a : AddArg) : M (Bool × Separator) := do
  let (b, _, s) ← s.pushT env clk1 clk2 ts a false
  .ok (b, s)

/-- `separator::force_pop` (separator.cpp:109-119). -/
def forcePopT (env : Env) (s : Separator) : M (Option AggData × Separator) :=
  match s.pop with
  | (some d, s) => .ok (some d, s)
  | (none, s) => do
    let (o, r) ← s.reducer.detach env
    let o ← stampT s.step s.next o
    .ok (o, { s with reducer := r })

/-- `separator::get_current` (separator.cpp:121-127). -/
def getCurrentT (env : Env) (s : Separator) : M (Option AggData) := do
  let o ← s.reducer.getReduced env
  stampT s.step s.next o

/-- `separator::clear` (separator.cpp:233-239). -/
def clearT (s : Separator) (clk ts : Int) : M Separator := do
  let ts ← s.getTsT clk ts
  let next ← fit (ts + s.step)
  .ok { s with next := next, reducer := s.reducer.clear, sepList := [] }

end Separator

namespace Aggregator

/-- `basic_aggregator::basic_aggregator` (basic_aggregator.cpp:6-11). -/
def newT (opt : AggregatorOpts) (clk rand ts : Int) : M Aggregator := do
  let sep ← Separator.newT opt.toSeparatorOpts clk rand ts
  .ok { sep := sep, outSize := opt.outSize }

/-- `basic_aggregator::add` (basic_aggregator.cpp:33-43, 55-65, 79-87). -/
def addT (env : Env) (a : Aggregator) (clk1 clk2 ts : Int) (x : AddArg) : M (Bool × Aggregator) :=
  if a.enabled = false then .ok (true, a)
  else do
    let (ok, sep) ← a.sep.addT env clk1 clk2 ts x
    let a := { a with sep := sep }
    if ok = false then .ok (false, a)
    else do
      let a ← aggregate0_ env.nth a
      .ok (true, a)

/-- `basic_aggregator::push` (basic_aggregator.cpp:45-52, 67-77, 89-98). -/
def pushT (env : Env) (a : Aggregator) (clk1 clk2 ts : Int) (x : AddArg) (handler : Bool) :
    M (Bool × List AggData × Aggregator) :=
  if a.enabled = false then .ok (true, [], a)
  else if handler = false then do
    let (ok, a) ← a.addT env clk1 clk2 ts x
    .ok (ok, [], a)
  else do
    let (ok, out, sep) ← a.sep.pushT env clk1 clk2 ts x true
    let out ← out.mapM (finish env.nth a.outSize)
    .ok (ok, out, { a with sep := sep })

/-- `basic_aggregator::separate` (basic_aggregator.cpp:106-111). -/
def separateT (env : Env) (a : Aggregator) (clk ts : Int) (handler force : Bool) :
    M (Bool × List AggData × Aggregator) := do
  let (res, out, sep) ← a.sep.separateT env clk ts handler force
  let a ← aggregate0_ env.nth { a with sep := sep }
  .ok (res, out, a)

/-- `basic_aggregator::force_pop` (basic_aggregator.cpp:122-130). -/
def forcePopT (env : Env) (a : Aggregator) : M (Option AggData × Aggregator) := do
  let (o, sep) ← a.sep.forcePopT env
  match o with
  | none => .ok (none, { a with sep := sep })
  | some d => do
    let ag ← finish env.nth a.outSize d
    .ok (some ag, { a with sep := sep })

/-- `basic_aggregator::aggregate_current` (basic_aggregator.cpp:132-140). -/
def aggregateCurrentT (env : Env) (a : Aggregator) : M (Option AggData) := do
  let o ← a.sep.getCurrentT env
  match o with
  | none => .ok none
  | some d => do
    let ag ← finish env.nth a.outSize d
    .ok (some ag)

/-- `basic_aggregator::clear` (basic_aggregator.cpp:184-189). -/
def clearT (a : Aggregator) (clk ts : Int) : M Aggregator := do
  let sep ← a.sep.clearT clk ts
  .ok { a with sep := sep, agList := [], alive := false }

/-- Execute one operation, recording what can be observed. -/
def execT (env : Env) (o : AObs) : AOp → M AObs
  | .add clk1 clk2 ts x => do
    let (ok, a) ← o.a.addT env clk1 clk2 ts x
    .ok { a := a, received := o.received, accepted := o.record ok clk1 ts x }
  | .push clk1 clk2 ts x handler => do
    let (ok, out, a) ← o.a.pushT env clk1 clk2 ts x handler
    .ok { a := a, received := o.received ++ out, accepted := o.record ok clk1 ts x }
  | .separate clk ts handler force => do
    let (_, out, a) ← o.a.separateT env clk ts handler force
    .ok { o with a := a, received := o.received ++ out }
  | .pop =>
    let (d, a) := o.a.pop
    .ok { o with a := a, received := o.received ++ d.toList }
  | .forcePop => do
    let (d, a) ← o.a.forcePopT env
    .ok { o with a := a, received := o.received ++ d.toList }
  | .look => do
    let _ ← o.a.aggregateCurrentT env
    .ok o
  | .enable v => .ok { o with a := o.a.enable v }

/-- Execute a history. -/
def execAllT (env : Env) (o : AObs) (ops : List AOp) : M AObs := ops.foldlM (execT env) o

end Aggregator
end Wrtstat
