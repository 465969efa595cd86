/-
The reducer with 64-bit counters (wrtstat/aggregator/reducer.cpp), and the separator and the aggregator with that reducer.

`Verif/Model/Reducer.lean` counts in natural numbers.  Here every addition to `_total_count`, `_lossy_count` and `_average_count` is
modulo 2^64, as on `size_t`.  The functions that do no arithmetic on counters are those of the other model.
-/
import Verif.Spec.AggregatorSpec

namespace Wrtstat

set_option autoImplicit false

/-- The value of a `size_t`. -/
def w64 (n : Nat) : Nat := n % 2 ^ 64

namespace Reducer

/-- `reducer::lossy_count` (reducer.cpp:44-50). -/
def lossyCountW (r : Reducer) : Nat :=
  if r.data.length < 2 then r.lossy
  else w64 (w64 (r.lossy + w64 (r.opt.limit * (r.data.length - 2))) + r.back.length)

/-- One step of the running average (reducer.cpp:272): the divisor is computed as `size_t`. -/
def avgStepW (env : Env) (a : Rat) (n : Nat) (v : Int) : Rat :=
  env.rnd (a + env.rnd (env.rnd (env.rnd v - a) / env.rnd (w64 (n + 1) : Nat)))

/-- `reducer::add_` (reducer.cpp:270-296). -/
def addW_ (env : Env) (r : Reducer) (v : Int) : Reducer :=
  let r := { r with average := avgStepW env r.average r.averageCount v
                    averageCount := w64 (r.averageCount + 1) }
  let r := r.minmax v
  if r.data = [] ∨ r.back.length = r.opt.limit then
    if r.data.length = r.opt.levels ∨ r.opt.limit = 0 then
      { r with lossy := w64 (r.lossy + 1) }
    else
      let d := if r.curMode = .sorting then onBack sortInts r.data else r.data
      { r with data := d ++ [[v]] }
  else
    { r with data := onBack (· ++ [v]) r.data }

/-- `reducer::add(value_type, size_t)` (reducer.cpp:124-131). -/
def addOneW (env : Env) (r : Reducer) (v : Int) (count : Nat) : Reducer :=
  let r := addW_ env { r with empty := false } v
  let r := { r with total := w64 (r.total + count) }
  if count > 1 then { r with lossy := w64 (r.lossy + (count - 1)) } else r

/-- `reducer::add(const data_type&, size_t)` (reducer.cpp:133-142). -/
def addManyW (env : Env) (r : Reducer) (vs : List Int) (count : Nat) : Reducer :=
  let r := vs.foldl (addW_ env) { r with empty := false }
  let r := { r with total := w64 (r.total + count) }
  if vs.length < count then { r with lossy := w64 (r.lossy + (count - vs.length)) } else r

/-- `reducer::add(std::initializer_list)` (reducer.cpp:149-155). -/
def addInitW (env : Env) (r : Reducer) (vs : List Int) : Reducer :=
  let r := vs.foldl (addW_ env) r
  { r with empty := false, total := w64 (r.total + vs.length) }

/-- `reducer::add(const reduced_data&)` (reducer.cpp:157-166). -/
def addReducedW (env : Env) (r : Reducer) (rd : ReducedData) : Reducer :=
  let r := addManyW env r rd.data rd.count
  let r := if rd.min ≠ 0 then r.minmax rd.min else r
  if rd.max ≠ 0 then r.minmax rd.max else r

/-- Overload resolution of `reducer::add`. -/
def addW (env : Env) (r : Reducer) : AddArg → Reducer
  | .one v count => addOneW env r v count
  | .many vs count => addManyW env r vs count
  | .init vs => addInitW env r vs
  | .reduced rd => addReducedW env r rd

/-- `reducer::reduce` (reducer.cpp:222-268). -/
def reduceW (env : Env) (r : Reducer) : M Reducer :=
  if r.data = [] then .ok r
  else
    let r := if r.curMode = .sorting then { r with data := onBack sortInts r.data } else r
    if r.data.length = 1 then .ok r
    else do
      let r := { r with lossy := r.lossyCountW }
      let n := r.data.length
      let data ← reduceLoop env.nth r.curMode n r.opt.limit 0 n r.data
      let cur := if r.opt.mode = .adapt then
          (if r.opt.limit / n > magic then Mode.sorting else Mode.nth)
        else r.curMode
      .ok { r with data := data.take 1, curMode := cur }

/-- `reducer::detach` (reducer.cpp:174-190). -/
def detachW (env : Env) (r : Reducer) : M (Option AggData × Reducer) :=
  if r.empty then .ok (none, r)
  else do
    let r ← reduceW env r
    let avg ← castInt r.average
    .ok (some { data := r.data.headD []
                avg := avg
                count := r.total
                lossy := r.lossy
                max := r.max
                min := r.min }, r.clear)

/-- `reducer::get_reduced` (reducer.cpp:168-172). -/
def getReducedW (env : Env) (r : Reducer) : M (Option AggData) := do
  let (res, _) ← detachW env r.clone
  .ok res

/-- Effect of one client operation. -/
def stepW (env : Env) (r : Reducer) : ROp → M Reducer
  | .add a => .ok (addW env r a)
  | .reduce => reduceW env r
  | .clear => .ok r.clear
  | .detach => do let (_, r') ← detachW env r; .ok r'
  | .look => do let _ ← getReducedW env r; .ok r

/-- Effect of a client history. -/
def runW (env : Env) (r : Reducer) (ops : List ROp) : M Reducer := ops.foldlM (stepW env) r

/-- The counters of a reducer modulo 2^64. -/
def wrap (r : Reducer) : Reducer := { r with lossy := w64 r.lossy, total := w64 r.total }

end Reducer

/-- The counters of a record modulo 2^64. -/
def AggData.wrap (d : AggData) : AggData := { d with count := w64 d.count, lossy := w64 d.lossy }

namespace Separator

/-- The loop of `separator::separate` (separator.cpp:154-165). -/
def sepLoopW (env : Env) (step ts : Int) (next : Int) (r : Reducer) : M (List AggData × Int × Reducer) :=
  if _h : next ≤ ts then
    if _hs : 0 < step then do
      let (o, r) ← r.detachW env
      let (out, next', r) ← sepLoopW env step ts (next + step) r
      .ok ((o.map fun d => { d with ts := next - step }).toList ++ out, next', r)
    else .error .diverge
  else .ok ([], next, r)
termination_by (ts - next + 1).toNat
decreasing_by omega

/-- `separator::separate` (separator.cpp:147-167). -/
def separateW (env : Env) (s : Separator) (clk ts : Int) (handler force : Bool) :
    M (Bool × List AggData × Separator) := do
  let ts ← s.getTs clk ts
  if force = false ∧ ts < s.next then .ok (false, [], s)
  else do
    let (out, next, r) ← sepLoopW env s.step ts s.next s.reducer
    if handler then
      .ok (true, out, { s with next := next, reducer := r })
    else
      .ok (true, [], { s with next := next, reducer := r, sepList := s.sepList ++ out })

/-- `separator::push` and `separator::add` (separator.cpp:26-96). -/
def pushW (env : Env) (s : Separator) (clk1 clk2 ts : Int) (a : AddArg) (handler : Bool) :
    M (Bool × List AggData × Separator) := do
  let ts ← s.getTs clk1 ts
  let (_, out, s) ← s.separateW env clk2 ts handler false
  if ts < s.next - s.step then .ok (false, out, s)
  else .ok (true, out, { s with reducer := s.reducer.addW env a })

/-- `separator::add` (separator.cpp:26-64). -/
def addW (env : Env) (s : Separator) (clk1 clk2 ts : Int) (a : AddArg) : M (Bool × Separator) := do
  let (b, _, s) ← s.pushW env clk1 clk2 ts a false
  .ok (b, s)

/-- `separator::force_pop` (separator.cpp:109-119). -/
def forcePopW (env : Env) (s : Separator) : M (Option AggData × Separator) :=
  match s.pop with
  | (some d, s) => .ok (some d, s)
  | (none, s) => do
    let (o, r) ← s.reducer.detachW env
    .ok (o.map fun d => { d with ts := s.next - s.step }, { s with reducer := r })

/-- `separator::get_current` (separator.cpp:121-127). -/
def getCurrentW (env : Env) (s : Separator) : M (Option AggData) := do
  let o ← s.reducer.getReducedW env
  .ok (o.map fun d => { d with ts := s.next - s.step })

/-- The counters of a separator modulo 2^64: those of its reducer and of the records it holds. -/
def wrap (s : Separator) : Separator := { s with reducer := s.reducer.wrap, sepList := s.sepList.map AggData.wrap }

end Separator

namespace Aggregator

/-- `basic_aggregator::add` (basic_aggregator.cpp:33-43, 55-65, 79-87). -/
def addW (env : Env) (a : Aggregator) (clk1 clk2 ts : Int) (x : AddArg) : M (Bool × Aggregator) :=
  if a.enabled = false then .ok (true, a)
  else do
    let (ok, sep) ← a.sep.addW env clk1 clk2 ts x
    let a := { a with sep := sep }
    if ok = false then .ok (false, a)
    else do
      let a ← aggregate0_ env.nth a
      .ok (true, a)

/-- `basic_aggregator::push` (basic_aggregator.cpp:45-52, 67-77, 89-98). -/
def pushW (env : Env) (a : Aggregator) (clk1 clk2 ts : Int) (x : AddArg) (handler : Bool) :
    M (Bool × List AggData × Aggregator) :=
  if a.enabled = false then .ok (true, [], a)
  else if handler = false then do
    let (ok, a) ← a.addW env clk1 clk2 ts x
    .ok (ok, [], a)
  else do
    let (ok, out, sep) ← a.sep.pushW env clk1 clk2 ts x true
    let out ← out.mapM (finish env.nth a.outSize)
    .ok (ok, out, { a with sep := sep })

/-- `basic_aggregator::separate` (basic_aggregator.cpp:106-111). -/
def separateW (env : Env) (a : Aggregator) (clk ts : Int) (handler force : Bool) :
    M (Bool × List AggData × Aggregator) := do
  let (res, out, sep) ← a.sep.separateW env clk ts handler force
  let a ← aggregate0_ env.nth { a with sep := sep }
  .ok (res, out, a)

/-- `basic_aggregator::force_pop` (basic_aggregator.cpp:122-130). -/
def forcePopW (env : Env) (a : Aggregator) : M (Option AggData × Aggregator) := do
  let (o, sep) ← a.sep.forcePopW env
  match o with
  | none => .ok (none, { a with sep := sep })
  | some d => do
    let ag ← finish env.nth a.outSize d
    .ok (some ag, { a with sep := sep })

/-- `basic_aggregator::aggregate_current` (basic_aggregator.cpp:132-140). -/
def aggregateCurrentW (env : Env) (a : Aggregator) : M (Option AggData) := do
  let o ← a.sep.getCurrentW env
  match o with
  | none => .ok none
  | some d => do
    let ag ← finish env.nth a.outSize d
    .ok (some ag)

/-- The counters of an aggregator modulo 2^64. -/
def wrap (a : Aggregator) : Aggregator := { a with sep := a.sep.wrap, agList := a.agList.map AggData.wrap }

/-- The same for a run: the aggregator and the records received. -/
def AObs.wrap (o : AObs) : AObs := { o with a := o.a.wrap, received := o.received.map AggData.wrap }

/-- Execute one operation, recording what can be observed. -/
def execW (env : Env) (o : AObs) : AOp → M AObs
  | .add clk1 clk2 ts x => do
    let (ok, a) ← o.a.addW env clk1 clk2 ts x
    .ok { a := a, received := o.received, accepted := o.record ok clk1 ts x }
  | .push clk1 clk2 ts x handler => do
    let (ok, out, a) ← o.a.pushW env clk1 clk2 ts x handler
    .ok { a := a, received := o.received ++ out, accepted := o.record ok clk1 ts x }
  | .separate clk ts handler force => do
    let (_, out, a) ← o.a.separateW env clk ts handler force
    .ok { o with a := a, received := o.received ++ out }
  | .pop =>
    let (d, a) := o.a.pop
    .ok { o with a := a, received := o.received ++ d.toList }
  | .forcePop => do
    let (d, a) ← o.a.forcePopW env
    .ok { o with a := a, received := o.received ++ d.toList }
  | .look => do
    let _ ← o.a.aggregateCurrentW env
    .ok o
  | .enable v => .ok { o with a := o.a.enable v }

/-- Execute a history. -/
def execAllW (env : Env) (o : AObs) (ops : List AOp) : M AObs := ops.foldlM (execW env) o

end Aggregator
end Wrtstat
