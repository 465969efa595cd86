/-
Model of the older sources wrtstat/{reducer,separator,aggregator}.cpp and wrtstat/manager/aggregator_{map,hashmap}.cpp, which
wrtstat/CMakeLists.txt no longer compiles.

`wrtstat/reducer.cpp` and `wrtstat/separator.cpp` are the current files without `capacity` and `size(data_size, capacity)`, except for
`separator::force_pop`; so the objects are those of Model/Reducer and Model/Separator.
-/
import Verif.Model.Multi
import Verif.Spec.AggregatorSpec

namespace Wrtstat

/-! ### The aggregator -/

namespace Legacy

/-- `separator::force_pop` (wrtstat/separator.cpp:109-116): the summary is used without asking whether there is one. -/
def sepForcePop (env : Env) (s : Separator) : M (Option AggData × Separator) :=
  match s.pop with
  | (some d, s) => .ok (some d, s)
  | (none, s) => do
    let (o, r) ← s.reducer.detach env
    match o with
    | none => .error .ub
    | some d => .ok (some { d with ts := s.next - s.step }, { s with reducer := r })

/-- `aggregator_base::reduce_` (wrtstat/aggregator.cpp:224-255): aborts if nothing remains. -/
def reduce_ (outSize : Nat) (d : List Int) : M (List Int) :=
  if outSize = 0 ∨ d.length ≤ outSize then .ok d
  else
    let k := if outSize * 2 > d.length then
        let step := d.length / (d.length - outSize)
        Aggregator.keepIdx (fun i => decide (i % step ≠ 0)) 0 d
      else
        let step := d.length / outSize
        Aggregator.keepIdx (fun i => decide (i % step = 0)) 0 d
    if k.length > 0 then .ok k else .error .abort

/-- `aggregate2_` (wrtstat/aggregator.cpp:277-294; as in basic_aggregator.cpp) followed by `reduce_`. -/
def finish (E : NthElement) (outSize : Nat) (d : AggData) : M AggData := do
  let ag ← Aggregator.calcPerc E d
  let data ← reduce_ outSize ag.data
  .ok { ag with data := data }

/-- `aggregate0_` (wrtstat/aggregator.cpp:257-265). -/
def aggregate0_ (E : NthElement) (a : Aggregator) : M Aggregator := do
  let l ← a.sep.sepList.mapM (finish E a.outSize)
  .ok { a with sep := { a.sep with sepList := [] }, agList := a.agList ++ l }

/-- `aggregator_base::add` (wrtstat/aggregator.cpp:35-45, 58-68, 82-90). -/
def add (env : Env) (a : Aggregator) (clk1 clk2 ts : Int) (x : AddArg) : M (Bool × Aggregator) :=
  if a.enabled = false then .ok (true, a)
  else do
    let (ok, sep) ← a.sep.add env clk1 clk2 ts x
    let a := { a with sep := sep }
    if ok = false then .ok (false, a)
    else do
      let a ← aggregate0_ env.nth a
      .ok (true, a)

/-- `aggregator_base::push` (wrtstat/aggregator.cpp:47-55, 70-80, 92-101) and `push_handler_` (103-111). -/
def push (env : Env) (a : Aggregator) (clk1 clk2 ts : Int) (x : AddArg) (handler : Bool) :
    M (Bool × List AggData × Aggregator) :=
  if a.enabled = false then .ok (true, [], a)
  else if handler = false then do
    let (ok, a) ← add env a clk1 clk2 ts x
    .ok (ok, [], a)
  else do
    let (ok, out, sep) ← a.sep.push env clk1 clk2 ts x true
    let out ← out.mapM (finish env.nth a.outSize)
    .ok (ok, out, { a with sep := sep })

/-- `aggregator_base::separate` (wrtstat/aggregator.cpp:113-118). -/
def separate (env : Env) (a : Aggregator) (clk ts : Int) (handler force : Bool) :
    M (Bool × List AggData × Aggregator) := do
  let (res, out, sep) ← a.sep.separate env clk ts handler force
  let a ← aggregate0_ env.nth { a with sep := sep }
  .ok (res, out, a)

/-- `aggregator_base::force_pop` (wrtstat/aggregator.cpp:129-134): the record is used without asking whether there is one. -/
def forcePop (env : Env) (a : Aggregator) : M (Option AggData × Aggregator) := do
  let (o, sep) ← sepForcePop env a.sep
  match o with
  | none => .error .ub
  | some d => do
    let ag ← finish env.nth a.outSize d
    .ok (some ag, { a with sep := sep })

/-- `aggregator_base::aggregate_current` (wrtstat/aggregator.cpp:136-144). -/
def aggregateCurrent (env : Env) (a : Aggregator) : M (Option AggData) := do
  let o ← a.sep.getCurrent env
  match o with
  | none => .ok none
  | some d => do
    let ag ← finish env.nth a.outSize d
    .ok (some ag)

open Aggregator (AObs AOp)

/-- One operation on an aggregator of the older sources; `pop` (wrtstat/aggregator.cpp:120-127) and `enable` (146-149) are those of
basic_aggregator.cpp. -/
def exec (env : Env) (o : AObs) : AOp → M AObs
  | .add clk1 clk2 ts x => do
    let (ok, a) ← add env o.a clk1 clk2 ts x
    .ok { a := a, received := o.received, accepted := o.record ok clk1 ts x }
  | .push clk1 clk2 ts x handler => do
    let (ok, out, a) ← push env o.a clk1 clk2 ts x handler
    .ok { a := a, received := o.received ++ out, accepted := o.record ok clk1 ts x }
  | .separate clk ts handler force => do
    let (_, out, a) ← separate env o.a clk ts handler force
    .ok { o with a := a, received := o.received ++ out }
  | .pop =>
    let (d, a) := o.a.pop
    .ok { o with a := a, received := o.received ++ d.toList }
  | .forcePop => do
    let (d, a) ← forcePop env o.a
    .ok { o with a := a, received := o.received ++ d.toList }
  | .look => do
    let _ ← aggregateCurrent env o.a
    .ok o
  | .enable v => .ok { o with a := o.a.enable v }

/-- A history. -/
def execAll (env : Env) (o : AObs) (ops : List AOp) : M AObs := ops.foldlM (exec env) o

/-! ### The hash map -/

/-- `aggregator_map::push` (wrtstat/manager/aggregator_map.cpp:11-28): the handler is handed to the aggregator as it is. -/
def mapPush (env : Env) (opt : MultiOpts) (m : AggMap) (name : Name) (v : ReducedData) (clk rand clk1 clk2 : Int) (handler : Bool) :
    M (Bool × List AggData × AggMap) := do
  let a ← AggMap.orNew opt (m.lookup name) clk rand v.ts
  let (ok, out, a) ← push env a clk1 clk2 v.ts (.reduced v) handler
  .ok (ok, out, m.put name a)

/-- `aggregator_hashmap::push` (wrtstat/manager/aggregator_hashmap.cpp:29-36), with `get_pos_` (38-41); the constructor
(6-10, 43-49) is that of `multi_aggregator`. -/
def hashPush (env : Env) (m : Multi) (p : Multi.PushArg) (handler : Bool) : M (Bool × List AggData × Multi) := do
  let pos ← m.getPos p.name
  let s ← m.shard pos
  let (ok, out, s) ← mapPush env m.opt s p.name p.v p.clk p.rand p.clk1 p.clk2 handler
  .ok (ok, out, { m with shards := m.shards.set pos s })

/-- What an observer knows of a hash map: the object, the records handed to handlers, and the answers, each with the name of the
push. -/
structure HObs where
  m : Multi
  delivered : List (Name × AggData) := []
  answers : List (Name × Bool) := []

/-- One push and whether it has a handler. -/
def hexec (env : Env) (o : HObs) (p : Multi.PushArg × Bool) : M HObs := do
  let (ok, out, m) ← hashPush env o.m p.1 p.2
  .ok { m := m, delivered := o.delivered ++ out.map (fun d => (p.1.name, d)), answers := o.answers ++ [(p.1.name, ok)] }

/-- A history of pushes. -/
def hexecAll (env : Env) (o : HObs) (ps : List (Multi.PushArg × Bool)) : M HObs := ps.foldlM (hexec env) o

end Legacy
end Wrtstat
