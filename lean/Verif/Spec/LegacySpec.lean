/-
Histories of the older registry and meter manager, and the calls of the current classes they correspond to.
-/
import Verif.Model.LegacyRegistry

namespace Wrtstat
namespace Legacy

open Registry (RegOp Resp)

/-- The same call of the current registry. -/
def ROp.now : ROp → RegOp
  | .create q name t => .create q name t
  | .addId id c1 c2 t v n => .addId id c1 c2 t v n
  | .addData q name c1 c2 rd => .addData q name c1 c2 rd
  | .pop id => .pop id
  | .forcePop id => .forcePop id
  | .getName id => .getName id
  | .pusherId id h => .pusherId id h
  | .pusherName q name t h => .pusherName q name t h
  | .call p c1 c2 ts x => .call p c1 c2 ts x
  | .enable v => .enable v
  | .del name => .del name
  | .direct id op => .direct id op

/-- The call is a `force_pop`, of the registry or of an aggregator got from it, that finds an aggregator, and today it answers that there
is nothing. -/
def RFindsNothing (env : Env) (r : Registry) (op : ROp) : Prop :=
  ∃ id c r', r.getAggregator id = .ok (some c) ∧
    ((op = .forcePop id ∧ r.step env (.forcePop id) = .ok (.record none, r')) ∨
     (op = .direct id .forcePop ∧ r.step env (.direct id .forcePop) = .ok (.handed [], r')))

namespace Manager

/-- The same call of a current `wrtstat` object; what the older class keeps as its prefixes is given with every call now. -/
def nowStep (env : Env) (prefixes : List Name) (w : Wrt) : MOp → M (MResp × List (Name × AggData) × Wrt)
  | .reg op => do
    let (x, r) ← w.reg.step env op.now
    .ok (.reg x, [], { w with reg := r })
  | .meterId id => do
    let p ← w.meterId id
    .ok (.meters [p], [], w)
  | .meterName q name now => do
    let (p, w) ← w.meterName env q name now
    .ok (.meters [p], [], w)
  | .multi name ask => do
    let (l, w) ← w.multiMeter env name (prefixes.mapIdx fun i p => (p, (ask i).1, (ask i).2))
    .ok (.meters l, [], w)
  | .compositeId t r x s => do
    let p ← w.compositeId t r x s
    .ok (.composites [p], [], w)
  | .compositeName ord qt qr qw nt nr nw now s => do
    let (p, w) ← w.compositeName env ord qt qr qw nt nr nw now s
    .ok (.composites [p], [], w)
  | .compositeMulti nt nr nw s ask => do
    let (l, w) ← w.compositeMulti env nt nr nw s (prefixes.mapIdx fun i p => (p, ask i))
    .ok (.composites l, [], w)
  | .call p c1 c2 ts v count => do
    let (l, w) ← w.call env p c1 c2 ts v count
    .ok (.unit, l, w)
  | .callC p kt kr kw ts span count rd wr => do
    let (l, w) ← w.callC env p kt kr kw ts span count rd wr
    .ok (.unit, l, w)

/-- What a client sees of a run: the answers, and what reached the handler. -/
structure Told where
  answers : List MResp := []
  handed : List (Name × AggData) := []
deriving DecidableEq

/-- One call of the older class. -/
def mexec (env : Env) (s : Told × Manager) (op : MOp) : M (Told × Manager) := do
  let (x, l, m) ← s.2.step env op
  .ok ({ answers := s.1.answers ++ [x], handed := s.1.handed ++ l }, m)

/-- A history of the older class. -/
def mexecAll (env : Env) (s : Told × Manager) (ops : List MOp) : M (Told × Manager) := ops.foldlM (mexec env) s

/-- One call of the current class. -/
def nowExec (env : Env) (prefixes : List Name) (s : Told × Wrt) (op : MOp) : M (Told × Wrt) := do
  let (x, l, w) ← nowStep env prefixes s.2 op
  .ok ({ answers := s.1.answers ++ [x], handed := s.1.handed ++ l }, w)

/-- A history of the current class. -/
def nowExecAll (env : Env) (prefixes : List Name) (s : Told × Wrt) (ops : List MOp) : M (Told × Wrt) :=
  ops.foldlM (nowExec env prefixes) s

end Manager
end Legacy
end Wrtstat
