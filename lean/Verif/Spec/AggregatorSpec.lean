/-
Client histories of an aggregator and what they make observable.
-/
import Verif.Spec.Percentile
import Verif.Model.Aggregator

namespace Wrtstat

/-- `d` reports the calls `as`: it is what may be delivered for a faithful summary of them. -/
def Report (env : Env) (opt : AggregatorOpts) (as : List AddArg) (d : AggData) : Prop :=
  ∃ raw, Summary env opt.limit opt.levels as raw ∧ Delivered opt.outSize raw d

namespace Aggregator

/-- Client operations on an aggregator other than `clear`. -/
inductive AOp where
  | add (clk1 clk2 ts : Int) (x : AddArg)
  | push (clk1 clk2 ts : Int) (x : AddArg) (handler : Bool)
  | separate (clk ts : Int) (handler force : Bool)
  | pop
  | forcePop
  | look
  | enable (v : Bool)
deriving DecidableEq, Repr

/-- Clock readings of an operation are not negative. -/
def AOp.clockOk : AOp → Prop
  | .add c1 c2 _ _ => 0 ≤ c1 ∧ 0 ≤ c2
  | .push c1 c2 _ _ _ => 0 ≤ c1 ∧ 0 ≤ c2
  | .separate c _ _ _ => 0 ≤ c
  | _ => True

instance (op : AOp) : Decidable op.clockOk := by
  cases op <;> simp only [AOp.clockOk] <;> infer_instance

/-- Operations that hand records to a handler. -/
def AOp.handed : AOp → Bool
  | .push _ _ _ _ h => h
  | .separate _ _ h _ => h
  | _ => false

/-- `separate` with a handler. -/
def AOp.sepHandler : AOp → Bool
  | .separate _ _ h _ => h
  | _ => false

/-- `force_pop`. -/
def AOp.forced : AOp → Bool
  | .forcePop => true
  | _ => false

/-- Operations that record an event. -/
def AOp.event : AOp → Bool
  | .add .. => true
  | .push .. => true
  | _ => false

/-- The values handed over by an operation. -/
def AOp.vals : AOp → List Int
  | .add _ _ _ x => x.values
  | .push _ _ _ x _ => x.values
  | _ => []

/-- The event of the operation, if any, is not aligned to time zero (unless zero is an ordinary
time). -/
def AOp.timeOk (opt : AggregatorOpts) : AOp → Prop
  | .add c _ ts _ => opt.resolution = .none ∨ align opt.step (meant opt.resolution c ts) ≠ 0
  | .push c _ ts _ _ => opt.resolution = .none ∨ align opt.step (meant opt.resolution c ts) ≠ 0
  | _ => True

instance (opt : AggregatorOpts) (op : AOp) : Decidable (op.timeOk opt) := by
  cases op <;> simp only [AOp.timeOk] <;> infer_instance

/-- What an observer knows of a run: the object, the records received (from handlers, `pop` and
`force_pop`, in order of reception), and the events recorded, with their aligned time. -/
structure AObs where
  a : Aggregator
  received : List AggData := []
  accepted : List (Int × AddArg) := []

/-- The events recorded after an `add` or `push` that returned `ok`. -/
def AObs.record (o : AObs) (ok : Bool) (clk ts : Int) (x : AddArg) : List (Int × AddArg) :=
  if ok = true ∧ o.a.enabled = true then
    o.accepted ++ [(align o.a.sep.step (meant o.a.sep.resolution clk ts), x)]
  else o.accepted

/-- Execute one operation, recording what can be observed. -/
def exec (env : Env) (o : AObs) : AOp → M AObs
  | .add clk1 clk2 ts x => do
    let (ok, a) ← o.a.add env clk1 clk2 ts x
    .ok { a := a, received := o.received, accepted := o.record ok clk1 ts x }
  | .push clk1 clk2 ts x handler => do
    let (ok, out, a) ← o.a.push env clk1 clk2 ts x handler
    .ok { a := a, received := o.received ++ out, accepted := o.record ok clk1 ts x }
  | .separate clk ts handler force => do
    let (_, out, a) ← o.a.separate env clk ts handler force
    .ok { o with a := a, received := o.received ++ out }
  | .pop =>
    let (d, a) := o.a.pop
    .ok { o with a := a, received := o.received ++ d.toList }
  | .forcePop => do
    let (d, a) ← o.a.forcePop env
    .ok { o with a := a, received := o.received ++ d.toList }
  | .look => do
    let _ ← o.a.aggregateCurrent env
    .ok o
  | .enable v => .ok { o with a := o.a.enable v }

/-- Execute a history. -/
def execAll (env : Env) (o : AObs) (ops : List AOp) : M AObs := ops.foldlM (exec env) o

/-- An event: two clock readings, a timestamp and a payload. -/
structure Event where
  clk1 : Int
  clk2 : Int
  ts : Int
  x : AddArg

/-- Feed an event with a handler. -/
def Event.push (e : Event) : AOp := .push e.clk1 e.clk2 e.ts e.x true

/-- Feed an event without handler. -/
def Event.add (e : Event) : AOp := .add e.clk1 e.clk2 e.ts e.x

/-- Aggregators as a client starts with them: newly built, or cleared after any history. -/
inductive Fresh (env : Env) (opt : AggregatorOpts) : Aggregator → Prop
  | new {clk rand ts : Int} {a : Aggregator} : Aggregator.new opt clk rand ts = .ok a → Fresh env opt a
  | clear {a0 a : Aggregator} {ops : List AOp} {o : AObs} {clk ts : Int} : Fresh env opt a0 →
      (∀ op ∈ ops, op.clockOk) → execAll env { a := a0 } ops = .ok o → o.a.clear clk ts = .ok a →
      Fresh env opt a

end Aggregator
end Wrtstat
