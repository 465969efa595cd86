/-
Moving a history in time.
-/
import Verif.Spec.AggregatorSpec

namespace Wrtstat

set_option autoImplicit false

/-- A record, `K` later. -/
def AggData.later (K : Int) (d : AggData) : AggData := { d with ts := d.ts + K }

/-- A separator, `K` later. -/
def Separator.later (K : Int) (s : Separator) : Separator := { s with next := s.next + K, sepList := s.sepList.map (AggData.later K) }

namespace Aggregator

/-- An aggregator, `K` later. -/
def later (K : Int) (a : Aggregator) : Aggregator := { a with sep := a.sep.later K, agList := a.agList.map (AggData.later K) }

/-- What an observer knows of a run, `K` later. -/
def AObs.later (K : Int) (o : AObs) : AObs where
  a := o.a.later K
  received := o.received.map (AggData.later K)
  accepted := o.accepted.map fun e => (e.1 + K, e.2)

/-- A timestamp, `K` later; a timestamp that stands for the clock still does. -/
def laterTs (resolution : Resolution) (K ts : Int) : Int := if ts = 0 ∧ resolution ≠ .none then 0 else ts + K

/-- An operation, `K` later. -/
def AOp.later (resolution : Resolution) (K : Int) : AOp → AOp
  | .add c1 c2 ts x => .add (c1 + K) (c2 + K) (laterTs resolution K ts) x
  | .push c1 c2 ts x h => .push (c1 + K) (c2 + K) (laterTs resolution K ts) x h
  | .separate c ts h f => .separate (c + K) (laterTs resolution K ts) h f
  | .pop => .pop
  | .forcePop => .forcePop
  | .look => .look
  | .enable v => .enable v

/-- The time is at least one step after 0, now and `K` later. -/
def Settled (opt : AggregatorOpts) (K clk ts : Int) : Prop :=
  opt.step ≤ meant opt.resolution clk ts ∧ opt.step ≤ meant opt.resolution clk ts + K

/-- All times of an operation are. -/
def AOp.settled (opt : AggregatorOpts) (K : Int) : AOp → Prop
  | .add c _ ts _ => Settled opt K c ts
  | .push c _ ts _ _ => Settled opt K c ts
  | .separate c ts _ _ => Settled opt K c ts
  | _ => True

instance (opt : AggregatorOpts) (K : Int) (op : AOp) : Decidable (op.settled opt K) := by
  cases op <;> simp only [AOp.settled, Settled] <;> infer_instance

end Aggregator
end Wrtstat
