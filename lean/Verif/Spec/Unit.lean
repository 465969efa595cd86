/-
The same history told in another unit of time.
-/
import Verif.Spec.AggregatorSpec
import Verif.Model.WallClock

namespace Wrtstat

set_option autoImplicit false

/-- A record, its time told in a unit `f` times smaller. -/
def AggData.finer (f : Int) (d : AggData) : AggData := { d with ts := f * d.ts }

/-- A separator whose step and times are told in a unit `f` times smaller, which is that of `res`. -/
def Separator.finer (f : Int) (res : Resolution) (s : Separator) : Separator :=
  { s with step := f * s.step, next := f * s.next, resolution := res, sepList := s.sepList.map (AggData.finer f) }

namespace Aggregator

/-- An aggregator told in a unit `f` times smaller. -/
def finer (f : Int) (res : Resolution) (a : Aggregator) : Aggregator :=
  { a with sep := a.sep.finer f res, agList := a.agList.map (AggData.finer f) }

/-- What an observer knows of a run, told in a unit `f` times smaller. -/
def AObs.finer (f : Int) (res : Resolution) (o : AObs) : AObs where
  a := o.a.finer f res
  received := o.received.map (AggData.finer f)
  accepted := o.accepted.map fun e => (f * e.1, e.2)

/-- All times of an operation, mapped. -/
def AOp.times (g : Int → Int) : AOp → AOp
  | .add c1 c2 ts x => .add (g c1) (g c2) (g ts) x
  | .push c1 c2 ts x h => .push (g c1) (g c2) (g ts) x h
  | .separate c ts h f => .separate (g c) (g ts) h f
  | .pop => .pop
  | .forcePop => .forcePop
  | .look => .look
  | .enable v => .enable v

/-- The timestamp of an operation. -/
def AOp.stamp : AOp → Int
  | .add _ _ ts _ => ts
  | .push _ _ ts _ _ => ts
  | .separate _ ts _ _ => ts
  | _ => 0

end Aggregator
end Wrtstat
