/-
Histories of two aggregators that differ in what the calls carry only.
-/
import Verif.Spec.AggregatorSpec

namespace Wrtstat

set_option autoImplicit false

namespace Aggregator

/-- The same operation at the same times, the calls it makes related by `X`. -/
inductive AOp.Like (X : AddArg → AddArg → Prop) : AOp → AOp → Prop
  | add (c1 c2 ts : Int) {x x' : AddArg} : X x x' → AOp.Like X (.add c1 c2 ts x) (.add c1 c2 ts x')
  | push (c1 c2 ts : Int) {x x' : AddArg} (h : Bool) : X x x' → AOp.Like X (.push c1 c2 ts x h) (.push c1 c2 ts x' h)
  | separate (c ts : Int) (h g : Bool) : AOp.Like X (.separate c ts h g) (.separate c ts h g)
  | pop : AOp.Like X .pop .pop
  | forcePop : AOp.Like X .forcePop .forcePop
  | look : AOp.Like X .look .look
  | enable (v : Bool) : AOp.Like X (.enable v) (.enable v)

/-- Two events recorded at the same time, their calls related by `X`. -/
def SameTime (X : AddArg → AddArg → Prop) (e e' : Int × AddArg) : Prop := e.1 = e'.1 ∧ X e.2 e'.2

end Aggregator

end Wrtstat
