/-
Histories with every value changed by a function.
-/
import Verif.Spec.AggregatorSpec

namespace Wrtstat

set_option autoImplicit false

/-- A call, every value changed. -/
def AddArg.mapV (f : Int → Int) : AddArg → AddArg
  | .one v c => .one (f v) c
  | .many vs c => .many (vs.map f) c
  | .init vs => .init (vs.map f)
  | .reduced rd => .reduced { rd with data := rd.data.map f, min := f rd.min, max := f rd.max, avg := f rd.avg }

/-- An operation, every value changed. -/
def Aggregator.AOp.mapV (f : Int → Int) : Aggregator.AOp → Aggregator.AOp
  | .add c1 c2 ts x => .add c1 c2 ts (x.mapV f)
  | .push c1 c2 ts x h => .push c1 c2 ts (x.mapV f) h
  | .separate c ts h g => .separate c ts h g
  | .pop => .pop
  | .forcePop => .forcePop
  | .look => .look
  | .enable v => .enable v

/-- Values and extremes of an operation. -/
def Aggregator.AOp.all : Aggregator.AOp → List Int
  | .add _ _ _ x => x.values ++ x.extremes
  | .push _ _ _ x _ => x.values ++ x.extremes
  | _ => []

/-- Extremes of no values at all, or changed extremes. -/
def Extreme (f : Int → Int) (neutral m m' : Int) : Prop := m' = f m ∨ (m = neutral ∧ m' = neutral)

/-- `d'` is `d` with every value changed, the average excepted. -/
structure Rescaled (f : Int → Int) (d d' : AggData) : Prop where
  ts : d'.ts = d.ts
  count : d'.count = d.count
  lossy : d'.lossy = d.lossy
  min : Extreme f I64max d.min d'.min
  max : Extreme f I64min d.max d'.max
  data : d'.data = d.data.map f
  perc50 : d'.perc50 = f d.perc50
  perc80 : d'.perc80 = f d.perc80
  perc95 : d'.perc95 = f d.perc95
  perc99 : d'.perc99 = f d.perc99
  perc100 : d'.perc100 = f d.perc100

/-- An algorithm that only compares values: it moves changed values as it moves the values, if the change keeps their order. -/
def NthElement.Comparing (E : NthElement) : Prop := ∀ (f : Int → Int), StrictMono f → ∀ l k, E.run (l.map f) k = (E.run l k).map f

end Wrtstat
