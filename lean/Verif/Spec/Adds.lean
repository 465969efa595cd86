/-
Specification vocabulary for what was fed into an aggregation window.  Independent of the model
functions: it only looks at the arguments of the calls.
-/
import Verif.Model.Types

namespace Wrtstat

namespace AddArg

/-- The sample values carried by one call. -/
def values : AddArg → List Int
  | .one v _ => [v]
  | .many vs _ => vs
  | .init vs => vs
  | .reduced rd => rd.data

/-- The number of events the call stands for. -/
def count : AddArg → Nat
  | .one _ c => c
  | .many _ c => c
  | .init vs => vs.length
  | .reduced rd => rd.count

/-- The number of events, where a call cannot stand for fewer events than the samples it
carries. -/
def weight (a : AddArg) : Nat := max a.count a.values.length

/-- The extra extremes carried by a merged summary; zero means "not set". -/
def extremes : AddArg → List Int
  | .reduced rd => (if rd.min ≠ 0 then [rd.min] else []) ++ (if rd.max ≠ 0 then [rd.max] else [])
  | _ => []

end AddArg

/-- All sample values of a sequence of calls, in order of arrival. -/
def allValues (as : List AddArg) : List Int := as.flatMap AddArg.values

/-- Total number of events of a sequence of calls. -/
def sumCount (as : List AddArg) : Nat := (as.map AddArg.count).sum

/-- Total weight of a sequence of calls. -/
def sumWeight (as : List AddArg) : Nat := (as.map AddArg.weight).sum

/-- All values relevant to the extremes of the window: samples and merged extremes. -/
def allExtremes (as : List AddArg) : List Int := as.flatMap fun a => a.values ++ a.extremes

/-- `m` is the minimum of the list. -/
def IsMinOf (m : Int) (l : List Int) : Prop := m ∈ l ∧ ∀ v ∈ l, m ≤ v

/-- `m` is the maximum of the list. -/
def IsMaxOf (m : Int) (l : List Int) : Prop := m ∈ l ∧ ∀ v ∈ l, v ≤ m

/-- Minimum of a list, with the 64-bit maximum as neutral element. -/
def minI (l : List Int) : Int := l.foldl min I64max

/-- Maximum of a list, with the 64-bit minimum as neutral element. -/
def maxI (l : List Int) : Int := l.foldl max I64min

end Wrtstat
