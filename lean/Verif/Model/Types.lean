/-
Plain data types of the library.
-/
import Verif.Model.Std

namespace Wrtstat

/-- `reducer_options::mode` (wrtstat/aggregator/options/reducer_options.hpp:14-18). -/
inductive Mode where
  | sorting | nth | adapt
deriving DecidableEq, Repr

/-- `reducer_options` (wrtstat/aggregator/options/reducer_options.hpp:12-23). -/
structure ReducerOpts where
  limit : Nat := 4096
  levels : Nat := 256
  mode : Mode := .adapt
  initialMode : Mode := .adapt
deriving DecidableEq, Repr

/-- `reduced_info` (wrtstat/aggregator/api/reduced_info.hpp:6-21). -/
structure ReducedInfo where
  ts : Int := 0
  count : Nat := 0
  lossy : Nat := 0
  min : Int := 0
  max : Int := 0
  avg : Int := 0
deriving DecidableEq, Repr

/-- `reduced_data` (wrtstat/aggregator/api/reduced_data.hpp:7-10). -/
structure ReducedData extends ReducedInfo where
  data : List Int := []
deriving DecidableEq, Repr

/-- `aggregated_perc` (wrtstat/aggregator/api/aggregated_perc.hpp:6-13). -/
structure Perc where
  perc50 : Int := 0
  perc80 : Int := 0
  perc95 : Int := 0
  perc99 : Int := 0
  perc100 : Int := 0
deriving DecidableEq, Repr

/-- `aggregated_data` (wrtstat/aggregator/api/aggregated_data.hpp:10-16). -/
structure AggData extends ReducedData, Perc
deriving DecidableEq, Repr

/-- `resolutions` (wrtstat/aggregator/api/types.hpp:20-27); only the distinction between `none`
and a clock resolution matters to the model, clock readings being parameters. -/
inductive Resolution where
  | none | seconds | milliseconds | microseconds | nanoseconds
deriving DecidableEq, Repr

/-- `separator_options` (wrtstat/aggregator/options/separator_options.hpp:7-19). -/
structure SeparatorOpts extends ReducerOpts where
  step : Int := 1
  resolution : Resolution := .seconds
  soiled : Int := 0
deriving DecidableEq, Repr

/-- `aggregator_options` (wrtstat/aggregator/options/aggregator_options.hpp:7-11). -/
structure AggregatorOpts extends SeparatorOpts where
  outSize : Nat := 128
deriving DecidableEq, Repr

/-- The payload of one `add`/`push` call; the four overloads of `reducer::add` with a payload
reachable from outside (reducer.hpp:44-52). -/
inductive AddArg where
  /-- `add(value, count)` -/
  | one (v : Int) (count : Nat)
  /-- `add(values, count)`; `add(values)` is `add(values, values.size())` (reducer.cpp:144-147) -/
  | many (vs : List Int) (count : Nat)
  /-- `add(initializer_list)` -/
  | init (vs : List Int)
  /-- `add(reduced_data)` -/
  | reduced (rd : ReducedData)
deriving DecidableEq, Repr

end Wrtstat
