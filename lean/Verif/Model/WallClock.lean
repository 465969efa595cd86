/-
Readings of the wall clock: `separator::now` and what forwards to it.

`std::chrono::system_clock` is a number of nanoseconds since its epoch (as with libstdc++); the static `beg` of `now_t` is
value-initialised, which is the epoch.  `basic_aggregator::now` (basic_aggregator.cpp:18-31), `aggregator::now`, `wrtstat::now`
(wrtstat.cpp:231-251) and the `now_t` of these classes forward.
-/
import Verif.Model.Types

namespace Wrtstat

set_option autoImplicit false

/-- The numbers behind the names (types.hpp:20-27). -/
def Resolution.number : Resolution → Int
  | .none => 0
  | .seconds => 1
  | .milliseconds => 1000
  | .microseconds => 1000000
  | .nanoseconds => 1000000000

/-- `separator::now_t<D>` (separator.hpp:52-57), where `D` counts `unit` nanoseconds: `duration_cast` truncates toward zero. -/
def nowT (unit ns : Int) : Int := ns.tdiv unit

/-- `separator::now(time_type resolution)` (separator.cpp:179-190). -/
def nowNumber (resolution ns : Int) : Int :=
  if resolution = 1000000000 then nowT 1 ns
  else if resolution = 1000000 then nowT 1000 ns
  else if resolution = 1000 then nowT 1000000 ns
  else if resolution = 1 then nowT 1000000000 ns
  else 0

/-- `separator::now(resolutions resolution)` (separator.cpp:192-204). -/
def nowOf (resolution : Resolution) (ns : Int) : Int :=
  match resolution with
  | .nanoseconds => nowT 1 ns
  | .microseconds => nowT 1000 ns
  | .milliseconds => nowT 1000000 ns
  | .seconds => nowT 1000000000 ns
  | .none => 0

end Wrtstat
