/-
Options of the older sources and their texts: wrtstat/json/load.cpp and wrtstat/json/wrtstat_options_json.hpp, which are not compiled.
The struct they refer to is today's `wrtstat_options` with the member `prefixes`, which is commented out in wrtstat_options.hpp:12.
-/
import Verif.Model.JsonCodec

namespace Wrtstat

set_option autoImplicit false

/-- `wrtstat_options` with the prefixes. -/
structure OldOptions extends WrtstatOptions where
  prefixes : List PName := []
deriving DecidableEq, Repr

/-- `wrtstat_options_json` (json/wrtstat_options_json.hpp:103-123, and its bases 43-101). -/
def oldOptionFields : List (Field OldOptions) :=
  [ natField "reducer_limit".toList (·.limit) (fun v o => { o with limit := v }),
    natField "reducer_levels".toList (·.levels) (fun v o => { o with levels := v }),
    intField "aggregation_step_ts".toList (·.step) (fun v o => { o with step := v }),
    intField "soiled_start_ts".toList (·.soiled) (fun v o => { o with soiled := v }),
    { key := "resolution".toList
      get := fun o => .str (resolutionName o.resolution)
      set := fun j o => match j with
        | .str s => match readResolution s with
          | some v => ({ o with resolution := v }, true)
          | none => (o, false)
        | _ => (o, false) },
    natField "outgoing_reduced_size".toList (·.outSize) (fun v o => { o with outSize := v }),
    natField "pool_size".toList (·.poolSize) (fun v o => { o with poolSize := v }),
    strsField "prefixes".toList (·.prefixes) (fun v o => { o with prefixes := v }) ]

/-- `wrtstat_options_json::serializer()(*opt, beg, end, &er)` of the older sources. -/
def LoadEnv.oldReadOptions (E : LoadEnv) (text : PName) (o : OldOptions) : OldOptions × Bool :=
  let (o, ok) := readMembers true oldOptionFields (E.parse text).1 o
  (o, ok && (E.parse text).2)

/-- `load(src, opt, err)` (json/load.cpp:17-51). -/
def LoadEnv.oldLoad (E : LoadEnv) (arg : PName) (o : OldOptions) (err : Bool) : Bool × OldOptions × Option PName :=
  let (beg, ok1) := E.parseSpace arg
  let jsonstr := if E.isObject beg then some beg else E.file arg
  match jsonstr with
  | none => (false, o, if err then some (E.strerror arg) else none)
  | some s =>
    let (o, ok2) := E.oldReadOptions s o
    if ok1 && ok2 then (true, o, none) else (false, o, if err then some (E.trace s) else none)

/-- `load(src, err)` (json/load.cpp:53-59). -/
def LoadEnv.oldLoadValue (E : LoadEnv) (arg : PName) (err : Bool) : OldOptions × Option PName :=
  match E.oldLoad arg {} err with
  | (true, o, e) => (o, e)
  | (false, _, e) => ({}, e)

/-- `dump` (json/load.cpp:61-66). -/
def LoadEnv.oldDump (E : LoadEnv) (o : OldOptions) : PName := (writeObj oldOptionFields o).text E.q

end Wrtstat
