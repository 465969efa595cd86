/-
JSON forms of the requests and options (wrtstat/api/*_json*.hpp, wrtstat/aggregator/api/json/*.hpp,
wrtstat/aggregator/options/*_json.hpp, wrtstat/multi_packer/packer_options_json.hpp).

The headers list, for each type, the members with their names; reading and writing them is done by wjson, which is
external.  As read here: `wjson::object` writes the members in the order of the list, and reads them in any
order, a member with an unknown name being skipped, or an error in `strict_mode`; `wjson::object_array` writes
and reads the values alone, in order; `wjson::base` puts the members of the base in its place.  A number outside the
range of its C++ type is an error.
-/
import Verif.Model.Packer
import Verif.Model.Registry

namespace Wrtstat

set_option autoImplicit false

/-- A JSON value. -/
inductive JVal where
  | num (v : Int)
  | bool (b : Bool)
  | str (s : PName)
  | arr (l : List JVal)
  | obj (l : List (PName × JVal))

/-- An integer in decimal. -/
def intText (v : Int) : PName := if v < 0 then '-' :: decimal v.natAbs else decimal v.natAbs

namespace JVal

mutual

/-- The text of a value, without blanks; `q` writes strings with quotes and escapes. -/
def text (q : PName → PName) : JVal → PName
  | num v => intText v
  | bool b => if b then ['t', 'r', 'u', 'e'] else ['f', 'a', 'l', 's', 'e']
  | str s => q s
  | arr l => '[' :: (elems q l ++ [']'])
  | obj l => '{' :: (members q l ++ ['}'])

/-- Elements, with commas between them. -/
def elems (q : PName → PName) : List JVal → PName
  | [] => []
  | x :: l => text q x ++ elemsTail q l

/-- Elements, each after a comma. -/
def elemsTail (q : PName → PName) : List JVal → PName
  | [] => []
  | x :: l => ',' :: (text q x ++ elemsTail q l)

/-- Members, with commas between them. -/
def members (q : PName → PName) : List (PName × JVal) → PName
  | [] => []
  | (k, v) :: l => q k ++ ':' :: (text q v ++ membersTail q l)

/-- Members, each after a comma. -/
def membersTail (q : PName → PName) : List (PName × JVal) → PName
  | [] => []
  | (k, v) :: l => ',' :: (q k ++ ':' :: (text q v ++ membersTail q l))

end

end JVal

/-! ### Members -/

/-- `wjson::member<name, ...>`: the name, the value written, and the assignment when a value is read; false if the
value is not of the right kind. -/
structure Field (R : Type) where
  key : PName
  get : R → JVal
  set : JVal → R → R × Bool

/-- A member holding a `time_type` or `value_type`. -/
def intField {R : Type} (key : PName) (get : R → Int) (put : Int → R → R) : Field R where
  key := key
  get r := .num (get r)
  set j r := match j with
    | .num v => if -2 ^ 63 ≤ v ∧ v < 2 ^ 63 then (put v r, true) else (r, false)
    | _ => (r, false)

/-- A member holding a `size_type`. -/
def natField {R : Type} (key : PName) (get : R → Nat) (put : Nat → R → R) : Field R where
  key := key
  get r := .num (get r)
  set j r := match j with
    | .num v => if 0 ≤ v ∧ v < 2 ^ 64 then (put v.toNat r, true) else (r, false)
    | _ => (r, false)

/-- A member holding a `bool`. -/
def boolField {R : Type} (key : PName) (get : R → Bool) (put : Bool → R → R) : Field R where
  key := key
  get r := .bool (get r)
  set j r := match j with
    | .bool v => (put v r, true)
    | _ => (r, false)

/-- A member holding a string. -/
def strField {R : Type} (key : PName) (get : R → PName) (put : PName → R → R) : Field R where
  key := key
  get r := .str (get r)
  set j r := match j with
    | .str v => (put v r, true)
    | _ => (r, false)

/-- Reads the elements of `wjson::vector_of<wjson::value<value_type>>`. -/
def readInts : List JVal → Option (List Int)
  | [] => some []
  | .num v :: l => if -2 ^ 63 ≤ v ∧ v < 2 ^ 63 then (readInts l).map (v :: ·) else none
  | _ :: _ => none

/-- A member holding a `data_type`. -/
def intsField {R : Type} (key : PName) (get : R → List Int) (put : List Int → R → R) : Field R where
  key := key
  get r := .arr ((get r).map .num)
  set j r := match j with
    | .arr l => match readInts l with
      | some vs => (put vs r, true)
      | none => (r, false)
    | _ => (r, false)

/-- Reads the elements of `wjson::vector_of_strings`. -/
def readStrs : List JVal → Option (List PName)
  | [] => some []
  | .str s :: l => (readStrs l).map (s :: ·)
  | _ :: _ => none

/-- A member holding a vector of strings. -/
def strsField {R : Type} (key : PName) (get : R → List PName) (put : List PName → R → R) : Field R where
  key := key
  get r := .arr ((get r).map .str)
  set j r := match j with
    | .arr l => match readStrs l with
      | some vs => (put vs r, true)
      | none => (r, false)
    | _ => (r, false)

/-! ### Objects and arrays -/

/-- `wjson::object` as writer. -/
def writeObj {R : Type} (fs : List (Field R)) (r : R) : JVal := .obj (fs.map fun f => (f.key, f.get r))

/-- `wjson::object` as reader: the members are assigned one by one, up to the first error. -/
def readMembers {R : Type} (strict : Bool) (fs : List (Field R)) : List (PName × JVal) → R → R × Bool
  | [], r => (r, true)
  | (k, v) :: l, r =>
    match fs.find? (fun f => f.key == k) with
    | none => if strict then (r, false) else readMembers strict fs l r
    | some f =>
      match f.set v r with
      | (r', true) => readMembers strict fs l r'
      | (r', false) => (r', false)

/-- `wjson::object_array` as writer. -/
def writeArr {R : Type} (fs : List (Field R)) (r : R) : JVal := .arr (fs.map fun f => f.get r)

/-- `wjson::object_array` as reader. -/
def readElems {R : Type} : List (Field R) → List JVal → R → R × Bool
  | _, [], r => (r, true)
  | [], _ :: _, r => (r, false)
  | f :: fs, v :: l, r =>
    match f.set v r with
    | (r', true) => readElems fs l r'
    | (r', false) => (r', false)

/-- Writer and reader of a type in the plain or the compact form. -/
def write {R : Type} (compact : Bool) (fs : List (Field R)) (r : R) : JVal :=
  if compact then writeArr fs r else writeObj fs r

/-- The reader, into the target `r`. -/
def readJson {R : Type} (compact : Bool) (fs : List (Field R)) (j : JVal) (r : R) : R × Bool :=
  match compact, j with
  | true, .arr l => readElems fs l r
  | false, .obj l => readMembers false fs l r
  | _, _ => (r, false)

/-! ### Requests -/

/-- `request::push_json` (wrtstat/api/push_json.hpp:17-31, aggregated_data_json.hpp:18-31, reduced_data_json.hpp:18-24,
reduced_info_json.hpp:23-33, aggregated_perc_json.hpp:27-36). -/
def pushFields : List (Field PushRequest) :=
  [ strField ['n', 'a', 'm', 'e'] (·.name) (fun v p => { p with name := v }),
    intField ['t', 's'] (·.ag.ts) (fun v p => { p with ag := { p.ag with ts := v } }),
    intField ['a', 'v', 'g'] (·.ag.avg) (fun v p => { p with ag := { p.ag with avg := v } }),
    natField ['c', 'o', 'u', 'n', 't'] (·.ag.count) (fun v p => { p with ag := { p.ag with count := v } }),
    intField ['p', 'e', 'r', 'c', '5', '0'] (·.ag.perc50) (fun v p => { p with ag := { p.ag with perc50 := v } }),
    intField ['p', 'e', 'r', 'c', '8', '0'] (·.ag.perc80) (fun v p => { p with ag := { p.ag with perc80 := v } }),
    intField ['p', 'e', 'r', 'c', '9', '5'] (·.ag.perc95) (fun v p => { p with ag := { p.ag with perc95 := v } }),
    intField ['p', 'e', 'r', 'c', '9', '9'] (·.ag.perc99) (fun v p => { p with ag := { p.ag with perc99 := v } }),
    intField ['p', 'e', 'r', 'c', '1', '0', '0'] (·.ag.perc100) (fun v p => { p with ag := { p.ag with perc100 := v } }),
    natField ['l', 'o', 's', 's', 'y'] (·.ag.lossy) (fun v p => { p with ag := { p.ag with lossy := v } }),
    intField ['m', 'i', 'n'] (·.ag.min) (fun v p => { p with ag := { p.ag with min := v } }),
    intField ['m', 'a', 'x'] (·.ag.max) (fun v p => { p with ag := { p.ag with max := v } }),
    intsField ['d', 'a', 't', 'a'] (·.ag.data) (fun v p => { p with ag := { p.ag with data := v } }) ]

/-- `request::push_json_compact` (wrtstat/api/push_json_compact.hpp:17-31, aggregated_data_json_compact.hpp:18-31,
reduced_data_json_compact.hpp:16-22, reduced_info_json_compact.hpp:21-31, aggregated_perc_json_compact.hpp:16-26): the same
members, `lossy` after `max`. -/
def pushElems : List (Field PushRequest) :=
  [ strField [] (·.name) (fun v p => { p with name := v }),
    intField [] (·.ag.ts) (fun v p => { p with ag := { p.ag with ts := v } }),
    intField [] (·.ag.avg) (fun v p => { p with ag := { p.ag with avg := v } }),
    natField [] (·.ag.count) (fun v p => { p with ag := { p.ag with count := v } }),
    intField [] (·.ag.perc50) (fun v p => { p with ag := { p.ag with perc50 := v } }),
    intField [] (·.ag.perc80) (fun v p => { p with ag := { p.ag with perc80 := v } }),
    intField [] (·.ag.perc95) (fun v p => { p with ag := { p.ag with perc95 := v } }),
    intField [] (·.ag.perc99) (fun v p => { p with ag := { p.ag with perc99 := v } }),
    intField [] (·.ag.perc100) (fun v p => { p with ag := { p.ag with perc100 := v } }),
    intField [] (·.ag.min) (fun v p => { p with ag := { p.ag with min := v } }),
    intField [] (·.ag.max) (fun v p => { p with ag := { p.ag with max := v } }),
    natField [] (·.ag.lossy) (fun v p => { p with ag := { p.ag with lossy := v } }),
    intsField [] (·.ag.data) (fun v p => { p with ag := { p.ag with data := v } }) ]

/-- The members of a `push` in the form asked for. -/
def pushCodec (compact : Bool) : List (Field PushRequest) := if compact then pushElems else pushFields

/-- Reads the elements of `wjson::deque_of<push_json>`. -/
def readPushes (compact : Bool) : List JVal → Option (List PushRequest)
  | [] => some []
  | j :: l =>
    match readJson compact (pushCodec compact) j {} with
    | (p, true) => (readPushes compact l).map (p :: ·)
    | (_, false) => none

/-- `request::multi_push_json` and its compact form (wrtstat/api/multi_push_json.hpp:17-32,
multi_push_json_compact.hpp:17-28). -/
def multiCodec (compact : Bool) : List (Field MultiPush) :=
  [ strField ['s', 'e', 'p'] (·.sep) (fun v m => { m with sep := v }),
    strsField ['l', 'e', 'g', 'e', 'n', 'd'] (·.legend) (fun v m => { m with legend := v }),
    { key := ['d', 'a', 't', 'a']
      get := fun m => .arr (m.data.map (write compact (pushCodec compact)))
      set := fun j m => match j with
        | .arr l => match readPushes compact l with
          | some ps => ({ m with data := ps }, true)
          | none => (m, false)
        | _ => (m, false) } ]

/-- `request::del` (wrtstat/api/del.hpp:18-22). -/
structure DelRequest where
  names : List PName := []
deriving DecidableEq, Repr

/-- `request::del_json` and its compact form (wrtstat/api/del_json.hpp:16-29, del_json_compact.hpp:16-27). -/
def delCodec : List (Field DelRequest) :=
  [ strsField ['n', 'a', 'm', 'e', 's'] (·.names) (fun v d => { d with names := v }) ]

/-! ### Options -/

/-- `wrtstat_options` with all its bases (wrtstat/wrtstat_options.hpp:8-14, registry_options.hpp:9-20); `handler`: it is not
null. -/
structure WrtstatOptions extends RegistryOpts where
  poolSize : Nat := 0
  handler : Bool := false
deriving DecidableEq, Repr

/-- The name of a resolution (resolution_json.hpp:23-38). -/
def resolutionName : Resolution → PName
  | .none => ['n', 'o', 'n', 'e']
  | .seconds => ['s', 'e', 'c', 'o', 'n', 'd', 's']
  | .milliseconds => ['m', 'i', 'l', 'l', 'i', 's', 'e', 'c', 'o', 'n', 'd', 's']
  | .microseconds => ['m', 'i', 'c', 'r', 'o', 's', 'e', 'c', 'o', 'n', 'd', 's']
  | .nanoseconds => ['n', 'a', 'n', 'o', 's', 'e', 'c', 'o', 'n', 'd', 's']

/-- `wjson::enumerator` as reader. -/
def readResolution (s : PName) : Option Resolution :=
  [Resolution.none, .seconds, .milliseconds, .microseconds, .nanoseconds].find? fun r => resolutionName r == s

/-- The member `resolution` (separator_options_json.hpp:24). -/
def resolutionField : Field WrtstatOptions where
  key := "resolution".toList
  get o := .str (resolutionName o.resolution)
  set j o := match j with
    | .str s => match readResolution s with
      | some v => ({ o with resolution := v }, true)
      | none => (o, false)
    | _ => (o, false)

/-- `multi_aggregator_options` with its bases (multi_aggregator_options.hpp:14-19). -/
structure MultiOptions extends AggregatorOpts where
  poolSize : Nat := 0
  hashSize : Nat := 4096
deriving DecidableEq, Repr

/-- `multi_aggregator_options_json` (multi_aggregator_options_json.hpp:10-28, and as below for the bases). -/
def multiOptionFields : List (Field MultiOptions) :=
  [ natField "reducer_limit".toList (·.limit) (fun v o => { o with limit := v }),
    natField "reducer_levels".toList (·.levels) (fun v o => { o with levels := v }),
    intField "aggregation_step_ts".toList (·.step) (fun v o => { o with step := v }),
    intField "soiled_start_ts".toList (·.soiled) (fun v o => { o with soiled := v }),
    { key := "resolution".toList
      get := fun o => .str (resolutionName o.resolution)
      set := fun j o => match j with
        | .str s => match readResolution s with
          | some v => ({ o with resolution := v }, true)
          | none => (o, false)
        | _ => (o, false) },
    natField "outgoing_reduced_size".toList (·.outSize) (fun v o => { o with outSize := v }),
    natField "pool_size".toList (·.poolSize) (fun v o => { o with poolSize := v }),
    natField "hash_size".toList (·.hashSize) (fun v o => { o with hashSize := v }) ]

/-- `wrtstat_options_json` (wrtstat_options_json.hpp:14-25, registry_options_json.hpp:12-23, aggregator_options_json.hpp:12-23,
separator_options_json.hpp:13-28, reducer_options_json.hpp:11-24). -/
def optionFields : List (Field WrtstatOptions) :=
  [ natField "reducer_limit".toList (·.limit) (fun v o => { o with limit := v }),
    natField "reducer_levels".toList (·.levels) (fun v o => { o with levels := v }),
    intField "aggregation_step_ts".toList (·.step) (fun v o => { o with step := v }),
    intField "soiled_start_ts".toList (·.soiled) (fun v o => { o with soiled := v }),
    resolutionField,
    natField "outgoing_reduced_size".toList (·.outSize) (fun v o => { o with outSize := v }),
    natField "pool_size".toList (·.poolSize) (fun v o => { o with poolSize := v }) ]

/-- `packer_options_json` (packer_options_json.hpp:14-34). -/
def packerFields : List (Field PackerOpts) :=
  [ natField "push_limit".toList (·.pushLimit) (fun v o => { o with pushLimit := v }),
    natField "data_limit".toList (·.dataLimit) (fun v o => { o with dataLimit := v }),
    natField "json_limit".toList (·.jsonLimit) (fun v o => { o with jsonLimit := v }),
    boolField "json_compact".toList (·.jsonCompact) (fun v o => { o with jsonCompact := v }),
    strField "name_sep".toList (·.nameSep) (fun v o => { o with nameSep := v }),
    boolField "name_compact".toList (·.nameCompact) (fun v o => { o with nameCompact := v }) ]

/-! ### Texts -/

/-- The part of wjson that writes strings and reads texts: what was written can be read. -/
structure JsonText where
  q : PName → PName
  parse : PName → Option JVal
  parse_text : ∀ j : JVal, parse (j.text q) = some j

/-! ### `load_options` -/

/-- What `load_options` uses of wjson and of the system: skipping blanks and comments, which may fail; whether an object
begins; the members of an object read up to the first syntax error, if any; the text of an error; the contents of
the files that can be read; `strerror(errno)` after a failure. -/
structure LoadEnv where
  q : PName → PName
  parseSpace : PName → PName × Bool
  isObject : PName → Bool
  parse : PName → List (PName × JVal) × Bool
  trace : PName → PName
  file : PName → Option PName
  strerror : PName → PName

/-- `wrtstat_options_json::serializer()(*opt, beg, end, &er)`: the options afterwards, and whether there was no error. -/
def LoadEnv.readOptions (E : LoadEnv) (text : PName) (o : WrtstatOptions) : WrtstatOptions × Bool :=
  let (o, ok) := readMembers true optionFields (E.parse text).1 o
  (o, ok && (E.parse text).2)

/-- `load_options(path_or_json, opt, err)` (load_options.cpp:17-51): the result, the options, and what is written to
`err`, if it is not null.  An error of the first `parse_space` is still there after reading the options. -/
def LoadEnv.load (E : LoadEnv) (arg : PName) (o : WrtstatOptions) (err : Bool) : Bool × WrtstatOptions × Option PName :=
  let (beg, ok1) := E.parseSpace arg
  let jsonstr := if E.isObject beg then some beg else E.file arg
  match jsonstr with
  | none => (false, o, if err then some (E.strerror arg) else none)
  | some s =>
    let (o, ok2) := E.readOptions s o
    if ok1 && ok2 then (true, o, none) else (false, o, if err then some (E.trace s) else none)

/-- `load_options(path_or_json, err)` (load_options.cpp:53-59). -/
def LoadEnv.loadValue (E : LoadEnv) (arg : PName) (err : Bool) : WrtstatOptions × Option PName :=
  match E.load arg {} err with
  | (true, o, e) => (o, e)
  | (false, _, e) => ({}, e)

/-- `serialize_options` (load_options.cpp:61-66). -/
def LoadEnv.serialize (E : LoadEnv) (o : WrtstatOptions) : PName := (writeObj optionFields o).text E.q

end Wrtstat
