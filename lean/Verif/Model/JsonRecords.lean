/-
JSON forms of the records and of the replies (wrtstat/aggregator/api/json/*.hpp, wrtstat/api/*_json*.hpp).

The five types of records (`reduced_info`, `reduced_data`, `aggregated_perc`, `aggregated_info`, `aggregated_data`) share their
members by inheritance.  Here one record holds all members, and a type is the set of members its form has; the others are neither
written nor assigned.
-/
import Verif.Model.JsonCodec

namespace Wrtstat

set_option autoImplicit false

/-- The types of records. -/
inductive RecKind where
  | reducedInfo | reducedData | aggPerc | aggInfo | aggData
deriving DecidableEq, Repr

namespace RecKind

/-- It has the members of `reduced_info` (reduced_info.hpp:8-21). -/
def info : RecKind → Bool
  | aggPerc => false
  | _ => true

/-- It has the percentiles (aggregated_perc.hpp:6-13). -/
def perc : RecKind → Bool
  | aggPerc | aggInfo | aggData => true
  | _ => false

/-- It has the samples (reduced_data.hpp:7-10). -/
def data : RecKind → Bool
  | reducedData | aggData => true
  | _ => false

end RecKind

/-- `head_list` (reduced_info_json.hpp:22-26, reduced_info_json_compact.hpp:19-23). -/
def headMembers (n : PName → PName) : List (Field AggData) :=
  [ intField (n ['t', 's']) (·.ts) (fun v a => { a with ts := v }),
    intField (n ['a', 'v', 'g']) (·.avg) (fun v a => { a with avg := v }),
    natField (n ['c', 'o', 'u', 'n', 't']) (·.count) (fun v a => { a with count := v }) ]

/-- `tail_list` in the plain form (reduced_info_json.hpp:28-32). -/
def tailMembers (n : PName → PName) : List (Field AggData) :=
  [ natField (n ['l', 'o', 's', 's', 'y']) (·.lossy) (fun v a => { a with lossy := v }),
    intField (n ['m', 'i', 'n']) (·.min) (fun v a => { a with min := v }),
    intField (n ['m', 'a', 'x']) (·.max) (fun v a => { a with max := v }) ]

/-- `tail_list` in the compact form (reduced_info_json_compact.hpp:25-29). -/
def tailElems (n : PName → PName) : List (Field AggData) :=
  [ intField (n ['m', 'i', 'n']) (·.min) (fun v a => { a with min := v }),
    intField (n ['m', 'a', 'x']) (·.max) (fun v a => { a with max := v }),
    natField (n ['l', 'o', 's', 's', 'y']) (·.lossy) (fun v a => { a with lossy := v }) ]

/-- `aggregated_perc_json` (aggregated_perc_json.hpp:24-33, aggregated_perc_json_compact.hpp:16-25). -/
def percMembers (n : PName → PName) : List (Field AggData) :=
  [ intField (n ['p', 'e', 'r', 'c', '5', '0']) (·.perc50) (fun v a => { a with perc50 := v }),
    intField (n ['p', 'e', 'r', 'c', '8', '0']) (·.perc80) (fun v a => { a with perc80 := v }),
    intField (n ['p', 'e', 'r', 'c', '9', '5']) (·.perc95) (fun v a => { a with perc95 := v }),
    intField (n ['p', 'e', 'r', 'c', '9', '9']) (·.perc99) (fun v a => { a with perc99 := v }),
    intField (n ['p', 'e', 'r', 'c', '1', '0', '0']) (·.perc100) (fun v a => { a with perc100 := v }) ]

/-- The member `data` (reduced_data_json.hpp:18-23, reduced_data_json_compact.hpp:16-21). -/
def dataMember (n : PName → PName) : Field AggData :=
  intsField (n ['d', 'a', 't', 'a']) (·.data) (fun v a => { a with data := v })

/-- The members of a type of records in the form asked for (reduced_info_json.hpp:34-40, reduced_data_json.hpp:25-31,
aggregated_perc_json.hpp:24-33, aggregated_info_json.hpp:18-25, aggregated_data_json.hpp:18-25, and the same with `_compact`);
elements of the compact form have no names. -/
def recCodec (compact : Bool) (K : RecKind) : List (Field AggData) :=
  let n (s : PName) : PName := if compact then [] else s
  (if K.info then headMembers n else []) ++ (if K.perc then percMembers n else []) ++
  (if K.info then (if compact then tailElems n else tailMembers n) else []) ++ (if K.data then [dataMember n] else [])

/-! ### Replies -/

/-- `response::push` (wrtstat/api/push.hpp:25-30). -/
structure PushReply where
  status : Bool := true
deriving DecidableEq, Repr

/-- `response::push_json` and its compact form (push_json.hpp:37-51, push_json_compact.hpp:36-48). -/
def pushReplyCodec : List (Field PushReply) :=
  [ boolField ['s', 't', 'a', 't', 'u', 's'] (·.status) (fun v r => { r with status := v }) ]

/-- `response::multi_push` (wrtstat/api/multi_push.hpp:28-35). -/
structure MultiReply where
  status : Bool := true
  error : PName := []
deriving DecidableEq, Repr

/-- `response::multi_push_json` and its compact form (multi_push_json.hpp:39-54, multi_push_json_compact.hpp:35-47). -/
def multiReplyCodec : List (Field MultiReply) :=
  [ boolField ['s', 't', 'a', 't', 'u', 's'] (·.status) (fun v r => { r with status := v }),
    strField ['e', 'r', 'r', 'o', 'r'] (·.error) (fun v r => { r with error := v }) ]

/-- `response::del` (wrtstat/api/del.hpp:27-31). -/
structure DelReply where
deriving DecidableEq, Repr

/-- `response::del_json` and its compact form (del_json.hpp:34-44, del_json_compact.hpp:32-42). -/
def delReplyCodec : List (Field DelReply) := []

end Wrtstat
