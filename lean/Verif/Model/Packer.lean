/-
`basic_packer` (wrtstat/multi_packer/basic_packer.{hpp,cpp}).

JSON text is produced and parsed by the external library wjson.  The model needs only the length of
the text: numbers are printed in decimal, arrays and objects without blanks (tests/json_suite.cpp:41-77),
and the length of a string in JSON, quotes and escapes included, is the parameter `Json.strSize`.
Reading an integer back (`wjson::parser`) is the parameter `Wjson`.

Simplifications: the `bool` results of `push` and `multi_push`, always true, are dropped; the debugging options are
unused by the code and absent; sizes are unbounded naturals; strings are lists of characters; the part of a name not yet read
stands for a position in it.
-/
import Verif.Model.Types

namespace Wrtstat

set_option autoImplicit false

abbrev PName := List Char

/-! ### JSON sizes -/

/-- How long strings are in JSON, with quotes and escapes: never shorter than the string and two quotes,
and exactly that for strings made of digits and `~`. -/
structure Json where
  strSize : PName → Nat
  le_strSize : ∀ s, s.length + 2 ≤ strSize s
  plain : ∀ s : PName, (∀ c ∈ s, c.isDigit ∨ c = '~') → strSize s = s.length + 2

/-- Decimal digits, as printed by `operator<<` and by wjson. -/
def decimal (n : Nat) : PName := Nat.toDigits 10 n

/-- The length of an integer in JSON. -/
def numSize (v : Int) : Nat := if v < 0 then (decimal v.natAbs).length + 1 else (decimal v.natAbs).length

/-- The length of an array or object: brackets, elements, commas. -/
def listSize (l : List Nat) : Nat := 2 + l.sum + (l.length - 1)

/-- `request::push` (wrtstat/api/push.hpp:10-16). -/
structure PushRequest where
  name : PName := []
  ag : AggData := {}
deriving DecidableEq, Repr

/-- `request::multi_push` (wrtstat/api/multi_push.hpp:11-22). -/
structure MultiPush where
  sep : PName := ['~', '~']
  legend : List PName := []
  data : List PushRequest := []
deriving DecidableEq, Repr

/-- The numbers of a `push`, in the order of the JSON fields. -/
def AggData.nums (a : AggData) : List Int :=
  [a.ts, a.avg, a.count, a.perc50, a.perc80, a.perc95, a.perc99, a.perc100, a.lossy, a.min, a.max]

/-- Lengths of the field names of a `push` with quotes and colon: name, ts, avg, count, perc50, perc80,
perc95, perc99, perc100, lossy, min, max, data (wrtstat/api/push_json.hpp:10-40,
wrtstat/aggregator/api/json/aggregated_data_json.hpp). -/
def pushKeys : Nat := 7 + 5 + 6 + 8 + 9 + 9 + 9 + 9 + 10 + 8 + 6 + 6 + 7

namespace Json

/-- The length of a `push` without its name. -/
def restSize (compact : Bool) (a : AggData) : Nat :=
  (if compact then 0 else pushKeys) +
    listSize (0 :: (a.nums.map numSize ++ [listSize (a.data.map numSize)]))

/-- `calc_json_size(push, compact)` (basic_packer.cpp:141-146). -/
def pushSize (J : Json) (compact : Bool) (p : PushRequest) : Nat := J.strSize p.name + restSize compact p.ag

/-- `calc_json_size(multi_push, compact)` (basic_packer.cpp:153-158): `{"sep":S,"legend":L,"data":D}` or
`[S,L,D]` (wrtstat/api/multi_push_json.hpp:11-35, multi_push_json_compact.hpp). -/
def multiSize (J : Json) (compact : Bool) (m : MultiPush) : Nat :=
  (if compact then 4 else 26) + J.strSize m.sep + listSize (m.legend.map J.strSize) +
    listSize (m.data.map (J.pushSize compact))

end Json

/-! ### Compaction of names -/

/-- `find(sep, pos)` on the rest of a string: the part before the leftmost occurrence of the separator and
the part after it. -/
def breakAt (sep : PName) : PName → Option (PName × PName)
  | [] => if sep = [] then some ([], []) else none
  | c :: s =>
    if sep.isPrefixOf (c :: s) then some ([], (c :: s).drop sep.length)
    else match breakAt sep s with
      | none => none
      | some (a, b) => some (c :: a, b)

/-- `findorcre_` (basic_packer.cpp:121-129). -/
def findorcre (name : PName) (legend : List PName) : Nat × List PName :=
  match legend.idxOf? name with
  | some i => (i, legend)
  | none => (legend.length, legend ++ [name])

/-- The loop of `compact_` (basic_packer.cpp:110-117).  `fuel` bounds the number of iterations. -/
def compactLoop (sep : PName) : Nat → PName → List PName → M (PName × List PName)
  | 0, _, _ => .error .diverge
  | fuel + 1, rest, legend =>
    match breakAt sep rest with
    | none =>
      let (i, legend) := findorcre rest legend
      .ok (decimal i, legend)
    | some (item, rest) =>
      let (i, legend) := findorcre item legend
      do
        let (s, legend) ← compactLoop sep fuel rest legend
        .ok (decimal i ++ '~' :: s, legend)

/-- `compact_(&name, &legend, sep)` (basic_packer.cpp:103-119); a run of more iterations than the name has
characters, plus one, never ends (C50). -/
def compactName (sep : PName) (name : PName) (legend : List PName) : M (PName × List PName) :=
  compactLoop sep (name.length + 1) name legend

/-- The loop of `compact` over the requests. -/
def compactAll (sep : PName) : List PushRequest → List PName → M (List PushRequest × List PName)
  | [], legend => .ok ([], legend)
  | p :: ps, legend => do
    let (n, legend) ← compactName sep p.name legend
    let (ps, legend) ← compactAll sep ps legend
    .ok ({ p with name := n } :: ps, legend)

/-- `compact(&req)` (basic_packer.cpp:91-101). -/
def compact (m : MultiPush) : M (Bool × MultiPush) :=
  if m.sep = [] then .ok (false, m)
  else do
    let (data, legend) ← compactAll m.sep m.data m.legend
    .ok (true, { m with data := data, legend := legend })

/-- What `recompact` uses of `wjson::parser`: `is_number(beg, end)` and `unserialize_integer(pos, beg, end,
nullptr)`, which yields a `size_t` and an iterator between `beg` and `end`.  The text before an `~` or the end,
when it is the decimal form of a number that fits, is read as that number. -/
structure Wjson where
  isNumber : PName → Bool
  readInt : PName → Nat × PName
  suffix : ∀ s, (readInt s).2 <:+ s
  isNumber_decimal : ∀ n s, isNumber (decimal n ++ s) = true
  readInt_decimal : ∀ n s, n < 2 ^ 64 → s.head? = none ∨ s.head? = some '~' → readInt (decimal n ++ s) = (n, s)

/-- The loop of `recompact` over one name (basic_packer.cpp:343-369); `none` is an error return. -/
def recompactLoop (W : Wjson) (sep : PName) (legend : List PName) : Nat → PName → PName → M (Option PName)
  | 0, _, _ => .error .diverge
  | _ + 1, [], ss => .ok (some ss)
  | fuel + 1, beg, ss =>
    if W.isNumber beg = false then .ok none
    else
      let pos := (W.readInt beg).1
      if pos ≥ legend.length then .ok none
      else do
        let word ← deref legend pos
        let ss := ss ++ word
        match (W.readInt beg).2 with
        | [] => .ok (some ss)
        | c :: beg => if c ≠ '~' then .ok none else recompactLoop W sep legend fuel beg (ss ++ sep)

/-- The loop of `recompact` over the requests: on an error the requests already done stay changed. -/
def recompactAll (W : Wjson) (sep : PName) (legend : List PName) : List PushRequest → M (Bool × List PushRequest)
  | [] => .ok (true, [])
  | p :: ps => do
    let r ← recompactLoop W sep legend (p.name.length + 1) p.name []
    match r with
    | none => .ok (false, p :: ps)
    | some n => do
      let (ok, ps) ← recompactAll W sep legend ps
      .ok (ok, { p with name := n } :: ps)

/-- `recompact(&req, err)` (basic_packer.cpp:327-374). -/
def recompact (W : Wjson) (m : MultiPush) : M (Bool × MultiPush) :=
  if m.legend = [] then .ok (true, m)
  else if m.sep = [] then .ok (false, m)
  else do
    let (ok, data) ← recompactAll W m.sep m.legend m.data
    .ok (ok, { m with data := data, legend := if ok then [] else m.legend })

/-! ### The packer -/

/-- `packer_options` (wrtstat/multi_packer/packer_options.hpp:9-24). -/
structure PackerOpts where
  pushLimit : Nat := 32768
  dataLimit : Nat := 32768
  jsonLimit : Nat := 32768
  jsonCompact : Bool := false
  nameSep : PName := ['~', '~']
  nameCompact : Bool := false
deriving DecidableEq, Repr

/-- `top_pair_t` (basic_packer.hpp): recorded size, request, words of its name. -/
structure TopItem where
  size : Nat
  req : PushRequest
  legend : List PName
deriving DecidableEq, Repr

/-- `basic_packer`; `handler` says whether a handler was given. -/
structure Packer where
  opt : PackerOpts
  handler : Bool
  top : List TopItem
deriving DecidableEq, Repr

namespace Packer

/-- The constructor (basic_packer.cpp:18-22). -/
def new (opt : PackerOpts) (handler : Bool) : Packer := { opt := opt, handler := handler, top := [] }

/-- `std::lower_bound(_top.begin(), _top.end(), top_pair_t(n, {nullptr, {}}))`: an element is less than the
key iff its size is, because its pointer is not null.  The range must be partitioned, otherwise the
behaviour is undefined.  The result is the part before and the part from the iterator on. -/
def lowerBound (top : List TopItem) (n : Nat) : M (List TopItem × List TopItem) :=
  let lo := top.takeWhile fun t => decide (t.size < n)
  let hi := top.dropWhile fun t => decide (t.size < n)
  if hi.all fun t => decide (n ≤ t.size) then .ok (lo, hi) else .error .ub

/-- The recorded size and the legend of a pushed request (basic_packer.cpp:67-75). -/
def measure (J : Json) (opt : PackerOpts) (req : PushRequest) : M (Nat × List PName) :=
  let size := J.pushSize opt.jsonCompact req
  if opt.nameCompact then do
    let (n, legend) ← compactName opt.nameSep req.name []
    .ok (size - req.name.length + n.length, legend)
  else .ok (size, [])

/-- `push(req)` (basic_packer.cpp:65-81); the other overloads (52-63) only build the request. -/
def push (J : Json) (pk : Packer) (req : PushRequest) : M Packer := do
  let (size, legend) ← measure J pk.opt req
  let (lo, hi) ← lowerBound pk.top size
  .ok { pk with top := lo ++ { size := size, req := req, legend := legend } :: hi }

/-- `multi_push(req)` (basic_packer.cpp:83-89). -/
def multiPush (J : Json) : Packer → List PushRequest → M Packer
  | pk, [] => .ok pk
  | pk, p :: ps => do
    let pk ← push J pk p
    multiPush J pk ps

/-- `empty()` (basic_packer.cpp:171-174). -/
def empty (pk : Packer) : Bool := pk.top.isEmpty

/-- `size()` (basic_packer.cpp:176-179). -/
def size (pk : Packer) : Nat := pk.top.length

/-- What `size(&data_size, nullptr)` adds to `data_size` (basic_packer.cpp:181-191). -/
def dataSize (pk : Packer) : Nat := (pk.top.map fun t => t.req.ag.data.length).sum

/-- `max_val()` (basic_packer.cpp:205-209). -/
def maxVal (pk : Packer) : Nat :=
  match pk.top.getLast? with
  | none => 0
  | some t => t.size

/-- `min_val()` (basic_packer.cpp:211-215). -/
def minVal (pk : Packer) : Nat :=
  match pk.top.head? with
  | none => 0
  | some t => t.size

/-- `clear()` (basic_packer.cpp:165-168). -/
def clear (pk : Packer) : Packer := { pk with top := [] }

/-- Removal of the element before the iterator; decrementing `begin()` is undefined. -/
def takePrev (lo hi : List TopItem) : M (Option TopItem × List TopItem) :=
  match lo.getLast? with
  | none => .error .ub
  | some t => .ok (some t, lo.dropLast ++ hi)

/-- `pop_by_json_size(maxsize, …)` on `_top` (basic_packer.cpp:217-249); the element returned carries the
recorded size and the legend. -/
def popTop (top : List TopItem) (n : Nat) : M (Option TopItem × List TopItem) :=
  if top = [] then .ok (none, [])
  else do
    let (lo, hi) ← lowerBound top n
    match hi with
    | [] => takePrev lo []
    | t :: hi =>
      if t.size ≠ n then
        if lo = [] then .ok (none, top) else takePrev lo (t :: hi)
      else .ok (some t, lo ++ hi)

/-- `pop_by_json_size` (basic_packer.cpp:217-249). -/
def popByJsonSize (pk : Packer) (n : Nat) : M (Option TopItem × Packer) := do
  let (r, top) ← popTop pk.top n
  .ok (r, { pk with top := top })

/-- The words of a legend not met before are added to the set, each at the price of its length and 4
(basic_packer.cpp:274-278). -/
def charge : List PName → List PName → Nat → List PName × Nat
  | [], set, cur => (set, cur)
  | w :: ws, set, cur =>
    if w ∈ set then charge ws set cur else charge ws (w :: set) (cur + (w.length + 4))

/-- The local variables of `multi_pop`. -/
structure PopState where
  json : Nat
  pushes : Nat
  samples : Nat
  set : List PName
  pk : Packer
  data : List PushRequest

/-- The limit checks after a request was taken (basic_packer.cpp:291-313): whether to leave the loop, and the
remaining limits.  The request has been moved from, `moved` is the size of its vector, 0. -/
def limits (opt : PackerOpts) (pushes samples : Nat) : Bool × Nat × Nat :=
  let moved := 0
  let pushes := if opt.pushLimit ≠ 0 then pushes - 1 else pushes
  if opt.pushLimit ≠ 0 ∧ pushes = 0 then (true, pushes, samples)
  else if opt.dataLimit ≠ 0 then
    if moved > samples then (true, pushes, samples)
    else (decide (samples - moved = 0), pushes, samples - moved)
  else (false, pushes, samples)

/-- The loop of `multi_pop` (basic_packer.cpp:268-316). -/
def popLoop (J : Json) : Nat → PopState → M PopState
  | 0, _ => .error .diverge
  | fuel + 1, st =>
    if st.json = 0 then .ok st
    else do
      let (r, pk) ← popByJsonSize st.pk st.json
      match r with
      | none => .ok { st with pk := pk }
      | some t =>
        let (set, cur) := charge t.legend st.set t.size
        if st.json ≥ cur then
          let json := st.json - cur
          let json := if json > 0 then json - (if pk.opt.jsonLimit ≠ 0 then 1 else 0) else json
          let (stop, pushes, samples) := limits pk.opt st.pushes st.samples
          let st := { json, pushes, samples, set, pk, data := st.data ++ [t.req] }
          if stop then .ok st else popLoop J fuel st
        else do
          let pk ← push J pk t.req
          .ok { st with set := set, pk := pk }

/-- The batch built from the requests taken (basic_packer.cpp:318-325). -/
def finishPop (opt : PackerOpts) (data : List PushRequest) : M (Option MultiPush) :=
  if data = [] then .ok none
  else
    let res : MultiPush := { sep := opt.nameSep, legend := [], data := data }
    if opt.nameCompact then do
      let (_, res) ← compact res
      .ok (some res)
    else .ok (some res)

/-- `multi_pop()` (basic_packer.cpp:253-325). -/
def multiPop (J : Json) (pk : Packer) : M (Option MultiPush × Packer) :=
  if pk.top = [] then .ok (none, pk)
  else
    let emptySize := J.multiSize pk.opt.jsonCompact {}
    if emptySize > pk.opt.jsonLimit then .ok (none, pk)
    else do
      let st ← popLoop J (pk.top.length + 1)
        { json := pk.opt.jsonLimit - emptySize, pushes := pk.opt.pushLimit, samples := pk.opt.dataLimit,
          set := [], pk := pk, data := [] }
      let res ← finishPop st.pk.opt st.data
      .ok (res, st.pk)

/-- The first loop of `pushout` (basic_packer.cpp:29-34). -/
def popAll (J : Json) : Nat → Packer → List MultiPush → M (List MultiPush × Packer)
  | 0, _, _ => .error .diverge
  | fuel + 1, pk, out => do
    let (r, pk) ← multiPop J pk
    match r with
    | none => .ok (out, pk)
    | some b => popAll J fuel pk (out ++ [b])

/-- The batch of everything left (basic_packer.cpp:36-45). -/
def leftover (top : List TopItem) : M (List MultiPush) :=
  if top = [] then .ok []
  else do
    let (_, mp) ← compact { data := top.map fun t => t.req }
    .ok [mp]

/-- `pushout()` (basic_packer.cpp:24-50): the result, the batches given to the handler, in order, and the
packer afterwards. -/
def pushout (J : Json) (pk : Packer) : M (Nat × List MultiPush × Packer) :=
  if pk.handler = false then .ok (0, [], pk)
  else do
    let (out, pk) ← popAll J (pk.top.length + 1) pk []
    let last ← leftover pk.top
    .ok (out.length, out ++ last, { pk with top := [] })

end Packer

end Wrtstat
