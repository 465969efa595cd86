/-
Model of wrtstat/aggregator/reducer.hpp and wrtstat/aggregator/reducer.cpp.

Simplifications: `_allocator.create()` is a fresh empty vector and `_allocator.free` has no
visible effect (C90 proves that this is so); `size_t` counters are `Nat`;
`_average` is a rational, every `double` operation being followed by `env.rnd`.
-/
import Verif.Model.Types

namespace Wrtstat

/-- The data members of `reducer` (reducer.hpp:72-83). -/
structure Reducer where
  opt : ReducerOpts
  curMode : Mode := .sorting
  empty : Bool := true
  min : Int := I64max
  max : Int := I64min
  lossy : Nat := 0
  total : Nat := 0
  averageCount : Nat := 0
  average : Rat := 0
  data : List (List Int) := []
deriving DecidableEq

namespace Reducer

/-- `MagicModeNumber` (reducer.cpp:6). -/
def magic : Nat := 16

/-- `reducer::reducer` (reducer.cpp:9-27). -/
def new (opt : ReducerOpts) : Reducer :=
  if opt.mode = .adapt then
    if opt.levels = 0 ∨ opt.limit / opt.levels > magic then
      { opt := { opt with mode := .sorting } }
    else if opt.initialMode = .adapt then
      { opt := opt, curMode := .nth }
    else
      { opt := opt, curMode := .sorting }
  else if opt.mode = .nth then
    { opt := opt, curMode := .nth }
  else
    { opt := opt }

/-- `reducer::clone` (reducer.cpp:29-42): everything but `_current_mode` is copied, the mode being
the one chosen by the constructor. -/
def clone (r : Reducer) : Reducer :=
  { new r.opt with
    empty := r.empty
    min := r.min
    max := r.max
    lossy := r.lossy
    total := r.total
    averageCount := r.averageCount
    average := r.average
    data := r.data }

/-- `_data.back()`, used only on a non-empty table. -/
def back (r : Reducer) : List Int := r.data.getLastD []

/-- `reducer::lossy_count` (reducer.cpp:44-50). -/
def lossyCount (r : Reducer) : Nat :=
  if r.data.length < 2 then r.lossy
  else r.lossy + r.opt.limit * (r.data.length - 2) + r.back.length

/-- `reducer::total_count` (reducer.cpp:52-55). -/
def totalCount (r : Reducer) : Nat := r.total

/-- `reducer::levels` (reducer.cpp:57-60). -/
def levels (r : Reducer) : Nat := r.opt.levels

/-- `reducer::max` (reducer.cpp:62-65). -/
def getMax (r : Reducer) : Int := if r.max = I64min then 0 else r.max

/-- `reducer::min` (reducer.cpp:67-70). -/
def getMin (r : Reducer) : Int := if r.min = I64max then 0 else r.min

/-- `reducer::size` (reducer.cpp:72-81). -/
def size (r : Reducer) : Nat := (r.data.map List.length).sum

/-- `reducer::filled` (reducer.cpp:95-104). -/
def filled (r : Reducer) : Bool :=
  if r.opt.levels = 0 ∨ r.opt.limit = 0 then true
  else if r.data = [] then false
  else decide (r.data.length = r.opt.levels ∧ r.back.length = r.opt.limit)

/-- `reducer::clear` (reducer.cpp:106-116): `_opt` and `_current_mode` survive. -/
def clear (r : Reducer) : Reducer :=
  { r with
    empty := true
    min := I64max
    max := I64min
    average := 0
    averageCount := 0
    lossy := 0
    total := 0
    data := [] }

/-- `reducer::minmax` (reducer.cpp:118-122). -/
def minmax (r : Reducer) (v : Int) : Reducer :=
  { r with min := Min.min r.min v, max := Max.max r.max v }

/-- One step of the running average (reducer.cpp:272-273). -/
def avgStep (env : Env) (a : Rat) (n : Nat) (v : Int) : Rat :=
  env.rnd (a + env.rnd (env.rnd (env.rnd v - a) / env.rnd ((n : Rat) + 1)))

/-- `reducer::add_` (reducer.cpp:270-296). -/
def add_ (env : Env) (r : Reducer) (v : Int) : Reducer :=
  let r := { r with average := avgStep env r.average r.averageCount v
                    averageCount := r.averageCount + 1 }
  let r := r.minmax v
  if r.data = [] ∨ r.back.length = r.opt.limit then
    if r.data.length = r.opt.levels ∨ r.opt.limit = 0 then
      { r with lossy := r.lossy + 1 }
    else
      let d := if r.curMode = .sorting then onBack sortInts r.data else r.data
      { r with data := d ++ [[v]] }
  else
    { r with data := onBack (· ++ [v]) r.data }

/-- `reducer::add(value_type, size_t)` (reducer.cpp:124-131). -/
def addOne (env : Env) (r : Reducer) (v : Int) (count : Nat) : Reducer :=
  let r := add_ env { r with empty := false } v
  let r := { r with total := r.total + count }
  if count > 1 then { r with lossy := r.lossy + (count - 1) } else r

/-- `reducer::add(const data_type&, size_t)` (reducer.cpp:133-142). -/
def addMany (env : Env) (r : Reducer) (vs : List Int) (count : Nat) : Reducer :=
  let r := vs.foldl (add_ env) { r with empty := false }
  let r := { r with total := r.total + count }
  if vs.length < count then { r with lossy := r.lossy + (count - vs.length) } else r

/-- `reducer::add(std::initializer_list)` (reducer.cpp:149-155). -/
def addInit (env : Env) (r : Reducer) (vs : List Int) : Reducer :=
  let r := vs.foldl (add_ env) r
  { r with empty := false, total := r.total + vs.length }

/-- `reducer::add(const reduced_data&)` (reducer.cpp:157-166). -/
def addReduced (env : Env) (r : Reducer) (rd : ReducedData) : Reducer :=
  let r := addMany env r rd.data rd.count
  let r := if rd.min ≠ 0 then r.minmax rd.min else r
  if rd.max ≠ 0 then r.minmax rd.max else r

/-- Overload resolution of `reducer::add`. -/
def add (env : Env) (r : Reducer) : AddArg → Reducer
  | .one v count => addOne env r v count
  | .many vs count => addMany env r vs count
  | .init vs => addInit env r vs
  | .reduced rd => addReduced env r rd

/-- `reducer::nth_element_` (reducer.cpp:203-213). -/
def nthElement_ (E : NthElement) (data : List (List Int)) (l i : Nat) : M (List (List Int)) := do
  let row ← deref data l
  let row' ← nthRange E row (if i < l then 0 else i - l) i
  .ok (data.set l row')

/-- `if ( _current_mode == mode::nth ) nth_element_(l, i)` (reducer.cpp:217-218, 242-243). -/
def nthIf (E : NthElement) (cur : Mode) (data : List (List Int)) (l i : Nat) :
    M (List (List Int)) :=
  if cur = .nth then nthElement_ E data l i else .ok data

/-- `reducer::get_nth_` (reducer.cpp:215-220). -/
def getNth_ (E : NthElement) (cur : Mode) (data : List (List Int)) (l i : Nat) :
    M (Int × List (List Int)) := do
  let data ← nthIf E cur data l i
  let row ← deref data l
  let x ← vat row i
  .ok (x, data)

/-- `_data[0]->at(i) = x` (reducer.cpp:249,253). -/
def setAt0 (data : List (List Int)) (i : Nat) (x : Int) : M (List (List Int)) := do
  let row ← deref data 0
  if i < row.length then .ok (data.set 0 (row.set i x)) else .error .outOfRange

/-- The loop of `reducer::reduce` (reducer.cpp:238-255); `n` is `current_levels`, the first
argument counts the remaining iterations (`limit - i`). -/
def reduceLoop (E : NthElement) (cur : Mode) (n : Nat) :
    Nat → (i l : Nat) → List (List Int) → M (List (List Int))
  | 0, _, _, data => .ok data
  | k + 1, i, l, data =>
    if l = n then do
      let data ← nthIf E cur data 0 i
      reduceLoop E cur n k (i + 1) 1 data
    else if l = n - 1 then do
      let row ← deref data l
      if i < row.length then do
        let (x, data) ← getNth_ E cur data l i
        let data ← setAt0 data i x
        reduceLoop E cur n k (i + 1) (l + 1) data
      else
        reduceLoop E cur n k (i + 1) l data
    else do
      let (x, data) ← getNth_ E cur data l i
      let data ← setAt0 data i x
      reduceLoop E cur n k (i + 1) (l + 1) data

/-- `reducer::reduce` (reducer.cpp:222-268).  The test `_data.size()==0` on line 259 is always
false there. -/
def reduce (env : Env) (r : Reducer) : M Reducer :=
  if r.data = [] then .ok r
  else
    let r := if r.curMode = .sorting then { r with data := onBack sortInts r.data } else r
    if r.data.length = 1 then .ok r
    else do
      let r := { r with lossy := r.lossyCount }
      let n := r.data.length
      let data ← reduceLoop env.nth r.curMode n r.opt.limit 0 n r.data
      let cur := if r.opt.mode = .adapt then
          (if r.opt.limit / n > magic then Mode.sorting else Mode.nth)
        else r.curMode
      .ok { r with data := data.take 1, curMode := cur }

/-- `reducer::detach` (reducer.cpp:174-190). -/
def detach (env : Env) (r : Reducer) : M (Option AggData × Reducer) :=
  if r.empty then .ok (none, r)
  else do
    let r ← reduce env r
    let avg ← castInt r.average
    .ok (some { data := r.data.headD []
                avg := avg
                count := r.total
                lossy := r.lossy
                max := r.max
                min := r.min }, r.clear)

/-- `reducer::get_reduced` (reducer.cpp:168-172); the clone is discarded, so the object itself is
not a result. -/
def getReduced (env : Env) (r : Reducer) : M (Option AggData) := do
  let (res, _) ← detach env r.clone
  .ok res

/-- Public operations of a reducer, as a client may issue them: any `add` overload, `reduce`
(public in reducer.hpp:60), `clear`, `detach`, `get_reduced`. -/
inductive ROp where
  | add (a : AddArg)
  | reduce
  | clear
  | detach
  | look
deriving DecidableEq, Repr

/-- Effect of one client operation. -/
def step (env : Env) (r : Reducer) : ROp → M Reducer
  | .add a => .ok (add env r a)
  | .reduce => reduce env r
  | .clear => .ok r.clear
  | .detach => do let (_, r') ← detach env r; .ok r'
  | .look => do let _ ← getReduced env r; .ok r

/-- Effect of a client history. -/
def run (env : Env) (r : Reducer) (ops : List ROp) : M Reducer := ops.foldlM (step env) r

end Reducer
end Wrtstat
