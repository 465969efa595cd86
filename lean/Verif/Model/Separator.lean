/-
Model of wrtstat/aggregator/separator.hpp and wrtstat/aggregator/separator.cpp.

Simplifications: timestamps are unbounded integers (range theorems: C17); the wall clock reading
used when a timestamp is 0 is a parameter `clk` of every operation that may consult the clock
(one reading per call of `get_ts`); `std::rand()` is a parameter of the constructor; a handler is
represented by the list of records handed to it.
-/
import Verif.Model.Reducer

namespace Wrtstat

/-- Data members of `separator` (separator.hpp). -/
structure Separator where
  reducer : Reducer
  step : Int
  next : Int
  resolution : Resolution
  sepList : List AggData := []
deriving DecidableEq

namespace Separator

/-- `separator::get_ts` (separator.cpp:139-145): C++ division truncates toward zero. -/
def getTsWith (step : Int) (resolution : Resolution) (clk ts : Int) : M Int :=
  let now := if ts ≠ 0 ∨ resolution = .none then ts else clk
  if step = 0 then .error .divByZero else .ok (now.tdiv step * step)

/-- `separator::get_ts` on an object. -/
def getTs (s : Separator) (clk ts : Int) : M Int := getTsWith s.step s.resolution clk ts

/-- `separator::separator` (separator.cpp:5-18); `rand` is the value of `std::rand()`, the product
is computed modulo 2^64 and converted to a signed 64-bit value. -/
def new (opt : SeparatorOpts) (clk rand ts : Int) : M Separator := do
  let ts ← getTsWith opt.step opt.resolution clk ts
  let ts := if opt.soiled ≠ 0 then ts - (Int.bmod (rand * rand) (2 ^ 64)).tmod opt.soiled else ts
  .ok { reducer := Reducer.new opt.toReducerOpts
        step := opt.step
        next := ts + opt.step
        resolution := opt.resolution }

/-- The loop of `separator::separate` (separator.cpp:154-165): the records detached, oldest first,
and the new state.  A non-positive step never ends. -/
def sepLoop (env : Env) (step ts : Int) (next : Int) (r : Reducer) : M (List AggData × Int × Reducer) :=
  if _h : next ≤ ts then
    if _hs : 0 < step then do
      let (o, r) ← r.detach env
      let (out, next', r) ← sepLoop env step ts (next + step) r
      .ok ((o.map fun d => { d with ts := next - step }).toList ++ out, next', r)
    else .error .diverge
  else .ok ([], next, r)
termination_by (ts - next + 1).toNat
decreasing_by omega

/-- `separator::separate` (separator.cpp:147-167).  Returns the flag and the records handed to the
handler; without handler the records go to `_sep_list`. -/
def separate (env : Env) (s : Separator) (clk ts : Int) (handler force : Bool) :
    M (Bool × List AggData × Separator) := do
  let ts ← s.getTs clk ts
  if force = false ∧ ts < s.next then .ok (false, [], s)
  else do
    let (out, next, r) ← sepLoop env s.step ts s.next s.reducer
    if handler then
      .ok (true, out, { s with next := next, reducer := r })
    else
      .ok (true, [], { s with next := next, reducer := r, sepList := s.sepList ++ out })

/-- `separator::add` without handler and `separator::push` with one: the seven overloads
(separator.cpp:26-96) have the same body.  `clk1`, `clk2` are the clock readings of the two calls
of `get_ts` (in the body and inside `separate`). -/
def push (env : Env) (s : Separator) (clk1 clk2 ts : Int) (a : AddArg) (handler : Bool) :
    M (Bool × List AggData × Separator) := do
  let ts ← s.getTs clk1 ts
  let (_, out, s) ← s.separate env clk2 ts handler false
  if ts < s.next - s.step then .ok (false, out, s)
  else .ok (true, out, { s with reducer := s.reducer.add env a })

/-- `separator::add` (separator.cpp:26-64). -/
def add (env : Env) (s : Separator) (clk1 clk2 ts : Int) (a : AddArg) : M (Bool × Separator) := do
  let (b, _, s) ← s.push env clk1 clk2 ts a false
  .ok (b, s)

/-- `separator::pop` (separator.cpp:100-107). -/
def pop (s : Separator) : Option AggData × Separator :=
  match s.sepList with
  | [] => (none, s)
  | d :: l => (some d, { s with sepList := l })

/-- `separator::force_pop` (separator.cpp:109-119). -/
def forcePop (env : Env) (s : Separator) : M (Option AggData × Separator) :=
  match s.pop with
  | (some d, s) => .ok (some d, s)
  | (none, s) => do
    let (o, r) ← s.reducer.detach env
    .ok (o.map fun d => { d with ts := s.next - s.step }, { s with reducer := r })

/-- `separator::get_current` (separator.cpp:121-127). -/
def getCurrent (env : Env) (s : Separator) : M (Option AggData) := do
  let o ← s.reducer.getReduced env
  .ok (o.map fun d => { d with ts := s.next - s.step })

/-- `separator::next_time` (separator.cpp:129-132). -/
def nextTime (s : Separator) : Int := s.next

/-- `separator::current_time` (separator.cpp:134-137). -/
def currentTime (s : Separator) : Int := s.next - s.step

/-- `separator::size` (separator.cpp:211-214). -/
def size (s : Separator) : Nat := s.sepList.length

/-- `separator::clear` (separator.cpp:233-239). -/
def clear (s : Separator) (clk ts : Int) : M Separator := do
  let ts ← s.getTs clk ts
  .ok { s with next := ts + s.step, reducer := s.reducer.clear, sepList := [] }

end Separator
end Wrtstat
