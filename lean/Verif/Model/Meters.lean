/-
Model of the measuring points of wrtstat/meters/*.hpp.

The meter function of a point is a value of an arbitrary type `F`; calling it is recorded as a `Call`.
A point's clock (`std::chrono::steady_clock`) counts nanoseconds, `unit` is the number of nanoseconds
in a tick of the duration type `D`.  Clock readings are parameters, `now` stands for
`aggregator::now(_resolution)`.  A moved-from `std::function` is empty (as in libstdc++ and libc++; the
standard leaves it unspecified).
-/
import Verif.Model.Types

namespace Wrtstat

/-- One call of a meter function with two or four arguments after the time. -/
structure Call (F : Type) where
  fn : F
  now : Int
  value : Int
  count : Nat
  readed : Int := 0
  writed : Int := 0
deriving DecidableEq, Repr

/-- `time_point` (meters/time_meter.hpp:76-80). -/
structure TimePoint (F : Type) where
  count : Nat
  fn : Option F
  start : Int
deriving DecidableEq, Repr

/-- `size_point` (meters/size_meter.hpp:67-70). -/
structure SizePoint (F : Type) where
  size : Int
  fn : Option F
deriving DecidableEq, Repr

/-- `value_point` (meters/value_meter.hpp:75-79). -/
structure ValuePoint (F : Type) where
  value : Int
  count : Nat
  fn : Option F
deriving DecidableEq, Repr

/-- `composite_point` (meters/composite_meter.hpp:114-120). -/
structure CompositePoint (F : Type) where
  count : Nat
  readed : Int
  writed : Int
  fn : Option F
  start : Int
deriving DecidableEq, Repr

/-- Everything a member function reads from its surroundings: `steady_clock::now()` and
`aggregator::now(_resolution)`. -/
structure Clock where
  steady : Int
  now : Int
deriving DecidableEq, Repr

variable {F : Type}

namespace TimePoint

/-- The constructor (time_meter.hpp:30-36). -/
def new (k : Clock) (fn : Option F) (count : Nat) : TimePoint F := { count := count, fn := fn, start := k.steady }

/-- `push(ts)` (time_meter.hpp:56-64). -/
def push (unit : Int) (p : TimePoint F) (k : Clock) (ts : Int) : List (Call F) × TimePoint F :=
  match p.fn with
  | none => ([], p)
  | some f => ([{ fn := f, now := ts, value := (k.steady - p.start).tdiv unit, count := p.count }], { p with fn := none })

/-- `push()` (time_meter.hpp:66-69), and the destructor (38-41). -/
def pushNow (unit : Int) (p : TimePoint F) (k : Clock) : List (Call F) × TimePoint F := p.push unit k k.now

/-- `reset()` (time_meter.hpp:43-46). -/
def reset (p : TimePoint F) : TimePoint F := { p with count := 0 }

/-- `reset(fun, cnt)` (time_meter.hpp:48-54); the clock is read for the report and again for the new start. -/
def resetWith (unit : Int) (p : TimePoint F) (k k' : Clock) (fn : Option F) (count : Nat) : List (Call F) × TimePoint F :=
  ((p.pushNow unit k).1, { count := count, fn := fn, start := k'.steady })

/-- `clone(cnt)` (time_meter.hpp:71-74). -/
def clone (p : TimePoint F) (k : Clock) (count : Nat) : TimePoint F := new k p.fn count

end TimePoint

namespace SizePoint

/-- The constructor (size_meter.hpp:22-27). -/
def new (fn : Option F) (size : Int) : SizePoint F := { size := size, fn := fn }

/-- `push(ts)` (size_meter.hpp:34-40). -/
def push (p : SizePoint F) (ts : Int) : List (Call F) × SizePoint F :=
  match p.fn with
  | none => ([], p)
  | some f => ([{ fn := f, now := ts, value := p.size, count := (p.size % 2 ^ 64).toNat }], { p with fn := none })

/-- `push()` (size_meter.hpp:42-45), and the destructor (29-32). -/
def pushNow (p : SizePoint F) (k : Clock) : List (Call F) × SizePoint F := p.push k.now

/-- `set_size` (size_meter.hpp:47). -/
def setSize (p : SizePoint F) (s : Int) : SizePoint F := { p with size := s }

/-- `reset()` (size_meter.hpp:55-58). -/
def reset (p : SizePoint F) : SizePoint F := { p with size := 0 }

/-- `reset(fun, size)` (size_meter.hpp:60-65). -/
def resetWith (p : SizePoint F) (k : Clock) (fn : Option F) (size : Int) : List (Call F) × SizePoint F :=
  ((p.pushNow k).1, { size := size, fn := fn })

/-- `clone(s)` (size_meter.hpp:50-53). -/
def clone (p : SizePoint F) (size : Int) : SizePoint F := new p.fn size

end SizePoint

namespace ValuePoint

/-- The constructor (value_meter.hpp:24-30). -/
def new (fn : Option F) (value : Int) (count : Nat) : ValuePoint F := { value := value, count := count, fn := fn }

/-- `push(ts)` (value_meter.hpp:37-42); unlike the others it keeps the function. -/
def push (p : ValuePoint F) (ts : Int) : List (Call F) × ValuePoint F :=
  match p.fn with
  | none => ([], p)
  | some f => ([{ fn := f, now := ts, value := p.value, count := p.count }], p)

/-- `push()` (value_meter.hpp:44-47), and the destructor (32-35). -/
def pushNow (p : ValuePoint F) (k : Clock) : List (Call F) × ValuePoint F := p.push k.now

/-- `set_value` (value_meter.hpp:49). -/
def setValue (p : ValuePoint F) (v : Int) : ValuePoint F := { p with value := v }

/-- `set_count` (value_meter.hpp:52). -/
def setCount (p : ValuePoint F) (c : Nat) : ValuePoint F := { p with count := c }

/-- `reset()` (value_meter.hpp:60-64). -/
def reset (p : ValuePoint F) : ValuePoint F := { p with count := 0, value := 0 }

/-- `reset(fun, val, cnt)` (value_meter.hpp:66-72). -/
def resetWith (p : ValuePoint F) (k : Clock) (fn : Option F) (value : Int) (count : Nat) :
    List (Call F) × ValuePoint F :=
  ((p.pushNow k).1, { value := value, count := count, fn := fn })

/-- `clone(val, cnt)` (value_meter.hpp:55-58). -/
def clone (p : ValuePoint F) (value : Int) (count : Nat) : ValuePoint F := new p.fn value count

end ValuePoint

namespace CompositePoint

/-- The constructor (composite_meter.hpp:30-40). -/
def new (unit : Int) (k : Clock) (fn : Option F) (count : Nat) (readed writed shift : Int) : CompositePoint F :=
  { count := count, readed := readed, writed := writed, fn := fn,
    start := if shift ≠ 0 then k.steady - shift * unit else k.steady }

/-- `push(ts)` (composite_meter.hpp:92-101). -/
def push (unit : Int) (p : CompositePoint F) (k : Clock) (ts : Int) : List (Call F) × CompositePoint F :=
  match p.fn with
  | none => ([], p)
  | some f => ([{ fn := f, now := ts, value := (k.steady - p.start).tdiv unit, count := p.count,
                  readed := p.readed, writed := p.writed }], { p with fn := none })

/-- `push()` (composite_meter.hpp:103-106), and the destructor (42-45). -/
def pushNow (unit : Int) (p : CompositePoint F) (k : Clock) : List (Call F) × CompositePoint F := p.push unit k k.now

/-- `reset()` (composite_meter.hpp:47-52). -/
def reset (p : CompositePoint F) : CompositePoint F := { p with count := 0, readed := 0, writed := 0 }

/-- `reset(fun, ...)` (composite_meter.hpp:54-65). -/
def resetWith (unit : Int) (p : CompositePoint F) (k k' : Clock) (fn : Option F) (count : Nat) (readed writed shift : Int) :
    List (Call F) × CompositePoint F :=
  ((p.pushNow unit k).1,
   { count := count, readed := readed, writed := writed, fn := fn,
     start := if shift ≠ 0 then k'.steady - shift * unit else k'.steady })

/-- `set_start_time` (composite_meter.hpp:67-70). -/
def setStart (p : CompositePoint F) (t : Int) : CompositePoint F := { p with start := t }

/-- `set_read_size` (composite_meter.hpp:77-80). -/
def setRead (p : CompositePoint F) (s : Int) : CompositePoint F := { p with readed := s }

/-- `set_write_size` (composite_meter.hpp:87-90). -/
def setWrite (p : CompositePoint F) (s : Int) : CompositePoint F := { p with writed := s }

/-- `clone(...)` (composite_meter.hpp:108-112). -/
def clone (unit : Int) (p : CompositePoint F) (k : Clock) (count : Nat) (readed writed shift : Int) : CompositePoint F :=
  new unit k p.fn count readed writed shift

end CompositePoint
end Wrtstat
