/-
Model of wrtstat/wrtstat.{hpp,cpp} and of the composite pushers of
wrtstat/aggregator/aggregator_registry.cpp.

The user's handler is represented by whether there is one (`handler`) and by the list of named records
handed to it, in order.  The handler is assumed to return normally and not to call back into the object.
Clock readings are parameters.
-/
import Verif.Model.Registry

namespace Wrtstat

/-- `wrtstat_options` (wrtstat/wrtstat_options.hpp): registry options and a handler. -/
structure WOpts extends RegistryOpts where
  handler : Bool := false
deriving DecidableEq, Repr

/-- The handler given to an aggregator: none, the closure of `make_handler_(id)` or that of
`make_handler_(name)`. -/
inductive Hnd where
  | none
  | byId (id : Nat)
  | byName (name : Name)
deriving DecidableEq, Repr

/-- A meter function: a pusher of the registry with its handler.  (A null function is `none : Option
WPusher`.) -/
structure WPusher where
  rp : RPusher
  h : Hnd
deriving DecidableEq

/-- A composite meter function (aggregator_registry.cpp:127-146). -/
structure CPusher where
  time : Option WPusher
  read : Option WPusher
  write : Option WPusher
  summary : Bool
deriving DecidableEq

/-- Data members of `wrtstat` (wrtstat.hpp:140-144).  `_resolution` is only used to read clocks. -/
structure Wrt where
  reg : Registry
  handler : Bool
deriving DecidableEq

/-- The order in which the three `create_aggregator` calls in the argument list of
aggregator_registry.cpp:234-239 are evaluated, which is unspecified. -/
inductive Order where
  | trw | twr | rtw | rwt | wtr | wrt
deriving DecidableEq, Repr

/-- Conversion of a signed to an unsigned 64-bit number. -/
def toSize (v : Int) : Nat := (v % 2 ^ 64).toNat

namespace Wrt

/-- `wrtstat::wrtstat` (wrtstat.cpp:63-71). -/
def new (opt : WOpts) : Wrt := { reg := Registry.new opt.toRegistryOpts, handler := opt.handler }

/-- `make_handler_(id)` (wrtstat.cpp:321-342). -/
def makeHandlerId (w : Wrt) (id : Nat) : Hnd := if id = badId ∨ w.handler = false then .none else .byId id

/-- `make_handler_(name)` (wrtstat.cpp:344-354). -/
def makeHandlerName (w : Wrt) (name : Name) : Hnd := if w.handler = true then .byName name else .none

/-- Call of a handler with a record: what reaches the user's handler.  The closure of
`make_handler_(id)` remembers the name in a mutable capture, but every call is made on a copy of the
closure (basic_aggregator.cpp:51, 279), so that the name is looked up every time. -/
def deliver (w : Wrt) (h : Hnd) (d : AggData) : List (Name × AggData) :=
  match h with
  | .none => []
  | .byId id => if w.reg.getName id = [] then [] else [(w.reg.getName id, d)]
  | .byName name => [(name, d)]

/-- `create_time_meter(id)`, `create_size_meter(id)`, `create_value_meter(id)` (wrtstat.cpp:89-94,
117-120, 144-147): the function given to the meter. -/
def meterId (w : Wrt) (id : Nat) : M (Option WPusher) := do
  let h := w.makeHandlerId id
  let p ← w.reg.pusherId id (decide (h ≠ .none))
  .ok (p.map fun p => { rp := p, h := h })

/-- The same by name (wrtstat.cpp:96-101, 122-125, 149-152); `now` is `aggregator::now(_resolution)`. -/
def meterName (env : Env) (w : Wrt) (q : Ask) (name : Name) (now : Int) : M (Option WPusher × Wrt) := do
  let (id, r) ← w.reg.createAggregator env q name now
  let w := { w with reg := r }
  let p ← w.meterId id
  .ok (p, w)

/-- The loop of `create_time_multi_meter`, `create_size_multi_meter` and `create_value_multi_meter`
(wrtstat.cpp:103-115, 127-138, 154-165): the name is the prefix followed by the given name. -/
def multiMeter (env : Env) (w : Wrt) (name : Name) : List (Name × Ask × Int) → M (List (Option WPusher) × Wrt)
  | [] => .ok ([], w)
  | (prefix_, q, now) :: l => do
    let (p, w) ← w.meterName env q (prefix_ ++ name) now
    let (ps, w) ← w.multiMeter env name l
    .ok (p :: ps, w)

/-- One of the three parts of `create_composite_pusher` (aggregator_registry.cpp:183-190). -/
def part (w : Wrt) (id : Nat) (h : Hnd) : M (Option WPusher) := do
  let p ← w.reg.pusherId id (decide (h ≠ .none))
  .ok (p.map fun p => { rp := p, h := h })

/-- `create_composite_pusher` from ids (aggregator_registry.cpp:170-196). -/
def compositePusher (w : Wrt) (t r wr : Nat) (ht hr hw : Hnd) (summary : Bool) : M (Option CPusher) := do
  let pt ← w.part t ht
  let pr ← w.part r hr
  let pw ← w.part wr hw
  if pt = none ∧ pr = none ∧ pw = none then .ok none
  else .ok (some { time := pt, read := pr, write := pw, summary := summary })

/-- `create_composite_meter(id, id, id, summary_size)` (wrtstat.cpp:171-183). -/
def compositeId (w : Wrt) (t r wr : Nat) (summary : Bool) : M (Option CPusher) :=
  w.compositePusher t r wr (w.makeHandlerId t) (w.makeHandlerId r) (w.makeHandlerId wr) summary

/-- The three creations of aggregator_registry.cpp:234-237, in the order chosen by the compiler. -/
def createThree (env : Env) (w : Wrt) (ord : Order) (qt qr qw : Ask) (nt nr nw : Name) (now : Int) :
    M ((Nat × Nat × Nat) × Wrt) := do
  let mk (w : Wrt) (q : Ask) (n : Name) : M (Nat × Wrt) := do
    let (id, r) ← w.reg.createAggregator env q n now
    .ok (id, { w with reg := r })
  match ord with
  | .trw => do
    let (t, w) ← mk w qt nt
    let (r, w) ← mk w qr nr
    let (x, w) ← mk w qw nw
    .ok ((t, r, x), w)
  | .twr => do
    let (t, w) ← mk w qt nt
    let (x, w) ← mk w qw nw
    let (r, w) ← mk w qr nr
    .ok ((t, r, x), w)
  | .rtw => do
    let (r, w) ← mk w qr nr
    let (t, w) ← mk w qt nt
    let (x, w) ← mk w qw nw
    .ok ((t, r, x), w)
  | .rwt => do
    let (r, w) ← mk w qr nr
    let (x, w) ← mk w qw nw
    let (t, w) ← mk w qt nt
    .ok ((t, r, x), w)
  | .wtr => do
    let (x, w) ← mk w qw nw
    let (t, w) ← mk w qt nt
    let (r, w) ← mk w qr nr
    .ok ((t, r, x), w)
  | .wrt => do
    let (x, w) ← mk w qw nw
    let (r, w) ← mk w qr nr
    let (t, w) ← mk w qt nt
    .ok ((t, r, x), w)

/-- `create_composite_meter(name, name, name, summary_size)` (wrtstat.cpp:185-205,
aggregator_registry.cpp:223-240). -/
def compositeName (env : Env) (w : Wrt) (ord : Order) (qt qr qw : Ask) (nt nr nw : Name) (now : Int)
    (summary : Bool) : M (Option CPusher × Wrt) := do
  let ((t, r, x), w) ← w.createThree env ord qt qr qw nt nr nw now
  let p ← w.compositePusher t r x (w.makeHandlerName nt) (w.makeHandlerName nr) (w.makeHandlerName nw) summary
  .ok (p, w)

/-- `make_name_` (wrtstat.cpp:314-319). -/
def makeName (prefix_ name : Name) : Name := if name = [] then [] else prefix_ ++ name

/-- The loop of `create_composite_multi_meter` (wrtstat.cpp:208-230). -/
def compositeMulti (env : Env) (w : Wrt) (nt nr nw : Name) (summary : Bool) :
    List (Name × Order × Ask × Ask × Ask × Int) → M (List (Option CPusher) × Wrt)
  | [] => .ok ([], w)
  | (pre, ord, qt, qr, qw, now) :: l => do
    let (p, w) ← w.compositeName env ord qt qr qw (makeName pre nt) (makeName pre nr) (makeName pre nw) now summary
    let (ps, w) ← w.compositeMulti env nt nr nw summary l
    .ok (p :: ps, w)

/-- Call of a meter function: what reaches the user's handler. -/
def call (env : Env) (w : Wrt) (p : WPusher) (clk1 clk2 ts v : Int) (count : Nat) :
    M (List (Name × AggData) × Wrt) := do
  let (out, r) ← w.reg.call env p.rp clk1 clk2 ts (.one v count)
  let w := { w with reg := r }
  .ok (out.flatMap (w.deliver p.h), w)

/-- Call of a meter function that may be null, as in aggregator_registry.cpp:139-144. -/
def callOpt (env : Env) (w : Wrt) (p : Option WPusher) (clk1 clk2 ts v : Int) (count : Nat) :
    M (List (Name × AggData) × Wrt) :=
  match p with
  | none => .ok ([], w)
  | some p => w.call env p clk1 clk2 ts v count

/-- Clock readings during one call. -/
abbrev Clks := Int × Int

/-- Call of a composite meter function (aggregator_registry.cpp:135-145).  The sizes are converted to
unsigned numbers and back (meters/composite_meter.hpp:20-21, aggregator_registry.hpp:29-30). -/
def callC (env : Env) (w : Wrt) (p : CPusher) (kt kr kw : Clks) (ts span : Int) (count : Nat) (readed writed : Int) :
    M (List (Name × AggData) × Wrt) := do
  let (l1, w) ← w.callOpt env p.time kt.1 kt.2 ts span count
  let (l2, w) ← w.callOpt env p.read kr.1 kr.2 ts readed (if p.summary then toSize readed else count)
  let (l3, w) ← w.callOpt env p.write kw.1 kw.2 ts writed (if p.summary then toSize writed else count)
  .ok (l1 ++ l2 ++ l3, w)

/-- `pushout_` (wrtstat.cpp:356-365): the number returned and the records handed over.  Calling an
empty `std::function` throws `bad_function_call`. -/
def pushout (env : Env) (w : Wrt) (force : Bool) (clk : Nat → Int) : M (Nat × List (Name × AggData) × Wrt) := do
  let (l, r) ← w.reg.popAll env force clk
  if l ≠ [] ∧ w.handler = false then .error .badFunctionCall
  else .ok (l.length, l, { w with reg := r })

/-- `wrtstat::~wrtstat` (wrtstat.cpp:58-61): what is handed over.  (An exception leaving a destructor
terminates the program.) -/
def destroy (env : Env) (w : Wrt) (clk : Nat → Int) : M (List (Name × AggData)) := do
  let (_, l, _) ← w.pushout env true clk
  .ok l

end Wrt
end Wrtstat
