/-
Model of the older sources wrtstat/manager/aggregator_registry.{hpp,cpp} and wrtstat/meter_manager.{hpp,cpp}, which
wrtstat/CMakeLists.txt no longer compiles.

The members are those of the current registry without the initializer (manager/aggregator_registry.hpp:96-102), manager/dict.hpp is
system/dict.hpp without `pos2id`, and manager/pool.hpp and manager/mutex are system/pool.hpp, rwlock.hpp and spinlock.hpp, so the object
is a `Registry` with `hasInit = false`.  `aggregators_count`, `get_name`, `pop`, `get_aggregator(id)`, `create_*_pusher(id)`, `enable` and
`del` (manager/aggregator_registry.cpp:14-18, 48-52, 41-46, 82-94, 118-137, 201-223) are the same text as now, so their model is used; what
calls an aggregator is modelled anew, with the aggregator of Model/Legacy.lean.
-/
import Verif.Model.Legacy
import Verif.Spec.WrtstatSpec

namespace Wrtstat
namespace Legacy

open Registry (Resp)
open Aggregator (AOp)

/-- Construction of a new aggregator (manager/aggregator_registry.cpp:70-72). -/
def construct (r : Registry) (q : Ask) (now : Int) : M Aggregator := do
  let a ← Aggregator.new r.opt q.clk q.rand now
  if r.enabled = false then .ok (a.enable false) else .ok a

/-- `create_aggregator` (manager/aggregator_registry.cpp:54-75). -/
def createAggregator (r : Registry) (q : Ask) (name : Name) (now : Int) : M (Nat × Registry) :=
  if name = [] then .ok (badId, r)
  else do
    let (id, dict) := r.dict.createId q.pick name
    let r := { r with dict := dict }
    let pos ← r.dict.id2pos id
    match r.agarr[pos]?.join with
    | some _ => .ok (id, r)
    | none => do
      let arr := r.agarr ++ List.replicate (pos + 1 - r.agarr.length) none
      let a ← construct r q now
      .ok (id, { r with agarr := arr.set pos (some { ref := r.nextRef, agg := a }), nextRef := r.nextRef + 1 })

/-- `add(id_t, ...)` (manager/aggregator_registry.cpp:20-25). -/
def addId (env : Env) (r : Registry) (id : Nat) (clk1 clk2 now v : Int) (count : Nat) : M (Bool × Registry) := do
  let o ← r.getAggregator id
  match o with
  | none => .ok (false, r)
  | some c => do
    let (ok, a) ← add env c.agg clk1 clk2 now (.one v count)
    .ok (ok, r.update c.ref a)

/-- `add(name, reduced_data)` (manager/aggregator_registry.cpp:27-32, 77-80). -/
def addData (env : Env) (r : Registry) (q : Ask) (name : Name) (clk1 clk2 : Int) (rd : ReducedData) : M (Bool × Registry) := do
  let (id, r) ← createAggregator r q name rd.ts
  let o ← r.getAggregator id
  match o with
  | none => .ok (false, r)
  | some c => do
    let (ok, a) ← add env c.agg clk1 clk2 rd.ts (.reduced rd)
    .ok (ok, r.update c.ref a)

/-- `force_pop(id)` (manager/aggregator_registry.cpp:34-39). -/
def regForcePop (env : Env) (r : Registry) (id : Nat) : M (Option AggData × Registry) := do
  let o ← r.getAggregator id
  match o with
  | none => .ok (none, r)
  | some c => do
    let (d, a) ← forcePop env c.agg
    .ok (d, r.update c.ref a)

/-- `create_*_pusher` from a name (manager/aggregator_registry.cpp:167-180). -/
def pusherName (r : Registry) (q : Ask) (name : Name) (now : Int) (handler : Bool) : M (Option RPusher × Registry) := do
  let (id, r) ← createAggregator r q name now
  let p ← r.pusherId id handler
  .ok (p, r)

/-- Call of a pusher (wrtstat/aggregator.cpp:151-198). -/
def call (env : Env) (r : Registry) (p : RPusher) (clk1 clk2 ts : Int) (x : AddArg) : M (List AggData × Registry) :=
  match r.find p.ref with
  | none => .ok ([], r)
  | some a =>
    if p.p.token = true ∧ a.alive = true then do
      let (_, out, a) ← push env a clk1 clk2 ts x p.p.handler
      .ok (out, r.update p.ref a)
    else .ok ([], r.update p.ref a)

/-- Calls of the older registry. -/
inductive ROp where
  | create (q : Ask) (name : Name) (now : Int)
  | addId (id : Nat) (clk1 clk2 now v : Int) (count : Nat)
  | addData (q : Ask) (name : Name) (clk1 clk2 : Int) (rd : ReducedData)
  | pop (id : Nat)
  | forcePop (id : Nat)
  | getName (id : Nat)
  | pusherId (id : Nat) (handler : Bool)
  | pusherName (q : Ask) (name : Name) (now : Int) (handler : Bool)
  | call (p : RPusher) (clk1 clk2 ts : Int) (x : AddArg)
  | enable (v : Bool)
  | del (name : Name)
  | direct (id : Nat) (op : AOp)

/-- Execute a call. -/
def rstep (env : Env) (r : Registry) : ROp → M (Resp × Registry)
  | .create q name now => do
    let (id, r) ← createAggregator r q name now
    .ok (.id id, r)
  | .addId id clk1 clk2 now v count => do
    let (b, r) ← addId env r id clk1 clk2 now v count
    .ok (.bool b, r)
  | .addData q name clk1 clk2 rd => do
    let (b, r) ← addData env r q name clk1 clk2 rd
    .ok (.bool b, r)
  | .pop id => do
    let (d, r) ← r.pop id
    .ok (.record d, r)
  | .forcePop id => do
    let (d, r) ← regForcePop env r id
    .ok (.record d, r)
  | .getName id => .ok (.name (r.getName id), r)
  | .pusherId id handler => do
    let p ← r.pusherId id handler
    .ok (.pusher p, r)
  | .pusherName q name now handler => do
    let (p, r) ← pusherName r q name now handler
    .ok (.pusher p, r)
  | .call p clk1 clk2 ts x => do
    let (l, r) ← call env r p clk1 clk2 ts x
    .ok (.handed l, r)
  | .enable v => .ok (.unit, r.enable v)
  | .del name => do
    let (b, r) ← r.del name
    .ok (.bool b, r)
  | .direct id op => do
    let o ← r.getAggregator id
    match o with
    | none => .ok (.handed [], r)
    | some c => do
      let o ← exec env { a := c.agg } op
      .ok (.handed o.received, r.update c.ref o.a)

/-! ### The meter manager -/

/-- Data members (meter_manager.hpp:108-111; `_resolution` is only used to read clocks) and the registry it is. -/
structure Manager where
  reg : Registry
  handler : Bool
  prefixes : List Name
deriving DecidableEq

namespace Manager

/-- `meter_manager::meter_manager` (meter_manager.cpp:57-65), with the constructor of the registry
(manager/aggregator_registry.cpp:8-12). -/
def new (opt : WOpts) (prefixes : List Name) : Manager :=
  { reg := { opt := opt.toAggregatorOpts, dict := { counter := opt.idInit, step := opt.idStep } }
    handler := opt.handler
    prefixes := if prefixes = [] then [[]] else prefixes }

/-- `make_handler_(id)` (meter_manager.cpp:237-258). -/
def makeHandlerId (m : Manager) (id : Nat) : Hnd := if id = badId ∨ m.handler = false then .none else .byId id

/-- `make_handler_(name)` (meter_manager.cpp:260-270). -/
def makeHandlerName (m : Manager) (name : Name) : Hnd := if m.handler = true then .byName name else .none

/-- Call of a handler; as in `Wrt.deliver` every call is made on a copy of the closure (wrtstat/aggregator.cpp:54, 103), so that the name
is looked up every time. -/
def deliver (m : Manager) (h : Hnd) (d : AggData) : List (Name × AggData) :=
  match h with
  | .none => []
  | .byId id => if m.reg.getName id = [] then [] else [(m.reg.getName id, d)]
  | .byName name => [(name, d)]

/-- `create_time_meter(id)`, `create_size_meter(id)`, `create_value_meter(id)` (meter_manager.cpp:67-72, 95-98, 122-125). -/
def meterId (m : Manager) (id : Nat) : M (Option WPusher) := do
  let h := m.makeHandlerId id
  let p ← m.reg.pusherId id (decide (h ≠ .none))
  .ok (p.map fun p => { rp := p, h := h })

/-- The same by name (meter_manager.cpp:74-79, 100-103, 127-130). -/
def meterName (m : Manager) (q : Ask) (name : Name) (now : Int) : M (Option WPusher × Manager) := do
  let (id, r) ← createAggregator m.reg q name now
  let m := { m with reg := r }
  let p ← m.meterId id
  .ok (p, m)

/-- The loop of `create_time_multi_meter`, `create_size_multi_meter` and `create_value_multi_meter` (meter_manager.cpp:81-93, 105-116,
132-143) over some prefixes; `ask` are the surroundings of the creations in turn. -/
def multiLoop (m : Manager) (name : Name) (ask : Nat → Ask × Int) : Nat → List Name → M (List (Option WPusher) × Manager)
  | _, [] => .ok ([], m)
  | i, prefix_ :: l => do
    let (p, m) ← m.meterName (ask i).1 (prefix_ ++ name) (ask i).2
    let (ps, m) ← m.multiLoop name ask (i + 1) l
    .ok (p :: ps, m)

/-- `create_*_multi_meter`: the prefixes are those of the options. -/
def multiMeter (m : Manager) (name : Name) (ask : Nat → Ask × Int) : M (List (Option WPusher) × Manager) :=
  m.multiLoop name ask 0 m.prefixes

/-- One of the three parts of `create_composite_pusher` (manager/aggregator_registry.cpp:151-158). -/
def part (m : Manager) (id : Nat) (h : Hnd) : M (Option WPusher) := do
  let p ← m.reg.pusherId id (decide (h ≠ .none))
  .ok (p.map fun p => { rp := p, h := h })

/-- `create_composite_pusher` from ids (manager/aggregator_registry.cpp:139-164). -/
def compositePusher (m : Manager) (t r wr : Nat) (ht hr hw : Hnd) (summary : Bool) : M (Option CPusher) := do
  let pt ← m.part t ht
  let pr ← m.part r hr
  let pw ← m.part wr hw
  if pt = none ∧ pr = none ∧ pw = none then .ok none
  else .ok (some { time := pt, read := pr, write := pw, summary := summary })

/-- `create_composite_meter(id, id, id, summary_size)` (meter_manager.cpp:149-161). -/
def compositeId (m : Manager) (t r wr : Nat) (summary : Bool) : M (Option CPusher) :=
  m.compositePusher t r wr (m.makeHandlerId t) (m.makeHandlerId r) (m.makeHandlerId wr) summary

/-- The three creations in the argument list of manager/aggregator_registry.cpp:193-198, in the order chosen by the compiler. -/
def createThree (m : Manager) (ord : Order) (qt qr qw : Ask) (nt nr nw : Name) (now : Int) : M ((Nat × Nat × Nat) × Manager) := do
  let mk (m : Manager) (q : Ask) (n : Name) : M (Nat × Manager) := do
    let (id, r) ← createAggregator m.reg q n now
    .ok (id, { m with reg := r })
  match ord with
  | .trw => do
    let (t, m) ← mk m qt nt
    let (r, m) ← mk m qr nr
    let (x, m) ← mk m qw nw
    .ok ((t, r, x), m)
  | .twr => do
    let (t, m) ← mk m qt nt
    let (x, m) ← mk m qw nw
    let (r, m) ← mk m qr nr
    .ok ((t, r, x), m)
  | .rtw => do
    let (r, m) ← mk m qr nr
    let (t, m) ← mk m qt nt
    let (x, m) ← mk m qw nw
    .ok ((t, r, x), m)
  | .rwt => do
    let (r, m) ← mk m qr nr
    let (x, m) ← mk m qw nw
    let (t, m) ← mk m qt nt
    .ok ((t, r, x), m)
  | .wtr => do
    let (x, m) ← mk m qw nw
    let (t, m) ← mk m qt nt
    let (r, m) ← mk m qr nr
    .ok ((t, r, x), m)
  | .wrt => do
    let (x, m) ← mk m qw nw
    let (r, m) ← mk m qr nr
    let (t, m) ← mk m qt nt
    .ok ((t, r, x), m)

/-- `create_composite_meter(name, name, name, summary_size)` (meter_manager.cpp:163-183, manager/aggregator_registry.cpp:182-199). -/
def compositeName (m : Manager) (ord : Order) (qt qr qw : Ask) (nt nr nw : Name) (now : Int) (summary : Bool) :
    M (Option CPusher × Manager) := do
  let ((t, r, x), m) ← m.createThree ord qt qr qw nt nr nw now
  let p ← m.compositePusher t r x (m.makeHandlerName nt) (m.makeHandlerName nr) (m.makeHandlerName nw) summary
  .ok (p, m)

/-- `make_name_` (meter_manager.cpp:230-235). -/
def makeName (prefix_ name : Name) : Name := if name = [] then [] else prefix_ ++ name

/-- The loop of `create_composite_multi_meter` (meter_manager.cpp:186-207). -/
def compositeLoop (m : Manager) (nt nr nw : Name) (summary : Bool) (ask : Nat → Order × Ask × Ask × Ask × Int) :
    Nat → List Name → M (List (Option CPusher) × Manager)
  | _, [] => .ok ([], m)
  | i, pre :: l => do
    let (p, m) ← m.compositeName (ask i).1 (ask i).2.1 (ask i).2.2.1 (ask i).2.2.2.1 (makeName pre nt) (makeName pre nr)
      (makeName pre nw) (ask i).2.2.2.2 summary
    let (ps, m) ← m.compositeLoop nt nr nw summary ask (i + 1) l
    .ok (p :: ps, m)

/-- `create_composite_multi_meter`. -/
def compositeMulti (m : Manager) (nt nr nw : Name) (summary : Bool) (ask : Nat → Order × Ask × Ask × Ask × Int) :
    M (List (Option CPusher) × Manager) := m.compositeLoop nt nr nw summary ask 0 m.prefixes

/-- Call of a meter function: what reaches the user's handler. -/
def call (env : Env) (m : Manager) (p : WPusher) (clk1 clk2 ts v : Int) (count : Nat) : M (List (Name × AggData) × Manager) := do
  let (out, r) ← Legacy.call env m.reg p.rp clk1 clk2 ts (.one v count)
  let m := { m with reg := r }
  .ok (out.flatMap (m.deliver p.h), m)

/-- Call of a meter function that may be null (manager/aggregator_registry.cpp:108-113). -/
def callOpt (env : Env) (m : Manager) (p : Option WPusher) (clk1 clk2 ts v : Int) (count : Nat) : M (List (Name × AggData) × Manager) :=
  match p with
  | none => .ok ([], m)
  | some p => m.call env p clk1 clk2 ts v count

/-- Call of a composite meter function (manager/aggregator_registry.cpp:96-115). -/
def callC (env : Env) (m : Manager) (p : CPusher) (kt kr kw : Wrt.Clks) (ts span : Int) (count : Nat) (readed writed : Int) :
    M (List (Name × AggData) × Manager) := do
  let (l1, m) ← m.callOpt env p.time kt.1 kt.2 ts span count
  let (l2, m) ← m.callOpt env p.read kr.1 kr.2 ts readed (if p.summary then toSize readed else count)
  let (l3, m) ← m.callOpt env p.write kw.1 kw.2 ts writed (if p.summary then toSize writed else count)
  .ok (l1 ++ l2 ++ l3, m)

/-- Destruction of a meter manager, which declares no destructor (meter_manager.hpp): what is handed over. -/
def destroy (_ : Manager) : List (Name × AggData) := []

/-- Calls of a meter manager. -/
inductive MOp where
  | reg (op : ROp)
  | meterId (id : Nat)
  | meterName (q : Ask) (name : Name) (now : Int)
  | multi (name : Name) (ask : Nat → Ask × Int)
  | compositeId (t r w : Nat) (summary : Bool)
  | compositeName (ord : Order) (qt qr qw : Ask) (nt nr nw : Name) (now : Int) (summary : Bool)
  | compositeMulti (nt nr nw : Name) (summary : Bool) (ask : Nat → Order × Ask × Ask × Ask × Int)
  | call (p : WPusher) (clk1 clk2 ts v : Int) (count : Nat)
  | callC (p : CPusher) (kt kr kw : Wrt.Clks) (ts span : Int) (count : Nat) (readed writed : Int)

/-- Answers. -/
inductive MResp where
  | reg (x : Resp)
  | meters (l : List (Option WPusher))
  | composites (l : List (Option CPusher))
  | unit
deriving DecidableEq

/-- Execute a call: the answer, what reaches the user's handler, and the new state. -/
def step (env : Env) (m : Manager) : MOp → M (MResp × List (Name × AggData) × Manager)
  | .reg op => do
    let (x, r) ← rstep env m.reg op
    .ok (.reg x, [], { m with reg := r })
  | .meterId id => do
    let p ← m.meterId id
    .ok (.meters [p], [], m)
  | .meterName q name now => do
    let (p, m) ← m.meterName q name now
    .ok (.meters [p], [], m)
  | .multi name ask => do
    let (l, m) ← m.multiMeter name ask
    .ok (.meters l, [], m)
  | .compositeId t r x s => do
    let p ← m.compositeId t r x s
    .ok (.composites [p], [], m)
  | .compositeName ord qt qr qw nt nr nw now s => do
    let (p, m) ← m.compositeName ord qt qr qw nt nr nw now s
    .ok (.composites [p], [], m)
  | .compositeMulti nt nr nw s ask => do
    let (l, m) ← m.compositeMulti nt nr nw s ask
    .ok (.composites l, [], m)
  | .call p clk1 clk2 ts v count => do
    let (l, m) ← m.call env p clk1 clk2 ts v count
    .ok (.unit, l, m)
  | .callC p kt kr kw ts span count rd wr => do
    let (l, m) ← m.callC env p kt kr kw ts span count rd wr
    .ok (.unit, l, m)

end Manager
end Legacy
end Wrtstat
