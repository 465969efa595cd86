/-
Model of wrtstat/system/dict.hpp and wrtstat/aggregator/aggregator_registry.{hpp,cpp}.

Simplifications: the pool of buffers only affects capacities (system/pool.hpp is modelled
separately); locks are absent here (C53-C56).  Ids are 64-bit: arithmetic on them is modulo 2^64.
A `shared_ptr` to an aggregator is a number `ref`, never used twice.
-/
import Verif.Model.Aggregator

namespace Wrtstat

/-- `std::string`. -/
abbrev Name := List Char

/-- Number of values of `id_t` (`std::size_t`, wrtstat/aggregator/api/types.hpp:14). -/
def idMod : Nat := 2 ^ 64

/-- `bad_id` (wrtstat/aggregator/api/types.hpp:18), also `static_cast<id_t>(-1)`. -/
def badId : Nat := 2 ^ 64 - 1

/-- `dict` (system/dict.hpp:99-104): the two maps as association lists without duplicate keys, the
set of free ids as a list without duplicates. -/
structure Dict where
  counter : Nat
  step : Nat
  dict : List (Name × Nat) := []
  index : List (Nat × Name) := []
  free : List Nat := []
deriving DecidableEq

namespace Dict

/-- `_index.insert(std::make_pair(id, name))`: an entry of the same id stays. -/
def link (d : Dict) (id : Nat) (name : Name) : List (Nat × Name) :=
  if (d.index.lookup id).isSome then d.index else (id, name) :: d.index

/-- `dict::create_id` (system/dict.hpp:21-41).  `*_free.begin()` is an unspecified element: number
`pick`, modulo the size of the set. -/
def createId (d : Dict) (pick : Nat) (name : Name) : Nat × Dict :=
  match d.dict.lookup name with
  | some id => (id, d)
  | none =>
    match d.free[pick % d.free.length]? with
    | none =>
      let id := (d.counter + d.step) % idMod
      (id, { d with counter := id, dict := (name, id) :: d.dict, index := d.link id name })
    | some id =>
      (id, { d with free := d.free.erase id, dict := (name, id) :: d.dict, index := d.link id name })

/-- `dict::get_name` (system/dict.hpp:43-49). -/
def getName (d : Dict) (id : Nat) : Name := (d.index.lookup id).getD []

/-- `dict::get_id` (system/dict.hpp:51-57). -/
def getId (d : Dict) (name : Name) : Nat := (d.dict.lookup name).getD badId

/-- `dict::free(id_t)` (system/dict.hpp:59-69); it returns false in every case. -/
def freeId (d : Dict) (id : Nat) : Bool × Dict :=
  match d.index.lookup id with
  | none => (false, d)
  | some name =>
    (false, { d with free := d.free.insert id, dict := d.dict.filter (fun p => p.1 ≠ name),
                     index := d.index.filter (fun p => p.1 ≠ id) })

/-- `dict::free(const std::string&)` (system/dict.hpp:71-77). -/
def freeName (d : Dict) (name : Name) : Bool × Dict :=
  let id := d.getId name
  if id = badId then (false, d) else d.freeId id

/-- `dict::clear` (system/dict.hpp:79-85): the counter becomes 0. -/
def clear (d : Dict) : Dict := { d with counter := 0, dict := [], index := [], free := [] }

/-- `dict::id2pos` (system/dict.hpp:87-90). -/
def id2pos (d : Dict) (id : Nat) : M Nat :=
  if d.step = 0 then .error .divByZero else .ok ((id + d.step + (idMod - 1)) % idMod / d.step)

/-- `dict::pos2id` (system/dict.hpp:94-97). -/
def pos2id (d : Dict) (pos : Nat) : M Nat :=
  if d.step = 0 then .error .divByZero else .ok ((pos * d.step + d.counter % d.step) % idMod)

end Dict

/-- `registry_options` (wrtstat/aggregator/options/registry_options.hpp). -/
structure RegistryOpts extends AggregatorOpts where
  idInit : Nat := 0
  idStep : Nat := 1
  hasInit : Bool := false
deriving DecidableEq, Repr

/-- An aggregator in the registry, with its identity. -/
structure Cell where
  ref : Nat
  agg : Aggregator
deriving DecidableEq

/-- Data members of `aggregator_registry` (aggregator_registry.hpp).  `hasInit`: the initializer is
not null; its answers are parameters of the calls. -/
structure Registry where
  opt : AggregatorOpts
  dict : Dict
  agarr : List (Option Cell) := []
  enabled : Bool := true
  hasInit : Bool := false
  nextRef : Nat := 0
deriving DecidableEq

/-- What the surroundings decide during a call that may create an aggregator: the clock read by the
constructor, `std::rand()`, the element of the set of free ids, the answer of the initializer (the
record it fills, if it returns true) and the clock readings while that record is added. -/
structure Ask where
  clk : Int := 0
  rand : Int := 0
  pick : Nat := 0
  ini : Option ReducedData := none
  iclk1 : Int := 0
  iclk2 : Int := 0
deriving DecidableEq, Repr

/-- A pusher made by the registry: it holds the aggregator weakly. -/
structure RPusher where
  ref : Nat
  p : Aggregator.Pusher
deriving DecidableEq

namespace Registry

/-- `aggregator_registry::aggregator_registry` (aggregator_registry.cpp:6-11). -/
def new (opt : RegistryOpts) : Registry :=
  { opt := opt.toAggregatorOpts, dict := { counter := opt.idInit, step := opt.idStep }, hasInit := opt.hasInit }

/-- `aggregators_count` (aggregator_registry.cpp:13-17). -/
def aggregatorsCount (r : Registry) : Nat := r.agarr.length

/-- The aggregator with identity `ref`, if it still exists (`weak_ptr::lock`).  The registry holds the
only long-lived `shared_ptr`. -/
def find (r : Registry) (ref : Nat) : Option Aggregator :=
  (r.agarr.findSome? fun o => o.bind fun c => if c.ref = ref then some c.agg else none)

/-- The effect of a method called through a `shared_ptr`. -/
def update (r : Registry) (ref : Nat) (a : Aggregator) : Registry :=
  { r with agarr := r.agarr.map fun o => o.map fun c => if c.ref = ref then { c with agg := a } else c }

/-- `get_aggregator(id)` (aggregator_registry.cpp:113-125). -/
def getAggregator (r : Registry) (id : Nat) : M (Option Cell) :=
  if id = badId then .ok none
  else do
    let pos ← r.dict.id2pos id
    .ok (r.agarr[pos]?.join)

/-- The construction of a new aggregator (aggregator_registry.cpp:93-103). -/
def construct (env : Env) (r : Registry) (q : Ask) (now : Int) : M Aggregator := do
  let a ← Aggregator.new r.opt q.clk q.rand now
  if r.enabled = false then .ok (a.enable false)
  else if r.hasInit = true then
    match q.ini with
    | none => .ok a
    | some rd => do
      let (_, a) ← a.add env q.iclk1 q.iclk2 rd.ts (.reduced rd)
      .ok a
  else .ok a

/-- `create_aggregator` (aggregator_registry.cpp:77-106). -/
def createAggregator (env : Env) (r : Registry) (q : Ask) (name : Name) (now : Int) : M (Nat × Registry) :=
  if name = [] then .ok (badId, r)
  else do
    let (id, dict) := r.dict.createId q.pick name
    let r := { r with dict := dict }
    let pos ← r.dict.id2pos id
    match r.agarr[pos]?.join with
    | some _ => .ok (id, r)
    | none => do
      let arr := r.agarr ++ List.replicate (pos + 1 - r.agarr.length) none
      let a ← construct env r q now
      .ok (id, { r with agarr := arr.set pos (some { ref := r.nextRef, agg := a }), nextRef := r.nextRef + 1 })

/-- `add(id_t, ...)` (aggregator_registry.cpp:19-24). -/
def addId (env : Env) (r : Registry) (id : Nat) (clk1 clk2 now v : Int) (count : Nat) : M (Bool × Registry) := do
  let o ← r.getAggregator id
  match o with
  | none => .ok (false, r)
  | some c => do
    let (ok, a) ← c.agg.add env clk1 clk2 now (.one v count)
    .ok (ok, r.update c.ref a)

/-- `add(name, reduced_data)` (aggregator_registry.cpp:26-31). -/
def addData (env : Env) (r : Registry) (q : Ask) (name : Name) (clk1 clk2 : Int) (rd : ReducedData) :
    M (Bool × Registry) := do
  let (id, r) ← r.createAggregator env q name rd.ts
  let o ← r.getAggregator id
  match o with
  | none => .ok (false, r)
  | some c => do
    let (ok, a) ← c.agg.add env clk1 clk2 rd.ts (.reduced rd)
    .ok (ok, r.update c.ref a)

/-- `force_pop(id)` (aggregator_registry.cpp:33-38). -/
def forcePop (env : Env) (r : Registry) (id : Nat) : M (Option AggData × Registry) := do
  let o ← r.getAggregator id
  match o with
  | none => .ok (none, r)
  | some c => do
    let (d, a) ← c.agg.forcePop env
    .ok (d, r.update c.ref a)

/-- `pop(id)` (aggregator_registry.cpp:40-45). -/
def pop (r : Registry) (id : Nat) : M (Option AggData × Registry) := do
  let o ← r.getAggregator id
  match o with
  | none => .ok (none, r)
  | some c =>
    let (d, a) := c.agg.pop
    .ok (d, r.update c.ref a)

/-- The body of the loop of `pop_` (aggregator_registry.cpp:270-281).  `clk` is the clock read by
`separate(force)`, which is `separate(0, nullptr, force)` (basic_aggregator.cpp:101-104), for the
aggregator looked up under the given id. -/
def popStep (env : Env) (force : Bool) (clk : Nat → Int) (st : Registry × List (Name × AggData)) (i : Nat) :
    M (Registry × List (Name × AggData)) := do
  let (r, l) := st
  let id ← r.dict.pos2id i
  let o ← r.getAggregator id
  match o with
  | none => .ok (r, l)
  | some c => do
    let (_, _, a) ← c.agg.separate env (clk id) 0 false force
    let (d, a) ← (if force then a.forcePop env else .ok a.pop)
    .ok (r.update c.ref a, l ++ (d.toList.map fun d => (r.dict.getName id, d)))

/-- `pop_` (aggregator_registry.cpp:266-282), hence `pop_all` (47-54) and `force_pop_all` (56-62). -/
def popAll (env : Env) (r : Registry) (force : Bool) (clk : Nat → Int) : M (List (Name × AggData) × Registry) := do
  let (r, l) ← (List.range r.agarr.length).foldlM (popStep env force clk) (r, [])
  .ok (l, r)

/-- `get_name` (aggregator_registry.cpp:65-69). -/
def getName (r : Registry) (id : Nat) : Name := r.dict.getName id

/-- `set_initializer` (aggregator_registry.cpp:71-75). -/
def setInitializer (r : Registry) (v : Bool) : Registry := { r with hasInit := v }

/-- `create_simple_pusher`, `create_data_pusher`, `create_reduced_pusher` from an id
(aggregator_registry.cpp:149-168). -/
def pusherId (r : Registry) (id : Nat) (handler : Bool) : M (Option RPusher) := do
  let o ← r.getAggregator id
  .ok (o.map fun c => { ref := c.ref, p := c.agg.createPusher handler })

/-- The same from a name (aggregator_registry.cpp:199-221). -/
def pusherName (env : Env) (r : Registry) (q : Ask) (name : Name) (now : Int) (handler : Bool) :
    M (Option RPusher × Registry) := do
  let (id, r) ← r.createAggregator env q name now
  let p ← r.pusherId id handler
  .ok (p, r)

/-- Call of a pusher: nothing happens once the aggregator is gone (basic_aggregator.hpp:101-147). -/
def call (env : Env) (r : Registry) (p : RPusher) (clk1 clk2 ts : Int) (x : AddArg) :
    M (List AggData × Registry) :=
  match r.find p.ref with
  | none => .ok ([], r)
  | some a => do
    let (out, a) ← p.p.call env a clk1 clk2 ts x
    .ok (out, r.update p.ref a)

/-- `enable` (aggregator_registry.cpp:242-252). -/
def enable (r : Registry) (v : Bool) : Registry :=
  { r with enabled := v, agarr := r.agarr.map fun o => o.map fun c => { c with agg := c.agg.enable v } }

/-- `del` (aggregator_registry.cpp:254-264). -/
def del (r : Registry) (name : Name) : M (Bool × Registry) :=
  let id := r.dict.getId name
  if id = badId then .ok (false, r)
  else do
    let pos ← r.dict.id2pos id
    if pos < r.agarr.length then
      let (b, dict) := r.dict.freeId id
      .ok (b, { r with agarr := r.agarr.set pos none, dict := dict })
    else .error .ub

end Registry
end Wrtstat
