/-
Model of wrtstat/multi_aggregator/{basic_multi_aggregator,multi_aggregator}.{hpp,cpp}.

Every operation on a shard is made under the mutex of the shard, so that operations are modelled as
atomic.  The handler is represented by whether there is one (`handler`) and by the list of requests
handed to it.  Pools (`_pool`) only recycle memory and are left out.
-/
import Verif.Model.Registry

namespace Wrtstat

/-- `multi_aggregator_options` (multi_aggregator_options.hpp:14-19). -/
structure MultiOpts extends AggregatorOpts where
  hashSize : Nat := 4096
deriving DecidableEq, Repr

/-- A `request::push` (api/push.hpp:16-20): a name and a record. -/
abbrev PushReq := Name × AggData

/-- `_aggregator_map` (basic_multi_aggregator.hpp:29, 47): names are unique keys.  The position of
the entries in the list means nothing. -/
abbrev AggMap := List (Name × Aggregator)

/-- The order in which a range-based loop over an `unordered_map` visits the keys: any permutation of
them. -/
structure IterOrder where
  order : List Name → List Name
  perm : ∀ l, (order l).Perm l

/-- `reducer::size` summed up by `basic_aggregator::size` and `separator::size`
(basic_aggregator.cpp:167-181, separator.cpp:216-231). -/
def Aggregator.dataSize (a : Aggregator) : Nat :=
  (a.agList.map fun d => d.data.length).sum + (a.sep.sepList.map fun d => d.data.length).sum + a.sep.reducer.size

/-- `static_cast<reduced_data&>(*p) = std::move(*ag)` into a new request
(basic_multi_aggregator.cpp:36): the percentiles keep their default value. -/
def AggData.asReduced (d : AggData) : AggData := { d with toPerc := {} }

namespace AggMap

/-- Change the aggregator of a name, or insert it. -/
def put (m : AggMap) (n : Name) (a : Aggregator) : AggMap :=
  if n ∈ m.map Prod.fst then m.map fun p => if p.1 = n then (n, a) else p else (n, a) :: m

/-- The aggregator of the name, or a new one (basic_multi_aggregator.cpp:20-32). -/
def orNew (opt : MultiOpts) (o : Option Aggregator) (clk rand ts : Int) : M Aggregator :=
  match o with
  | some a => .ok a
  | none => Aggregator.new opt.toAggregatorOpts clk rand ts

/-- `basic_multi_aggregator::push` (basic_multi_aggregator.cpp:18-40, 52-55).  `clk`, `rand` are what
the constructor of a new aggregator reads, `clk1`, `clk2` what the push reads. -/
def push (env : Env) (opt : MultiOpts) (m : AggMap) (name : Name) (v : ReducedData) (clk rand clk1 clk2 : Int)
    (handler : Bool) : M (Bool × List PushReq × AggMap) := do
  let a ← orNew opt (m.lookup name) clk rand v.ts
  let (ok, out, a) ← a.push env clk1 clk2 v.ts (.reduced v) true
  if out ≠ [] ∧ handler = false then .error .badFunctionCall
  else .ok (ok, out.map fun d => (name, d.asReduced), m.put name a)

/-- `basic_multi_aggregator::del` (basic_multi_aggregator.cpp:42-49). -/
def del (m : AggMap) (name : Name) : Bool × AggMap :=
  match m.lookup name with
  | none => (false, m)
  | some _ => (true, m.filter fun p => p.1 ≠ name)

/-- `item.second->pop()` and `item.second->force_pop()` (basic_multi_aggregator.cpp:61, 84). -/
def popOne (env : Env) (force : Bool) (a : Aggregator) : M (Option AggData × Aggregator) :=
  if force then a.forcePop env else .ok a.pop

/-- The loops of `pushout` and `force_pushout` (basic_multi_aggregator.cpp:59-68, 82-91) over the keys
in the order given. -/
def popLoop (env : Env) (force handler : Bool) : List Name → AggMap → M (List PushReq × AggMap)
  | [], m => .ok ([], m)
  | n :: ns, m =>
    match m.lookup n with
    | none => popLoop env force handler ns m
    | some a => do
      let (d, a) ← popOne env force a
      if d.isSome ∧ handler = false then .error .badFunctionCall
      else do
        let (l, m) ← popLoop env force handler ns (m.put n a)
        .ok (d.toList.map (fun d => (n, d)) ++ l, m)

/-- `basic_multi_aggregator::pushout` and `force_pushout` (basic_multi_aggregator.cpp:57-69, 80-92). -/
def popAll (env : Env) (force handler : Bool) (ord : IterOrder) (m : AggMap) : M (List PushReq × AggMap) :=
  popLoop env force handler (ord.order (m.map Prod.fst)) m

end AggMap

/-- Data members of `multi_aggregator` (multi_aggregator.hpp:53-58). -/
structure Multi where
  opt : MultiOpts
  hash : Name → Nat
  shards : List AggMap

namespace Multi

/-- `multi_aggregator::multi_aggregator` and `initialize_` (multi_aggregator.cpp:12-16, 112-122). -/
def new (hash : Name → Nat) (opt : MultiOpts) : Multi :=
  { opt := opt, hash := hash, shards := List.replicate opt.hashSize [] }

/-- `get_pos_` (multi_aggregator.cpp:107-110). -/
def getPos (m : Multi) (name : Name) : M Nat :=
  if m.opt.hashSize = 0 then .error .divByZero else .ok (m.hash name % m.opt.hashSize)

/-- `_aggregator_list[pos]`. -/
def shard (m : Multi) (pos : Nat) : M AggMap :=
  match m.shards[pos]? with
  | none => .error .ub
  | some s => .ok s

/-- `multi_aggregator::push` (multi_aggregator.cpp:35-51). -/
def push (env : Env) (m : Multi) (name : Name) (v : ReducedData) (clk rand clk1 clk2 : Int) (handler : Bool) :
    M (Bool × List PushReq × Multi) := do
  let pos ← m.getPos name
  let s ← m.shard pos
  let (ok, l, s) ← s.push env m.opt name v clk rand clk1 clk2 handler
  .ok (ok, l, { m with shards := m.shards.set pos s })

/-- One request of a `multi_push`, with what is read from the clock and from `std::rand` for it. -/
structure PushArg where
  name : Name
  v : ReducedData
  clk : Int := 0
  rand : Int := 0
  clk1 : Int := 0
  clk2 : Int := 0

/-- `multi_aggregator::multi_push` (multi_aggregator.cpp:53-58). -/
def multiPush (env : Env) (handler : Bool) : List PushArg → Multi → M (List PushReq × Multi)
  | [], m => .ok ([], m)
  | p :: ps, m => do
    let (_, l, m) ← m.push env p.name p.v p.clk p.rand p.clk1 p.clk2 handler
    let (l', m) ← multiPush env handler ps m
    .ok (l ++ l', m)

/-- `multi_aggregator::del` (multi_aggregator.cpp:60-67). -/
def del (m : Multi) (name : Name) : M (Bool × Multi) := do
  let pos ← m.getPos name
  let s ← m.shard pos
  .ok ((s.del name).1, { m with shards := m.shards.set pos (s.del name).2 })

/-- The loops of `pushout` and `force_pushout` (multi_aggregator.cpp:70-90). -/
def popShards (env : Env) (force handler : Bool) (ord : IterOrder) : List AggMap → M (List PushReq × List AggMap)
  | [] => .ok ([], [])
  | s :: ss => do
    let (l, s) ← s.popAll env force handler ord
    let (l', ss) ← popShards env force handler ord ss
    .ok (l ++ l', s :: ss)

/-- `multi_aggregator::pushout` and `force_pushout` (multi_aggregator.cpp:70-90). -/
def popAll (env : Env) (m : Multi) (force handler : Bool) (ord : IterOrder) : M (List PushReq × Multi) := do
  let (l, ss) ← popShards env force handler ord m.shards
  .ok (l, { m with shards := ss })

/-- `multi_aggregator::size` (multi_aggregator.cpp:92-103): the number of names, and the number of
samples added to `*data_size`. -/
def size (m : Multi) : Nat × Nat :=
  ((m.shards.map List.length).sum, (m.shards.map fun s => (s.map fun p => p.2.dataSize).sum).sum)

end Multi
end Wrtstat
