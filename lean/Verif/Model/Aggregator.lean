/-
Model of wrtstat/aggregator/basic_aggregator.{hpp,cpp} and aggregator.{hpp,cpp}.

`aggregator` adds only `shared_from_this` plumbing and pushers to `basic_aggregator`.
The life of `_id` (the token held weakly by pushers) is the flag `alive`.
-/
import Verif.Model.Separator

namespace Wrtstat

/-- Data members of `basic_aggregator` (basic_aggregator.hpp). -/
structure Aggregator where
  sep : Separator
  outSize : Nat
  enabled : Bool := true
  agList : List AggData := []
  alive : Bool := true
deriving DecidableEq

namespace Aggregator

/-- `basic_aggregator::basic_aggregator` (basic_aggregator.cpp:6-11). -/
def new (opt : AggregatorOpts) (clk rand ts : Int) : M Aggregator := do
  let sep ← Separator.new opt.toSeparatorOpts clk rand ts
  .ok { sep := sep, outSize := opt.outSize }

/-- `basic_aggregator::nth_` (basic_aggregator.cpp:191-202): returns the value, the new offset and
the permuted vector. -/
def nth_ (E : NthElement) (perc off : Nat) (d : List Int) : M (Int × Nat × List Int) :=
  let k := d.length * perc / 100
  if k < off then do
    let x ← deref d off
    .ok (x, off, d)
  else do
    let d ← nthRange E d off k
    let x ← deref d k
    .ok (x, k - off, d)

/-- `basic_aggregator::calc_perc` (basic_aggregator.cpp:142-154), and the body of `aggregate2_` on a
non-null record (basic_aggregator.cpp:265-276). -/
def calcPerc (E : NthElement) (ag : AggData) : M AggData :=
  let s := ag.data.length
  if s ≠ 0 then do
    let (p50, off, d) ← nth_ E 50 0 ag.data
    let (p80, off, d) ← nth_ E 80 off d
    let (p95, off, d) ← nth_ E 95 off d
    let (p99, _, d) ← nth_ E 99 off d
    let p100 ← deref d (s - 1)
    .ok { ag with data := d, perc50 := p50, perc80 := p80, perc95 := p95, perc99 := p99,
                  perc100 := p100 }
  else .ok ag

/-- `std::remove_if` with a predicate on the running index: keeps, in order, the elements at the
positions (counted from `i`) where `keep` holds. -/
def keepIdx (keep : Nat → Bool) : Nat → List Int → List Int
  | _, [] => []
  | i, x :: l => if keep i then x :: keepIdx keep (i + 1) l else keepIdx keep (i + 1) l

/-- `basic_aggregator::reduce_` (basic_aggregator.cpp:204-236).  When `remove_if` removes nothing
or everything the vector is not resized; if everything was "removed" its contents are unspecified
by the standard, which is reported as a fault. -/
def reduce_ (outSize : Nat) (d : List Int) : M (List Int) :=
  if outSize = 0 ∨ d.length ≤ outSize then .ok d
  else
    let k := if outSize * 2 > d.length then
        let step := d.length / (d.length - outSize)
        keepIdx (fun i => decide (i % step ≠ 0)) 0 d
      else
        let step := d.length / outSize
        keepIdx (fun i => decide (i % step = 0)) 0 d
    if k.length = 0 then .error .ub else .ok k

/-- `aggregate2_` followed by `reduce_`, as at every call site (basic_aggregator.cpp:124-129,
134-139, 242-243, 283-284). -/
def finish (E : NthElement) (outSize : Nat) (d : AggData) : M AggData := do
  let ag ← calcPerc E d
  let data ← reduce_ outSize ag.data
  .ok { ag with data := data }

/-- `aggregate0_` (basic_aggregator.cpp:238-246). -/
def aggregate0_ (E : NthElement) (a : Aggregator) : M Aggregator := do
  let l ← a.sep.sepList.mapM (finish E a.outSize)
  .ok { a with sep := { a.sep with sepList := [] }, agList := a.agList ++ l }

/-- `basic_aggregator::add` (basic_aggregator.cpp:33-43, 55-65, 79-87). -/
def add (env : Env) (a : Aggregator) (clk1 clk2 ts : Int) (x : AddArg) : M (Bool × Aggregator) :=
  if a.enabled = false then .ok (true, a)
  else do
    let (ok, sep) ← a.sep.add env clk1 clk2 ts x
    let a := { a with sep := sep }
    if ok = false then .ok (false, a)
    else do
      let a ← aggregate0_ env.nth a
      .ok (true, a)

/-- `basic_aggregator::push` (basic_aggregator.cpp:45-52, 67-77, 89-98), with the records handed to
the handler by `push_handler_` (basic_aggregator.cpp:279-287). -/
def push (env : Env) (a : Aggregator) (clk1 clk2 ts : Int) (x : AddArg) (handler : Bool) :
    M (Bool × List AggData × Aggregator) :=
  if a.enabled = false then .ok (true, [], a)
  else if handler = false then do
    let (ok, a) ← a.add env clk1 clk2 ts x
    .ok (ok, [], a)
  else do
    let (ok, out, sep) ← a.sep.push env clk1 clk2 ts x true
    let out ← out.mapM (finish env.nth a.outSize)
    .ok (ok, out, { a with sep := sep })

/-- `basic_aggregator::separate` (basic_aggregator.cpp:106-111); the handler receives the records of
the separator as they are. -/
def separate (env : Env) (a : Aggregator) (clk ts : Int) (handler force : Bool) :
    M (Bool × List AggData × Aggregator) := do
  let (res, out, sep) ← a.sep.separate env clk ts handler force
  let a ← aggregate0_ env.nth { a with sep := sep }
  .ok (res, out, a)

/-- `basic_aggregator::pop` (basic_aggregator.cpp:113-120). -/
def pop (a : Aggregator) : Option AggData × Aggregator :=
  match a.agList with
  | [] => (none, a)
  | d :: l => (some d, { a with agList := l })

/-- `basic_aggregator::force_pop` (basic_aggregator.cpp:122-130). -/
def forcePop (env : Env) (a : Aggregator) : M (Option AggData × Aggregator) := do
  let (o, sep) ← a.sep.forcePop env
  match o with
  | none => .ok (none, { a with sep := sep })
  | some d => do
    let ag ← finish env.nth a.outSize d
    .ok (some ag, { a with sep := sep })

/-- `basic_aggregator::aggregate_current` (basic_aggregator.cpp:132-140). -/
def aggregateCurrent (env : Env) (a : Aggregator) : M (Option AggData) := do
  let o ← a.sep.getCurrent env
  match o with
  | none => .ok none
  | some d => do
    let ag ← finish env.nth a.outSize d
    .ok (some ag)

/-- `basic_aggregator::enable` (basic_aggregator.cpp:157-160). -/
def enable (a : Aggregator) (v : Bool) : Aggregator := { a with enabled := v }

/-- `basic_aggregator::size` (basic_aggregator.cpp:162-165). -/
def size (a : Aggregator) : Nat := a.agList.length

/-- `basic_aggregator::clear` (basic_aggregator.cpp:184-189). -/
def clear (a : Aggregator) (clk ts : Int) : M Aggregator := do
  let sep ← a.sep.clear clk ts
  .ok { a with sep := sep, agList := [], alive := false }

/-- A pusher made by `create_simple_pusher`, `create_data_pusher` or `create_reduced_pusher`
(basic_aggregator.hpp:101-147).  It holds `_id` weakly: `token` says whether there was an `_id` to
hold.  (It also holds the aggregator weakly; the model is about aggregators that exist.) -/
structure Pusher where
  token : Bool
  handler : Bool
deriving DecidableEq

/-- `create_*_pusher` (basic_aggregator.hpp:101-104, 117-120, 133-136). -/
def createPusher (a : Aggregator) (handler : Bool) : Pusher := { token := a.alive, handler := handler }

/-- Call of a pusher (basic_aggregator.hpp:105-113, 121-129, 137-145): the token is alive if there
was one and `clear` was not called since (nothing ever makes a new `_id`). -/
def Pusher.call (env : Env) (p : Pusher) (a : Aggregator) (clk1 clk2 ts : Int) (x : AddArg) :
    M (List AggData × Aggregator) :=
  if p.token = true ∧ a.alive = true then do
    let (_, out, a) ← a.push env clk1 clk2 ts x p.handler
    .ok (out, a)
  else .ok ([], a)

end Aggregator
end Wrtstat
