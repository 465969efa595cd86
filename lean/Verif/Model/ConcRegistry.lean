/-
Threads using one registry (wrtstat/aggregator/aggregator_registry.cpp with rwlock.hpp and aggregator_mt.cpp).

A call is a sequence of critical sections of the registry lock and of the mutexes of the aggregators; between them
other threads go on.  Calls that keep the registry lock over several steps (`pop_all` for reading, `enable` for writing)
say so in `readers` and `writer`.  An aggregator removed by `del` lives on as long as a thread has a `shared_ptr` to it.

Simplifications: what happens inside one critical section is one step (C53, C56, C59); a thread whose next step
is a fault stops (executions are followed up to the first fault); a pusher tests its token together with the push (the
token of a registry aggregator is never taken away, and `clear` is not offered by the registry).
-/
import Verif.Spec.RegistrySpec
import Verif.Model.Monitor
import Mathlib.Data.Fintype.Basic

namespace Wrtstat
namespace Registry

set_option autoImplicit false

open Aggregator (AOp)

/-- Where a thread is. -/
inductive CPc where
  | idle
  /-- called, nothing done yet -/
  | want (op : RegOp)
  /-- `create_aggregator` has given the id; `get_aggregator` comes next -/
  | named (op : RegOp) (id : Nat)
  /-- has a `shared_ptr` to aggregator `k`, has not used it yet -/
  | have (op : RegOp) (k : Nat)
  /-- in `pop_`, before position `i`, with the list so far; has the registry lock for reading -/
  | sweep (force : Bool) (clk : Nat → Int) (i : Nat) (acc : List (Name × AggData))
  /-- in `pop_`, at position `i`, between `separate` and the pop of aggregator `k` -/
  | swept (force : Bool) (clk : Nat → Int) (i id k : Nat) (acc : List (Name × AggData))
  /-- in `enable`, before position `i`; has the registry lock for writing -/
  | enab (v : Bool) (i : Nat)
  /-- about to return -/
  | leave (op : RegOp) (resp : Resp)

/-- The aggregator a thread has a `shared_ptr` to. -/
def CPc.held : CPc → Option Nat
  | .have _ k => some k
  | .swept _ _ _ _ k _ => some k
  | _ => none

/-- The registry, the aggregators removed from it, the registry lock, the threads and the history.  `born`, `log` and
`out` only record the name and id each aggregator was created for, what was asked of it, and by which thread (`none` for
what its creation asks of it), and what it handed out to whom. -/
structure CReg (T : Type) where
  r : Registry
  gone : List Cell := []
  writer : Option T := none
  readers : List T := []
  pc : T → CPc := fun _ => .idle
  hist : List (HEv T RegOp Resp) := []
  born : List (Name × Nat) := []
  log : List (Option T × Nat × AOp) := []
  out : List (T × Nat × AggData) := []

namespace CReg

variable {T : Type} [DecidableEq T]

/-- Thread `t` goes on at `p`. -/
def goto (s : CReg T) (t : T) (p : CPc) : CReg T := { s with pc := Function.update s.pc t p }

/-- The registry lock can be taken for writing; for reading. -/
def freeW (s : CReg T) : Bool := s.writer.isNone && s.readers.isEmpty
def freeR (s : CReg T) : Bool := s.writer.isNone

/-- The aggregator `k`, in the registry or removed from it. -/
def aggOf (s : CReg T) (k : Nat) : Option Aggregator :=
  match s.r.find k with
  | some a => some a
  | none => (s.gone.find? fun c => c.ref = k).map Cell.agg

/-- The effect of a method of aggregator `k` called by thread `t`, with what was asked and what it handed out. -/
def setAgg (s : CReg T) (t : T) (k : Nat) (a : Aggregator) (ops : List AOp) (out : List AggData) : CReg T :=
  { s with r := s.r.update k a, gone := s.gone.map fun c => if c.ref = k then { c with agg := a } else c,
           log := s.log ++ ops.map fun op => (some t, k, op), out := s.out ++ out.map fun d => (t, k, d) }

/-- `weak_ptr::lock`: the registry or some thread has a `shared_ptr`. -/
def alive [Fintype T] (s : CReg T) (k : Nat) : Bool :=
  (s.r.find k).isSome || decide (∃ u, (s.pc u).held = some k)

/-- What a call answers when there is no aggregator. -/
def miss : RegOp → Resp
  | .addId .. => .bool false
  | .addData .. => .bool false
  | .pop _ => .record none
  | .forcePop _ => .record none
  | .pusherId .. => .pusher none
  | .pusherName .. => .pusher none
  | .call .. => .handed []
  | .direct .. => .handed []
  | _ => .unit

/-- What a call does with the aggregator `k` once it has it: the answer, the aggregator afterwards, what was asked of
it and what it handed out. -/
def use (env : Env) (k : Nat) (a : Aggregator) : RegOp → M (Resp × Aggregator × List AOp × List AggData)
  | .addId _ clk1 clk2 now v count => do
    let (b, a) ← a.add env clk1 clk2 now (.one v count)
    .ok (.bool b, a, [.add clk1 clk2 now (.one v count)], [])
  | .addData _ _ clk1 clk2 rd => do
    let (b, a) ← a.add env clk1 clk2 rd.ts (.reduced rd)
    .ok (.bool b, a, [.add clk1 clk2 rd.ts (.reduced rd)], [])
  | .pop _ => .ok (.record a.pop.1, a.pop.2, [.pop], a.pop.1.toList)
  | .forcePop _ => do
    let (d, a) ← a.forcePop env
    .ok (.record d, a, [.forcePop], d.toList)
  | .pusherId _ handler => .ok (.pusher (some { ref := k, p := a.createPusher handler }), a, [], [])
  | .pusherName _ _ _ handler => .ok (.pusher (some { ref := k, p := a.createPusher handler }), a, [], [])
  | .call p clk1 clk2 ts x => do
    let (l, a') ← p.p.call env a clk1 clk2 ts x
    .ok (.handed l, a', if p.p.token = true ∧ a.alive = true then [.push clk1 clk2 ts x p.p.handler] else [], l)
  | .direct _ op => do
    let o ← Aggregator.exec env { a := a } op
    .ok (.handed o.received, o.a, [op], o.received)
  | _ => .error .ub

/-- `get_aggregator(id)` (aggregator_registry.cpp:113-125). -/
def look (s : CReg T) (t : T) (op : RegOp) (id : Nat) : Option (CReg T) :=
  if id = badId ∨ s.freeR = true then
    match s.r.getAggregator id with
    | .ok none => some (s.goto t (.leave op (miss op)))
    | .ok (some c) => some (s.goto t (.have op c.ref))
    | .error _ => none
  else none

/-- `create_aggregator` (aggregator_registry.cpp:77-106), then `next`. -/
def create (env : Env) (s : CReg T) (t : T) (q : Ask) (name : Name) (now : Int) (next : Nat → CPc) : Option (CReg T) :=
  if name = [] ∨ s.freeW = true then
    match s.r.createAggregator env q name now with
    | .ok (id, r) =>
      some ({ s with r := r, born := s.born ++ (if r.nextRef = s.r.nextRef then [] else [(name, id)]),
                     log := s.log ++ (if r.nextRef = s.r.nextRef then [] else
                       (s.r.birth q).map fun op => (none, s.r.nextRef, op)) }.goto t (next id))
    | .error _ => none
  else none

/-- The aggregators that `del` removes (aggregator_registry.cpp:254-264). -/
def dropped (r : Registry) (name : Name) : List Cell := (r.getAggregator (r.dict.getId name)).toOption.join.toList

/-- The first step of a call. -/
def start [Fintype T] (env : Env) (s : CReg T) (t : T) : RegOp → Option (CReg T)
  | .create q name now => s.create env t q name now fun id => .leave (.create q name now) (.id id)
  | .addData q name clk1 clk2 rd => s.create env t q name rd.ts (.named (.addData q name clk1 clk2 rd))
  | .pusherName q name now handler => s.create env t q name now (.named (.pusherName q name now handler))
  | .addId id clk1 clk2 now v count => s.look t (.addId id clk1 clk2 now v count) id
  | .pop id => s.look t (.pop id) id
  | .forcePop id => s.look t (.forcePop id) id
  | .pusherId id handler => s.look t (.pusherId id handler) id
  | .direct id op => s.look t (.direct id op) id
  | .call p clk1 clk2 ts x =>
    if s.alive p.ref = true then some (s.goto t (.have (.call p clk1 clk2 ts x) p.ref))
    else some (s.goto t (.leave (.call p clk1 clk2 ts x) (.handed [])))
  | .getName id => if s.freeR = true then some (s.goto t (.leave (.getName id) (.name (s.r.getName id)))) else none
  | .setInit v =>
    if s.freeW = true then some ({ s with r := s.r.setInitializer v }.goto t (.leave (.setInit v) .unit)) else none
  | .del name =>
    if s.freeW = true then
      match s.r.del name with
      | .ok (b, r) => some ({ s with r := r, gone := s.gone ++ dropped s.r name }.goto t (.leave (.del name) (.bool b)))
      | .error _ => none
    else none
  | .popAll force clk => if s.freeR = true then some ({ s with readers := t :: s.readers }.goto t (.sweep force clk 0 [])) else none
  | .enable v =>
    if s.freeW = true then some ({ s with r := { s.r with enabled := v }, writer := some t }.goto t (.enab v 0)) else none

/-- The next step of thread `t`. -/
def move [Fintype T] (env : Env) (s : CReg T) (t : T) : Option (CReg T) :=
  match s.pc t with
  | .idle => none
  | .want op => s.start env t op
  | .named op id => s.look t op id
  | .have op k =>
    match s.aggOf k with
    | none => none
    | some a =>
      match use env k a op with
      | .ok (resp, a, ops, out) => some ((s.setAgg t k a ops out).goto t (.leave op resp))
      | .error _ => none
  | .sweep force clk i acc =>
    if i < s.r.agarr.length then
      match s.r.dict.pos2id i with
      | .error _ => none
      | .ok id =>
        match s.r.getAggregator id with
        | .error _ => none
        | .ok none => some (s.goto t (.sweep force clk (i + 1) acc))
        | .ok (some c) =>
          match c.agg.separate env (clk id) 0 false force with
          | .error _ => none
          | .ok (_, out, a) =>
            some ((s.setAgg t c.ref a [.separate (clk id) 0 false force] out).goto t (.swept force clk i id c.ref acc))
    else some ({ s with readers := s.readers.erase t }.goto t (.leave (.popAll force clk) (.records acc)))
  | .swept force clk i id k acc =>
    match s.aggOf k with
    | none => none
    | some a =>
      match (if force then a.forcePop env else .ok a.pop) with
      | .error _ => none
      | .ok (d, a) =>
        some ((s.setAgg t k a [if force then .forcePop else .pop] d.toList).goto t
          (.sweep force clk (i + 1) (acc ++ d.toList.map fun d => (s.r.dict.getName id, d))))
  | .enab v i =>
    if i < s.r.agarr.length then
      match s.r.agarr[i]?.join with
      | none => some (s.goto t (.enab v (i + 1)))
      | some c => some ((s.setAgg t c.ref (c.agg.enable v) [.enable v] []).goto t (.enab v (i + 1)))
    else some ({ s with writer := none }.goto t (.leave (.enable v) .unit))
  | .leave op resp => some ({ s with hist := s.hist ++ [HEv.res t op resp] }.goto t .idle)

/-- A thread makes a call. -/
def call (s : CReg T) (t : T) (op : RegOp) : CReg T := { s with hist := s.hist ++ [HEv.inv t op] }.goto t (.want op)

/-- The steps of a system in which threads make only calls in `P`. -/
inductive Step [Fintype T] (env : Env) (P : RegOp → Prop) : CReg T → CReg T → Prop
  | call (s : CReg T) (t : T) (op : RegOp) (hp : P op) (h : s.pc t = .idle) : Step env P s (s.call t op)
  | move (s s' : CReg T) (t : T) (h : s.move env t = some s') : Step env P s s'

/-- An unused registry. -/
def init (r : Registry) : CReg T := { r := r }

/-- A schedule: which thread goes on, or makes which call. -/
inductive Turn (T : Type) where
  | call (t : T) (op : RegOp)
  | go (t : T)

/-- Run a schedule; `none` if some turn is impossible. -/
def play [Fintype T] (env : Env) (s : CReg T) : List (Turn T) → Option (CReg T)
  | [] => some s
  | .call t op :: l => match s.pc t with
    | .idle => play env (s.call t op) l
    | _ => none
  | .go t :: l => match s.move env t with
    | some s' => play env s' l
    | none => none

end CReg

/-- Calls that consist of one critical section, or of looking an aggregator up and one critical section of it. -/
def RegOp.simple : RegOp → Prop
  | .addData .. => False
  | .pusherName .. => False
  | .popAll .. => False
  | .enable _ => False
  | _ => True

/-- The registry used by one thread: what linearizability is measured against. -/
def RegSpec (env : Env) (r : Registry) (op : RegOp) (resp : Resp) (r' : Registry) : Prop := r.step env op = .ok (resp, r')

end Registry
end Wrtstat
