/-
An object protected by one mutex, used by any number of threads, as in wrtstat/aggregator/aggregator_mt.cpp: every
operation is `{ std::lock_guard lk(_mutex); return basic_aggregator::operation(...); }`.

The body of an operation is any sequence of small steps on the shared state; other threads may go on between
them.
-/
import Verif.Model.Aggregator
import Mathlib.Logic.Function.Basic

namespace Wrtstat

set_option autoImplicit false

/-- The bodies of the operations: where to start, and the small steps. -/
structure Body (S Op Ret L : Type) where
  start : Op → L
  next : L → S → S × (L ⊕ Ret)

/-- Where a thread is: outside, waiting for the mutex, in the body, or about to release the mutex and return. -/
inductive MonPc (Op Ret L : Type) where
  | idle
  | want (op : Op)
  | run (op : Op) (l : L)
  | leave (op : Op) (r : Ret)

/-- What can be seen from outside. -/
inductive HEv (T Op Ret : Type) where
  | inv (t : T) (op : Op)
  | res (t : T) (op : Op) (r : Ret)

/-- The shared state, the mutex, the threads, and the history. -/
structure Mon (T S Op Ret L : Type) where
  shared : S
  owner : Option T
  pc : T → MonPc Op Ret L
  hist : List (HEv T Op Ret)

namespace Mon

variable {T S Op Ret L : Type} [DecidableEq T]

/-- Before any call. -/
def init (s : S) : Mon T S Op Ret L := { shared := s, owner := none, pc := fun _ => .idle, hist := [] }

/-- The steps of the threads. -/
inductive Step (b : Body S Op Ret L) : Mon T S Op Ret L → Mon T S Op Ret L → Prop
  | call (m : Mon T S Op Ret L) (t : T) (op : Op) (h : m.pc t = .idle) :
      Step b m { m with pc := Function.update m.pc t (.want op), hist := m.hist ++ [.inv t op] }
  | lock (m : Mon T S Op Ret L) (t : T) (op : Op) (h : m.pc t = .want op) (ho : m.owner = none) :
      Step b m { m with pc := Function.update m.pc t (.run op (b.start op)), owner := some t }
  | small (m : Mon T S Op Ret L) (t : T) (op : Op) (l l' : L) (s' : S) (h : m.pc t = .run op l)
      (hn : b.next l m.shared = (s', .inl l')) :
      Step b m { m with shared := s', pc := Function.update m.pc t (.run op l') }
  | last (m : Mon T S Op Ret L) (t : T) (op : Op) (l : L) (r : Ret) (s' : S) (h : m.pc t = .run op l)
      (hn : b.next l m.shared = (s', .inr r)) :
      Step b m { m with shared := s', pc := Function.update m.pc t (.leave op r) }
  | unlock (m : Mon T S Op Ret L) (t : T) (op : Op) (r : Ret) (h : m.pc t = .leave op r) :
      Step b m { m with pc := Function.update m.pc t .idle, owner := none, hist := m.hist ++ [.res t op r] }

end Mon

/-- The body run alone from `l` and `s` returns `r` and leaves `s'`. -/
inductive Body.Runs {S Op Ret L : Type} (b : Body S Op Ret L) : L → S → Ret → S → Prop
  | last (l : L) (s s' : S) (r : Ret) (h : b.next l s = (s', .inr r)) : Runs b l s r s'
  | small (l l' : L) (s s1 s' : S) (r : Ret) (h : b.next l s = (s1, .inl l')) (hr : Runs b l' s1 r s') : Runs b l s r s'

/-! ### `aggregator_mt` -/

/-- The operations of `aggregator_mt`, with the clock readings they make. -/
inductive MtOp where
  | add (clk1 clk2 ts : Int) (x : AddArg)
  | push (clk1 clk2 ts : Int) (x : AddArg) (handler : Bool)
  | pop
  | forcePop
  | aggregateCurrent
  | separate (clk ts : Int) (handler force : Bool)
  | enable (v : Bool)
  | createPusher (handler : Bool)
  | size
  | clear (clk ts : Int)
deriving DecidableEq

/-- What they return, and hand to the handler. -/
inductive MtRet where
  | unit
  | bool (b : Bool)
  | handed (b : Bool) (out : List AggData)
  | record (o : Option AggData)
  | pusher (p : Aggregator.Pusher)
  | num (n : Nat)
deriving DecidableEq

/-- An operation of `aggregator_mt` without the mutex: the operation of `basic_aggregator`
(aggregator_mt.cpp:10-113). -/
def Aggregator.mtExec (env : Env) (a : Aggregator) : MtOp → M (MtRet × Aggregator)
  | .add c1 c2 ts x => do
    let (ok, a) ← a.add env c1 c2 ts x
    .ok (.bool ok, a)
  | .push c1 c2 ts x h => do
    let (ok, out, a) ← a.push env c1 c2 ts x h
    .ok (.handed ok out, a)
  | .pop => .ok (.record a.pop.1, a.pop.2)
  | .forcePop => do
    let (o, a) ← a.forcePop env
    .ok (.record o, a)
  | .aggregateCurrent => do
    let o ← a.aggregateCurrent env
    .ok (.record o, a)
  | .separate c ts h f => do
    let (ok, out, a) ← a.separate env c ts h f
    .ok (.handed ok out, a)
  | .enable v => .ok (.unit, a.enable v)
  | .createPusher h => .ok (.pusher (a.createPusher h), a)
  | .size => .ok (.num a.size, a)
  | .clear c ts => do
    let a ← a.clear c ts
    .ok (.unit, a)

/-- The operations of `aggregator_mt` in sequence: what one of them returns, and the state after it.  After a fault
the state is anything. -/
def Aggregator.MtSpec (env : Env) (a : Aggregator) (op : MtOp) (r : M MtRet) (a' : Aggregator) : Prop :=
  match a.mtExec env op with
  | .ok (r0, a0) => r = .ok r0 ∧ a' = a0
  | .error e => r = .error e

/-- Positions in the bodies: at the beginning, or about to fetch the records of the separator
(`aggregate0_`). -/
inductive MtPos where
  | start (op : MtOp)
  | fetch (r : MtRet)

/-- Bodies in more than one step: `add` and `separate` first work on the separator, then fetch its records; the
others are taken in one step. -/
def Aggregator.mtBody (env : Env) : Body Aggregator MtOp (M MtRet) MtPos where
  start := .start
  next
    | .start (.add c1 c2 ts x), a =>
      if a.enabled = false then (a, .inr (.ok (.bool true)))
      else match a.sep.add env c1 c2 ts x with
        | .error e => (a, .inr (.error e))
        | .ok (ok, sep) =>
          ({ a with sep := sep }, if ok = false then .inr (.ok (.bool false)) else .inl (.fetch (.bool true)))
    | .start (.separate c ts h f), a =>
      match a.sep.separate env c ts h f with
      | .error e => (a, .inr (.error e))
      | .ok (res, out, sep) => ({ a with sep := sep }, .inl (.fetch (.handed res out)))
    | .start op, a =>
      match a.mtExec env op with
      | .error e => (a, .inr (.error e))
      | .ok (r, a') => (a', .inr (.ok r))
    | .fetch r, a =>
      match Aggregator.aggregate0_ env.nth a with
      | .error e => (a, .inr (.error e))
      | .ok a' => (a', .inr (.ok r))

end Wrtstat
