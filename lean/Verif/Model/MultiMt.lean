/-
`multi_aggregator` used by several threads (wrtstat/multi_aggregator/multi_aggregator.cpp): a mutex for each shard.

Readings of the clock, values of `std::rand` and the order of iteration in the maps belong to the calls, as in
`Model/Multi.lean`.  Handlers are called with the mutex held; they take no mutex of the same object.
-/
import Verif.Model.Multi
import Verif.Model.Sharded

namespace Wrtstat

set_option autoImplicit false

/-- The critical sections of a `multi_aggregator` with `n` shards: `push` (multi_aggregator.cpp:35-51), `del` (60-67),
one round of the loops of `pushout` and `force_pushout` (73-78, 84-89) and of `size` (96-101). -/
inductive MuSec (n : Nat) where
  | push (p : Multi.PushArg) (handler : Bool)
  | del (name : Name)
  | pushout (i : Fin n) (force handler : Bool) (ord : IterOrder)
  | size (i : Fin n)

/-- The calls. -/
inductive MuCall where
  | push (p : Multi.PushArg) (handler : Bool)
  | multiPush (ps : List Multi.PushArg) (handler : Bool)
  | del (name : Name)
  | pushout (force handler : Bool) (ord : IterOrder)
  | size

/-- What a section or a call returns: the flag, if any, the requests handed to the handler, the numbers of names and of
samples. -/
structure MuRes where
  flag : List Bool := []
  out : List PushReq := []
  names : Nat := 0
  samples : Nat := 0
deriving DecidableEq

/-- A section on its shard, run alone. -/
def AggMap.sec {n : Nat} (env : Env) (opt : MultiOpts) (s : AggMap) : MuSec n → M (MuRes × AggMap)
  | .push p handler => do
    let (ok, l, s) ← s.push env opt p.name p.v p.clk p.rand p.clk1 p.clk2 handler
    .ok ({ flag := [ok], out := l }, s)
  | .del name => .ok ({ flag := [(s.del name).1] }, (s.del name).2)
  | .pushout _ force handler ord => do
    let (l, s) ← s.popAll env force handler ord
    .ok ({ out := l }, s)
  | .size _ => .ok ({ names := s.length, samples := (s.map fun p => p.2.dataSize).sum }, s)

/-- What a section may return and leave.  After a fault the shard is anything. -/
def AggMap.SecSpec {n : Nat} (env : Env) (opt : MultiOpts) (s : AggMap) (sec : MuSec n) (r : M MuRes) (s' : AggMap) : Prop :=
  match s.sec env opt sec with
  | .ok (r0, s0) => r = .ok r0 ∧ s' = s0
  | .error e => r = .error e

/-- Positions in the bodies of the sections: at the beginning, or in `push` after the aggregator was inserted
(basic_multi_aggregator.cpp:20-32). -/
inductive MuPos (n : Nat) where
  | start (sec : MuSec n)
  | inserted (p : Multi.PushArg) (handler : Bool)

/-- Bodies in more than one step: `push` first inserts a new aggregator, then pushes; the others are taken in one step. -/
def AggMap.body (env : Env) (opt : MultiOpts) (n : Nat) : Body AggMap (MuSec n) (M MuRes) (MuPos n) where
  start := .start
  next
    | .start (.push p handler), s =>
      match orNew opt (s.lookup p.name) p.clk p.rand p.v.ts with
      | .error e => (s, .inr (.error e))
      | .ok a => (s.put p.name a, .inl (.inserted p handler))
    | .inserted p handler, s =>
      match s.sec (n := n) env opt (.push p handler) with
      | .error e => (s, .inr (.error e))
      | .ok (r, s') => (s', .inr (.ok r))
    | .start sec, s =>
      match s.sec env opt sec with
      | .error e => (s, .inr (.error e))
      | .ok (r, s') => (s', .inr (.ok r))

/-- The results of sections put together: `multi_push` ignores the flags and returns true
(multi_aggregator.cpp:53-58), the requests were handed over in turn, the numbers are added. -/
def MuCall.put (c : MuCall) (l : List MuRes) : MuRes :=
  { flag := match c with
      | .multiPush _ _ => [true]
      | _ => l.flatMap MuRes.flag
    out := l.flatMap MuRes.out
    names := (l.map MuRes.names).sum
    samples := (l.map MuRes.samples).sum }

/-- The results without fault, or the first fault. -/
def firstFault {α : Type} (l : List (M α)) : M (List α) := l.mapM id

/-- `get_pos_` (multi_aggregator.cpp:107-110). -/
def MuSec.pos {n : Nat} [NeZero n] (hash : Name → Nat) : MuSec n → Fin n
  | .push p _ => Fin.ofNat n (hash p.name)
  | .del name => Fin.ofNat n (hash name)
  | .pushout i _ _ _ => i
  | .size i => i

/-- The sections of a call (multi_aggregator.cpp:35-103). -/
def MuCall.plan (n : Nat) : MuCall → List (MuSec n)
  | .push p handler => [.push p handler]
  | .multiPush ps handler => ps.map fun p => .push p handler
  | .del name => [.del name]
  | .pushout force handler ord => (List.finRange n).map fun i => .pushout i force handler ord
  | .size => (List.finRange n).map fun i => .size i

/-- `multi_aggregator` for threads, with any bodies of the sections. -/
def muCode {L : Type} (n : Nat) [NeZero n] (hash : Name → Nat) (body : Body AggMap (MuSec n) (M MuRes) L) :
    ShCode (Fin n) AggMap (MuSec n) (M MuRes) MuCall (M MuRes) L where
  key := MuSec.pos hash
  body := body
  plan := MuCall.plan n
  ret c l := (firstFault l).map c.put
  stop r := match r with
    | .error _ => true
    | .ok _ => false

/-- A call on the object when no other thread is there. -/
def Multi.call (env : Env) (m : Multi) : MuCall → M (MuRes × Multi)
  | .push p handler => do
    let (ok, l, m) ← m.push env p.name p.v p.clk p.rand p.clk1 p.clk2 handler
    .ok ({ flag := [ok], out := l }, m)
  | .multiPush ps handler => do
    let (l, m) ← multiPush env handler ps m
    .ok ({ flag := [true], out := l }, m)
  | .del name => do
    let (b, m) ← m.del name
    .ok ({ flag := [b] }, m)
  | .pushout force handler ord => do
    let (l, m) ← m.popAll env force handler ord
    .ok ({ out := l }, m)
  | .size => .ok ({ names := m.size.1, samples := m.size.2 }, m)

end Wrtstat
