/-
`multi_aggregator` used by several threads (wrtstat/multi_aggregator/multi_aggregator.cpp), with handlers that may throw.

The mutex of a shard is held by a `std::lock_guard` in the section, so an exception releases it as a return does; the remaining
sections of the call are not made.  What a handler does may depend on everything; of an execution one can say what it did in
each section, so a call is given with a `Thrower` for each of its sections.
-/
import Verif.Model.MultiMt
import Verif.Model.ThrowingOut

namespace Wrtstat

set_option autoImplicit false

/-- A section, and when its handler throws. -/
structure MuSecX (n : Nat) where
  sec : MuSec n
  thr : Thrower

/-- A call, and when its handler throws in its sections. -/
structure MuCallX where
  call : MuCall
  thr : Nat → Thrower

/-- What a section or a call returns or did before it threw. -/
structure MuResX where
  res : MuRes := {}
  threw : Bool := false
deriving DecidableEq

/-- A section on its shard, run alone (multi_aggregator.cpp:35-51, 60-67, 73-78, 84-89, 96-101). -/
def AggMap.secX {n : Nat} (env : Env) (opt : MultiOpts) (s : AggMap) (x : MuSecX n) : M (MuResX × AggMap) :=
  match x.sec with
  | .push p true => do
    let (ok, l, s) ← s.pushX env opt p.name p.v p.clk p.rand p.clk1 p.clk2 fun r => x.thr [r]
    .ok ({ res := { flag := ok.toList, out := l }, threw := ok.isNone }, s)
  | .pushout _ force true ord => do
    let (l, t, s) ← s.popAllX env force x.thr [] ord
    .ok ({ res := { out := l }, threw := t }, s)
  | sec => do
    let (r, s) ← s.sec env opt sec
    .ok ({ res := r }, s)

/-- What a section may return and leave.  After a fault the shard is anything. -/
def AggMap.SecSpecX {n : Nat} (env : Env) (opt : MultiOpts) (s : AggMap) (x : MuSecX n) (r : M MuResX) (s' : AggMap) : Prop :=
  match s.secX env opt x with
  | .ok (r0, s0) => r = .ok r0 ∧ s' = s0
  | .error e => r = .error e

/-- Positions in the bodies of the sections: at the beginning, or in `push` after the aggregator was inserted. -/
inductive MuPosX (n : Nat) where
  | start (x : MuSecX n)
  | inserted (x : MuSecX n)

/-- Bodies in more than one step: `push` first inserts a new aggregator (basic_multi_aggregator.cpp:20-32), then pushes; the
others are taken in one step. -/
def AggMap.bodyX (env : Env) (opt : MultiOpts) (n : Nat) : Body AggMap (MuSecX n) (M MuResX) (MuPosX n) where
  start := .start
  next
    | .start ⟨.push p true, thr⟩, s =>
      match orNew opt (s.lookup p.name) p.clk p.rand p.v.ts with
      | .error e => (s, .inr (.error e))
      | .ok a => (s.put p.name a, .inl (.inserted ⟨.push p true, thr⟩))
    | .inserted x, s =>
      match s.secX env opt x with
      | .error e => (s, .inr (.error e))
      | .ok (r, s') => (s', .inr (.ok r))
    | .start x, s =>
      match s.secX env opt x with
      | .error e => (s, .inr (.error e))
      | .ok (r, s') => (s', .inr (.ok r))

/-- The sections of a call (multi_aggregator.cpp:35-103). -/
def MuCallX.plan (n : Nat) (c : MuCallX) : List (MuSecX n) := (c.call.plan n).mapIdx fun i sec => ⟨sec, c.thr i⟩

/-- The results of sections put together; a call that throws returns nothing. -/
def MuCallX.put (c : MuCallX) (l : List MuResX) : MuResX :=
  if l.any MuResX.threw = true then { res := { out := l.flatMap fun r => r.res.out }, threw := true }
  else { res := c.call.put (l.map MuResX.res) }

/-- `multi_aggregator` for threads, with any bodies of the sections.  A call ends with its last section, or with one that
throws. -/
def muCodeX {L : Type} (n : Nat) [NeZero n] (hash : Name → Nat) (body : Body AggMap (MuSecX n) (M MuResX) L) :
    ShCode (Fin n) AggMap (MuSecX n) (M MuResX) MuCallX (M MuResX) L where
  key x := x.sec.pos hash
  body := body
  plan := MuCallX.plan n
  ret c l := (firstFault l).map c.put
  stop r := match r with
    | .error _ => true
    | .ok r => r.threw

end Wrtstat
