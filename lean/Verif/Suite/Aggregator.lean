/-
The unit tests of the repository for the separator, the aggregator, the multi-aggregator and the registry
(tests/separator_suite.cpp, aggregator_suite.cpp, multi_aggregator_suite.cpp, wrtstat_suite.cpp), run on the model.

Each test is a function that is true when all expectations hold.  `separator2` and `wrtstat3` measure the clock and are left
out; `wrtstat1` expects nothing.
-/
import Verif.Props.Double
import Verif.Model.Wrtstat
import Verif.Model.Multi

namespace Wrtstat
namespace Suite

set_option autoImplicit false

open Reducer

/-- All of the list, in a state threaded through; false as soon as the step has no result. -/
def steps {A S : Type} (s : S) (l : List A) (f : S → A → M (Bool × S)) : M (Bool × S) :=
  match l with
  | [] => .ok (true, s)
  | a :: l => do
    let (b, s) ← f s a
    let (c, s) ← steps s l f
    .ok (b && c, s)

/-- The test passed. -/
def passed {A : Type} (r : M (Bool × A)) : Bool :=
  match r with
  | .ok (b, _) => b
  | .error _ => false

/-- `separator0` for `first = 0`, `separator1` for `first = 10` (tests/separator_suite.cpp:6-70). -/
def separatorTest (env : Env) (first : Nat) : M (Bool × Separator) := do
  let s ← Separator.new { limit := 8, levels := 1, resolution := .none, step := 10 } 0 0 0
  let b0 := first != 0 || s.currentTime == 0
  let (b, s) ← steps s (List.range 100) fun s j => do
    let i : Int := ((first + j : Nat) : Int)
    let (r, s) ← s.add env 0 0 i (.one i 1)
    .ok (r && s.currentTime == i / 10 * 10 && s.nextTime == i / 10 * 10 + 10, s)
  let (_, _, s) ← s.separate env 0 (first + 100 : Nat) false true
  let b1 := s.size == 10
  let (b2, s) ← steps s (List.range 10) fun s i => do
    let (d, s) := s.pop
    .ok (d.map (fun d => d.ts) == some ((i * 10 + first : Nat) : Int), s)
  .ok (b0 && b && b1 && b2, s)

example : passed (separatorTest doubleEnv 0) = true ∧ passed (separatorTest doubleEnv 10) = true := by decide +kernel

/-- `aggregator1` (tests/aggregator_suite.cpp:8-52). -/
def aggregator1 (env : Env) : M (Bool × Aggregator) := do
  let a ← Aggregator.new { limit := 10, levels := 1, resolution := .none, step := 10 } 0 0 0
  let (b, a) ← steps a (List.range 100) fun a i => a.add env 0 0 (i : Int) (.one i 1)
  let (_, _, a) ← a.separate env 0 100 false true
  let b1 := a.size == 10
  let (b2, a) ← steps a (List.range 10) fun a (i : Nat) => do
    let (d, a) := a.pop
    match d with
    | none => .ok (false, a)
    | some d =>
      let w : Int := (i * 10 : Nat)
      let avg := ((List.range 10).map fun (j : Nat) => (j : Int) + w).sum / 10
      .ok (d.ts == w && d.lossy == 0 && d.count == 10 && d.min == w && d.perc50 == 5 + w && d.perc80 == 8 + w && d.perc95 == 9 + w &&
        d.perc99 == 9 + w && d.perc100 == 9 + w && d.max == 9 + w && d.avg == avg, a)
  .ok (b && b1 && b2, a)

example : passed (aggregator1 doubleEnv) = true := by decide +kernel

/-- `aggregator2` (tests/aggregator_suite.cpp:54-89); the pusher of `aggregator_mt` is the one of `aggregator` under a lock. -/
def aggregator2 (env : Env) : M (Bool × Aggregator) := do
  let a ← Aggregator.new { limit := 8, levels := 1, resolution := .none, step := 10 } 0 0 0
  let p := a.createPusher false
  let (b, a) ← steps a (List.range 100) fun a (i : Nat) => do
    let (_, a) ← p.call env a 0 0 i (.one i 1)
    .ok (a.size == i / 10, a)
  let (_, _, a) ← a.separate env 0 100 false true
  let b1 := a.size == 10
  let (b2, a) ← steps a (List.range 10) fun a (i : Nat) => do
    let (d, a) := a.pop
    .ok (d.map (fun d => d.ts) == some ((i * 10 : Nat) : Int), a)
  let _ ← a.aggregateCurrent env
  .ok (b && b1 && b2, a)

example : passed (aggregator2 doubleEnv) = true := by decide +kernel

/-- The loop of `multi_aggregator1`: push until the handler is called. -/
def multiLoop (env : Env) : List Int → Nat → Multi → M (Nat × Option Nat)
  | [], n, _ => .ok (n, none)
  | t :: ts, n, m => do
    let (_, out, m) ← m.push env ['x', 'x', 'x'] { ts := t, count := 1 } t 5 t t true
    match out with
    | [] => multiLoop env ts (n + 1) m
    | d :: _ => .ok (n, some d.2.count)

/-- `multi_aggregator1` (tests/multi_aggregator_suite.cpp:9-43) with the given readings of the clock. -/
def multiAggregator1 (env : Env) (clock : List Int) : M (Bool × Unit) := do
  let m := Multi.new (fun n => n.length)
    { resolution := .nanoseconds, soiled := 1000000000, levels := 1, limit := 10, step := 500000000, outSize := 13 }
  let (n, c) ← multiLoop env clock 0 m
  .ok (c == some n, ())

example : passed (multiAggregator1 doubleEnv ((List.range 40).map fun (i : Nat) => (1700000000123456789 + i * 20000000 : Int))) = true := by
  decide +kernel

/-- `wrtstat2` (tests/wrtstat_suite.cpp:38-54). -/
def wrtstat2 (env : Env) : M (Bool × Registry) := do
  let r := Registry.new { resolution := .none }
  let (id, r) ← r.createAggregator env {} ("test1".toList) 0
  let (_, r) ← r.addId env id 0 0 0 0 1
  let (_, r) ← r.addId env id 0 0 1 0 1
  let (d, r) ← r.pop id
  .ok (d.map (fun d => d.count) == some 1, r)

example : passed (wrtstat2 doubleEnv) = true := by decide +kernel

/-- `wrtstat4` (tests/wrtstat_suite.cpp:107-158): the aggregators that the composite meter for six prefixes makes, whatever the
order in which the compiler evaluates the arguments. -/
def wrtstat4 (env : Env) (ord : Order) : M (Bool × Wrt) := do
  let w := Wrt.new { resolution := .microseconds, step := 1000000, limit := 256, levels := 256, handler := true }
  let (_, w) ← w.compositeMulti env [] [] ("size2".toList) true
    (["a~~", "b~~", "c~~", "d~~", "e~~", "f~~"].map fun p => (p.toList, ord, {}, {}, {}, 1700000000000000))
  let r := Registry.new { idInit := 0, idStep := 0 }
  .ok (w.reg.aggregatorsCount == 7 && r.aggregatorsCount == 0, w)

example : ([Order.trw, .twr, .rtw, .rwt, .wtr, .wrt].all fun ord => passed (wrtstat4 doubleEnv ord)) = true := by decide +kernel

end Suite
end Wrtstat
