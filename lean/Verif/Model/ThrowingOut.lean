/-
Handlers that throw, in `multi_aggregator` and `wrtstat` (no threads, handlers that do not use the object).

A handler is given by whether it throws, for the records it has been given in this call so far, the present one last.  The
code catches nothing: the call ends with the exception in the state in which the handler was called.  A record given to a
handler that throws counts as handed over.
-/
import Verif.Model.Wrtstat
import Verif.Model.Multi

namespace Wrtstat

set_option autoImplicit false

/-- Whether the handler throws, given the records of this call so far. -/
abbrev Thrower := List (Name × AggData) → Bool

/-- The handler is called with record after record: those it was given, those left when it threw, and whether it did. -/
def handOut (thr : Thrower) : List (Name × AggData) → List (Name × AggData) → List (Name × AggData) × List (Name × AggData) × Bool
  | _, [] => ([], [], false)
  | past, r :: l =>
    if thr (past ++ [r]) = true then ([r], l, true)
    else
      let (h, rest, t) := handOut thr (past ++ [r]) l
      (r :: h, rest, t)

/-! ### `pushout` -/

/-- What `pushout_` does. -/
structure PushedOut where
  handed : List (Name × AggData)
  lost : List (Name × AggData)
  threw : Bool
  w : Wrt

/-- `wrtstat::pushout_` (wrtstat.cpp:356-365): all records are popped into the local `ag_list` first; what is left in it is
destroyed with it.  There is a handler. -/
def Wrt.pushoutX (env : Env) (w : Wrt) (force : Bool) (clk : Nat → Int) (thr : Thrower) : M PushedOut := do
  let (l, r) ← w.reg.popAll env force clk
  let (h, rest, t) := handOut thr [] l
  .ok { handed := h, lost := rest, threw := t, w := { w with reg := r } }

/-- `wrtstat::~wrtstat` (wrtstat.cpp:58-61): destructors do not throw, the program is terminated. -/
def Wrt.destroyX (env : Env) (w : Wrt) (clk : Nat → Int) (thr : Thrower) : M (List (Name × AggData)) := do
  let o ← w.pushoutX env true clk thr
  if o.threw = true then .error .abort else .ok o.handed

namespace AggMap

/-- The loops of `pushout` and `force_pushout` (basic_multi_aggregator.cpp:59-68, 82-91): record after record is popped and
handed over. -/
def popLoopX (env : Env) (force : Bool) (thr : Thrower) : List PushReq → List Name → AggMap → M (List PushReq × Bool × AggMap)
  | _, [], m => .ok ([], false, m)
  | past, n :: ns, m =>
    match m.lookup n with
    | none => popLoopX env force thr past ns m
    | some a => do
      let (d, a) ← popOne env force a
      match d with
      | none => popLoopX env force thr past ns (m.put n a)
      | some d =>
        if thr (past ++ [(n, d)]) = true then .ok ([(n, d)], true, m.put n a)
        else do
          let (l, t, m) ← popLoopX env force thr (past ++ [(n, d)]) ns (m.put n a)
          .ok ((n, d) :: l, t, m)

/-- `basic_multi_aggregator::pushout` and `force_pushout` (basic_multi_aggregator.cpp:57-69, 80-92). -/
def popAllX (env : Env) (force : Bool) (thr : Thrower) (past : List PushReq) (ord : IterOrder) (m : AggMap) :
    M (List PushReq × Bool × AggMap) :=
  popLoopX env force thr past (ord.order (m.map Prod.fst)) m

end AggMap

namespace Multi

/-- The loops of `pushout` and `force_pushout` (multi_aggregator.cpp:70-90) over the shards. -/
def popShardsX (env : Env) (force : Bool) (thr : Thrower) (ord : IterOrder) :
    List PushReq → List AggMap → M (List PushReq × Bool × List AggMap)
  | _, [] => .ok ([], false, [])
  | past, s :: ss => do
    let (l, t, s) ← s.popAllX env force thr past ord
    if t = true then .ok (l, true, s :: ss)
    else do
      let (l', t, ss) ← popShardsX env force thr ord (past ++ l) ss
      .ok (l ++ l', t, s :: ss)

/-- `multi_aggregator::pushout` and `force_pushout` (multi_aggregator.cpp:70-90). -/
def popAllX (env : Env) (m : Multi) (force : Bool) (thr : Thrower) (ord : IterOrder) : M (List PushReq × Bool × Multi) := do
  let (l, t, ss) ← popShardsX env force thr ord [] m.shards
  .ok (l, t, { m with shards := ss })

end Multi

/-! ### Calls that record -/

/-- The loop of `separator::separate` (separator.cpp:154-165) with a handler that may throw: `give` is what is handed over and
whether it throws.  An exception leaves the loop before `_next_time` is advanced. -/
def Separator.sepLoopX (env : Env) (step ts : Int) (give : AggData → M (AggData × Bool)) (next : Int) (r : Reducer) :
    M (Bool × List AggData × Int × Reducer) :=
  if _h : next ≤ ts then
    if _hs : 0 < step then do
      let (o, r) ← r.detach env
      let (t, out) ← (match o with
        | none => .ok (false, [])
        | some d => do
          let (d, t) ← give { d with ts := next - step }
          .ok (t, [d]))
      if t = true then .ok (true, out, next, r)
      else do
        let (t, out', next', r) ← sepLoopX env step ts give (next + step) r
        .ok (t, out ++ out', next', r)
    else .error .diverge
  else .ok (false, [], next, r)
termination_by (ts - next + 1).toNat
decreasing_by omega

/-- `basic_aggregator::push` with a handler (basic_aggregator.cpp:45-104, separator.cpp:66-96): the result, unless it threw,
the records handed over and the object. -/
def Aggregator.pushX (env : Env) (a : Aggregator) (clk1 clk2 ts : Int) (x : AddArg) (thr : AggData → Bool) :
    M (Option Bool × List AggData × Aggregator) :=
  if a.enabled = false then .ok (some true, [], a)
  else do
    let t ← a.sep.getTs clk1 ts
    let t' ← a.sep.getTs clk2 t
    let give := fun d => do
      let d ← finish env.nth a.outSize d
      .ok (d, thr d)
    let (th, out, next, r) ← Separator.sepLoopX env a.sep.step t' give a.sep.next a.sep.reducer
    let s := { a.sep with next := next, reducer := r }
    if th = true then .ok (none, out, { a with sep := s })
    else if t < s.next - s.step then .ok (some false, out, { a with sep := s })
    else .ok (some true, out, { a with sep := { s with reducer := s.reducer.add env x } })

/-- `basic_multi_aggregator::push` (basic_multi_aggregator.cpp:18-40): a new aggregator is in the map already when it throws. -/
def AggMap.pushX (env : Env) (opt : MultiOpts) (m : AggMap) (name : Name) (v : ReducedData) (clk rand clk1 clk2 : Int)
    (thr : PushReq → Bool) : M (Option Bool × List PushReq × AggMap) := do
  let a ← orNew opt (m.lookup name) clk rand v.ts
  let (ok, out, a) ← a.pushX env clk1 clk2 v.ts (.reduced v) fun d => thr (name, d.asReduced)
  .ok (ok, out.map fun d => (name, d.asReduced), m.put name a)

namespace Multi

/-- `multi_aggregator::push` (multi_aggregator.cpp:35-51). -/
def pushX (env : Env) (m : Multi) (p : PushArg) (thr : PushReq → Bool) : M (Option Bool × List PushReq × Multi) := do
  let pos ← m.getPos p.name
  let s ← m.shard pos
  let (ok, l, s) ← s.pushX env m.opt p.name p.v p.clk p.rand p.clk1 p.clk2 thr
  .ok (ok, l, { m with shards := m.shards.set pos s })

/-- `multi_aggregator::multi_push` (multi_aggregator.cpp:53-58): the requests after one that throws are not pushed. -/
def multiPushX (env : Env) (thr : Thrower) : List PushReq → List PushArg → Multi → M (Bool × List PushReq × Multi)
  | _, [], m => .ok (false, [], m)
  | past, p :: ps, m => do
    let (ok, l, m) ← m.pushX env p fun r => thr (past ++ [r])
    if ok = none then .ok (true, l, m)
    else do
      let (t, l', m) ← multiPushX env thr (past ++ l) ps m
      .ok (t, l ++ l', m)

end Multi

namespace Wrt

/-- Call of a meter function (as `Wrt.call`): whether it threw, what reached the user's handler, the object. -/
def callX (env : Env) (w : Wrt) (p : WPusher) (clk1 clk2 ts v : Int) (count : Nat) (thr : Name × AggData → Bool) :
    M (Bool × List (Name × AggData) × Wrt) :=
  match w.reg.find p.rp.ref with
  | none => .ok (false, [], w)
  | some a =>
    if p.rp.p.token = true ∧ a.alive = true ∧ p.rp.p.handler = true then do
      let (ok, out, a) ← a.pushX env clk1 clk2 ts (.one v count) fun d => (w.deliver p.h d).any thr
      let w := { w with reg := w.reg.update p.rp.ref a }
      .ok (decide (ok = none), out.flatMap (w.deliver p.h), w)
    else do
      let (l, w) ← w.call env p clk1 clk2 ts v count
      .ok (false, l, w)

/-- The same for a function that may be null. -/
def callOptX (env : Env) (w : Wrt) (p : Option WPusher) (clk1 clk2 ts v : Int) (count : Nat) (thr : Name × AggData → Bool) :
    M (Bool × List (Name × AggData) × Wrt) :=
  match p with
  | none => .ok (false, [], w)
  | some p => w.callX env p clk1 clk2 ts v count thr

/-- Call of a composite meter function (aggregator_registry.cpp:135-145): the parts after one that throws are not called. -/
def callCX (env : Env) (w : Wrt) (p : CPusher) (kt kr kw : Clks) (ts span : Int) (count : Nat) (readed writed : Int)
    (thr : Name × AggData → Bool) : M (Bool × List (Name × AggData) × Wrt) := do
  let (t, l1, w) ← w.callOptX env p.time kt.1 kt.2 ts span count thr
  if t = true then .ok (true, l1, w)
  else do
    let (t, l2, w) ← w.callOptX env p.read kr.1 kr.2 ts readed (if p.summary then toSize readed else count) thr
    if t = true then .ok (true, l1 ++ l2, w)
    else do
      let (t, l3, w) ← w.callOptX env p.write kw.1 kw.2 ts writed (if p.summary then toSize writed else count) thr
      .ok (t, l1 ++ l2 ++ l3, w)

end Wrt
end Wrtstat
