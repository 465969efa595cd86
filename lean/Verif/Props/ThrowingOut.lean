/-
Properties C112 and C113: handlers that throw, in `wrtstat` and `multi_aggregator`.

C112: an exception costs no record but the one the handler was given.  `multi_aggregator` pops and hands over name by name, so
that this holds for it (`C112_multi_partial`).  `wrtstat::pushout_` pops all names first: the records not yet handed over are
lost with the local list (`C112_refuted`; exactly when: `C112_exact_partial`), and a destructor terminates the program
(`C112_destroy_partial`).

C113: a call that threw may be made again.  This holds for `push` and for the functions of simple meters (`C113_push_partial`,
`C113_meter_partial`), but `multi_push` and composite meters record their first parts again (`C113_refuted`,
`C113_composite_refuted`); they are to be resumed at the part that threw (`C113_resume_partial`,
`C113_composite_resume_partial`).
-/
import Verif.Lemmas.ThrowingQuiet
import Verif.Props.Wrtstat
import Verif.Props.Multi

namespace Wrtstat

set_option autoImplicit false

open Wrt Multi

/-! ### C112 -/

/-- An exception costs no record but the one the handler was given. -/
def C112_FullClaim : Prop :=
  ∀ (env : Env) (opt : WOpts) (ops : List WOp) (o : WObs) (force : Bool) (clk : Nat → Int) (thr : Thrower) (p : PushedOut),
    wexecAll env { w := Wrt.new opt } ops = .ok o → o.w.handler = true → o.w.pushoutX env force clk thr = .ok p → p.lost = []

/-- Two names with an event each. -/
def exOutOps : List WOp :=
  [.meterName {} ['a'] 1003, .meterName {} ['b'] 1003, .reg (.addId 1 0 0 1003 5 1), .reg (.addId 2 0 0 1004 7 1)]

/-- The handler throws when it is called for the first time: of two records, it is given one, and the other is nowhere, as a
second `pushout` shows. -/
theorem exOutLost : (match (do
    let o ← wexecAll exactEnv { w := Wrt.new exWOpt } exOutOps
    let p ← o.w.pushoutX exactEnv true (fun _ => 1005) fun l => decide (l.length = 1)
    let (n, l, _) ← p.w.pushout exactEnv true (fun _ => 1006)
    .ok (o.w.handler, p, n, l) : M (Bool × PushedOut × Nat × List (Name × AggData))) with
    | .ok (h, p, n, l) => decide (h = true ∧ p.threw = true ∧ p.handed.map (fun r => (r.1, r.2.data)) = [(['a'], [5])] ∧
        p.lost.map (fun r => (r.1, r.2.data)) = [(['b'], [7])] ∧ n = 0 ∧ l = [])
    | .error _ => false) = true := by decide +kernel

theorem C112_refuted : ¬ C112_FullClaim := by
  intro h
  have hw := exOutLost
  split at hw
  · rename_i hh p n l e
    obtain ⟨o, e1, e⟩ := bind_inv e
    obtain ⟨p', e2, e⟩ := bind_inv e
    obtain ⟨⟨n', l', w'⟩, e3, e⟩ := bind_inv e
    cases e
    simp only [decide_eq_true_eq] at hw
    obtain ⟨h1, _, _, h4, _⟩ := hw
    rw [h exactEnv exWOpt exOutOps o true _ _ p e1 h1 e2] at h4
    cases h4
  · cases hw

/-- What `pushout` does when the handler throws: the object is as if it had not, the handler has been given the first records up
to the one it threw on, and the others are lost. -/
theorem C112_pushout_partial (env : Env) (w : Wrt) (force : Bool) (clk : Nat → Int) (thr : Thrower) (p : PushedOut)
    (hw : w.handler = true) (h : w.pushoutX env force clk thr = .ok p) :
    w.pushout env force clk = .ok ((p.handed ++ p.lost).length, p.handed ++ p.lost, p.w) ∧
      (p.threw = false → p.lost = [] ∧ ∀ q, q <+: p.handed → q ≠ [] → thr q = false) ∧
      (p.threw = true → p.handed ≠ [] ∧ thr p.handed = true ∧ ∀ q, q <+: p.handed → q ≠ [] → q ≠ p.handed → thr q = false) := by
  obtain ⟨⟨l, r⟩, h1, h⟩ := bind_inv h
  rcases hho : handOut thr [] l with ⟨hd, rest, t⟩
  simp only [hho] at h
  cases h
  obtain ⟨k1, k2, k3⟩ := handOut_spec thr _ _ _ _ _ hho
  refine ⟨?_, fun ht => ⟨(k2 ht).1, fun q hq hne => ?_⟩, fun ht => ?_⟩
  · rw [Wrt.pushout, h1, bind_ok']
    simp only
    rw [if_neg (by simp [hw]), k1]
  · have := (k2 ht).2 q (by rw [← k1, (k2 ht).1, List.append_nil]; exact hq) hne
    simpa using this
  · simpa using k3 ht

/-- Records are lost exactly if the handler throws on a record that is not the last. -/
theorem C112_exact_partial (env : Env) (w : Wrt) (force : Bool) (clk : Nat → Int) (thr : Thrower) (p : PushedOut)
    (hw : w.handler = true) (h : w.pushoutX env force clk thr = .ok p) :
    p.lost = [] ↔ ∀ n l w' q, w.pushout env force clk = .ok (n, l, w') → q <+: l → q ≠ [] → q ≠ l → thr q = false := by
  obtain ⟨e, h1, h2⟩ := C112_pushout_partial env w force clk thr p hw h
  constructor
  · intro hl n l w' q e' hq hne hne'
    rw [e, hl] at e'
    cases e'
    rw [List.append_nil] at hq hne'
    cases ht : p.threw with
    | false => exact (h1 ht).2 q hq hne
    | true => exact (h2 ht).2.2 q hq hne hne'
  · intro hq
    cases ht : p.threw with
    | false => exact (h1 ht).1
    | true =>
      by_contra hl
      have := hq _ _ _ p.handed e (List.prefix_append _ _) (h2 ht).1 (fun e => hl (by simpa using e))
      rw [(h2 ht).2.1] at this
      cases this

/-- A `wrtstat` is destroyed quietly exactly if the handler does not throw on what it is given. -/
theorem C112_destroy_partial (env : Env) (w : Wrt) (clk : Nat → Int) (thr : Thrower) (l : List (Name × AggData))
    (hw : w.handler = true) (h : w.destroy env clk = .ok l) :
    ((∀ q, q <+: l → q ≠ [] → thr q = false) → w.destroyX env clk thr = .ok l) ∧
    (¬ (∀ q, q <+: l → q ≠ [] → thr q = false) → w.destroyX env clk thr = .error .abort) := by
  obtain ⟨⟨n, l', w'⟩, h1, h⟩ := bind_inv h
  cases h
  obtain ⟨⟨l2, r⟩, h2, _⟩ := bind_inv h1
  rcases hho : handOut thr [] l2 with ⟨hd, rest, t⟩
  have hp : w.pushoutX env true clk thr = .ok { handed := hd, lost := rest, threw := t, w := { w with reg := r } } := by
    rw [Wrt.pushoutX, h2, bind_ok']
    simp only [hho]
  obtain ⟨e, k1, k2⟩ := C112_pushout_partial env w true clk thr _ hw hp
  simp only at e k1 k2
  rw [h1] at e
  cases e
  have hdx : w.destroyX env clk thr = if t = true then .error .abort else .ok hd := by
    rw [Wrt.destroyX, hp, bind_ok']
  rw [hdx]
  cases t with
  | false =>
    rw [if_neg (by simp), (k1 rfl).1, List.append_nil]
    exact ⟨fun _ => rfl, fun hx => absurd (k1 rfl).2 hx⟩
  | true =>
    rw [if_pos rfl]
    refine ⟨fun hx => ?_, fun _ => rfl⟩
    rw [hx hd (List.prefix_append _ _) (k2 rfl).1] at k2
    exact absurd (k2 rfl).2.1 (by simp)

example : (match (do
    let o ← wexecAll exactEnv { w := Wrt.new exWOpt } exOutOps
    let p ← o.w.pushoutX exactEnv true (fun _ => 1005) fun l => decide (l.length = 2)
    .ok (p, o.w.destroyX exactEnv (fun _ => 1005) fun l => decide (l.length = 2)) : M (PushedOut × M (List (Name × AggData)))) with
    | .ok (p, d) => decide (p.threw = true ∧ p.handed.length = 2 ∧ p.lost = []) && (match d with
      | .error e => decide (e = .abort)
      | .ok _ => false)
    | .error _ => false) = true := by decide +kernel

namespace ExMulti

/-- Three names in two shards; the handler of `force_pushout` throws on its second record. -/
def thrown : M (List PushReq × Bool × Multi) := do
  let o ← mexecAll exactEnv { m := Multi.new (fun n => if n = na then 0 else 1) opt }
    [.push (arg na 1003 [5]) true, .push (arg nb 1004 [6]) true, .push (arg ['c'] 1004 [7]) true]
  o.m.popAllX exactEnv true (fun l => decide (l.length = 2)) ord

example : (match (do
    let (l, t, m) ← thrown
    let (l', _) ← m.popAll exactEnv true true ord
    .ok (l, t, l') : M (List PushReq × Bool × List PushReq)) with
    | .ok (l, t, l') => decide (t = true ∧ l.map (fun r => (r.1, r.2.data)) = [(na, [5]), (['c'], [7])] ∧
        l'.map (fun r => (r.1, r.2.data)) = [(nb, [6])])
    | .error _ => false) = true := by decide +kernel

end ExMulti

/-- `pushout` and `force_pushout` of a `multi_aggregator`: every name either is as before the call, which has handed over nothing
of it, or it has been popped and the record popped, if any, has been handed over.  Without exception all are popped. -/
theorem C112_multi_partial (env : Env) (hash : Name → Nat) (opt : MultiOpts) (ops : List MOp) (o : MObs)
    (hz : 0 < opt.hashSize) (h : mexecAll env { m := Multi.new hash opt } ops = .ok o) (force : Bool) (thr : Thrower) (ord : IterOrder)
    (l : List PushReq) (t : Bool) (m' : Multi) (hx : o.m.popAllX env force thr ord = .ok (l, t, m')) (name : Name) :
    (o.m.find name = none → m'.find name = none ∧ about name l = []) ∧
    (∀ a, o.m.find name = some a →
      (t = true ∧ m'.find name = some a ∧ about name l = []) ∨
      ∃ d a', (if force then a.forcePop env else .ok a.pop) = .ok (d, a') ∧ m'.find name = some a' ∧ about name l = d.toList) := by
  obtain ⟨hi, ho, _⟩ := mexecAll_agrees ops (minv_new hash opt) hz h (agrees_new hash opt name)
  exact (Multi.popAllX_spec hi (by rw [ho]; exact hz) hx).2.2 name

/-- The handler is called with record after record of all shards, until it throws for the first time. -/
theorem C112_multi_stop_partial (env : Env) (m m' : Multi) (force : Bool) (thr : Thrower) (ord : IterOrder) (l : List PushReq) (t : Bool)
    (h : m.popAllX env force thr ord = .ok (l, t, m')) :
    (t = false → ∀ q, q <+: l → q ≠ [] → thr q = false) ∧
    (t = true → l ≠ [] ∧ thr l = true ∧ ∀ q, q <+: l → q ≠ [] → q ≠ l → thr q = false) := by
  obtain ⟨⟨l1, t1, ss⟩, h1, h⟩ := bind_inv h
  cases h
  exact Multi.popShardsX_stop _ _ _ _ _ h1

/-- So `force_pushout` called again hands over what is missing: of each name the two calls together hand over what one call
without exception does. -/
theorem C112_multi_again_partial (env : Env) (hash : Name → Nat) (opt : MultiOpts) (ops : List MOp) (o : MObs)
    (hs : 0 < opt.step) (hz : 0 < opt.hashSize) (hc : ∀ op ∈ ops, op.clockOk)
    (h : mexecAll env { m := Multi.new hash opt } ops = .ok o) (thr : Thrower) (ord ord' ord0 : IterOrder)
    (l l' l0 : List PushReq) (t : Bool) (m' m'' m0 : Multi) (hx : o.m.popAllX env true thr ord = .ok (l, t, m'))
    (hp' : m'.popAll env true true ord' = .ok (l', m'')) (hp0 : o.m.popAll env true true ord0 = .ok (l0, m0)) (name : Name) :
    about name l ++ about name l' = about name l0 := by
  obtain ⟨hi, ho, _⟩ := mexecAll_agrees ops (minv_new hash opt) hz h (agrees_new hash opt name)
  obtain ⟨hi', ho', k⟩ := Multi.popAllX_spec hi (by rw [ho]; exact hz) hx
  obtain ⟨_, _, k'⟩ := popAll_spec hi' (by rw [ho', ho]; exact hz) hp'
  obtain ⟨_, _, k0⟩ := popAll_spec hi (by rw [ho]; exact hz) hp0
  cases hf : o.m.find name with
  | none => rw [((k name).1 hf).2, ((k' name).1 ((k name).1 hf).1).2, ((k0 name).1 hf).2, List.append_nil]
  | some a =>
    obtain ⟨d0, a0, j1, _, j3⟩ := (k0 name).2 a hf
    rcases (k name).2 a hf with ⟨_, e1, e2⟩ | ⟨d, a1, e1, e2, e3⟩
    · obtain ⟨d', a2, j4, _, j6⟩ := (k' name).2 a e1
      rw [j1] at j4
      cases j4
      rw [e2, j6, j3, List.nil_append]
    · rw [j1] at e1
      cases e1
      obtain ⟨d', a2, j4, _, j6⟩ := (k' name).2 _ e2
      rw [e3, j3]
      obtain ⟨no, e, _, _, e5⟩ := C39_sharded env hash opt ops o hz h name
      cases hl : no.life with
      | none => rw [e5, hl] at hf; cases hf
      | some ao =>
        rw [e5, hl] at hf
        cases hf
        obtain ⟨clk, rand, ts, _, aops, i1, i2, i3⟩ := life_exec (forName name ops) (no := {}) (by simp)
          (forName_clock hc name) e ao hl
        obtain ⟨gR, pend, b⟩ := books_of_life hs i1 i2 i3
        obtain ⟨_, _, _, b4⟩ := books_force b j1
        obtain ⟨b1, _⟩ := books_force b4 j4
        rw [b1.2 rfl] at j6
        rw [j6]
        simp

/-! ### C113 -/

/-- A `multi_push` that threw, made again, has the effect of one that did not throw: `force_pushout` reports the same. -/
def C113_FullClaim : Prop :=
  ∀ (env : Env) (hash : Name → Nat) (opt : MultiOpts) (ops : List MOp) (o : MObs) (thr : Thrower) (ps : List PushArg) (m1 m2 m3 : Multi)
    (l l' l3 r2 r3 : List PushReq) (m2' m3' : Multi) (ord : IterOrder), 0 < opt.step → 0 < opt.hashSize → (∀ op ∈ ops, op.clockOk) →
    mexecAll env { m := Multi.new hash opt } ops = .ok o →
    multiPushX env thr [] ps o.m = .ok (true, l, m1) → multiPush env true ps m1 = .ok (l', m2) →
    multiPush env true ps o.m = .ok (l3, m3) → m2.popAll env true true ord = .ok (r2, m2') → m3.popAll env true true ord = .ok (r3, m3') →
    r2.map (fun r => (r.1, r.2.count)) = r3.map (fun r => (r.1, r.2.count))

namespace ExMulti

/-- An event of `b` is waiting. -/
def pushed : List MOp := [.push (arg nb 1003 [6]) true]

/-- An event of `a`, and one of `b` that ends the window. -/
def both : List PushArg := [arg na 1004 [5], arg nb 1012 [7]]

/-- The handler throws; the call is made again: `a` has two events. -/
theorem twice : (match (do
    let o ← mexecAll exactEnv { m := Multi.new (fun _ => 0) opt } pushed
    let (t, l, m1) ← multiPushX exactEnv (fun _ => true) [] both o.m
    let (l', m2) ← multiPush exactEnv true both m1
    let (l3, m3) ← multiPush exactEnv true both o.m
    let (r2, _) ← m2.popAll exactEnv true true ord
    let (r3, _) ← m3.popAll exactEnv true true ord
    .ok (t, l, l', l3, r2, r3) : M (Bool × List PushReq × List PushReq × List PushReq × List PushReq × List PushReq)) with
    | .ok (t, l, l', l3, r2, r3) => decide (t = true ∧ l.map (fun r => (r.1, r.2.data)) = [(nb, [6])] ∧ l' = [] ∧ l3 = l ∧
        r2.map (fun r => (r.1, r.2.count)) = [(na, 2), (nb, 1)] ∧ r3.map (fun r => (r.1, r.2.count)) = [(na, 1), (nb, 1)])
    | .error _ => false) = true := by decide +kernel

end ExMulti

open ExMulti in
theorem C113_refuted : ¬ C113_FullClaim := by
  intro h
  have hw := twice
  split at hw
  · rename_i t l l' l3 r2 r3 e
    obtain ⟨o, e1, e⟩ := bind_inv e
    obtain ⟨⟨t', la, m1⟩, e2, e⟩ := bind_inv e
    obtain ⟨⟨lb, m2⟩, e3, e⟩ := bind_inv e
    obtain ⟨⟨lc, m3⟩, e4, e⟩ := bind_inv e
    obtain ⟨⟨ld, m2'⟩, e5, e⟩ := bind_inv e
    obtain ⟨⟨le, m3'⟩, e6, e⟩ := bind_inv e
    cases e
    simp only [decide_eq_true_eq] at hw
    obtain ⟨h1, _, _, _, h5, h6⟩ := hw
    subst h1
    have := h exactEnv _ opt pushed o _ both m1 m2 m3 _ _ _ _ _ _ _ ord (by decide) (by decide)
      (by
        intro op hop
        rw [List.mem_singleton.1 hop]
        exact ⟨le_refl _, le_refl _⟩) e1 e2 e3 e4 e5 e6
    rw [h5, h6] at this
    revert this
    decide
  · cases hw

/-- A `push` that threw has handed over one record; made again, it hands over nothing and ends as it would have without
exception. -/
theorem C113_push_partial (env : Env) (m m1 : Multi) (p : PushArg) (thr : PushReq → Bool) (l : List PushReq)
    (h : m.pushX env p thr = .ok (none, l, m1)) :
    (∃ r, l = [r] ∧ thr r = true) ∧ ∃ ok m2,
      m.push env p.name p.v p.clk p.rand p.clk1 p.clk2 true = .ok (ok, l, m2) ∧
      m1.push env p.name p.v p.clk p.rand p.clk1 p.clk2 true = .ok (ok, [], m2) := by
  obtain ⟨ok, m2, e1, _, e3⟩ := Multi.pushX_spec h
  exact ⟨(e3 rfl).1, ok, m2, e1, (e3 rfl).2⟩

/-- A `multi_push` that did not throw is one with a handler that returns. -/
theorem C113_returned_partial (env : Env) (thr : Thrower) (ps : List PushArg) (m m1 : Multi) (l : List PushReq)
    (h : multiPushX env thr [] ps m = .ok (false, l, m1)) : multiPush env true ps m = .ok (l, m1) :=
  (multiPushX_spec ps [] m m1 false l h).1 rfl

/-- A `multi_push` that threw is completed by the requests from the one that threw on. -/
theorem C113_resume_partial (env : Env) (thr : Thrower) (ps : List PushArg) (m m1 : Multi) (l : List PushReq)
    (h : multiPushX env thr [] ps m = .ok (true, l, m1)) :
    thr l = true ∧ ∃ ps1 p ps2, ps = ps1 ++ p :: ps2 ∧
      multiPush env true ps m = (multiPush env true (p :: ps2) m1).map fun q => (l ++ q.1, q.2) := by
  obtain ⟨ps1, p, ps2, l1, m0, r, ok, m2, e1, e2, e3, e4, e5, e6⟩ := (multiPushX_spec ps [] m m1 true l h).2 rfl
  refine ⟨e4, ps1, p, ps2, e1, ?_⟩
  rw [e1, multiPush_append, e2, bind_ok']
  simp only
  rw [multiPush, multiPush, e5, e6, bind_ok', bind_ok']
  simp only
  cases multiPush env true ps2 m2 with
  | error e => rfl
  | ok q =>
    rw [bind_ok', bind_ok', bind_ok', e3]
    simp [Except.map]

/-- It hands over record after record until the handler throws for the first time. -/
theorem C113_stop_partial (env : Env) (thr : Thrower) (ps : List PushArg) (m m1 : Multi) (t : Bool) (l : List PushReq)
    (h : multiPushX env thr [] ps m = .ok (t, l, m1)) :
    (t = false → ∀ q, q <+: l → q ≠ [] → thr q = false) ∧
    (t = true → l ≠ [] ∧ thr l = true ∧ ∀ q, q <+: l → q ≠ [] → q ≠ l → thr q = false) := by
  simpa only [List.nil_append] using multiPushX_stop ps [] m m1 t l h

/-- So it may be made again if the first request threw. -/
theorem C113_first_partial (env : Env) (thr : Thrower) (p : PushArg) (ps : List PushArg) (m m1 m1' : Multi) (l l' : List PushReq)
    (h0 : m.pushX env p (fun r => thr [r]) = .ok (none, l', m1')) (h : multiPushX env thr [] (p :: ps) m = .ok (true, l, m1)) :
    multiPush env true (p :: ps) m = (multiPush env true (p :: ps) m1).map fun q => (l ++ q.1, q.2) := by
  rw [multiPushX] at h
  simp only [List.nil_append] at h
  rw [h0, bind_ok'] at h
  simp only [if_true] at h
  cases h
  obtain ⟨_, ok, m2, e1, e2⟩ := C113_push_partial env m m1 p _ l h0
  rw [multiPush, multiPush, e1, e2, bind_ok', bind_ok']
  simp only
  cases multiPush env true ps m2 with
  | error e => rfl
  | ok q => simp [bind_ok', Except.map]

/-- The function of a simple meter throws if and only if it hands over a record on which the handler throws. -/
theorem C113_meter_throws_partial (env : Env) (w w1 : Wrt) (p : WPusher) (clk1 clk2 ts v : Int) (count : Nat)
    (thr : Name × AggData → Bool) (t : Bool) (l : List (Name × AggData))
    (h : w.callX env p clk1 clk2 ts v count thr = .ok (t, l, w1)) : t = true ↔ ∃ r ∈ l, thr r = true := by
  cases t with
  | true =>
    obtain ⟨_, _, _, k⟩ := Wrt.callX_spec h
    obtain ⟨⟨r, rfl, hr⟩, _⟩ := k rfl
    simp [hr]
  | false =>
    have := Wrt.callX_quiet h
    simp only [Bool.false_eq_true, false_iff, not_exists, not_and]
    intro r hr
    simp [this r hr]

/-- The function of a simple meter that threw, called again, ends as it would have without exception. -/
theorem C113_meter_partial (env : Env) (w w1 : Wrt) (p : WPusher) (clk1 clk2 ts v : Int) (count : Nat) (thr : Name × AggData → Bool)
    (l : List (Name × AggData)) (h : w.callX env p clk1 clk2 ts v count thr = .ok (true, l, w1)) :
    (∃ r, l = [r] ∧ thr r = true) ∧ ∃ w2, w.call env p clk1 clk2 ts v count = .ok (l, w2) ∧
      w1.call env p clk1 clk2 ts v count = .ok ([], w2) := by
  obtain ⟨w2, e1, _, e3⟩ := Wrt.callX_spec h
  exact ⟨(e3 rfl).1, w2, e1, (e3 rfl).2⟩

/-- That of a composite meter, as for `multi_push`. -/
def C113_CompositeClaim : Prop :=
  ∀ (env : Env) (opt : WOpts) (ops : List WOp) (o : WObs) (it ir iw : Nat) (s : Bool) (p : CPusher) (kt kr kw : Clks) (ts span : Int)
    (count : Nat) (rd wr : Int) (thr : Name × AggData → Bool) (w1 w2 w3 : Wrt) (l l' l3 : List (Name × AggData)) (clk : Nat → Int) (n2 n3 : Nat)
    (r2 r3 : List (Name × AggData)) (w2' w3' : Wrt),
    wexecAll env { w := Wrt.new opt } ops = .ok o → o.w.compositeId it ir iw s = .ok (some p) →
    o.w.callCX env p kt kr kw ts span count rd wr thr = .ok (true, l, w1) →
    w1.callC env p kt kr kw ts span count rd wr = .ok (l', w2) → o.w.callC env p kt kr kw ts span count rd wr = .ok (l3, w3) →
    w2.pushout env true clk = .ok (n2, r2, w2') → w3.pushout env true clk = .ok (n3, r3, w3') →
    r2.map (fun r => (r.1, r.2.count)) = r3.map (fun r => (r.1, r.2.count))

/-- A composite meter of times and sizes; an event of the size is waiting. -/
def exCompOps : List WOp := [.compositeName .trw {} {} {} ['t'] ['r'] [] 1003 false, .reg (.addId 2 0 0 1003 6 1)]

/-- The record of the size is handed over and the handler throws; the call is made again: the time has been recorded twice. -/
theorem exCompTwice : (match (do
    let o ← wexecAll exactEnv { w := Wrt.new exWOpt } exCompOps
    let q ← o.w.compositeId 1 2 0 false
    match q with
    | none => .error .ub
    | some p => do
      let (t, l, w1) ← o.w.callCX exactEnv p (0, 0) (0, 0) (0, 0) 1014 50 1 100 0 fun _ => true
      let (l', w2) ← w1.callC exactEnv p (0, 0) (0, 0) (0, 0) 1014 50 1 100 0
      let (l3, w3) ← o.w.callC exactEnv p (0, 0) (0, 0) (0, 0) 1014 50 1 100 0
      let (_, r2, _) ← w2.pushout exactEnv true fun _ => 1015
      let (_, r3, _) ← w3.pushout exactEnv true fun _ => 1015
      .ok (t, l, l', l3, r2, r3) : M (Bool × List (Name × AggData) × List (Name × AggData) × List (Name × AggData) × List (Name × AggData) × List (Name × AggData))) with
    | .ok (t, l, l', l3, r2, r3) => decide (t = true ∧ l.map (fun r => (r.1, r.2.data)) = [(['r'], [6])] ∧ l' = [] ∧ l3 = l ∧
        r2.map (fun r => (r.1, r.2.count)) = [(['t'], 2), (['r'], 1)] ∧ r3.map (fun r => (r.1, r.2.count)) = [(['t'], 1), (['r'], 1)])
    | .error _ => false) = true := by decide +kernel

theorem C113_composite_refuted : ¬ C113_CompositeClaim := by
  intro h
  have hw := exCompTwice
  split at hw
  · rename_i t l l' l3 r2 r3 e
    obtain ⟨o, e1, e⟩ := bind_inv e
    obtain ⟨q, e2, e⟩ := bind_inv e
    cases q with
    | none => cases e
    | some p =>
      simp only at e
      obtain ⟨⟨t', la, w1⟩, e3, e⟩ := bind_inv e
      obtain ⟨⟨lb, w2⟩, e4, e⟩ := bind_inv e
      obtain ⟨⟨lc, w3⟩, e5, e⟩ := bind_inv e
      obtain ⟨⟨n2, ld, w2'⟩, e6, e⟩ := bind_inv e
      obtain ⟨⟨n3, le, w3'⟩, e7, e⟩ := bind_inv e
      cases e
      simp only [decide_eq_true_eq] at hw
      obtain ⟨h1, _, _, _, h5, h6⟩ := hw
      subst h1
      have := h exactEnv exWOpt exCompOps o 1 2 0 false p _ _ _ _ _ _ _ _ _ w1 w2 w3 _ _ _ _ _ _ _ _ _ _ e1 e2 e3 e4 e5 e6 e7
      rw [h5, h6] at this
      revert this
      decide
  · cases hw

/-- It is completed by the parts from the one that threw on. -/
theorem C113_composite_resume_partial (env : Env) (w w1 : Wrt) (p : CPusher) (kt kr kw : Clks) (ts span : Int) (count : Nat)
    (rd wr : Int) (thr : Name × AggData → Bool) (l : List (Name × AggData))
    (h : w.callCX env p kt kr kw ts span count rd wr thr = .ok (true, l, w1)) :
    ∃ t1 l1 wa, w.callOptX env p.time kt.1 kt.2 ts span count thr = .ok (t1, l1, wa) ∧
      (t1 = true → w.callC env p kt kr kw ts span count rd wr =
        (w1.callC env p kt kr kw ts span count rd wr).map fun q => (l ++ q.1, q.2)) ∧
      (t1 = false → ∃ t2 l2 wb,
        wa.callOptX env p.read kr.1 kr.2 ts rd (if p.summary then toSize rd else count) thr = .ok (t2, l2, wb) ∧
        w.callC env p kt kr kw ts span count rd wr =
          (w1.callC env (if t2 = true then { p with time := none } else { p with time := none, read := none })
            kt kr kw ts span count rd wr).map fun q => (l ++ q.1, q.2)) := by
  rw [callCX] at h
  obtain ⟨⟨t1, l1, wa⟩, h1, h⟩ := bind_inv h
  obtain ⟨wa', a1, a2, a3⟩ := Wrt.callOptX_spec h1
  refine ⟨t1, l1, wa, h1, fun ht => ?_, fun ht => ?_⟩
  · subst ht
    simp only [if_true] at h
    cases h
    rw [callC, callC, a1, (a3 rfl).2, bind_ok', bind_ok']
    simp only
    cases wa'.callOpt env p.read kr.1 kr.2 ts rd (if p.summary = true then toSize rd else count) with
    | error e => rfl
    | ok q =>
      rw [bind_ok', bind_ok']
      cases q.2.callOpt env p.write kw.1 kw.2 ts wr (if p.summary = true then toSize wr else count) with
      | error e => rfl
      | ok q' => simp [bind_ok', Except.map]
  · subst ht
    simp only [Bool.false_eq_true, if_false] at h
    obtain ⟨⟨t2, l2, wb⟩, h2, h⟩ := bind_inv h
    obtain ⟨wb', b1, b2, b3⟩ := Wrt.callOptX_spec h2
    refine ⟨t2, l2, wb, h2, ?_⟩
    have := a2 rfl
    subst this
    simp only at h
    cases t2 with
    | true =>
      simp only [if_true] at h ⊢
      cases h
      rw [callC, callC, a1, bind_ok', callOpt, bind_ok']
      simp only
      rw [b1, (b3 rfl).2, bind_ok', bind_ok']
      simp only
      cases wb'.callOpt env p.write kw.1 kw.2 ts wr (if p.summary = true then toSize wr else count) with
      | error e => rfl
      | ok q' => simp [bind_ok', Except.map]
    | false =>
      simp only [Bool.false_eq_true, if_false] at h ⊢
      obtain ⟨⟨t3, l3, wc⟩, h3, h⟩ := bind_inv h
      obtain ⟨wc', c1, c2, c3⟩ := Wrt.callOptX_spec h3
      cases h
      have := b2 rfl
      subst this
      rw [callC, callC, a1, bind_ok', callOpt, bind_ok']
      simp only
      rw [b1, bind_ok', callOpt, bind_ok']
      simp only
      rw [c1, (c3 rfl).2, bind_ok', bind_ok']
      simp [Except.map]

end Wrtstat
