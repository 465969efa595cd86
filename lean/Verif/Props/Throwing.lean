/-
Property C111: handlers that throw (`aggregator`).

The handler is called after the window has been detached and before `_next_time` is advanced, and nothing is caught.  What an
exception leaves behind is consistent: no event is lost or counted twice (`C111_exactly_once_partial`, `C111_counts_partial`),
the event of the call is not recorded, and the same call made again completes it, as if nothing had been thrown
(`C111_again_partial`, `C111_again_run_partial`).  Exceptions pass through handlers that do not catch them (`C111_throws_partial`).  But the window stays open though it has been reported: an event recorded
before the call is made again is reported in a second record of the window (`C111_refuted`).  Only windows on whose records
the handler threw are reported twice (`C111_once_partial`).
-/
import Verif.Lemmas.ThrowingPass
import Verif.Props.Reentrant

namespace Wrtstat

set_option autoImplicit false

open Aggregator

/-- Runs of a new aggregator with a handler that may throw, the client going on after exceptions; no `force_pop`. -/
structure ThrowRun (env : Env) (opt : AggregatorOpts) (H : THandler) (o : AObs) : Prop where
  step : 0 < opt.step
  run : ∃ a0 k ops, Fresh env opt a0 ∧ (∀ op ∈ ops, op.clockOk ∧ op.forced = false) ∧ execAllX env H k { a := a0 } ops = .ok o

/-- No window is reported twice, even if handlers throw. -/
def C111_FullClaim : Prop :=
  ∀ (env : Env) (opt : AggregatorOpts) (H : THandler) (o : AObs), Pure H → ThrowRun env opt H o → (stamps o.records).Nodup

/-- The handler throws when it is called for the first time. -/
def exThrower : THandler := fun l => { throws := decide (l.length = 1) }

theorem exThrower_pure : Pure exThrower := fun _ => rfl

/-- The window 0 is completed, the handler throws; an event of the window 0 comes late; the window is completed again. -/
def exThrown : AObs :=
  exReRun (execAllX exactEnv exThrower 10 { a := exReNew }
    [.push 0 0 5 (.one 1 1) true, .push 0 0 12 (.one 7 1) true, .add 0 0 6 (.one 3 2), .push 0 0 12 (.one 7 1) true])

/-- The same without the late event. -/
def exAgain : AObs :=
  exReRun (execAllX exactEnv exThrower 10 { a := exReNew }
    [.push 0 0 5 (.one 1 1) true, .push 0 0 12 (.one 7 1) true, .push 0 0 12 (.one 7 1) true])

example : exThrown.received.map (fun d => (d.ts, d.count)) = [(0, 1), (0, 2)] ∧
    exThrown.accepted = [(0, .one 1 1), (0, .one 3 2), (10, .one 7 1)] ∧ exThrown.a.sep.currentTime = 10 := by decide +kernel

example : exAgain.received.map (fun d => (d.ts, d.count)) = [(0, 1)] ∧
    exAgain.accepted = [(0, .one 1 1), (10, .one 7 1)] ∧ exAgain.a.sep.currentTime = 10 := by decide +kernel

theorem C111_refuted : ¬ C111_FullClaim := by
  intro h
  have := h exactEnv exReOpt exThrower exThrown exThrower_pure
    ⟨by decide, exReNew, 10, _, exReNew_fresh _, by decide, exReRun_ok (by decide +kernel)⟩
  revert this
  decide +kernel

/-! ### What holds for every handler, whatever it does with the aggregator and whenever it throws -/

/-- The handler records an event and throws, the first time; the second time it closes windows itself, which calls it for
the third time, and that call throws: the exception passes through the handler. -/
def exThrowerMore : THandler := fun l =>
  if l.length = 1 then { ops := [.add 0 0 5 (.one 100 2)], throws := true }
  else if l.length = 2 then { ops := [.add 0 0 25 (.one 8 1), .push 0 0 35 (.one 9 1) true, .add 0 0 35 (.one 10 1)] }
  else { throws := true }

example : (exReRun (execAllX exactEnv exThrowerMore 10 { a := exReNew }
      [.push 0 0 5 (.one 1 1) true, .push 0 0 12 (.one 7 1) true, .push 0 0 12 (.one 7 1) true])).received.map (fun d => (d.ts, d.count)) =
      [(0, 1), (0, 2), (20, 1)] ∧
    (exReRun (execAllX exactEnv exThrowerMore 10 { a := exReNew }
      [.push 0 0 5 (.one 1 1) true, .push 0 0 12 (.one 7 1) true, .push 0 0 12 (.one 7 1) true])).accepted =
      [(0, .one 1 1), (0, .one 100 2), (20, .one 8 1)] := by decide +kernel

/-- Every recorded event is counted in exactly one record or in the current window. -/
theorem C111_exactly_once_partial (env : Env) (opt : AggregatorOpts) (a0 : Aggregator) (H : THandler) (k : Nat)
    (ops : List AOp) (o : AObs) (hs : 0 < opt.step) (h0 : Fresh env opt a0) (hH : ∀ l, ∀ op ∈ (H l).ops, op.clockOk)
    (hc : ∀ op ∈ ops, op.clockOk) (h : execAllX env H k { a := a0 } ops = .ok o) :
    ∃ (gR gA gS : List (List AddArg)) (cur : List AddArg),
      (gR.flatten ++ gA.flatten ++ gS.flatten ++ cur).Perm (o.accepted.map Prod.snd) ∧
      List.Forall₂ (fun g d => Summary env opt.limit opt.levels g d ∨ Report env opt g d) gR o.received ∧
      List.Forall₂ (Report env opt) gA o.a.agList ∧
      List.Forall₂ (Summary env opt.limit opt.levels) gS o.a.sep.sepList ∧
      o.a.sep.reducer.totalCount = sumCount cur := by
  obtain ⟨acc, gR, gA, gS, cur, g, hp⟩ := parted_execAllX
    (Q := fun as d => Summary env opt.limit opt.levels as d ∨ Report env opt as d) (fun _ _ h => .inr h) hs hH
    (fun _ _ h => .inl h) k ops hc (parted_fresh hs h0) h
  have conv : ∀ {Q : List AddArg → AggData → Prop} {gs : List (List (Int × AddArg))} {l : List AggData},
      List.Forall₂ (Group opt.step Q) gs l → List.Forall₂ Q (gs.map fun g => g.map Prod.snd) l := by
    intro Q gs l h
    induction h with
    | nil => exact .nil
    | cons h _ ih => exact .cons h.1 ih
  refine ⟨_, _, _, cur.map Prod.snd, ?_, conv g.rec_, conv g.wait, conv g.sep.recs, g.sep.red.good.total⟩
  have := (g.perm.map Prod.snd).trans hp
  simpa only [List.map_append, List.map_flatten] using this

/-- The sum of the counts of all records and of the current window is that of all events recorded. -/
theorem C111_counts_partial (env : Env) (opt : AggregatorOpts) (a0 : Aggregator) (H : THandler) (k : Nat)
    (ops : List AOp) (o : AObs) (hs : 0 < opt.step) (h0 : Fresh env opt a0) (hH : ∀ l, ∀ op ∈ (H l).ops, op.clockOk)
    (hc : ∀ op ∈ ops, op.clockOk) (h : execAllX env H k { a := a0 } ops = .ok o) :
    logCount o.received + logCount o.a.agList + logCount o.a.sep.sepList + o.a.sep.reducer.totalCount =
      sumCount (o.accepted.map Prod.snd) := by
  obtain ⟨gR, gA, gS, cur, hp, h1, h2, h3, h4⟩ := C111_exactly_once_partial env opt a0 H k ops o hs h0 hH hc h
  have hr : ∀ as d, Report env opt as d → d.count = sumCount as := fun as d h => by
    obtain ⟨raw, hsum, hdel⟩ := h
    rw [hdel.count, hsum.count]
  have e1 := logCount_groups (fun as d h => h.elim (fun h => h.count) (hr as d)) h1
  have e2 := logCount_groups hr h2
  have e3 := logCount_groups (fun as d h => h.count) h3
  have e4 : sumCount (o.accepted.map Prod.snd) = sumCount (gR.flatten ++ gA.flatten ++ gS.flatten ++ cur) :=
    ((hp.map AddArg.count).sum_eq).symm
  rw [e4]
  simp only [Separator.sumCount_append]
  omega

/-- Handlers that catch nothing: a call throws if and only if one of the handlers called during it throws, at whatever depth.
(The records fetched by `pop` and `force_pop` are received without a call of the handler; here no handler fetches.) -/
theorem C111_throws_partial (env : Env) (H : THandler) (k : Nat) (o o1 : AObs) (op : AOp) (th : Bool)
    (hc : ∀ l, (H l).catches = false) (hf : ∀ l, ∀ op ∈ (H l).ops, op.fetches = false) (hop : op.fetches = false)
    (h : execX env H k o op = .ok (o1, th)) :
    th = true ↔ ∃ q, o.received <+: q ∧ q ≠ o.received ∧ q <+: o1.received ∧ (H q).throws = true :=
  ((passed_execX hc hf k).1 op o _ hop h).2

/-- The second call of the handler closes a window of its own; the third throws, and so does the whole. -/
def exThrowerDeep : THandler := fun l =>
  if l.length = 1 then { ops := [.push 0 0 25 (.one 9 1) true, .push 0 0 35 (.one 10 1) true] } else { throws := decide (l.length = 2) }

example : (match (do
    let (o, _) ← execX exactEnv exThrowerDeep 20 { a := exReNew } (.push 0 0 5 (.one 1 1) true)
    execX exactEnv exThrowerDeep 20 o (.push 0 0 12 (.one 7 1) true) : M (AObs × Bool)) with
    | .ok (o, th) => decide (th = true ∧ o.received.map (fun d => d.ts) = [0, 20] ∧ o.accepted = [(0, .one 1 1), (20, .one 9 1)])
    | .error _ => false) = true := by decide +kernel

/-! ### Handlers that do not use the aggregator -/

/-- A call that threw has recorded nothing and handed over one record, that of the current window; made again, it gives the
handler nothing more and ends as it would have ended without exception. -/
theorem C111_again_partial (env : Env) (H : THandler) (k : Nat) (o o1 : AObs) (op : AOp) (hp : Pure H) (hs : 0 < o.a.sep.step)
    (h : execX env H k o op = .ok (o1, true)) :
    o1.accepted = o.accepted ∧ (∃ d, o1.received = o.received ++ [d] ∧ d.ts = o.a.sep.currentTime) ∧
      ∃ o2 K, exec env o op = .ok o2 ∧ o2.received = o1.received ∧ ∀ k', K ≤ k' → execX env H k' o1 op = .ok (o2, false) := by
  obtain ⟨o2, e, _, ht⟩ := execX_pure hp hs h
  obtain ⟨h1, h2, h3, _, _, K, h4⟩ := ht rfl
  exact ⟨h1, h3, o2, K, e, h2.symm, h4⟩

/-- A call that did not throw has done what it does with handlers that return. -/
theorem C111_returned_partial (env : Env) (H : THandler) (k : Nat) (o o1 : AObs) (op : AOp) (hp : Pure H) (hs : 0 < o.a.sep.step)
    (h : execX env H k o op = .ok (o1, false)) : exec env o op = .ok o1 := by
  obtain ⟨o2, e, hf, _⟩ := execX_pure hp hs h
  rw [hf rfl]
  exact e

theorem execTwice_pure {env : Env} {H : THandler} {k : Nat} {o : AObs} {op : AOp} {p : AObs × Bool} (hp : Pure H)
    (hs : 0 < o.a.sep.step) (h : execTwice env H k o op = .ok p) : exec env o op = .ok p.1 ∧ p.2 = false := by
  obtain ⟨⟨o1, th⟩, h1, h2⟩ := bind_inv h
  cases th with
  | false => cases h2; exact ⟨C111_returned_partial env H k o _ op hp hs h1, rfl⟩
  | true =>
    simp only [if_true] at h2
    obtain ⟨o2, e, _, ht⟩ := execX_pure hp hs h1
    obtain ⟨_, _, _, ⟨r, ha⟩, _, K, hK⟩ := ht rfl
    obtain ⟨o3, th3⟩ := p
    have hs1 : 0 < o1.a.sep.step := by rw [ha]; exact hs
    have h4 := hK (max K k) (le_max_left _ _)
    have h5 := (execX_mono (le_max_right K k)).1 _ _ _ h2
    rw [h4] at h5
    cases h5
    exact ⟨e, rfl⟩

/-- A client that makes every call that threw once more has the run of a handler that returns: all that is proved of such
runs (C09–C15) holds. -/
theorem C111_again_run_partial (env : Env) (opt : AggregatorOpts) (a0 : Aggregator) (H : THandler) (k : Nat) (ops : List AOp)
    (p : AObs × Bool) (hp : Pure H) (hs : 0 < opt.step) (h0 : Fresh env opt a0) (hc : ∀ op ∈ ops, op.clockOk)
    (h : seqX (execTwice env H k) false ops { a := a0 } = .ok p) : execAll env { a := a0 } ops = .ok p.1 ∧ p.2 = false := by
  have key : ∀ (ops : List AOp) (o : AObs) (p : AObs × Bool), Parted env opt (fun _ _ => True) o → (∀ op ∈ ops, op.clockOk) →
      seqX (execTwice env H k) false ops o = .ok p → execAll env o ops = .ok p.1 ∧ p.2 = false := by
    intro ops
    induction ops with
    | nil => intro o p _ _ h; cases h; exact ⟨rfl, rfl⟩
    | cons op ops ih =>
      intro o p g hc h
      rw [seqX] at h
      obtain ⟨⟨o1, th⟩, h1, h2⟩ := bind_inv h
      have hso : 0 < o.a.sep.step := by
        obtain ⟨_, _, _, _, _, g, _⟩ := g
        have := g.sep.step.1
        simp only at this
        omega
      obtain ⟨e1, e2⟩ := execTwice_pure hp hso h1
      simp only at e1 e2
      subst e2
      simp only [Bool.false_eq_true, false_and, if_false] at h2
      have := ih o1 p (parted_exec (fun _ _ _ => trivial) hs g op (hc op (by simp)) (fun _ _ _ _ => trivial) e1)
        (fun op h => hc op (by simp [h])) h2
      refine ⟨?_, this.2⟩
      unfold execAll at this ⊢
      rw [List.foldlM_cons, e1]
      exact this.1
  exact key ops _ p (parted_fresh hs h0) hc h

/-- Two records of one window: the handler threw on one of them. -/
theorem C111_once_partial (env : Env) (opt : AggregatorOpts) (H : THandler) (o : AObs) (hp : Pure H) (hr : ThrowRun env opt H o)
    (w : Int) (hw : ∀ l d, l ++ [d] <+: o.received → d.ts = w → (H (l ++ [d])).throws = false) :
    (stamps o.records).count w ≤ 1 := by
  obtain ⟨hs, a0, k, ops, h0, hc, h⟩ := hr
  obtain ⟨⟨o1, th⟩, h1, h2⟩ := bind_inv h
  cases h2
  have g : Once H o := seqX_inv (I := Once H) ops (fun op hop o p g h => once_execX hp g (hc op hop).2 h) (once_fresh hs h0) h1
  refine g.once w fun ⟨l, d, e1, e2, e3⟩ => ?_
  have := hw l d e1 e2
  simp only [this, Bool.false_eq_true] at e3

end Wrtstat
