/-
Property C88: handlers that use the aggregator they are called from.

Every call recorded, by the client or by the handler, is counted in exactly one record whatever the handler does
(`C88_exactly_once_partial`, `C88_counts_partial`).  That the record is the one of the window the event belongs to is
refuted: the handler runs before `_next_time` is advanced, so what it records is attributed to the window it has just been
given or to a later one.  Handlers that only read (`pop`, `aggregate_current`) do no harm: runs with them are the runs of
the other properties up to who has taken which record (`C88_quiet_partial`).
-/
import Verif.Lemmas.Quiet
import Verif.Props.Aggregator

namespace Wrtstat

set_option autoImplicit false

open Aggregator

/-- Runs of a new aggregator with handler `H`, without `force_pop`. -/
structure HandlerRun (env : Env) (opt : AggregatorOpts) (H : AggData → List AOp) (o : AObs) : Prop where
  step : 0 < opt.step
  clock : ∀ d, ∀ op ∈ H d, op.clockOk ∧ op.forced = false
  run : ∃ a0 k ops, Fresh env opt a0 ∧ (∀ op ∈ ops, op.clockOk ∧ op.forced = false) ∧ execAllR env H k { a := a0 } ops = .ok o

/-- Every record received or waiting counts the events recorded for its window. -/
def HandlerWindows (P : (AggData → List AOp) → Prop) : Prop :=
  ∀ (env : Env) (opt : AggregatorOpts) (H : AggData → List AOp) (o : AObs), P H → HandlerRun env opt H o →
    ∀ d ∈ o.received ++ o.a.agList, d.count = sumCount (eventsIn o.accepted d.ts (d.ts + opt.step))

/-- No window is reported twice. -/
def HandlerOnce (P : (AggData → List AOp) → Prop) : Prop :=
  ∀ (env : Env) (opt : AggregatorOpts) (H : AggData → List AOp) (o : AObs), P H → HandlerRun env opt H o →
    ((o.received ++ o.a.agList).map fun d => d.ts).Nodup

/-- An event pushed with a handler for the current window or a later one is recorded (time zero excepted, see C14). -/
def HandlerAccepts (P : (AggData → List AOp) → Prop) : Prop :=
  ∀ (env : Env) (opt : AggregatorOpts) (H : AggData → List AOp) (k : Nat) (o o' : AObs) (clk1 clk2 ts : Int) (x : AddArg),
    P H → HandlerRun env opt H o → o.a.enabled = true →
    (opt.resolution = .none ∨ align opt.step (meant opt.resolution clk1 ts) ≠ 0) →
    o.a.sep.currentTime ≤ align opt.step (meant opt.resolution clk1 ts) →
    execR env H k o (.push clk1 clk2 ts x true) = .ok o' →
    (align opt.step (meant opt.resolution clk1 ts), x) ∈ o'.accepted

def C88_FullClaim : Prop :=
  HandlerWindows (fun _ => True) ∧ HandlerOnce (fun _ => True) ∧ HandlerAccepts (fun _ => True)

def exReOpt : AggregatorOpts := { limit := 8, levels := 2, step := 10, resolution := .none, outSize := 3 }

def exReNew : Aggregator :=
  { sep := { reducer := Reducer.new exReOpt.toReducerOpts, step := 10, next := 10, resolution := .none }, outSize := 3 }

theorem exReNew_fresh (env : Env) : Fresh env exReOpt exReNew :=
  .new (clk := 0) (rand := 0) (ts := 0) (by decide +kernel)

/-- When the window 0 is completed, an event of the next window is added. -/
def exReLater (d : AggData) : List AOp := if d.ts = 0 then [.add 0 0 12 (.one 100 1)] else []

/-- When the window 0 is completed for the first time, a late event of that window is added and the window closed again. -/
def exReAgain (d : AggData) : List AOp :=
  if d.ts = 0 ∧ d.count = 1 then [.add 0 0 5 (.one 100 2), .separate 0 12 false false] else []

/-- The result of a run. -/
def exReRun (x : M AObs) : AObs :=
  match x with
  | .ok o => o
  | .error _ => { a := exReNew }

theorem exReRun_ok {x : M AObs} (h : x.isOk = true) : x = .ok (exReRun x) := by
  cases x with
  | error e => cases h
  | ok a => rfl

def exReFirst : AObs := exReRun (execAllR exactEnv exReLater 10 { a := exReNew } [.push 0 0 5 (.one 1 1) true])

def exReSecond : AObs := exReRun (execR exactEnv exReLater 10 exReFirst (.push 0 0 12 (.one 7 1) true))

def exReTwice : AObs :=
  exReRun (execAllR exactEnv exReAgain 10 { a := exReNew } [.push 0 0 5 (.one 1 1) true, .push 0 0 32 (.one 7 1) true])

example : exReSecond.received.map (fun d => (d.ts, d.count)) = [(0, 1)] ∧ exReSecond.a.sep.currentTime = 20 ∧
    exReSecond.accepted = [(0, .one 1 1), (10, .one 100 1)] ∧ exReSecond.a.sep.reducer.totalCount = 1 := by decide +kernel

example : exReTwice.received.map (fun d => (d.ts, d.count)) = [(0, 1)] ∧
    exReTwice.a.agList.map (fun d => (d.ts, d.count)) = [(0, 2)] ∧
    exReTwice.accepted = [(0, .one 1 1), (0, .one 100 2), (30, .one 7 1)] := by decide +kernel

theorem exReLater_ok : ∀ d, ∀ op ∈ exReLater d, op.clockOk ∧ op.forced = false := fun d op hop => by
  unfold exReLater at hop
  split_ifs at hop <;> simp_all [AOp.clockOk, AOp.forced]

theorem exReAgain_ok : ∀ d, ∀ op ∈ exReAgain d, op.clockOk ∧ op.forced = false := fun d op hop => by
  unfold exReAgain at hop
  split_ifs at hop
  · simp only [List.mem_cons, List.not_mem_nil, or_false] at hop
    rcases hop with rfl | rfl <;> decide
  · cases hop

theorem exReTwice_run : HandlerRun exactEnv exReOpt exReAgain exReTwice :=
  ⟨by decide, exReAgain_ok, exReNew, 10, _, exReNew_fresh _, by decide, exReRun_ok (by decide +kernel)⟩

/-- The handler adds an event of the next window: the event pushed is rejected. -/
theorem C88_accept_refuted : ¬ HandlerAccepts (fun _ => True) := by
  intro h
  have h1 : HandlerRun exactEnv exReOpt exReLater exReFirst :=
    ⟨by decide, exReLater_ok, exReNew, 10, _, exReNew_fresh _, by decide, exReRun_ok (by decide +kernel)⟩
  have := h exactEnv exReOpt exReLater 10 exReFirst exReSecond 0 0 12 (.one 7 1) trivial h1
    (by decide +kernel) (by decide) (by decide +kernel) (exReRun_ok (by decide +kernel))
  revert this
  decide +kernel

/-- The handler adds a late event of the window it is given: the window counts 3, its records 1 and 2. -/
theorem C88_windows_refuted : ¬ HandlerWindows (fun _ => True) := by
  intro h
  have := h exactEnv exReOpt exReAgain exReTwice trivial exReTwice_run
  revert this
  decide +kernel

/-- In the same run the window is reported twice. -/
theorem C88_once_refuted : ¬ HandlerOnce (fun _ => True) := by
  intro h
  have := h exactEnv exReOpt exReAgain exReTwice trivial exReTwice_run
  revert this
  decide +kernel

theorem C88_refuted : ¬ C88_FullClaim := fun h => C88_windows_refuted h.1

/-! ### What holds for every handler -/

/-- Every recorded call is counted in exactly one record or in the current window: the calls recorded, by the client and by
the handler, split into groups, one for each record received or waiting.  Missing: that the group is that of the window. -/
theorem C88_exactly_once_partial (env : Env) (opt : AggregatorOpts) (a0 : Aggregator) (H : AggData → List AOp) (k : Nat)
    (ops : List AOp) (o : AObs) (hs : 0 < opt.step) (h0 : Fresh env opt a0) (hH : ∀ d, ∀ op ∈ H d, op.clockOk)
    (hc : ∀ op ∈ ops, op.clockOk) (h : execAllR env H k { a := a0 } ops = .ok o) :
    ∃ (gR gA gS : List (List AddArg)) (cur : List AddArg),
      (gR.flatten ++ gA.flatten ++ gS.flatten ++ cur).Perm (o.accepted.map Prod.snd) ∧
      List.Forall₂ (fun g d => Summary env opt.limit opt.levels g d ∨ Report env opt g d) gR o.received ∧
      List.Forall₂ (Report env opt) gA o.a.agList ∧
      List.Forall₂ (Summary env opt.limit opt.levels) gS o.a.sep.sepList ∧
      o.a.sep.reducer.totalCount = sumCount cur := by
  obtain ⟨acc, gR, gA, gS, cur, g, hp⟩ := parted_execAllR
    (Q := fun as d => Summary env opt.limit opt.levels as d ∨ Report env opt as d) (fun _ _ h => .inr h) hs hH
    (fun _ _ _ _ _ _ h => .inl h) k ops hc (fun _ _ _ _ _ h => .inl h) (parted_fresh hs h0) h
  have conv : ∀ {Q : List AddArg → AggData → Prop} {gs : List (List (Int × AddArg))} {l : List AggData},
      List.Forall₂ (Group opt.step Q) gs l → List.Forall₂ Q (gs.map fun g => g.map Prod.snd) l := by
    intro Q gs l h
    induction h with
    | nil => exact .nil
    | cons h _ ih => exact .cons h.1 ih
  refine ⟨_, _, _, cur.map Prod.snd, ?_, conv g.rec_, conv g.wait, conv g.sep.recs, g.sep.red.good.total⟩
  have := (g.perm.map Prod.snd).trans hp
  simpa only [List.map_append, List.map_flatten] using this

theorem logCount_groups {Q : List AddArg → AggData → Prop} (hq : ∀ as d, Q as d → d.count = sumCount as)
    {gs : List (List AddArg)} {l : List AggData} (h : List.Forall₂ Q gs l) : logCount l = sumCount gs.flatten := by
  induction h with
  | nil => rfl
  | cons h _ ih =>
    have := hq _ _ h
    simp only [List.flatten_cons, Separator.sumCount_append]
    simp only [logCount, List.map_cons, List.sum_cons] at *
    omega

/-- The sum of the counts of all records and of the current window is that of all events recorded. -/
theorem C88_counts_partial (env : Env) (opt : AggregatorOpts) (a0 : Aggregator) (H : AggData → List AOp) (k : Nat)
    (ops : List AOp) (o : AObs) (hs : 0 < opt.step) (h0 : Fresh env opt a0) (hH : ∀ d, ∀ op ∈ H d, op.clockOk)
    (hc : ∀ op ∈ ops, op.clockOk) (h : execAllR env H k { a := a0 } ops = .ok o) :
    logCount o.received + logCount o.a.agList + logCount o.a.sep.sepList + o.a.sep.reducer.totalCount =
      sumCount (o.accepted.map Prod.snd) := by
  obtain ⟨gR, gA, gS, cur, hp, h1, h2, h3, h4⟩ := C88_exactly_once_partial env opt a0 H k ops o hs h0 hH hc h
  have hr : ∀ as d, Report env opt as d → d.count = sumCount as := fun as d h => by
    obtain ⟨raw, hsum, hdel⟩ := h
    rw [hdel.count, hsum.count]
  have e1 := logCount_groups (fun as d h => h.elim (fun h => h.count) (hr as d)) h1
  have e2 := logCount_groups hr h2
  have e3 := logCount_groups (fun as d h => h.count) h3
  have e4 : sumCount (o.accepted.map Prod.snd) = sumCount (gR.flatten ++ gA.flatten ++ gS.flatten ++ cur) :=
    ((hp.map AddArg.count).sum_eq).symm
  rw [e4]
  simp only [Separator.sumCount_append]
  omega

/-! ### Handlers that only read -/

/-- With a handler that only reads, a run is the run of the model in which handlers are lists of records: the object and the
events recorded are the same, and the records are the same up to their order and to who has taken them. -/
theorem C88_quiet_partial (env : Env) (opt : AggregatorOpts) (a0 : Aggregator) (H : AggData → List AOp) (k : Nat)
    (ops : List AOp) (o : AObs) (hq : Quiet H) (hs : 0 < opt.step) (h0 : Fresh env opt a0) (hc : ∀ op ∈ ops, op.clockOk)
    (h : execAllR env H k { a := a0 } ops = .ok o) :
    ∃ o1, Aggregator.execAll env { a := a0 } ops = .ok o1 ∧ o1.a.sep = o.a.sep ∧ o1.a.enabled = o.a.enabled ∧
      o1.a.alive = o.a.alive ∧ o1.accepted = o.accepted ∧
      (o1.received ++ o1.a.agList).Perm (o.received ++ o.a.agList) := by
  obtain ⟨o1, e, al⟩ := quiet_execAll hs hq ops hc ⟨_, _, _, _, pgood_fresh hs h0⟩ (Alike.refl _) h
  exact ⟨o1, e, al.sep, by have := al.obj; rw [this], by have := al.obj; rw [this], al.accepted, al.recs⟩

/-- And it ends without fault whenever that one does. -/
theorem C88_ends (env : Env) (opt : AggregatorOpts) (a0 : Aggregator) (H : AggData → List AOp) (ops : List AOp) (o1 : AObs)
    (hq : Quiet H) (hs : 0 < opt.step) (h0 : Fresh env opt a0) (hc : ∀ op ∈ ops, op.clockOk)
    (h : Aggregator.execAll env { a := a0 } ops = .ok o1) :
    ∃ K, ∀ k, K ≤ k → ∃ o, execAllR env H k { a := a0 } ops = .ok o :=
  quiet_execAll_ends hs hq ops hc ⟨_, _, _, _, pgood_fresh hs h0⟩ (Alike.refl _) h

theorem quiet_log {env : Env} {opt : AggregatorOpts} {H : AggData → List AOp} {o : AObs} (hq : Quiet H)
    (hr : HandlerRun env opt H o) :
    ∃ (org : Int) (log rraw araw : List AggData) (o1 : AObs), Separator.SGood env opt.toSeparatorOpts org ⟨o1.a.sep, rraw ++ araw, o.accepted⟩ log ∧
      List.Forall₂ (fun raw d : AggData => d.ts = raw.ts ∧ d.count = raw.count) (rraw ++ araw) (o1.received ++ o1.a.agList) ∧
      (o1.received ++ o1.a.agList).Perm (o.received ++ o.a.agList) := by
  obtain ⟨hs, _, a0, k, ops, h0, hops, h⟩ := hr
  obtain ⟨o1, e, _, _, _, hacc, hrec⟩ := C88_quiet_partial env opt a0 H k ops o hq hs h0 (fun op h => (hops op h).1) h
  obtain ⟨log, hout, rraw, araw, gs, h1, h2, h3⟩ := agood_execAll
    (Q := fun raw d => d.ts = raw.ts ∧ d.count = raw.count) (ord := false)
    (fun _ _ h => ⟨h.ts, h.count⟩) hs ops (agood_fresh hs h0) (fun op h => (hops op h).1) (fun op h => (hops op h).2)
    (by simp) (fun _ _ _ _ => ⟨rfl, rfl⟩) e
  exact ⟨_, _, rraw, araw, o1, hacc ▸ gs, List.rel_append h1 (h2.imp fun _ _ h => ⟨h.ts, h.count⟩), hrec⟩

/-- The claims for handlers that only read. -/
theorem C88_windows_partial : HandlerWindows Quiet := by
  intro env opt H o hq hr d hd
  obtain ⟨_, log, rraw, araw, o1, gs, hall, hrec⟩ := quiet_log hq hr
  obtain ⟨raw, hraw, e1, e2⟩ := mem_forall2 hall d (hrec.mem_iff.2 hd)
  have hmem : raw ∈ log := gs.perm.mem_iff.2 (List.mem_append_left _ hraw)
  rw [e1, e2]
  exact (gs.recs raw hmem).1.count

theorem C88_once_partial : HandlerOnce Quiet := by
  intro env opt H o hq hr
  obtain ⟨_, log, rraw, araw, o1, gs, hall, hrec⟩ := quiet_log hq hr
  have hts : ∀ {l l' : List AggData}, List.Forall₂ (fun raw d : AggData => d.ts = raw.ts ∧ d.count = raw.count) l l' →
      l'.map (fun d => d.ts) = l.map fun d => d.ts := by
    intro l l' h
    induction h with
    | nil => rfl
    | cons h _ ih => simp only [List.map_cons, h.1, ih]
  have hnd : (log.map fun d => d.ts).Nodup := List.pairwise_map.2 (gs.sorted.imp fun h => ne_of_lt h)
  have := ((gs.perm.map fun d => d.ts).nodup_iff).1 hnd
  rw [List.map_append] at this
  rw [← (hrec.map fun d => d.ts).nodup_iff, hts hall]
  exact (List.nodup_append.1 this).1

theorem C88_accept_partial : HandlerAccepts Quiet := by
  intro env opt H k o o' clk1 clk2 ts x hq hr hen hts hcur hx
  obtain ⟨hs, _, a0, k', ops, h0, hops, h⟩ := hr
  have hc := fun op h => (hops op h).1
  obtain ⟨o1, e, hsep, _, _, _, _⟩ := C88_quiet_partial env opt a0 H k' ops o hq hs h0 hc h
  obtain ⟨gR, gA, gS, cur, g⟩ := pgood_execAll (Q := fun _ _ => True) (fun _ _ _ => trivial) hs ops
    (pgood_fresh hs h0) hc (fun _ _ _ _ _ _ => trivial) e
  obtain ⟨hst, hres⟩ := g.sep.step
  have hred := g.sep.red
  rw [hsep] at hst hres hred
  obtain ⟨o2, e2, al⟩ := quiet_exec hq (by rw [hst]; exact hs) hx
  rw [← al.accepted]
  simp only [exec, push] at e2
  rw [if_neg (by simp [hen])] at e2
  simp only [Bool.true_eq_false, if_false] at e2
  obtain ⟨⟨b, out, a⟩, h1, e2⟩ := bind_inv e2
  obtain ⟨⟨b', out', s'⟩, h2, h1⟩ := bind_inv h1
  obtain ⟨_, _, h1⟩ := bind_inv h1
  cases h1
  cases e2
  obtain ⟨s1, pub, as', eff, hb, _⟩ := Separator.push_effect (by rw [hst]; exact hs) hred h2
  rw [hst, hres] at eff hb
  generalize hT : align opt.step (meant opt.resolution clk1 ts) = T at *
  have hT2 : align opt.step (meant opt.resolution clk2 T) = T := by
    unfold meant
    rw [if_neg (by tauto), ← hT]
    exact Separator.align_idem (by omega) _
  rw [hT2] at eff
  have hb : b' = true := by
    rw [hb, eff.frame.1, hst]
    unfold Separator.currentTime at hcur
    rw [hst] at hcur
    rcases eff.cases with ⟨_, _, c, _⟩ | ⟨_, _, c, _⟩
    · rw [c]; exact hcur
    · rw [hst] at c; exact c
  simp only [AObs.record, hb, hen, hst, hres, hT]
  simp

/-- The handler takes the record waiting. -/
def exRePop (_ : AggData) : List AOp := [.look, .pop]

example : Quiet exRePop := fun d op h => by simp [exRePop] at h; tauto

/-- Two windows are completed; the second one is handed to the handler, which takes the first. -/
def exReTaken : AObs := exReRun (execAllR exactEnv exRePop 10 { a := exReNew }
  [.add 0 0 5 (.one 1 1), .add 0 0 15 (.one 2 1), .push 0 0 32 (.one 7 1) true])

theorem exReTaken_run : HandlerRun exactEnv exReOpt exRePop exReTaken :=
  ⟨by decide, fun d op h => by simp [exRePop] at h; rcases h with rfl | rfl <;> decide, exReNew, 10, _, exReNew_fresh _,
    by decide, exReRun_ok (by decide +kernel)⟩

example : exReTaken.received.map (fun d => (d.ts, d.count)) = [(10, 1), (0, 1)] ∧ exReTaken.a.agList = [] := by
  decide +kernel

example : ((exReTaken.received ++ exReTaken.a.agList).map fun d => d.ts).Nodup :=
  C88_once_partial _ exReOpt exRePop _ (fun d op h => by simp [exRePop] at h; tauto) exReTaken_run

/-- In the run of the refutation nothing is lost or counted twice. -/
example : logCount exReTwice.received + logCount exReTwice.a.agList + logCount exReTwice.a.sep.sepList +
    exReTwice.a.sep.reducer.totalCount = 4 ∧ sumCount (exReTwice.accepted.map Prod.snd) = 4 := by decide +kernel

end Wrtstat
