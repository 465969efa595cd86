/-
Properties C12-C18 of the separator.

Every theorem ranges over all options with a positive step, all platforms, all origins and all
client histories `ops` (with non-negative clock readings) starting from a newly built separator.
`o.received ++ o.s.sepList` are the records published so far: those already received, by a handler
or by `pop`, and those waiting for `pop`.  `o.accepted` are the events accepted so far, with their
aligned time.
-/
import Verif.Lemmas.SeparatorTotal
import Verif.Model.Instances

namespace Wrtstat
open Separator
open Reducer (GoodA goodA_add goodA_clone detach_spec Bounds)

/-! ### A concrete history used in the examples -/

def exSOpt : SeparatorOpts := { limit := 3, levels := 2, step := 10, resolution := .seconds }

def exSOps : List SOp :=
  [.push 0 0 1003 (.one 5 2) false, .push 0 0 1012 (.many [7, 2] 2) false, .look,
   .push 0 0 1008 (.one 1 1) false, .push 1057 1057 0 (.one 9 4) true, .separate 0 1061 false false, .pop,
   .push 0 0 1064 (.one 3 1) true]

def exSNew : Separator :=
  match Separator.new exSOpt 0 0 1000 with
  | .ok s => s
  | .error _ => { reducer := Reducer.new exSOpt.toReducerOpts, step := 0, next := 0, resolution := .none }

def exSObs : Obs :=
  match execAll exactEnv { s := exSNew } exSOps with
  | .ok o => o
  | .error _ => { s := exSNew }

theorem exSNew_eq : Separator.new exSOpt 0 0 1000 = .ok exSNew := by decide +kernel

theorem exSRun : execAll exactEnv { s := exSNew } exSOps = .ok exSObs := by
  have h : (match execAll exactEnv { s := exSNew } exSOps with | .ok _ => true | .error _ => false) = true := by
    decide +kernel
  unfold exSObs
  split at h
  · rename_i o e; rw [e]
  · cases h

theorem exSClk : ∀ op ∈ exSOps, op.clockOk := by decide

/-- The late event (1008 after 1012) is rejected, the others are accepted. -/
example : exSObs.accepted =
    [(1000, .one 5 2), (1010, .many [7, 2] 2), (1050, .one 9 4), (1060, .one 3 1)] := by decide +kernel

example : exSObs.received.map (fun d => (d.ts, d.count, d.data)) = [(1010, 2, [7, 2]), (1000, 2, [5])] := by
  decide +kernel

example : exSObs.s.sepList.map (fun d => (d.ts, d.count, d.data)) = [(1050, 4, [9])] := by decide +kernel

/-! ### C12 -/

/-- Every published record carries the start of a window, counted in steps from the origin, and
summarises exactly the accepted events of that window. -/
theorem C12_windows (env : Env) (opt : SeparatorOpts) (clk rand ts0 : Int) (s0 : Separator) (ops : List SOp)
    (o : Obs) (hs : 0 < opt.step) (h0 : Separator.new opt clk rand ts0 = .ok s0)
    (hc : ∀ op ∈ ops, op.clockOk) (h : execAll env { s := s0 } ops = .ok o) :
    ∀ d ∈ o.received ++ o.s.sepList, (∃ k : Nat, d.ts = s0.currentTime + k * opt.step) ∧
      Summary env opt.limit opt.levels (eventsIn o.accepted d.ts (d.ts + opt.step)) d := by
  obtain ⟨log, g, _⟩ := sgood_execAll hs ops (sgood_new (env := env) h0) hc h
  have hst : s0.step = opt.step := (sgood_new (env := env) h0).step.1
  intro d hd
  have hd : d ∈ [] ++ log := g.perm.mem_iff.2 hd
  obtain ⟨k, hk, e⟩ := g.aligned d hd
  refine ⟨⟨k.toNat, ?_⟩, (g.recs d hd).1⟩
  rw [Int.toNat_of_nonneg hk]
  unfold currentTime
  rw [hst]; exact e

/-- No accepted event is missing: each is covered by a published record or belongs to the current
window. -/
theorem C12_complete (env : Env) (opt : SeparatorOpts) (clk rand ts0 : Int) (s0 : Separator) (ops : List SOp)
    (o : Obs) (hs : 0 < opt.step) (h0 : Separator.new opt clk rand ts0 = .ok s0)
    (hc : ∀ op ∈ ops, op.clockOk) (h : execAll env { s := s0 } ops = .ok o) :
    ∀ e ∈ o.accepted, s0.currentTime ≤ e.1 ∧
      ((∃ d ∈ o.received ++ o.s.sepList, d.ts ≤ e.1 ∧ e.1 < d.ts + opt.step) ∨
       (o.s.currentTime ≤ e.1 ∧ e.1 < o.s.nextTime)) := by
  obtain ⟨log, g, _⟩ := sgood_execAll hs ops (sgood_new (env := env) h0) hc h
  have hst : s0.step = opt.step := (sgood_new (env := env) h0).step.1
  intro e he
  refine ⟨by unfold currentTime; rw [hst]; exact g.after e he, ?_⟩
  by_cases hlt : e.1 < o.s.next - opt.step
  · left
    obtain ⟨d, hd, h1⟩ := g.cover e he hlt
    exact ⟨d, g.perm.mem_iff.1 hd, h1⟩
  · right
    unfold currentTime nextTime
    rw [g.step.1]
    exact ⟨by omega, g.before e he⟩

/-- `get_current` reports the accepted events of the current window, and is null exactly when there
is none. -/
theorem C12_current (env : Env) (opt : SeparatorOpts) (clk rand ts0 : Int) (s0 : Separator) (ops : List SOp)
    (o : Obs) (x : Option AggData) (hs : 0 < opt.step) (h0 : Separator.new opt clk rand ts0 = .ok s0)
    (hc : ∀ op ∈ ops, op.clockOk) (h : execAll env { s := s0 } ops = .ok o)
    (hx : o.s.getCurrent env = .ok x) :
    (x = none ↔ eventsIn o.accepted o.s.currentTime o.s.nextTime = []) ∧
    ∀ d, x = some d → d.ts = o.s.currentTime ∧
      Summary env opt.limit opt.levels (eventsIn o.accepted o.s.currentTime o.s.nextTime) d := by
  obtain ⟨log, g, _⟩ := sgood_execAll hs ops (sgood_new (env := env) h0) hc h
  have hred := g.red
  unfold getCurrent Reducer.getReduced at hx
  unfold currentTime nextTime
  rw [g.step.1] at hx ⊢
  have gc := goodA_clone hred
  cases hd : o.s.reducer.clone.detach env with
  | error e => rw [hd] at hx; cases hx
  | ok p =>
    obtain ⟨y, r'⟩ := p
    rw [hd] at hx
    simp only [bind_ok] at hx
    cases y with
    | none =>
      cases hx
      rcases detach_spec gc with ⟨e, _⟩ | ⟨_, r1, _, _, _, _, _, _, ⟨a, _, e⟩ | ⟨_, e⟩⟩
      · simp [e]
      · rw [hd] at e; cases e
      · rw [hd] at e; cases e
    | some d =>
      cases hx
      have hsum := summary_of_detach gc hd
      refine ⟨by simp [hsum.nonempty], ?_⟩
      intro d' e
      cases e
      exact ⟨rfl, summary_ts hsum⟩

example : ∀ d ∈ exSObs.received ++ exSObs.s.sepList, (∃ k : Nat, d.ts = exSNew.currentTime + k * 10) ∧
    Summary exactEnv 3 2 (eventsIn exSObs.accepted d.ts (d.ts + 10)) d :=
  C12_windows _ exSOpt _ _ _ _ _ _ (by decide) exSNew_eq exSClk exSRun

example : (exSObs.received ++ exSObs.s.sepList).length = 3 := by decide +kernel

example : ∃ d, exSObs.s.getCurrent exactEnv = .ok (some d) ∧ d.ts = 1060 ∧ d.count = 1 := by
  refine ⟨{ data := [3], avg := 3, count := 1, lossy := 0, min := 3, max := 3, ts := 1060 }, ?_, rfl, rfl⟩
  decide +kernel

/-! ### C13 -/

/-- No window is published twice, and a record published by an operation is younger than all
records published before. -/
theorem C13_order (env : Env) (opt : SeparatorOpts) (clk rand ts0 : Int) (s0 : Separator)
    (ops1 ops2 : List SOp) (o1 o2 : Obs) (hs : 0 < opt.step) (h0 : Separator.new opt clk rand ts0 = .ok s0)
    (hc : ∀ op ∈ ops1 ++ ops2, op.clockOk) (h1 : execAll env { s := s0 } ops1 = .ok o1)
    (h2 : execAll env o1 ops2 = .ok o2) :
    ((o2.received ++ o2.s.sepList).map (·.ts)).Nodup ∧
    ∃ new, (o2.received ++ o2.s.sepList).Perm ((o1.received ++ o1.s.sepList) ++ new) ∧
      ∀ d ∈ o1.received ++ o1.s.sepList, ∀ d' ∈ new, d.ts < d'.ts := by
  obtain ⟨log, g, _⟩ := sgood_execAll hs ops1 (sgood_new (env := env) h0) (fun op h => hc op (by simp [h])) h1
  obtain ⟨new, g2, _⟩ := sgood_execAll hs ops2 g (fun op h => hc op (by simp [h])) h2
  refine ⟨?_, new, ?_, ?_⟩
  · have hn : (([] ++ log ++ new : List AggData).map (·.ts)).Nodup := by
      rw [List.Nodup, List.pairwise_map]
      exact g2.sorted.imp (fun h => h.ne)
    exact ((g2.perm.map _).nodup_iff).1 hn
  · exact g2.perm.symm.trans (g.perm.append_right new)
  · intro d hd d' hd'
    have hd := g.perm.mem_iff.2 hd
    exact (List.pairwise_append.1 g2.sorted).2.2 d hd d' hd'

/-- Polling only: the records popped, followed by those waiting, are in strictly increasing order. -/
theorem C13_polling (env : Env) (opt : SeparatorOpts) (clk rand ts0 : Int) (s0 : Separator)
    (ops : List SOp) (o : Obs) (hs : 0 < opt.step) (h0 : Separator.new opt clk rand ts0 = .ok s0)
    (hc : ∀ op ∈ ops, op.clockOk) (hp : ∀ op ∈ ops, op.handed = false)
    (h : execAll env { s := s0 } ops = .ok o) :
    (o.received ++ o.s.sepList).Pairwise fun a b => a.ts < b.ts := by
  obtain ⟨log, g, hl, _⟩ := sgood_execAll hs ops (sgood_new (env := env) h0) hc h
  rw [hl hp (by unfold Separator.new at h0; rw [getTs_eq (by omega)] at h0; cases h0; rfl)]
  exact g.sorted

/-- Handlers only: the records are handed over in strictly increasing order, none is left waiting. -/
theorem C13_handler (env : Env) (opt : SeparatorOpts) (clk rand ts0 : Int) (s0 : Separator)
    (ops : List SOp) (o : Obs) (hs : 0 < opt.step) (h0 : Separator.new opt clk rand ts0 = .ok s0)
    (hc : ∀ op ∈ ops, op.clockOk) (hp : ∀ op ∈ ops, op.handed = true)
    (h : execAll env { s := s0 } ops = .ok o) :
    o.s.sepList = [] ∧ o.received.Pairwise fun a b => a.ts < b.ts := by
  obtain ⟨log, g, _, hl, _⟩ := sgood_execAll hs ops (sgood_new (env := env) h0) hc h
  have h00 : s0.sepList = [] := by unfold Separator.new at h0; rw [getTs_eq (by omega)] at h0; cases h0; rfl
  obtain ⟨a, b⟩ := hl hp h00 rfl
  rw [b]
  exact ⟨a, g.sorted⟩

example : ((exSObs.received ++ exSObs.s.sepList).map (·.ts)).Nodup :=
  (C13_order _ exSOpt _ _ _ _ exSOps [] _ _ (by decide) exSNew_eq (by simpa using exSClk) exSRun rfl).1

def exSPoll : List SOp :=
  [.push 0 0 1003 (.one 5 2) false, .push 0 0 1012 (.many [7, 2] 2) false, .pop,
   .push 0 0 1057 (.one 9 4) false, .separate 0 1061 false false]

def exSHand : List SOp :=
  [.push 0 0 1003 (.one 5 2) true, .push 0 0 1012 (.many [7, 2] 2) true, .separate 0 1061 true false]

/-- Timestamps of the records received and waiting at the end of a history. -/
def tsAfter (s : Separator) (ops : List SOp) : Option (List Int × List Int) :=
  match execAll exactEnv { s := s } ops with
  | .ok o => some (o.received.map (·.ts), o.s.sepList.map (·.ts))
  | .error _ => none

example : (∀ op ∈ exSPoll, op.clockOk ∧ op.handed = false) ∧
    tsAfter exSNew exSPoll = some ([1000], [1010, 1050]) := by decide +kernel

example : (∀ op ∈ exSHand, op.clockOk ∧ op.handed = true) ∧
    tsAfter exSNew exSHand = some ([1000, 1010], []) := by decide +kernel

/-! ### C14

The claim fails for timestamps smaller than one step when the resolution is set: they are aligned
to 0, which the separation inside `add` takes for "now". -/

/-- The full claim: an event is rejected exactly when it is late, and then without effect. -/
def LateRejection (env : Env) : Prop :=
  ∀ (opt : SeparatorOpts) (clk rand ts0 : Int) (s0 : Separator) (ops : List SOp) (o : Obs),
    0 < opt.step → Separator.new opt clk rand ts0 = .ok s0 → (∀ op ∈ ops, op.clockOk) →
    execAll env { s := s0 } ops = .ok o →
    ∀ (clk1 clk2 ts : Int) (a : AddArg) (handler b : Bool) (out : List AggData) (s' : Separator),
      0 ≤ clk1 → 0 ≤ clk2 → o.s.push env clk1 clk2 ts a handler = .ok (b, out, s') →
      (b = true ↔ o.s.currentTime ≤ align opt.step (meant opt.resolution clk1 ts)) ∧
      (b = false → out = [] ∧ s' = o.s)

/-- Counterexample: current window `[0,10)`, clock at 1005, event at time 5. -/
theorem C14_refuted : ¬ LateRejection exactEnv := by
  intro h
  obtain ⟨s0, h0⟩ : ∃ s0, Separator.new exSOpt 0 0 5 = .ok s0 := ⟨_, rfl⟩
  have e : s0 = { exSNew with next := 10 } := by
    have : Separator.new exSOpt 0 0 5 = .ok { exSNew with next := 10 } := by decide +kernel
    rw [this] at h0; cases h0; rfl
  subst e
  have := h exSOpt 0 0 5 _ [] _ (by decide) h0 (by simp) rfl 1005 1005 5 (.one 1 1) false false []
    { exSNew with next := 1010 } (by decide) (by decide) (by decide +kernel)
  exact absurd this (by decide +kernel)

/-- The claim for all other events; an accepted one is recorded in the right window. -/
theorem C14_late_partial (env : Env) (opt : SeparatorOpts) (clk rand ts0 : Int) (s0 : Separator)
    (ops : List SOp) (o : Obs) (hs : 0 < opt.step) (h0 : Separator.new opt clk rand ts0 = .ok s0)
    (hc : ∀ op ∈ ops, op.clockOk) (h : execAll env { s := s0 } ops = .ok o)
    (clk1 clk2 ts : Int) (a : AddArg) (handler b : Bool) (out : List AggData) (s' : Separator)
    (hts : opt.resolution = .none ∨ align opt.step (meant opt.resolution clk1 ts) ≠ 0)
    (hp : o.s.push env clk1 clk2 ts a handler = .ok (b, out, s')) :
    (b = true ↔ o.s.currentTime ≤ align opt.step (meant opt.resolution clk1 ts)) ∧
    (b = false → out = [] ∧ s' = o.s) ∧
    (b = true → s'.reducer.totalCount = a.count +
        (if align opt.step (meant opt.resolution clk1 ts) < o.s.nextTime then o.s.reducer.totalCount else 0) ∧
      s'.currentTime ≤ align opt.step (meant opt.resolution clk1 ts) ∧
      align opt.step (meant opt.resolution clk1 ts) < s'.nextTime) := by
  obtain ⟨log, g, _⟩ := sgood_execAll hs ops (sgood_new (env := env) h0) hc h
  obtain ⟨hst, hres⟩ := g.step
  obtain ⟨s1, pub, as', eff, hb, hs'⟩ := push_effect (by rw [hst]; exact hs) g.red hp
  rw [hst, hres] at eff hb
  generalize hT : align opt.step (meant opt.resolution clk1 ts) = T at *
  have hT2 : align opt.step (meant opt.resolution clk2 T) = T := by
    unfold meant
    rw [if_neg (by tauto), ← hT]
    exact align_idem (by omega) _
  rw [hT2] at eff
  have hs1 : s1.step = opt.step := eff.frame.1.trans hst
  rw [hs1] at hb
  unfold currentTime nextTime
  rw [hst]
  have htot := eff.good.good.total
  have htot0 := g.red.good.total
  rcases eff.cases with ⟨c1, c2, c3, c4⟩ | ⟨c1, c2, c3, ⟨k, c4, c5⟩, c6, c7⟩
  · subst c3
    refine ⟨hb, ?_, ?_⟩
    · intro hf
      rw [hf] at hs'
      refine ⟨?_, by simpa using hs'⟩
      rw [eff.lists.1, c2]; simp
    · intro ht
      rw [ht] at hs'
      simp only [if_true] at hs'
      subst hs'
      rw [if_pos c1]
      refine ⟨?_, ?_, c1⟩
      · have h1 := (goodA_add eff.good a).good.total
        have h2 := eff.good.good.total
        show (o.s.reducer.add env a).total = a.count + o.s.reducer.total
        rw [h1, h2, Separator.sumCount_append]
        simp [sumCount]; omega
      · show o.s.next - o.s.step ≤ T
        rw [hst]; exact hb.1 ht
  · rw [hst] at c3
    have hbt : b = true := hb.2 c3
    rw [hbt] at hs'
    simp only [if_true] at hs'
    subst hs'
    refine ⟨by simp [hbt]; omega, by simp [hbt], ?_⟩
    intro _
    rw [if_neg (by omega)]
    refine ⟨?_, ?_, c2⟩
    · have h1 := (goodA_add eff.good a).good.total
      show (s1.reducer.add env a).total = _
      rw [h1, Separator.sumCount_append, c6]
      simp [sumCount]
    · show s1.next - s1.step ≤ T
      rw [hs1]; exact c3

/-- The late event of the example. -/
example : ∃ out s', exSObs.s.push exactEnv 0 0 1049 (.one 1 1) true = .ok (false, out, s') ∧
    out = [] ∧ s' = exSObs.s := by
  have h : exSObs.s.push exactEnv 0 0 1049 (.one 1 1) true = .ok (false, [], exSObs.s) := by decide +kernel
  exact ⟨_, _, h, (C14_late_partial _ exSOpt _ _ _ _ _ _ (by decide) exSNew_eq exSClk exSRun _ _ _ _ _ _ _ _
    (by decide) h).2.1 rfl⟩

/-! ### C15 -/

/-- Counts published plus the count pending equal the counts accepted. -/
theorem C15_counts (env : Env) (opt : SeparatorOpts) (clk rand ts0 : Int) (s0 : Separator) (ops : List SOp)
    (o : Obs) (hs : 0 < opt.step) (h0 : Separator.new opt clk rand ts0 = .ok s0)
    (hc : ∀ op ∈ ops, op.clockOk) (h : execAll env { s := s0 } ops = .ok o) :
    logCount o.received + logCount o.s.sepList + o.s.reducer.totalCount =
      sumCount (o.accepted.map Prod.snd) := by
  obtain ⟨log, g, _⟩ := sgood_execAll hs ops (sgood_new (env := env) h0) hc h
  have h1 := g.counts
  have h2 : logCount ([] ++ log) = logCount o.received + logCount o.s.sepList := by
    unfold logCount
    rw [(g.perm.map _).sum_eq, List.map_append, List.sum_append]
  have h3 : o.s.reducer.totalCount = sumCount (eventsIn o.accepted (o.s.next - opt.step) o.s.next) :=
    g.red.good.total
  omega

example : logCount exSObs.received = 4 ∧ logCount exSObs.s.sepList = 4 ∧ exSObs.s.reducer.totalCount = 1 ∧
    sumCount (exSObs.accepted.map Prod.snd) = 9 := by decide +kernel

/-! ### C16 -/

/-- `get_ts`: a multiple of the step, less than a step away, toward zero; 0 means now. -/
theorem C16_align (step : Int) (res : Resolution) (clk ts t : Int) (hs : 0 < step)
    (h : getTsWith step res clk ts = .ok t) :
    step ∣ t ∧ |t - meant res clk ts| < step ∧ |t| ≤ |meant res clk ts| ∧ 0 ≤ t * meant res clk ts := by
  rw [getTs_eq (by omega)] at h
  cases h
  generalize meant res clk ts = x
  unfold align
  have hd : x.tdiv step * step = x - x.tmod step := by
    have := Int.tmod_add_mul_tdiv x step
    rw [mul_comm]; omega
  have hb : |x.tmod step| < step := by
    have h1 := Int.tmod_lt_of_pos x hs
    have h2 := Int.lt_tmod_of_pos x hs
    exact abs_lt.2 ⟨h2, h1⟩
  have hnp : x ≤ 0 → x.tdiv step ≤ 0 := by
    intro hx
    have := Int.tdiv_nonneg (a := -x) (by omega) hs.le
    rw [Int.neg_tdiv] at this; omega
  refine ⟨Dvd.intro_left _ rfl, ?_, ?_, ?_⟩
  · rw [hd]; rw [show x - x.tmod step - x = -(x.tmod step) by ring, abs_neg]; exact hb
  · rcases le_total 0 x with hx | hx
    · have h1 := Int.tdiv_nonneg hx hs.le
      have h2 := Int.tmod_nonneg step hx
      rw [abs_of_nonneg (mul_nonneg h1 hs.le), abs_of_nonneg hx, hd]; omega
    · have h1 : x.tdiv step ≤ 0 := hnp hx
      have h2 : x.tmod step ≤ 0 := by
        have := Int.tmod_nonneg step (a := -x) (by omega)
        rw [Int.neg_tmod] at this; omega
      rw [abs_of_nonpos (mul_nonpos_of_nonpos_of_nonneg h1 hs.le), abs_of_nonpos hx, hd]; omega
  · rcases le_total 0 x with hx | hx
    · exact mul_nonneg (mul_nonneg (Int.tdiv_nonneg hx hs.le) hs.le) hx
    · exact mul_nonneg_of_nonpos_of_nonpos (mul_nonpos_of_nonpos_of_nonneg
        (hnp hx) hs.le) hx

/-- `get_ts` is monotone. -/
theorem C16_mono (step : Int) (res : Resolution) (clk ts ts' t t' : Int) (hs : 0 < step)
    (hle : meant res clk ts ≤ meant res clk ts') (h : getTsWith step res clk ts = .ok t)
    (h' : getTsWith step res clk ts' = .ok t') : t ≤ t' := by
  rw [getTs_eq (by omega)] at h h'
  cases h; cases h'
  unfold align
  exact mul_le_mul_of_nonneg_right (Int.tdiv_le_tdiv hs hle) hs.le

/-- Aligned non-zero timestamps are unchanged. -/
theorem C16_fixed (step : Int) (res : Resolution) (clk ts : Int) (hs : 0 < step) (hd : step ∣ ts)
    (hz : ts ≠ 0 ∨ res = .none) : getTsWith step res clk ts = .ok ts := by
  rw [getTs_eq (by omega)]
  obtain ⟨k, rfl⟩ := hd
  unfold meant
  rw [if_neg (by tauto), mul_comm, align_mul (by omega)]

/-- The meaning of timestamps: zero is the clock, unless the resolution is `none`. -/
theorem C16_now (step : Int) (res : Resolution) (clk ts : Int) :
    getTsWith step res clk ts =
      getTsWith step .none 0 (if ts = 0 ∧ res ≠ .none then clk else ts) := by
  unfold getTsWith
  by_cases h : ts = 0 <;> by_cases h2 : res = .none <;> simp [h, h2]

example : getTsWith 10 .seconds 1057 0 = .ok 1050 ∧ getTsWith 10 .seconds 1057 (-7) = .ok 0 ∧
    getTsWith 10 .none 1057 0 = .ok 0 ∧ getTsWith 10 .seconds 1057 1050 = .ok 1050 := by decide

/-! ### C17 -/

/-- Separation terminates; it fails only if the average of the pending values does not fit the
result type.  Afterwards the next window starts after the requested time, at most one step later
unless it was later already. -/
theorem C17_separate (env : Env) (opt : SeparatorOpts) (clk rand ts0 : Int) (s0 : Separator) (ops : List SOp)
    (o : Obs) (hs : 0 < opt.step) (h0 : Separator.new opt clk rand ts0 = .ok s0)
    (hc : ∀ op ∈ ops, op.clockOk) (h : execAll env { s := s0 } ops = .ok o)
    (clk' ts : Int) (handler force : Bool) :
    (o.s.separate env clk' ts handler force = .error .ub ∧ o.s.reducer.detach env = .error .ub) ∨
    ∃ b out s', o.s.separate env clk' ts handler force = .ok (b, out, s') ∧
      align opt.step (meant opt.resolution clk' ts) < s'.nextTime ∧
      o.s.nextTime ≤ s'.nextTime ∧
      s'.nextTime ≤ max o.s.nextTime (align opt.step (meant opt.resolution clk' ts) + opt.step) := by
  obtain ⟨log, g, _⟩ := sgood_execAll hs ops (sgood_new (env := env) h0) hc h
  obtain ⟨hst, hres⟩ := g.step
  rcases separate_result clk' ts handler force (hst ▸ hs) g.red with ⟨⟨b, out, s'⟩, e⟩ | e
  · right
    obtain ⟨pub, as', eff, hb⟩ := separate_effect (by rw [hst]; exact hs) g.red e
    rw [hst, hres] at eff
    refine ⟨b, out, s', e, ?_⟩
    unfold nextTime
    rcases eff.cases with ⟨c1, c2, c3, c4⟩ | ⟨c1, c2, c3, ⟨k, c4, c5⟩, c6, c7⟩
    · subst c3
      exact ⟨c1, le_refl _, le_max_left _ _⟩
    · rw [hst] at c3
      refine ⟨c2, by omega, le_max_of_le_right (by omega)⟩
  · left; exact e

/-- No history faults or diverges while the values lie between representable 64-bit bounds. -/
theorem C17_total (env : Env) (opt : SeparatorOpts) (clk rand ts0 : Int) (ops : List SOp) (m M : Int)
    (B : Bounds env m M) (hs : 0 < opt.step) (hc : ∀ op ∈ ops, op.clockOk)
    (hv : ∀ op ∈ ops, ∀ v ∈ op.vals, m ≤ v ∧ v ≤ M) :
    ∃ s0 o, Separator.new opt clk rand ts0 = .ok s0 ∧ execAll env { s := s0 } ops = .ok o := by
  obtain ⟨s0, h0⟩ : ∃ s0, Separator.new opt clk rand ts0 = .ok s0 := by
    unfold Separator.new; rw [getTs_eq (by omega)]; exact ⟨_, rfl⟩
  obtain ⟨o, h⟩ := execAll_total hs B ops (sgood_new (env := env) h0) hc (by simp) hv
  exact ⟨s0, o, h0, h⟩

/-- The bounds of the windows stay in the 64-bit range if the timestamps leave room for a step. -/
theorem C17_range (env : Env) (opt : SeparatorOpts) (clk rand ts0 : Int) (s0 : Separator) (ops : List SOp)
    (o : Obs) (hs : 0 < opt.step) (h0 : Separator.new opt clk rand ts0 = .ok s0)
    (hc : ∀ op ∈ ops, op.clockOk) (h : execAll env { s := s0 } ops = .ok o)
    (clk' ts : Int) (handler force b : Bool) (out : List AggData) (s' : Separator)
    (he : o.s.separate env clk' ts handler force = .ok (b, out, s'))
    (hr : InI64 (align opt.step (meant opt.resolution clk' ts) + opt.step))
    (hn : InI64 o.s.nextTime) (hn' : InI64 o.s.currentTime) : InI64 s'.nextTime ∧ InI64 s'.currentTime := by
  obtain ⟨log, g, _⟩ := sgood_execAll hs ops (sgood_new (env := env) h0) hc h
  rcases C17_separate env opt clk rand ts0 s0 ops o hs h0 hc h clk' ts handler force with ⟨e, _⟩ |
    ⟨b1, out1, s1, e, h1, h2, h3⟩
  · rw [he] at e; cases e
  · rw [he] at e
    cases e
    obtain ⟨pub, as', eff, hb⟩ := separate_effect (by rw [g.step.1]; exact hs) g.red he
    have hst := eff.frame.1
    unfold nextTime currentTime at *
    rw [hst]
    have hm : max o.s.next (align opt.step (meant opt.resolution clk' ts) + opt.step) ≤ I64max :=
      max_le hn.2 hr.2
    have hst' := g.step.1
    obtain ⟨a1, a2⟩ := hn
    obtain ⟨a3, a4⟩ := hn'
    constructor <;> constructor <;> omega

example : align 10 (meant .seconds 0 1083) < 1090 ∧
    exSObs.s.separate exactEnv 0 1083 true false = .ok (true,
      [{ data := [3], avg := 3, count := 1, lossy := 0, min := 3, max := 3, ts := 1060 }],
      { exSObs.s with next := 1090, reducer := Reducer.new exSOpt.toReducerOpts }) := by decide +kernel

example : ∃ s0 o, Separator.new exSOpt 7 3 0 = .ok s0 ∧ execAll exactEnv { s := s0 } exSOps = .ok o :=
  C17_total exactEnv exSOpt 7 3 0 exSOps (-(2 ^ 63)) (2 ^ 63 - 1)
    ⟨FPLaws.id, by decide, by decide, rfl, rfl⟩ (by decide) exSClk (by decide)

/-! ### C18

`force` changes nothing but the returned flag: the loop is entered only if the window is over. -/

/-- The full claim: with `force` the window in progress is published. -/
def ForceSeparates (env : Env) : Prop :=
  ∀ (opt : SeparatorOpts) (clk rand ts0 : Int) (s0 : Separator) (ops : List SOp) (o : Obs),
    0 < opt.step → Separator.new opt clk rand ts0 = .ok s0 → (∀ op ∈ ops, op.clockOk) →
    execAll env { s := s0 } ops = .ok o →
    ∀ (clk' ts : Int) (b : Bool) (out : List AggData) (s' : Separator),
      o.s.reducer.totalCount ≠ 0 → o.s.separate env clk' ts true true = .ok (b, out, s') →
      ∃ d ∈ out, d.ts = o.s.currentTime

/-- Counterexample: one event pending in window 1060, forced separation at time 1065. -/
theorem C18_refuted : ¬ ForceSeparates exactEnv := by
  intro h
  obtain ⟨d, hd, _⟩ := h exSOpt 0 0 1000 _ exSOps _ (by decide) exSNew_eq exSClk exSRun 0 1065 true []
    exSObs.s (by decide +kernel) (by decide +kernel)
  cases hd

/-- What `force` does: records and state are those of an ordinary separation, and the flag is set. -/
theorem C18_force_partial (env : Env) (s : Separator) (clk ts : Int) (handler b : Bool) (out : List AggData)
    (s' : Separator) (h : s.separate env clk ts handler false = .ok (b, out, s')) :
    s.separate env clk ts handler true = .ok (true, out, s') := by
  unfold separate at *
  cases ht : s.getTs clk ts with
  | error e => rw [ht] at h; cases h
  | ok T =>
    rw [ht] at h
    simp only [bind_ok] at *
    simp only [Bool.true_eq_false, false_and, if_false, true_and] at *
    by_cases hlt : T < s.next
    · rw [if_pos hlt] at h
      cases h
      unfold sepLoop
      rw [dif_neg (by omega)]
      simp only [bind_ok]
      cases handler <;> simp
    · rw [if_neg hlt] at h
      cases hl : sepLoop env s.step T s.next s.reducer with
      | error e => rw [hl] at h; cases h
      | ok p =>
        obtain ⟨out1, n1, r1⟩ := p
        rw [hl] at h
        simp only [bind_ok] at *
        cases handler <;> cases h <;> rfl

/-- Once the requested time is past the window, its pending events are published. -/
theorem C18_publish_partial (env : Env) (opt : SeparatorOpts) (clk rand ts0 : Int) (s0 : Separator)
    (ops : List SOp) (o : Obs) (hs : 0 < opt.step) (h0 : Separator.new opt clk rand ts0 = .ok s0)
    (hc : ∀ op ∈ ops, op.clockOk) (h : execAll env { s := s0 } ops = .ok o)
    (clk' ts : Int) (force b : Bool) (out : List AggData) (s' : Separator)
    (hpast : o.s.nextTime ≤ align opt.step (meant opt.resolution clk' ts))
    (he : o.s.separate env clk' ts true force = .ok (b, out, s')) :
    (eventsIn o.accepted o.s.currentTime o.s.nextTime = [] ∧ out = []) ∨
    ∃ d, out = [d] ∧ d.ts = o.s.currentTime ∧
      Summary env opt.limit opt.levels (eventsIn o.accepted o.s.currentTime o.s.nextTime) d := by
  obtain ⟨log, g, _⟩ := sgood_execAll hs ops (sgood_new (env := env) h0) hc h
  obtain ⟨hst, hres⟩ := g.step
  obtain ⟨pub, as', eff, hb⟩ := separate_effect (by rw [hst]; exact hs) g.red he
  rw [hst, hres] at eff
  unfold nextTime currentTime at *
  have ho : out = pub := eff.lists.1
  rcases eff.cases with ⟨c1, _⟩ | ⟨_, _, _, _, _, ⟨c7, c8⟩ | ⟨_, d, c7, c8, c9⟩⟩
  · omega
  · left; rw [hst]; exact ⟨c7, by rw [ho, c8]⟩
  · right
    refine ⟨d, by rw [ho, c7], c8, ?_⟩
    rw [hst]; exact c9

example : (eventsIn exSObs.accepted exSObs.s.currentTime exSObs.s.nextTime) = [.one 3 1] := by decide +kernel

end Wrtstat
