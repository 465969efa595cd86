/-
Properties C19-C27 and C57 of the aggregator, and C15 at the level of the aggregator.

Histories start from a newly built aggregator or from one cleared after any history (`Fresh`).
-/
import Verif.Lemmas.Handler
import Verif.Model.Instances

namespace Wrtstat
open Aggregator
open Reducer (Bounds)

/-! ### A concrete history used in the examples -/

def exAOpt : AggregatorOpts :=
  { limit := 8, levels := 2, step := 10, resolution := .seconds, outSize := 3 }

def exAOps : List AOp :=
  [.add 0 0 1003 (.many [5, 9, 2, 7] 4), .push 1012 1012 0 (.one 8 3) false, .add 0 0 1008 (.one 1 1), .look,
   .enable false, .add 0 0 1013 (.one 77 1), .enable true, .pop, .separate 0 1047 false false,
   .add 0 0 1048 (.one 6 1)]

def exANew : Aggregator :=
  { sep := { reducer := Reducer.new exAOpt.toReducerOpts, step := 10, next := 1010, resolution := .seconds }
    outSize := 3 }

def exAObs : AObs :=
  match Aggregator.execAll exactEnv { a := exANew } exAOps with
  | .ok o => o
  | .error _ => { a := exANew }

theorem exANew_fresh (env : Env) : Fresh env exAOpt exANew :=
  .new (clk := 0) (rand := 0) (ts := 1000) (by decide +kernel)

theorem exARun : Aggregator.execAll exactEnv { a := exANew } exAOps = .ok exAObs := by
  have h : (match Aggregator.execAll exactEnv { a := exANew } exAOps with
    | .ok _ => true | .error _ => false) = true := by decide +kernel
  unfold exAObs
  split at h
  · rename_i o e; rw [e]
  · cases h

theorem exAClk : ∀ op ∈ exAOps, op.clockOk := by decide

example : exAObs.accepted =
    [(1000, .many [5, 9, 2, 7] 4), (1010, .one 8 3), (1040, .one 6 1)] := by decide +kernel

/-! ### C19 -/

/-- The order statistic of a given rank is unique, and monotone in the rank. -/
theorem C19_rank_mono (xs : List Int) (k k' : Nat) (v v' : Int) (hk : k ≤ k') (h : IsOrderStat xs k v)
    (h' : IsOrderStat xs k' v') : v ≤ v' := by
  by_contra hlt
  have : xs.countP (fun x => decide (x ≤ v')) ≤ xs.countP (fun x => decide (x < v)) := by
    apply List.countP_mono_left
    intro x _ hx
    simp only [decide_eq_true_eq] at *
    omega
  have h1 := h.2.1
  have h2 := h'.2.2
  omega

/-- `calc_perc` never faults on any list of samples and any conforming `nth_element`; it permutes
the samples and computes their percentiles, in order. -/
theorem C19_calc_perc (E : NthElement) (ag : AggData) :
    ∃ ag', calcPerc E ag = .ok ag' ∧ ag'.data.Perm ag.data ∧ ag'.toReducedInfo = ag.toReducedInfo ∧
      (ag.data = [] → ag' = ag) ∧
      (ag.data ≠ [] → Percentiles ag.data ag'.toPerc ∧ ag'.perc50 ≤ ag'.perc80 ∧ ag'.perc80 ≤ ag'.perc95 ∧
        ag'.perc95 ≤ ag'.perc99 ∧ ag'.perc99 ≤ ag'.perc100) := by
  by_cases hne : ag.data = []
  · exact ⟨ag, by unfold calcPerc; simp [hne], List.Perm.refl _, rfl, fun _ => rfl, fun h => absurd hne h⟩
  · obtain ⟨d, p, e, hp, hperc, _⟩ := calcPerc_spec E ag hne
    refine ⟨_, e, hp, rfl, fun h => absurd h hne, fun _ => ⟨hperc, ?_, ?_, ?_, hperc.p100.2⟩⟩
    · exact C19_rank_mono _ _ _ _ _ (by omega) hperc.p50 hperc.p80
    · exact C19_rank_mono _ _ _ _ _ (by omega) hperc.p80 hperc.p95
    · exact C19_rank_mono _ _ _ _ _ (by omega) hperc.p95 hperc.p99

/-- 10 samples: ranks 5, 8, 9, 9. -/
example : calcPerc .sorting { data := [5, 9, 2, 7, 1, 4, 4, 8, 3, 6] } =
    .ok { data := [1, 2, 3, 4, 4, 5, 6, 7, 8, 9], perc50 := 5, perc80 := 8, perc95 := 9, perc99 := 9,
          perc100 := 9 } := by decide +kernel

/-! ### C20

`nth_element` at rank 99% leaves the samples above that rank in any order; the code takes the last
one.  With more than 200 samples there are at least two. -/

/-- The full claim. -/
def Perc100IsMax : Prop :=
  ∀ (E : NthElement) (ag ag' : AggData), ag.data ≠ [] → calcPerc E ag = .ok ag' →
    ∀ x ∈ ag.data, x ≤ ag'.perc100

/-- A conforming `nth_element` that leaves the upper part in descending order. -/
def NthElement.descending : NthElement where
  run l k := (sortInts l).take (k + 1) ++ ((sortInts l).drop (k + 1)).reverse
  perm l k := by
    have h : ((sortInts l).take (k + 1) ++ ((sortInts l).drop (k + 1)).reverse).Perm (sortInts l) := by
      have := (List.reverse_perm ((sortInts l).drop (k + 1))).append_left ((sortInts l).take (k + 1))
      rwa [List.take_append_drop] at this
    exact h.trans (sortInts_perm l)
  le_nth l k i hi hk := by
    have hl : ((sortInts l).take (k + 1) ++ ((sortInts l).drop (k + 1)).reverse).length = (sortInts l).length := by
      simp; omega
    rw [hl] at hk
    have hs := List.pairwise_iff_getElem.1 (sortInts_sorted l)
    have hn : (sortInts l).length = l.length := (sortInts_perm l).length_eq
    rw [List.getElem_append_left (by simp; omega), List.getElem_append_left (by simp; omega)]
    rw [List.getElem_take, List.getElem_take]
    exact hs _ _ _ _ hi
  nth_le l k j hj hk := by
    have hl : ((sortInts l).take (k + 1) ++ ((sortInts l).drop (k + 1)).reverse).length = (sortInts l).length := by
      simp; omega
    rw [hl] at hk
    have hs := List.pairwise_iff_getElem.1 (sortInts_sorted l)
    have hn : (sortInts l).length = l.length := (sortInts_perm l).length_eq
    rw [List.getElem_append_left (by simp; omega), List.getElem_take]
    rcases Nat.lt_or_ge k j with h | h
    · rw [List.getElem_append_right (by simp; omega), List.getElem_reverse, List.getElem_drop]
      refine hs _ _ _ _ ?_
      simp; omega
    · have : j = k := by omega
      subst this
      rw [List.getElem_append_left (by simp only [List.length_take]; omega), List.getElem_take]

/-- Counterexample: the samples 0, ..., 200. -/
theorem C20_refuted : ¬ Perc100IsMax := by
  intro h
  have hd : (calcPerc .descending { data := (List.range 201).map Int.ofNat }).toOption.map (·.perc100) =
      some 199 := by decide +kernel
  cases e : calcPerc .descending { data := (List.range 201).map Int.ofNat } with
  | error x => rw [e] at hd; cases hd
  | ok ag' =>
    rw [e] at hd
    have h1 := h .descending _ ag' (by decide) e 200 (by decide +kernel)
    simp only [Except.toOption, Option.map_some, Option.some.injEq] at hd
    omega

/-- Up to 200 samples `perc100` is the largest one. -/
theorem C20_small_partial (E : NthElement) (ag ag' : AggData) (hne : ag.data ≠ []) (h200 : ag.data.length ≤ 200)
    (h : calcPerc E ag = .ok ag') : IsMaxOf ag'.perc100 ag.data := by
  obtain ⟨d, p, e, hp, hperc, ⟨A, x, B, ed, hlA, hA, hB⟩, hl⟩ := calcPerc_spec E ag hne
  rw [e] at h
  cases h
  refine ⟨hperc.p100.1, ?_⟩
  show ∀ v ∈ ag.data, v ≤ p.perc100
  intro v hv
  have hv : v ∈ d := hp.mem_iff.2 hv
  have hlen : d.length = ag.data.length := hp.length_eq
  have hpos : 0 < ag.data.length := List.length_pos_iff.2 hne
  have hBl : B.length ≤ 1 := by
    rw [ed] at hlen
    simp only [List.length_append, List.length_cons] at hlen
    omega
  rw [ed] at hl hv
  rw [← hlen, ed] at hl
  match B, hBl, hl, hv, hB with
  | [], _, hl, hv, _ =>
    have hx : p.perc100 = x := by
      have e2 : (A ++ [x]).length - 1 = A.length := by simp
      rw [e2, List.getElem?_append_right (le_refl _)] at hl
      simp only [Nat.sub_self, List.getElem?_cons_zero, Option.some.injEq] at hl
      exact hl.symm
    rw [hx]
    simp only [List.mem_append, List.mem_singleton] at hv
    rcases hv with hv | hv
    · exact hA v hv
    · omega
  | [y], _, hl, hv, hB =>
    have hx : p.perc100 = y := by
      have e2 : (A ++ [x, y]).length - 1 = A.length + 1 := by simp
      rw [e2, List.getElem?_append_right (by omega)] at hl
      have e3 : A.length + 1 - A.length = 1 := by omega
      rw [e3] at hl
      simp only [List.getElem?_cons_succ, List.getElem?_cons_zero, Option.some.injEq] at hl
      exact hl.symm
    rw [hx]
    have hxy := hB y (by simp)
    simp only [List.mem_append, List.mem_cons, List.not_mem_nil, or_false] at hv
    rcases hv with hv | hv | hv
    · exact le_trans (hA v hv) hxy
    · omega
    · omega

/-- In any case `perc100` is a sample, not below the other percentiles. -/
theorem C20_any_partial (E : NthElement) (ag ag' : AggData) (hne : ag.data ≠ [])
    (h : calcPerc E ag = .ok ag') : ag'.perc100 ∈ ag.data ∧ ag'.perc99 ≤ ag'.perc100 := by
  obtain ⟨d, p, e, hp, hperc, _⟩ := calcPerc_spec E ag hne
  rw [e] at h
  cases h
  exact hperc.p100

example : IsMaxOf 9 [5, 9, 2] :=
  C20_small_partial .sorting { data := [5, 9, 2] }
    { data := [2, 5, 9], perc50 := 5, perc80 := 9, perc95 := 9, perc99 := 9, perc100 := 9 }
    (by decide) (by decide) (by decide +kernel)

/-! ### C21

When at most half of the samples are to be kept, every `N/R`-th one is, and the quotient is rounded
down. -/

/-- The full claim. -/
def ThinningRespectsSize : Prop :=
  ∀ (R : Nat) (d k : List Int), 0 < R → reduce_ R d = .ok k → k.length ≤ R

/-- Counterexample: 5 samples, `outgoing_reduced_size = 2`: three are kept. -/
theorem C21_refuted : ¬ ThinningRespectsSize := by
  intro h
  exact absurd (h 2 [1, 2, 3, 4, 5] [1, 3, 5] (by decide) (by decide)) (by decide)

/-- Thinning never faults, keeps a subsequence, does not empty a non-empty list, and leaves lists
within the size alone. -/
theorem C21_sublist (R : Nat) (d : List Int) : ∃ k, reduce_ R d = .ok k ∧ k.Sublist d ∧
    (d ≠ [] → k ≠ []) ∧ (R = 0 ∨ d.length ≤ R → k = d) := by
  obtain ⟨k, e, h1, h2⟩ := reduce_total R d
  refine ⟨k, e, h1, h2, fun h => ?_⟩
  rw [reduce_keep R d h] at e
  cases e; rfl

/-- The size is respected when fewer than `2R` samples come in or `R` divides their number, and
exceeded by at most half in the other cases. -/
theorem C21_size_partial (R : Nat) (d k : List Int) (hR : 0 < R) (h : reduce_ R d = .ok k) :
    k.length ≤ R + R / 2 ∧ (d.length < 2 * R ∨ d.length % R = 0 → k.length ≤ R) ∧
      (2 * R ≤ d.length → R ≤ k.length) := by
  by_cases h1 : d.length ≤ R
  · rw [reduce_keep R d (.inr h1)] at h
    cases h
    exact ⟨by omega, fun _ => h1, fun _ => by omega⟩
  · by_cases h2 : d.length < R * 2
    · obtain ⟨k', e, _, hp, hle⟩ := reduce_remove R d hR (by omega) h2
      rw [e] at h
      cases h
      exact ⟨by omega, fun _ => hle, fun _ => by omega⟩
    · obtain ⟨k', e, _, h3, h4, h5⟩ := reduce_pick R d hR (by omega)
      rw [e] at h
      cases h
      refine ⟨h4, ?_, fun _ => h3⟩
      rintro (h6 | h6)
      · omega
      · exact (h5 h6).le

example : reduce_ 3 [1, 2, 3, 4, 5] = .ok [2, 4] ∧ reduce_ 2 [1, 2, 3, 4, 5, 6] = .ok [1, 4] := by decide

/-! ### C22 -/

theorem mem_forall2 {α β : Type} {R : α → β → Prop} {l : List α} {l' : List β} (h : List.Forall₂ R l l') :
    ∀ b ∈ l', ∃ a ∈ l, R a b := by
  induction h with
  | nil => simp
  | cons h _ ih =>
    intro b hb
    rcases List.mem_cons.1 hb with rfl | hb
    · exact ⟨_, by simp, h⟩
    · obtain ⟨a, ha, hr⟩ := ih b hb
      exact ⟨a, by simp [ha], hr⟩

theorem mem_forall2' {α β : Type} {R : α → β → Prop} {l : List α} {l' : List β} (h : List.Forall₂ R l l') :
    ∀ a ∈ l, ∃ b ∈ l', R a b := by
  induction h with
  | nil => simp
  | cons h _ ih =>
    intro a ha
    rcases List.mem_cons.1 ha with rfl | ha
    · exact ⟨_, by simp, h⟩
    · obtain ⟨b, hb, hr⟩ := ih a ha
      exact ⟨b, by simp [hb], hr⟩

theorem pairwise_forall2 {α β : Type} {R : α → β → Prop} {f : α → Int} {g : β → Int}
    (hfg : ∀ a b, R a b → g b = f a) {l : List α} {l' : List β} (h : List.Forall₂ R l l')
    (hp : l.Pairwise fun a b => f a < f b) : l'.Pairwise fun a b => g a < g b := by
  induction h with
  | nil => exact .nil
  | cons h ht ih =>
    rw [List.pairwise_cons] at hp ⊢
    refine ⟨?_, ih hp.2⟩
    intro b hb
    obtain ⟨a, ha, hr⟩ := mem_forall2 ht b hb
    rw [hfg _ _ h, hfg _ _ hr]
    exact hp.1 a ha

/-- Polling: the records popped, followed by those waiting, report the completed windows in order,
each once. -/
theorem C22_fifo (env : Env) (opt : AggregatorOpts) (a0 : Aggregator) (ops : List AOp) (o : AObs)
    (hs : 0 < opt.step) (h0 : Fresh env opt a0) (hc : ∀ op ∈ ops, op.clockOk) (hf : ∀ op ∈ ops, op.forced = false)
    (hp : ∀ op ∈ ops, op.handed = false) (h : Aggregator.execAll env { a := a0 } ops = .ok o) :
    ((o.received ++ o.a.agList).Pairwise fun a b => a.ts < b.ts) ∧
    ∀ d ∈ o.received ++ o.a.agList, (∃ k : Nat, d.ts = a0.sep.currentTime + k * opt.step) ∧
      Report env opt (eventsIn o.accepted d.ts (d.ts + opt.step)) d := by
  obtain ⟨log, hout, rraw, araw, gs, h1, h2, h3⟩ := agood_execAll (Q := Delivered opt.outSize) (ord := true)
    (fun _ _ h => h) hs ops (agood_fresh hs h0) hc hf (fun _ => hp)
    (fun op ho hsep => by
      have := hp op ho
      cases op <;> simp_all [AOp.handed, AOp.sepHandler]) h
  have h3 := h3 rfl
  have hall : List.Forall₂ (Delivered opt.outSize) (rraw ++ araw) (o.received ++ o.a.agList) :=
    List.rel_append h1 h2
  constructor
  · refine pairwise_forall2 (f := (·.ts)) (fun a b h => h.ts) hall ?_
    have := gs.sorted
    rw [← h3] at this
    exact (List.pairwise_append.1 this).1
  · intro d hd
    obtain ⟨raw, hraw, hdel⟩ := mem_forall2 hall d hd
    have hmem : raw ∈ [] ++ log := by rw [← h3]; exact List.mem_append_left _ hraw
    obtain ⟨k, hk, e⟩ := gs.aligned raw hmem
    refine ⟨⟨k.toNat, by rw [Int.toNat_of_nonneg hk, hdel.ts]; exact e⟩, raw, ?_, hdel⟩
    rw [hdel.ts]
    exact (gs.recs raw hmem).1

/-- Nothing is lost: every recorded event is covered by a record received or waiting, or belongs to
the current window.  (Events aligned to time 0 excepted, see C14.) -/
theorem C22_complete (env : Env) (opt : AggregatorOpts) (a0 : Aggregator) (ops : List AOp) (o : AObs)
    (hs : 0 < opt.step) (h0 : Fresh env opt a0) (hc : ∀ op ∈ ops, op.clockOk) (hf : ∀ op ∈ ops, op.forced = false)
    (ht : ∀ op ∈ ops, op.timeOk opt) (h : Aggregator.execAll env { a := a0 } ops = .ok o) :
    ∀ e ∈ o.accepted, (∃ d ∈ o.received ++ o.a.agList, d.ts ≤ e.1 ∧ e.1 < d.ts + opt.step) ∨
      (o.a.sep.currentTime ≤ e.1 ∧ e.1 < o.a.sep.nextTime) := by
  obtain ⟨log, hout, rraw, araw, gs, h1, h2, h3⟩ := agood_execAll (Q := fun raw d => d.ts = raw.ts) (ord := false)
    (fun _ _ h => h.ts) hs ops (agood_fresh hs h0) hc hf (by simp) (fun _ _ _ _ => rfl) h
  have hl : o.a.sep.sepList = [] :=
    keep_execAll hs ops (pgood_fresh hs h0) hc (fresh_keep h0).1 ht h
  have hall : List.Forall₂ (fun raw d => d.ts = raw.ts) (rraw ++ araw) (o.received ++ o.a.agList) :=
    List.rel_append h1 (h2.imp fun _ _ h => h.ts)
  intro e he
  have hst : o.a.sep.step = opt.step := gs.step.1
  by_cases hlt : e.1 < o.a.sep.next - opt.step
  · left
    obtain ⟨raw, hraw, hr⟩ := gs.cover e he hlt
    have hmem := gs.perm.mem_iff.1 hraw
    rw [hl, List.append_nil] at hmem
    obtain ⟨d, hd, e⟩ := mem_forall2' hall raw hmem
    exact ⟨d, hd, by rw [e]; exact hr⟩
  · right
    unfold Separator.currentTime Separator.nextTime
    rw [hst]
    exact ⟨by omega, gs.before e he⟩

/-- No history faults while the values lie between representable 64-bit bounds. -/
theorem C22_total (env : Env) (opt : AggregatorOpts) (a0 : Aggregator) (ops : List AOp) (m M : Int)
    (B : Bounds env m M) (hs : 0 < opt.step) (h0 : Fresh env opt a0) (hc : ∀ op ∈ ops, op.clockOk)
    (hv : ∀ op ∈ ops, ∀ v ∈ op.vals, m ≤ v ∧ v ≤ M) : ∃ o, Aggregator.execAll env { a := a0 } ops = .ok o :=
  Aggregator.execAll_total hs B ops (pgood_fresh hs h0) hc (by simp) hv

example : exAObs.received.map (fun d => (d.ts, d.count, d.data, d.perc50)) = [(1000, 4, [5, 7, 9], 7)] ∧
    exAObs.a.agList.map (fun d => (d.ts, d.count, d.data)) = [(1010, 3, [8])] := by decide +kernel

example : ((exAObs.received ++ exAObs.a.agList).Pairwise fun a b => a.ts < b.ts) :=
  (C22_fifo _ exAOpt _ _ _ (by decide) (exANew_fresh _) exAClk (by decide) (by decide) exARun).1

example : ∀ e ∈ exAObs.accepted, (∃ d ∈ exAObs.received ++ exAObs.a.agList, d.ts ≤ e.1 ∧ e.1 < d.ts + 10) ∨
    (exAObs.a.sep.currentTime ≤ e.1 ∧ e.1 < exAObs.a.sep.nextTime) :=
  C22_complete _ exAOpt _ _ _ (by decide) (exANew_fresh _) exAClk (by decide) (by decide) exARun

example : ∃ o, Aggregator.execAll exactEnv { a := exANew } exAOps = .ok o :=
  C22_total _ exAOpt _ _ (-(2 ^ 63)) (2 ^ 63 - 1) ⟨FPLaws.id, by decide, by decide, rfl, rfl⟩ (by decide)
    (exANew_fresh _) exAClk (by decide)

/-- Exactly once, for every history, `force_pop` included: the recorded events split into groups, one
for each record received, one for each record waiting, one for each completed window still inside the
separator, and the rest, which belongs to the current window.  Each record received or waiting
reports its group (that received by a handler of `separate` summarises it), and the events of the
group lie in its window. -/
theorem C22_exactly_once (env : Env) (opt : AggregatorOpts) (a0 : Aggregator) (ops : List AOp) (o : AObs)
    (hs : 0 < opt.step) (h0 : Fresh env opt a0) (hc : ∀ op ∈ ops, op.clockOk)
    (h : Aggregator.execAll env { a := a0 } ops = .ok o) :
    ∃ (gR gA gS : List (List (Int × AddArg))) (cur : List (Int × AddArg)),
      (gR.flatten ++ gA.flatten ++ gS.flatten ++ cur).Perm o.accepted ∧
      List.Forall₂ (fun g d => ((if ops.any AOp.sepHandler then Summary env opt.limit opt.levels (g.map Prod.snd) d
          ∨ Report env opt (g.map Prod.snd) d else Report env opt (g.map Prod.snd) d)) ∧
        ∀ e ∈ g, d.ts ≤ e.1 ∧ e.1 < d.ts + opt.step) gR o.received ∧
      List.Forall₂ (fun g d => Report env opt (g.map Prod.snd) d ∧
        ∀ e ∈ g, d.ts ≤ e.1 ∧ e.1 < d.ts + opt.step) gA o.a.agList ∧
      List.Forall₂ (fun g d => Summary env opt.limit opt.levels (g.map Prod.snd) d ∧
        ∀ e ∈ g, d.ts ≤ e.1 ∧ e.1 < d.ts + opt.step) gS o.a.sep.sepList ∧
      o.a.sep.reducer.totalCount = sumCount (cur.map Prod.snd) ∧
      ∀ e ∈ cur, o.a.sep.currentTime ≤ e.1 ∧ e.1 < o.a.sep.nextTime := by
  obtain ⟨gR, gA, gS, cur, g⟩ := pgood_execAll (Q := fun as d => if ops.any AOp.sepHandler then
      Summary env opt.limit opt.levels as d ∨ Report env opt as d else Report env opt as d)
    (fun as d h => by
      by_cases hb : ops.any AOp.sepHandler = true
      · rw [if_pos hb]; exact .inr h
      · rw [if_neg hb]; exact h) hs ops (pgood_fresh hs h0) hc (fun op ho hsh as d h => by
      rw [if_pos (List.any_eq_true.2 ⟨op, ho, hsh⟩)]; exact .inl h) h
  refine ⟨gR, gA, gS, cur, g.perm, g.rec_, g.wait, g.sep.recs, g.sep.red.good.total, ?_⟩
  unfold Separator.currentTime Separator.nextTime
  rw [g.sep.step.1]
  exact g.sep.win

/-- An event, `force_pop`, a later event in the same window, `force_pop`: two records, each reporting
one event. -/
example : (Aggregator.execAll exactEnv { a := exANew } [.add 0 0 1003 (.one 5 1), .forcePop,
    .add 0 0 1004 (.one 7 2), .forcePop]).toOption.map
    (fun o => o.received.map fun d => (d.ts, d.count, d.data)) = some [(1000, 1, [5]), (1000, 2, [7])] := by
  decide +kernel

/-! ### C15, aggregator -/

/-- Counts delivered, waiting and pending add up to the counts recorded, whatever the delivery. -/
theorem C15_aggregator (env : Env) (opt : AggregatorOpts) (a0 : Aggregator) (ops : List AOp) (o : AObs)
    (hs : 0 < opt.step) (h0 : Fresh env opt a0) (hc : ∀ op ∈ ops, op.clockOk)
    (h : Aggregator.execAll env { a := a0 } ops = .ok o) :
    logCount o.received + logCount o.a.agList + logCount o.a.sep.sepList + o.a.sep.reducer.totalCount =
      sumCount (o.accepted.map Prod.snd) := by
  obtain ⟨gR, gA, gS, cur, g⟩ := pgood_execAll (Q := fun as d => d.count = sumCount as)
    (fun as d h => by obtain ⟨raw, hsum, hdel⟩ := h; rw [hdel.count, hsum.count]) hs ops (pgood_fresh hs h0) hc
    (fun _ _ _ as d h => h.count) h
  have hcount : ∀ {Q : List AddArg → AggData → Prop} {l : List AggData} {gs : List (List (Int × AddArg))},
      (∀ as d, Q as d → d.count = sumCount as) → List.Forall₂ (Group opt.step Q) gs l →
      logCount l = sumCount (gs.flatten.map Prod.snd) := by
    intro Q l gs hq h
    induction h with
    | nil => rfl
    | cons h _ ih =>
      have := hq _ _ h.1
      simp only [List.flatten_cons, List.map_append, Separator.sumCount_append]
      simp only [logCount, List.map_cons, List.sum_cons] at *
      omega
  have e1 := hcount (fun _ _ h => h) g.rec_
  have e2 := hcount (fun as d h => by obtain ⟨raw, hsum, hdel⟩ := h; rw [hdel.count, hsum.count]) g.wait
  have e3 := hcount (fun _ _ h => h.count) g.sep.recs
  have e4 : sumCount (o.accepted.map Prod.snd) =
      sumCount ((gR.flatten ++ gA.flatten ++ gS.flatten ++ cur).map Prod.snd) :=
    (((g.perm.map Prod.snd).map AddArg.count).sum_eq).symm
  have e5 : o.a.sep.reducer.totalCount = sumCount (cur.map Prod.snd) := g.sep.red.good.total
  rw [e4]
  simp only [List.map_append, Separator.sumCount_append]
  omega

example : logCount exAObs.received = 4 ∧ logCount exAObs.a.agList = 3 ∧ exAObs.a.sep.sepList = [] ∧
    exAObs.a.sep.reducer.totalCount = 1 ∧ sumCount (exAObs.accepted.map Prod.snd) = 8 := by decide +kernel

/-! ### C23 -/

/-- `add` and `push` on a disabled aggregator: success is reported and nothing happens. -/
theorem C23_disabled (env : Env) (o : AObs) (ops : List AOp) (hd : o.a.enabled = false)
    (hops : ∀ op ∈ ops, (∃ c1 c2 ts x, op = .add c1 c2 ts x) ∨ (∃ c1 c2 ts x h, op = .push c1 c2 ts x h)) :
    Aggregator.execAll env o ops = .ok o := by
  induction ops with
  | nil => rfl
  | cons op ops ih =>
    have hx : Aggregator.exec env o op = .ok o := by
      rcases hops op (by simp) with ⟨c1, c2, ts, x, rfl⟩ | ⟨c1, c2, ts, x, h, rfl⟩
      · simp [Aggregator.exec, Aggregator.add, hd, AObs.record, bind_ok']
      · simp [Aggregator.exec, Aggregator.push, hd, AObs.record, bind_ok']
    have := ih (fun op' h' => hops op' (by simp [h']))
    unfold Aggregator.execAll at *
    rw [List.foldlM_cons, hx]
    exact this

/-- The flag returned while disabled. -/
theorem C23_returns_true (env : Env) (a : Aggregator) (c1 c2 ts : Int) (x : AddArg) (h : Bool)
    (hd : a.enabled = false) :
    a.add env c1 c2 ts x = .ok (true, a) ∧ a.push env c1 c2 ts x h = .ok (true, [], a) := by
  constructor
  · unfold Aggregator.add; rw [if_pos hd]
  · unfold Aggregator.push; rw [if_pos hd]

/-- Disabling for any number of events and enabling again has no effect at all. -/
theorem C23_pause (env : Env) (o : AObs) (ops : List AOp) (he : o.a.enabled = true)
    (hops : ∀ op ∈ ops, (∃ c1 c2 ts x, op = .add c1 c2 ts x) ∨ (∃ c1 c2 ts x h, op = .push c1 c2 ts x h)) :
    Aggregator.execAll env o ([.enable false] ++ ops ++ [.enable true]) = .ok o := by
  unfold Aggregator.execAll
  have h1 := C23_disabled env { o with a := o.a.enable false } ops rfl hops
  unfold Aggregator.execAll at h1
  rw [List.foldlM_append, List.foldlM_append]
  simp only [List.foldlM_cons, List.foldlM_nil, Aggregator.exec, bind_ok', pure, Except.pure]
  rw [h1]
  simp only [bind_ok', Aggregator.enable]
  obtain ⟨⟨sep, os, en, al, aid⟩, r, ac⟩ := o
  simp only at he
  rw [he]

example : Aggregator.execAll exactEnv exAObs
    ([.enable false] ++ [.add 0 0 5000 (.one 3 1), .push 0 0 1 (.init [4]) true] ++ [.enable true]) =
    .ok exAObs :=
  C23_pause _ _ _ (by decide +kernel) (by
    intro op h
    simp only [List.mem_cons, List.not_mem_nil, or_false] at h
    rcases h with rfl | rfl
    · exact .inl ⟨_, _, _, _, rfl⟩
    · exact .inr ⟨_, _, _, _, _, rfl⟩)

/-! ### C24 -/

/-- After `clear` nothing is waiting or pending, and the window starts at the given time. -/
theorem C24_clear (env : Env) (opt : AggregatorOpts) (a0 : Aggregator) (ops : List AOp) (o : AObs)
    (hs : 0 < opt.step) (h0 : Fresh env opt a0) (hc : ∀ op ∈ ops, op.clockOk)
    (h : Aggregator.execAll env { a := a0 } ops = .ok o) (clk ts : Int) :
    ∃ a', o.a.clear clk ts = .ok a' ∧ a'.agList = [] ∧ a'.sep.sepList = [] ∧ a'.sep.reducer.totalCount = 0 ∧
      a'.pop.1 = none ∧ a'.forcePop env = .ok (none, a') ∧ a'.enabled = o.a.enabled ∧
      a'.sep.currentTime = align opt.step (meant opt.resolution clk ts) ∧
      a'.sep.nextTime = align opt.step (meant opt.resolution clk ts) + opt.step := by
  obtain ⟨gR, gA, gS, cur, g⟩ := pgood_execAll (Q := fun _ _ => True) (fun _ _ _ => trivial) hs ops
    (pgood_fresh hs h0) hc (fun _ _ _ _ _ _ => trivial) h
  obtain ⟨hst, hres⟩ := g.sep.step
  unfold Aggregator.clear Separator.clear Separator.getTs
  rw [Separator.getTs_eq (by omega)]
  simp only [bind_ok']
  refine ⟨_, rfl, rfl, rfl, rfl, rfl, ?_, rfl, ?_, ?_⟩
  · unfold Aggregator.forcePop Separator.forcePop Separator.pop
    simp only
    have : o.a.sep.reducer.clear.detach env = .ok (none, o.a.sep.reducer.clear) :=
      Separator.detach_nil (Reducer.goodA_clear g.sep.red)
    rw [this]
    rfl
  · simp only [Separator.currentTime, hst, hres]; omega
  · simp only [Separator.nextTime, hst, hres]

/-- Whatever is reported after `clear` reports events recorded after `clear` (theorems C22 and C26
apply, since a cleared aggregator is `Fresh`). -/
theorem C24_fresh (env : Env) (opt : AggregatorOpts) (a0 a' : Aggregator) (ops : List AOp) (o : AObs)
    (h0 : Fresh env opt a0) (hc : ∀ op ∈ ops, op.clockOk)
    (h : Aggregator.execAll env { a := a0 } ops = .ok o) (clk ts : Int) (hcl : o.a.clear clk ts = .ok a') :
    Fresh env opt a' :=
  .clear h0 hc h hcl

/-- Pushers made before `clear` have no effect any more. -/
theorem C24_old_pushers (env : Env) (a b : Aggregator) (p : Pusher) (clk ts : Int) (h : b.clear clk ts = .ok a)
    (c1 c2 t : Int) (x : AddArg) : p.call env a c1 c2 t x = .ok ([], a) := by
  have : a.alive = false := by
    unfold Aggregator.clear at h
    cases hx : b.sep.clear clk ts with
    | error e => rw [hx] at h; cases h
    | ok s => rw [hx] at h; cases h; rfl
  unfold Pusher.call
  rw [if_neg (by simp [this])]

/-- The full claim about new pushers: a pusher made after `clear` feeds the aggregator. -/
def NewPushersWork (env : Env) : Prop :=
  ∀ (b a : Aggregator) (clk ts : Int), b.clear clk ts = .ok a → ∀ (h : Bool) (c1 c2 t : Int) (x : AddArg),
    (createPusher a h).call env a c1 c2 t x =
      (a.push env c1 c2 t x h).map fun r => (r.2.1, r.2.2)

/-- Counterexample: no pusher made after `clear` ever has an effect. -/
theorem C24_new_pushers_refuted : ¬ NewPushersWork exactEnv := by
  intro h
  have := h exANew { exANew with alive := false } 0 1000 (by decide +kernel) false 0 0 1003 (.one 1 1)
  exact absurd this (by decide +kernel)

/-- Before any `clear` pushers are equivalent to `push`. -/
theorem C24_pusher_partial (env : Env) (a b : Aggregator) (hb : b.alive = true) (ha : a.alive = true)
    (h : Bool) (c1 c2 t : Int) (x : AddArg) :
    (createPusher b h).call env a c1 c2 t x = (a.push env c1 c2 t x h).map fun r => (r.2.1, r.2.2) := by
  unfold Pusher.call createPusher
  rw [if_pos ⟨hb, ha⟩]
  cases a.push env c1 c2 t x h <;> rfl

example : ∃ a', exAObs.a.clear 0 2000 = .ok a' ∧ a'.sep.currentTime = 2000 ∧ a'.agList = [] := by
  obtain ⟨a', h1, h2, _, _, _, _, _, h3, _⟩ := C24_clear _ exAOpt _ _ _ (by decide) (exANew_fresh _) exAClk exARun 0 2000
  exact ⟨a', h1, h3, h2⟩

/-! ### C26 -/

/-- Every record delivered by `pop` or to a `push` handler, and every record waiting, is a report of
its window: in particular its percentiles are those of the samples of the window. -/
theorem C26_delivered (env : Env) (opt : AggregatorOpts) (a0 : Aggregator) (ops : List AOp) (o : AObs)
    (hs : 0 < opt.step) (h0 : Fresh env opt a0) (hc : ∀ op ∈ ops, op.clockOk) (hf : ∀ op ∈ ops, op.forced = false)
    (hp : ∀ op ∈ ops, op.sepHandler = false) (h : Aggregator.execAll env { a := a0 } ops = .ok o) :
    ∀ d ∈ o.received ++ o.a.agList, (∃ k : Nat, d.ts = a0.sep.currentTime + k * opt.step) ∧
      Report env opt (eventsIn o.accepted d.ts (d.ts + opt.step)) d := by
  obtain ⟨log, hout, rraw, araw, gs, h1, h2, h3⟩ := agood_execAll (Q := Delivered opt.outSize) (ord := false)
    (fun _ _ h => h) hs ops (agood_fresh hs h0) hc hf (by simp)
    (fun op ho hsep => by rw [hp op ho] at hsep; cases hsep) h
  have hall : List.Forall₂ (Delivered opt.outSize) (rraw ++ araw) (o.received ++ o.a.agList) :=
    List.rel_append h1 h2
  intro d hd
  obtain ⟨raw, hraw, hdel⟩ := mem_forall2 hall d hd
  have hmem : raw ∈ [] ++ log := gs.perm.mem_iff.2 (List.mem_append_left _ hraw)
  obtain ⟨k, hk, e⟩ := gs.aligned raw hmem
  refine ⟨⟨k.toNat, by rw [Int.toNat_of_nonneg hk, hdel.ts]; exact e⟩, raw, ?_, hdel⟩
  rw [hdel.ts]
  exact (gs.recs raw hmem).1

/-- `aggregate_current` reports the current window, and is null exactly when it is empty. -/
theorem C26_current (env : Env) (opt : AggregatorOpts) (a0 : Aggregator) (ops : List AOp) (o : AObs)
    (x : Option AggData) (hs : 0 < opt.step) (h0 : Fresh env opt a0) (hc : ∀ op ∈ ops, op.clockOk) (hf : ∀ op ∈ ops, op.forced = false)
    (h : Aggregator.execAll env { a := a0 } ops = .ok o) (hx : o.a.aggregateCurrent env = .ok x) :
    (x = none ↔ eventsIn o.accepted o.a.sep.currentTime o.a.sep.nextTime = []) ∧
    ∀ d, x = some d → d.ts = o.a.sep.currentTime ∧
      Report env opt (eventsIn o.accepted o.a.sep.currentTime o.a.sep.nextTime) d := by
  obtain ⟨log, hout, rraw, araw, gs, h1, h2, h3⟩ := agood_execAll (Q := fun _ _ => True) (ord := false)
    (fun _ _ _ => trivial) hs ops (agood_fresh hs h0) hc hf (by simp) (fun _ _ _ _ => trivial) h
  have hst : o.a.sep.step = opt.step := gs.step.1
  have gc := Reducer.goodA_clone gs.red
  unfold Aggregator.aggregateCurrent Separator.getCurrent Reducer.getReduced at hx
  unfold Separator.currentTime Separator.nextTime
  rw [hst] at hx ⊢
  rcases Reducer.detach_spec gc with ⟨e, e', _⟩ | ⟨hne, r1, _, _, _, _, _, _, ⟨a, _, e⟩ | ⟨_, e⟩⟩
  · simp only at e'
    rw [e'] at hx
    cases hx
    exact ⟨by simpa using e, by simp⟩
  · have hsum := summary_of_detach gc e
    simp only at e
    rw [e] at hx
    simp only [bind_ok', Option.map_some] at hx
    obtain ⟨d', ed, hdel⟩ := finish_spec env.nth o.a.outSize
      { Reducer.resultOf o.a.sep.reducer.clone (r1.data.headD []) a with ts := o.a.sep.next - opt.step }
    simp only at ed
    rw [ed] at hx
    cases hx
    refine ⟨by simpa using hne, ?_⟩
    intro d hd
    cases hd
    rw [hout] at hdel
    exact ⟨hdel.ts, _, summary_ts hsum, hdel⟩
  · simp only at e
    rw [e] at hx; cases hx

/-- `force_pop` reports a window; if nothing waits inside the separator, the current one. -/
theorem C26_force_pop (env : Env) (opt : AggregatorOpts) (a0 a' : Aggregator) (ops : List AOp) (o : AObs)
    (x : Option AggData) (hs : 0 < opt.step) (h0 : Fresh env opt a0) (hc : ∀ op ∈ ops, op.clockOk) (hf : ∀ op ∈ ops, op.forced = false)
    (h : Aggregator.execAll env { a := a0 } ops = .ok o) (hx : o.a.forcePop env = .ok (x, a')) :
    (∀ d, x = some d → Report env opt (eventsIn o.accepted d.ts (d.ts + opt.step)) d) ∧
    (o.a.sep.sepList = [] →
      (x = none ↔ eventsIn o.accepted o.a.sep.currentTime o.a.sep.nextTime = []) ∧
      (∀ d, x = some d → d.ts = o.a.sep.currentTime) ∧ a'.sep.reducer.totalCount = 0) ∧
    a'.agList = o.a.agList := by
  obtain ⟨log, hout, rraw, araw, gs, h1, h2, h3⟩ := agood_execAll (Q := fun _ _ => True) (ord := false)
    (fun _ _ _ => trivial) hs ops (agood_fresh hs h0) hc hf (by simp) (fun _ _ _ _ => trivial) h
  have hst : o.a.sep.step = opt.step := gs.step.1
  have gr := gs.red
  unfold Aggregator.forcePop Separator.forcePop Separator.pop at hx
  unfold Separator.currentTime Separator.nextTime
  rw [hst]
  cases hl : o.a.sep.sepList with
  | cons r l =>
    rw [hl] at hx
    simp only [bind_ok'] at hx
    obtain ⟨d', ed, hdel⟩ := finish_spec env.nth o.a.outSize r
    rw [ed] at hx
    cases hx
    refine ⟨?_, by simp, rfl⟩
    intro d hd
    cases hd
    have hmem : r ∈ [] ++ log := gs.perm.mem_iff.2 (by simp [hl])
    rw [hout] at hdel
    exact ⟨r, by rw [hdel.ts]; exact (gs.recs r hmem).1, hdel⟩
  | nil =>
    rw [hl] at hx
    simp only [hst] at hx
    rcases Reducer.detach_spec gr with ⟨e, e', _⟩ | ⟨hne, r1, er, g1, _, _, _, _, ⟨a, _, e⟩ | ⟨_, e⟩⟩
    · simp only at e'
      rw [e'] at hx
      cases hx
      refine ⟨by simp, fun _ => ⟨by simpa using e, by simp, ?_⟩, rfl⟩
      have := gr.good.total
      rw [e] at this
      exact this
    · have hsum := summary_of_detach gr e
      simp only at e
      rw [e] at hx
      simp only [bind_ok', Option.map_some] at hx
      obtain ⟨d', ed, hdel⟩ := finish_spec env.nth o.a.outSize
        { Reducer.resultOf o.a.sep.reducer (r1.data.headD []) a with ts := o.a.sep.next - opt.step }
      simp only at ed
      rw [ed] at hx
      cases hx
      rw [hout] at hdel
      refine ⟨?_, fun _ => ⟨by simpa using hne, ?_, rfl⟩, rfl⟩
      · intro d hd
        cases hd
        refine ⟨_, ?_, hdel⟩
        rw [hdel.ts]
        have : o.a.sep.next - opt.step + opt.step = o.a.sep.next := by ring
        rw [this]
        exact summary_ts hsum
      · intro d hd
        cases hd
        exact hdel.ts
    · simp only at e
      rw [e] at hx; cases hx

/-- The full claim for the remaining path: a handler given to `separate`. -/
def SeparateHandlerReports (env : Env) : Prop :=
  ∀ (opt : AggregatorOpts) (a0 : Aggregator) (ops : List AOp) (o : AObs), 0 < opt.step → Fresh env opt a0 →
    (∀ op ∈ ops, op.clockOk) → Aggregator.execAll env { a := a0 } ops = .ok o →
    ∀ d ∈ o.received, Report env opt (eventsIn o.accepted d.ts (d.ts + opt.step)) d

/-- Counterexample: the handler receives the records before percentiles are computed. -/
theorem C26_separate_refuted : ¬ SeparateHandlerReports exactEnv := by
  intro h
  have hrun : ∃ o, Aggregator.execAll exactEnv { a := exANew }
      [.add 0 0 1003 (.many [5, 9, 2, 7] 4), .separate 0 1020 true false] = .ok o ∧
      o.received = [{ data := [5, 9, 2, 7], avg := 5, count := 4, lossy := 0, min := 2, max := 9, ts := 1000 }] ∧
      o.accepted = [(1000, .many [5, 9, 2, 7] 4)] := by
    cases e : Aggregator.execAll exactEnv { a := exANew }
      [.add 0 0 1003 (.many [5, 9, 2, 7] 4), .separate 0 1020 true false] with
    | error x =>
      have : (Aggregator.execAll exactEnv { a := exANew }
        [.add 0 0 1003 (.many [5, 9, 2, 7] 4), .separate 0 1020 true false]).toOption.isSome = true := by
        decide +kernel
      rw [e] at this; cases this
    | ok o =>
      refine ⟨o, rfl, ?_⟩
      have : (Aggregator.execAll exactEnv { a := exANew }
        [.add 0 0 1003 (.many [5, 9, 2, 7] 4), .separate 0 1020 true false]).toOption.map
          (fun o => (o.received, o.accepted)) = some ([{ data := [5, 9, 2, 7], avg := 5, count := 4, lossy := 0, min := 2, max := 9, ts := 1000 }],
            [(1000, .many [5, 9, 2, 7] 4)]) := by decide +kernel
      rw [e] at this
      simpa [Except.toOption] using this
  obtain ⟨o, hrun, hr, hacc⟩ := hrun
  obtain ⟨raw, hsum, hdel⟩ := h exAOpt exANew _ o (by decide) (exANew_fresh _) (by decide) hrun _
    (by rw [hr]; exact List.mem_singleton.2 rfl)
  rw [hacc] at hsum
  have hperm := hsum.complete (by decide) (by decide)
  have hne : raw.data ≠ [] := by
    intro h0; rw [h0] at hperm
    exact absurd hperm.symm.eq_nil (by decide)
  have hp := (hdel.perc hne).p50.1
  have : (0 : Int) ∈ raw.data := hp
  exact absurd (hperm.mem_iff.1 this) (by decide)

example : ∀ d ∈ exAObs.received ++ exAObs.a.agList,
    (∃ k : Nat, d.ts = exANew.sep.currentTime + k * 10) ∧
      Report exactEnv exAOpt (eventsIn exAObs.accepted d.ts (d.ts + 10)) d :=
  C26_delivered _ exAOpt _ _ _ (by decide) (exANew_fresh _) exAClk (by decide) (by decide) exARun

/-- The record `aggregate_current` and `force_pop` return in the example. -/
def exAForced : AggData :=
  { data := [6], avg := 6, count := 1, lossy := 0, min := 6, max := 6, ts := 1040, perc50 := 6, perc80 := 6,
    perc95 := 6, perc99 := 6, perc100 := 6 }

example : exAObs.a.aggregateCurrent exactEnv = .ok (some exAForced) := by decide +kernel

/-! ### C25

`force_pop` looks only into the separator, from which `add` and `separate` have already taken the
completed windows. -/

/-- The full claim, in the simplest form: nothing older is waiting. -/
def ForcePopOldest (env : Env) : Prop :=
  ∀ (opt : AggregatorOpts) (a0 a' : Aggregator) (ops : List AOp) (o : AObs) (x : Option AggData),
    0 < opt.step → Fresh env opt a0 → (∀ op ∈ ops, op.clockOk) →
    Aggregator.execAll env { a := a0 } ops = .ok o → o.a.forcePop env = .ok (x, a') →
    (x = none → o.a.agList = []) ∧ ∀ d, x = some d → ∀ d' ∈ o.a.agList, d.ts ≤ d'.ts

/-- Counterexample: window 1010 is waiting, `force_pop` returns window 1040. -/
theorem C25_refuted : ¬ ForcePopOldest exactEnv := by
  intro h
  have hx : exAObs.a.forcePop exactEnv = .ok (some exAForced,
      { exAObs.a with sep := { exAObs.a.sep with reducer := Reducer.new exAOpt.toReducerOpts } }) := by
    decide +kernel
  have := (h exAOpt exANew _ exAOps exAObs _ (by decide) (exANew_fresh _) exAClk exARun hx).2 _ rfl
  exact absurd this (by decide +kernel)

/-- And it may return null though a completed window is waiting. -/
theorem C25_null_refuted : ∃ (a' : Aggregator) (o : AObs) (ops : List AOp), (∀ op ∈ ops, op.clockOk) ∧
    Aggregator.execAll exactEnv { a := exANew } ops = .ok o ∧ o.a.forcePop exactEnv = .ok (none, a') ∧
    o.a.size = 1 := by
  have h : (do
      let o ← Aggregator.execAll exactEnv { a := exANew } [.add 0 0 1003 (.one 5 1), .separate 0 1020 false false]
      let (x, _) ← o.a.forcePop exactEnv
      .ok (x, o.a.size) : M (Option AggData × Nat)) = .ok (none, 1) := by decide +kernel
  cases e : Aggregator.execAll exactEnv { a := exANew } [.add 0 0 1003 (.one 5 1), .separate 0 1020 false false] with
  | error x => rw [e] at h; cases h
  | ok o =>
    rw [e] at h
    simp only [bind_ok'] at h
    cases e2 : o.a.forcePop exactEnv with
    | error x => rw [e2] at h; cases h
    | ok p =>
      obtain ⟨x, a'⟩ := p
      rw [e2] at h
      simp only [bind_ok', Except.ok.injEq, Prod.mk.injEq] at h
      obtain ⟨rfl, h⟩ := h
      exact ⟨a', o, _, by decide, e, e2, h⟩

/-- When no completed window is waiting, `force_pop` returns the current window, or null if it is
empty, and empties it. -/
theorem C25_force_pop_partial (env : Env) (opt : AggregatorOpts) (a0 a' : Aggregator) (ops : List AOp) (o : AObs)
    (x : Option AggData) (hs : 0 < opt.step) (h0 : Fresh env opt a0) (hc : ∀ op ∈ ops, op.clockOk) (hf : ∀ op ∈ ops, op.forced = false)
    (ht : ∀ op ∈ ops, op.timeOk opt) (h : Aggregator.execAll env { a := a0 } ops = .ok o)
    (_hw : o.a.agList = []) (hx : o.a.forcePop env = .ok (x, a')) :
    (x = none ↔ eventsIn o.accepted o.a.sep.currentTime o.a.sep.nextTime = []) ∧
    (∀ d, x = some d → d.ts = o.a.sep.currentTime ∧
      Report env opt (eventsIn o.accepted o.a.sep.currentTime o.a.sep.nextTime) d) ∧
    a'.agList = [] ∧ a'.sep.reducer.totalCount = 0 := by
  have hl : o.a.sep.sepList = [] := keep_execAll hs ops (pgood_fresh hs h0) hc (fresh_keep h0).1 ht h
  obtain ⟨h1, h2, h3⟩ := C26_force_pop env opt a0 a' ops o x hs h0 hc hf h hx
  obtain ⟨h4, h5, h6⟩ := h2 hl
  have hst : o.a.sep.step = opt.step := by
    obtain ⟨log, _, _, _, gs, _⟩ := agood_execAll (Q := fun _ _ => True) (ord := false)
      (fun _ _ _ => trivial) hs ops (agood_fresh hs h0) hc hf (by simp) (fun _ _ _ _ => trivial) h
    exact gs.step.1
  refine ⟨h4, ?_, by rw [h3, _hw], h6⟩
  intro d hd
  have hts := h5 d hd
  have := h1 d hd
  rw [hts] at this
  refine ⟨hts, ?_⟩
  have e : o.a.sep.currentTime + opt.step = o.a.sep.nextTime := by
    unfold Separator.currentTime Separator.nextTime; omega
  rwa [e] at this

/-- Two events in the current window: `force_pop` returns it, a second call returns null. -/
example : (do
    let o ← Aggregator.execAll exactEnv { a := exANew } [.add 0 0 1003 (.one 5 1), .add 0 0 1004 (.one 7 2)]
    let (x, a) ← o.a.forcePop exactEnv
    let (y, _) ← a.forcePop exactEnv
    .ok (o.a.agList, x.map (·.count), x.map (·.data), y.map (·.count)) :
      M (List AggData × Option Nat × Option (List Int) × Option Nat)) =
    .ok ([], some 3, some [5, 7], none) := by decide +kernel

/-! ### C27 -/

/-- Feeding events with a handler and feeding them for polling: the same events are accepted, and
the handler receives what is left to pop (followed by the reports of completed windows still inside
the separator, of which there are none unless events are aligned to time zero, see C14).  Either
both runs fault or none. -/
theorem C27_equivalent (env : Env) (opt : AggregatorOpts) (a0 : Aggregator) (evs : List Event)
    (h0 : Fresh env opt a0) :
    (∃ oh op, Aggregator.execAll env { a := a0 } (evs.map Event.push) = .ok oh ∧
      Aggregator.execAll env { a := a0 } (evs.map Event.add) = .ok op ∧ oh.accepted = op.accepted ∧
      (∃ l, op.a.sep.sepList.mapM (finish env.nth op.a.outSize) = .ok l ∧ oh.received = op.a.agList ++ l) ∧
      op.a.sep.reducer = oh.a.sep.reducer ∧ op.a.sep.nextTime = oh.a.sep.nextTime) ∨
    (∃ e, Aggregator.execAll env { a := a0 } (evs.map Event.push) = .error e ∧
      Aggregator.execAll env { a := a0 } (evs.map Event.add) = .error e) := by
  obtain ⟨k1, k2⟩ := fresh_keep h0
  have S0 : Same env { a := a0 } { a := a0 } :=
    ⟨rfl, rfl, rfl, rfl, [], by rw [k1]; rfl, by simp [k2]⟩
  rcases same_execAll evs S0 with ⟨h', p', e1, e2, S⟩ | h
  · left
    refine ⟨h', p', e1, e2, S.acc.symm, S.recv, ?_, ?_⟩
    · rw [S.sep]
    · unfold Separator.nextTime; rw [S.sep]
  · right; exact h

/-- With no event aligned to time zero the handler receives exactly what polling returns. -/
theorem C27_same_records (env : Env) (opt : AggregatorOpts) (a0 : Aggregator) (evs : List Event) (oh op : AObs)
    (hs : 0 < opt.step) (h0 : Fresh env opt a0) (hc : ∀ ev ∈ evs, 0 ≤ ev.clk1 ∧ 0 ≤ ev.clk2)
    (ht : ∀ ev ∈ evs, opt.resolution = .none ∨ align opt.step (meant opt.resolution ev.clk1 ev.ts) ≠ 0)
    (h1 : Aggregator.execAll env { a := a0 } (evs.map Event.push) = .ok oh)
    (h2 : Aggregator.execAll env { a := a0 } (evs.map Event.add) = .ok op) :
    oh.received = op.a.agList ∧ oh.accepted = op.accepted := by
  have hl : op.a.sep.sepList = [] := by
    refine keep_execAll hs (evs.map Event.add) (pgood_fresh hs h0) ?_ (fresh_keep h0).1 ?_ h2
    · intro o ho
      obtain ⟨ev, hev, rfl⟩ := List.mem_map.1 ho
      exact hc ev hev
    · intro o ho
      obtain ⟨ev, hev, rfl⟩ := List.mem_map.1 ho
      exact ht ev hev
  rcases C27_equivalent env opt a0 evs h0 with ⟨oh', op', e1, e2, ha, ⟨l, el, hr⟩, _⟩ | ⟨e, e1, _⟩
  · rw [h1] at e1
    rw [h2] at e2
    cases e1
    cases e2
    rw [hl] at el
    cases el
    exact ⟨by simpa using hr, ha⟩
  · rw [h1] at e1; cases e1

def exEvents : List Event :=
  [⟨0, 0, 1003, .many [5, 9, 2, 7] 4⟩, ⟨0, 0, 1012, .one 8 3⟩, ⟨1075, 1075, 0, .one 4 1⟩]

example : (Aggregator.execAll exactEnv { a := exANew } (exEvents.map Event.push)).toOption.map
    (fun o => o.received.map fun d => (d.ts, d.count)) = some [(1000, 4), (1010, 3)] := by decide +kernel

example : (Aggregator.execAll exactEnv { a := exANew } (exEvents.map Event.add)).toOption.map
    (fun o => o.a.agList.map fun d => (d.ts, d.count)) = some [(1000, 4), (1010, 3)] := by decide +kernel

/-! ### C57 -/

/-- Two tiers: the records received from the first are fed into the second, and all of them are
accepted there.  Then the counts in the second tier and those still in the first add up to the
counts of the events fed into the first. -/
theorem C57_counts (env1 env2 : Env) (opt1 opt2 : AggregatorOpts) (a1 a2 : Aggregator) (ops1 ops2 : List AOp)
    (o1 o2 : AObs) (hs1 : 0 < opt1.step) (hs2 : 0 < opt2.step) (h1 : Fresh env1 opt1 a1)
    (h2 : Fresh env2 opt2 a2) (hc1 : ∀ op ∈ ops1, op.clockOk) (hc2 : ∀ op ∈ ops2, op.clockOk)
    (r1 : Aggregator.execAll env1 { a := a1 } ops1 = .ok o1)
    (r2 : Aggregator.execAll env2 { a := a2 } ops2 = .ok o2)
    (hfed : (o2.accepted.map Prod.snd).Perm (o1.received.map fun d => AddArg.reduced d.toReducedData)) :
    logCount o2.received + logCount o2.a.agList + logCount o2.a.sep.sepList + o2.a.sep.reducer.totalCount +
      (logCount o1.a.agList + logCount o1.a.sep.sepList + o1.a.sep.reducer.totalCount) =
      sumCount (o1.accepted.map Prod.snd) := by
  have e1 := C15_aggregator env1 opt1 a1 ops1 o1 hs1 h1 hc1 r1
  have e2 := C15_aggregator env2 opt2 a2 ops2 o2 hs2 h2 hc2 r2
  have e3 : sumCount (o2.accepted.map Prod.snd) = logCount o1.received := by
    unfold sumCount logCount
    rw [(hfed.map _).sum_eq, List.map_map]
    rfl
  omega

/-- Calls that do not carry more samples than events. -/
def WellCounted (a : AddArg) : Prop := a.values.length ≤ a.count

theorem wellCounted_sum {as : List AddArg} (h : ∀ a ∈ as, WellCounted a) : sumWeight as = sumCount as := by
  unfold sumWeight sumCount
  congr 1
  apply List.map_congr_left
  intro a ha
  have := h a ha
  unfold WellCounted at this
  unfold AddArg.weight
  omega

/-- If the events carry no more samples than they count, the same is true of the records delivered
for them, so that they may be fed to another tier; and in the summary of every window the samples
lost and the samples retained add up to the count. -/
theorem C57_balance (env : Env) (opt : AggregatorOpts) (as : List AddArg) (d : AggData)
    (hw : ∀ a ∈ as, WellCounted a) (h : Report env opt as d) :
    WellCounted (.reduced d.toReducedData) ∧
    ∃ raw, Delivered opt.outSize raw d ∧ raw.lossy + raw.data.length = d.count ∧ d.lossy = raw.lossy ∧
      (opt.outSize = 0 → d.lossy + d.data.length = d.count) := by
  obtain ⟨raw, hsum, hdel⟩ := h
  have hb := hsum.balance
  have hcnt := hsum.count
  rw [wellCounted_sum hw] at hb
  have hlen : d.data.length ≤ raw.data.length := by
    have : d.data.Subperm raw.data := List.subperm_ext_iff.2 (fun x _ => hdel.samples x)
    exact this.length_le
  refine ⟨?_, raw, hdel, ?_, hdel.lossy, ?_⟩
  · show d.data.length ≤ d.count
    rw [hdel.count, hcnt]; omega
  · rw [hdel.count, hcnt]; omega
  · intro h0
    have := (hdel.full (.inl h0)).length_eq
    rw [hdel.count, hcnt, hdel.lossy]; omega

/-- Two-tier run of the example: the two records of the first tier fed to a second one. -/
def exTier2 : List AOp :=
  (exAObs.received ++ exAObs.a.agList).map fun d => .add 0 0 d.ts (.reduced d.toReducedData)

example : (Aggregator.execAll exactEnv { a := { exANew with outSize := 0 } }
    (exTier2 ++ [.separate 0 2000 false false])).toOption.map
    (fun o => o.a.agList.map fun d => (d.ts, d.count, d.lossy, d.data)) =
    some [(1000, 4, 1, [5, 7, 9]), (1010, 3, 2, [8])] := by decide +kernel

/-- The second tier fed with the record popped in the example: 4 + 3 + 1 = 8. -/
def exTier2Obs : AObs :=
  match Aggregator.execAll exactEnv { a := exANew }
    (exAObs.received.map fun d => .add 0 0 d.ts (.reduced d.toReducedData)) with
  | .ok o => o
  | .error _ => { a := exANew }

theorem exTier2Run : Aggregator.execAll exactEnv { a := exANew }
    (exAObs.received.map fun d => .add 0 0 d.ts (.reduced d.toReducedData)) = .ok exTier2Obs := by
  have h : (match Aggregator.execAll exactEnv { a := exANew }
      (exAObs.received.map fun d => .add 0 0 d.ts (.reduced d.toReducedData)) with
    | .ok _ => true | .error _ => false) = true := by decide +kernel
  unfold exTier2Obs
  split at h
  · rename_i o e; rw [e]
  · cases h

example : logCount exTier2Obs.received + logCount exTier2Obs.a.agList + logCount exTier2Obs.a.sep.sepList +
    exTier2Obs.a.sep.reducer.totalCount +
      (logCount exAObs.a.agList + logCount exAObs.a.sep.sepList + exAObs.a.sep.reducer.totalCount) =
      sumCount (exAObs.accepted.map Prod.snd) :=
  C57_counts exactEnv exactEnv exAOpt exAOpt exANew exANew exAOps _ exAObs exTier2Obs (by decide) (by decide)
    (exANew_fresh _) (exANew_fresh _) exAClk (by
      intro op h
      obtain ⟨d, _, rfl⟩ := List.mem_map.1 h
      exact ⟨le_refl _, le_refl _⟩) exARun exTier2Run (by
      have : exTier2Obs.accepted.map Prod.snd =
        exAObs.received.map fun d => AddArg.reduced d.toReducedData := by decide +kernel
      rw [this])

example : ∀ a ∈ exAObs.accepted, WellCounted a.2 := by
  have : exAObs.accepted = [(1000, .many [5, 9, 2, 7] 4), (1010, .one 8 3), (1040, .one 6 1)] := by
    decide +kernel
  rw [this]
  unfold WellCounted
  decide

end Wrtstat
