/-
C137: the figures of a record are in order.
-/
import Verif.Props.FreshWindow
import Verif.Props.Loss
import Verif.Props.Scale
import Verif.Props.Rollup

namespace Wrtstat

set_option autoImplicit false

open Aggregator Reducer

/-- The percentiles of a record are in order and lie between its extremes. -/
structure PercInOrder (d : AggData) : Prop where
  min50 : d.min ≤ d.perc50
  p50_80 : d.perc50 ≤ d.perc80
  p80_95 : d.perc80 ≤ d.perc95
  p95_99 : d.perc95 ≤ d.perc99
  p99_100 : d.perc99 ≤ d.perc100
  max100 : d.perc100 ≤ d.max

/-- The claim: in every record, percentiles, samples and average lie between the extremes, and the percentiles are in order. -/
def C137_FullClaim : Prop :=
  ∀ (env : Env) (opt : AggregatorOpts) (a0 : Aggregator) (ops : List AOp) (o : AObs), 0 < opt.step → Fresh env opt a0 →
    (∀ op ∈ ops, op.clockOk) → ops.any AOp.sepHandler = false → execAll env { a := a0 } ops = .ok o →
    ∀ d ∈ o.received ++ o.a.agList, PercInOrder d ∧ (∀ v ∈ d.data, d.min ≤ v ∧ v ≤ d.max) ∧ d.min ≤ d.avg ∧ d.avg ≤ d.max

/-- A count without values, and a summary without samples: the minimum is the largest number there is, or percentiles and average are
0 although the minimum is 3. -/
theorem C137_witnesses :
    (execAll exactEnv { a := exANew } [.add 0 0 1003 (.many [] 5), .add 0 0 1013 (.one 1 1)]).toOption.map
      (fun o => (o.received ++ o.a.agList).map fun d => [d.min, d.perc50, d.perc99, d.max, d.avg]) = some [[I64max, 0, 0, I64min, 0]] ∧
    (execAll exactEnv { a := exANew } [.add 0 0 1003 (.reduced { count := 4, min := 3, max := 5 }), .add 0 0 1013 (.one 1 1)]).toOption.map
      (fun o => (o.received ++ o.a.agList).map fun d => [d.min, d.perc50, d.perc99, d.max, d.avg]) = some [[3, 0, 0, 5, 0]] := by
  constructor <;> decide +kernel

theorem C137_refuted : ¬ C137_FullClaim := by
  intro h
  obtain ⟨o, e, e2⟩ := obs_of_map C137_witnesses.2
  have := h exactEnv exAOpt exANew _ o (by decide) (exANew_fresh exactEnv) (by decide) (by decide) e
  generalize o.received ++ o.a.agList = l at *
  obtain ⟨d, rfl⟩ : ∃ d, l = [d] :=
    List.length_eq_one_iff.1 (by rw [← List.length_map (f := fun d : AggData => [d.min, d.perc50, d.perc99, d.max, d.avg]), e2]; rfl)
  have := (this d (by simp)).1.min50
  simp only [List.map_cons, List.map_nil, List.cons.injEq, and_true] at e2
  omega

/-! ### When they are -/

theorem goodA_unused (env : Env) (opt : ReducerOpts) (m : Mode) (hm : Steady opt → m = (Reducer.new opt).curMode) :
    GoodA env opt (unused opt m) [] := by
  refine ⟨good_fresh env _ ?_, ?_, rfl, fun h => hm ?_⟩
  · have := new_fresh opt
    unfold Reducer.Fresh at this ⊢
    unfold unused
    conv_lhs => rw [this]
    rfl
  · have := new_fresh opt
    unfold Reducer.Fresh at this
    show (Reducer.new opt).empty = true
    rw [this]
    rfl
  · unfold Steady
    unfold magic at h
    rcases h with h | h | h
    · exact .inl h
    · exact .inr (.inl (by omega))
    · exact .inr (.inr (.inl h))

theorem goodA_adds {env : Env} {opt : ReducerOpts} {r : Reducer} {bs : List AddArg} (g : GoodA env opt r bs) (as : List AddArg) :
    GoodA env opt (as.foldl (Reducer.add env) r) (bs ++ as) := by
  induction as generalizing r bs with
  | nil => simpa using g
  | cons a as ih =>
    have := ih (goodA_add g a)
    simpa [List.append_assoc] using this

/-- What is known of a record, from the calls of its window. -/
structure Ranges (env : Env) (opt : AggregatorOpts) (as : List AddArg) (d : AggData) : Prop where
  /-- the samples always lie between the extremes -/
  samples : ∀ v ∈ d.data, d.min ≤ v ∧ v ≤ d.max
  /-- and so do the percentiles, in order, exactly if some value was recorded and there was room for one, or 0 lies between the
  extremes -/
  perc : PercInOrder d ↔ (allValues as ≠ [] ∧ 0 < opt.limit ∧ 0 < opt.levels) ∨ (d.min ≤ 0 ∧ 0 ≤ d.max)
  /-- and so does the average, if the extremes are numbers of type `double`, exactly if some value was recorded, or 0 lies between -/
  avg : FPLaws env.rnd → env.rnd d.min = d.min → env.rnd d.max = d.max → InI64 d.min → InI64 d.max →
    ((d.min ≤ d.avg ∧ d.avg ≤ d.max) ↔ allValues as ≠ [] ∨ (d.min ≤ 0 ∧ 0 ≤ d.max))

theorem ranges_of {env : Env} {opt : AggregatorOpts} {m : Mode} {as : List AddArg} {w d : AggData}
    (hm : Steady opt.toReducerOpts → m = (Reducer.new opt.toReducerOpts).curMode) (hw : OfUnused env opt.toReducerOpts m as w)
    (hf : Aggregator.finish env.nth opt.outSize w = .ok d) : Ranges env opt as d := by
  obtain ⟨d0, r', hd, hw⟩ := hw
  have g := goodA_adds (goodA_unused env opt.toReducerOpts m hm) as
  rw [List.nil_append] at g
  have s := summary_of_detach g hd
  obtain ⟨_, r1, _, _, _, _, _, _, _, a, hc, e0⟩ := detach_some g hd
  rw [g.good.avg] at hc
  obtain ⟨d', e, k⟩ := finish_spec env.nth opt.outSize w
  rw [hf] at e
  cases e
  have hdata : w.data = d0.data := by rw [hw]
  have hperc : w.toPerc = {} := by rw [hw, e0]; rfl
  have havg : d.avg = a := by rw [k.avg, hw, e0]; rfl
  have hmin : d.min = minI (allExtremes as) := by rw [k.min, hw]; exact s.min
  have hmax : d.max = maxI (allExtremes as) := by rw [k.max, hw]; exact s.max
  have hval : ∀ v ∈ allValues as, d.min ≤ v ∧ v ≤ d.max := by
    intro v hv
    have : v ∈ allExtremes as := by
      unfold allValues at hv
      obtain ⟨x, hx, hv⟩ := List.mem_flatMap.1 hv
      exact allExtremes_mem.2 ⟨x, hx, List.mem_append_left _ hv⟩
    rw [hmin, hmax]
    exact ⟨minI_le this, le_maxI this⟩
  have hsam : ∀ v ∈ w.data, d.min ≤ v ∧ v ≤ d.max := by
    intro v hv
    refine hval v (List.count_pos_iff.1 (lt_of_lt_of_le (List.count_pos_iff.2 hv) ?_))
    rw [hdata]
    exact s.samples v
  refine ⟨fun v hv => hsam v (List.count_pos_iff.1 (lt_of_lt_of_le (List.count_pos_iff.2 hv) (k.samples v))), ?_, ?_⟩
  · have hz := s.size
    rw [← hdata] at hz
    by_cases hne : w.data = []
    · have q : d.toPerc = {} := (k.noperc hne).trans hperc
      have h0 : ¬ (allValues as ≠ [] ∧ 0 < opt.limit ∧ 0 < opt.levels) := by
        rintro ⟨h1, h2, h3⟩
        rw [hne, if_neg (by omega)] at hz
        have := List.length_pos_of_ne_nil h1
        simp only [List.length_nil] at hz
        omega
      constructor
      · intro h
        have h1 := h.min50
        have h2 := h.max100
        rw [q] at h1 h2
        exact .inr ⟨h1, h2⟩
      · rintro (h | ⟨h1, h2⟩)
        · exact absurd h h0
        · refine ⟨?_, ?_, ?_, ?_, ?_, ?_⟩ <;> rw [q] <;> first | exact h1 | exact h2
    · have p := k.perc hne
      refine iff_of_true ?_ (.inl ?_)
      · exact ⟨(hsam _ p.p50.1).1, C19_rank_mono _ _ _ _ _ (by omega) p.p50 p.p80, C19_rank_mono _ _ _ _ _ (by omega) p.p80 p.p95,
          C19_rank_mono _ _ _ _ _ (by omega) p.p95 p.p99, p.p100.2, (hsam _ p.p100.1).2⟩
      · have := List.length_pos_of_ne_nil hne
        by_cases hv : opt.levels = 0
        · rw [if_pos hv] at hz; omega
        rw [if_neg hv] at hz
        refine ⟨fun c => ?_, ?_, by omega⟩
        · rw [c, List.length_nil, Nat.min_zero] at hz; omega
        · have : opt.limit ≠ 0 := fun c => by
            have hz : w.data.length = Min.min opt.limit (allValues as).length := hz
            rw [c, Nat.zero_min] at hz; omega
          omega
  · intro L h1 h2 i1 i2
    obtain ⟨a', e, hr⟩ := average_ok (env := env) ⟨L, i1, i2, h1, h2⟩ (allValues as) hval
    rw [hc] at e
    cases e
    rw [havg]
    by_cases hv : allValues as = []
    · rw [hv] at hc
      have : a = 0 := by
        have := hc.symm.trans castInt_zero
        injection this
      rw [this]
      simp [hv]
    · exact iff_of_true (hr hv) (.inl hv)

/-- The events recorded split into groups, one for each record received or waiting, and the rest; each record is in order exactly as
`Ranges` says. -/
theorem C137_exact_partial (env : Env) (opt : AggregatorOpts) (a0 : Aggregator) (ops : List AOp) (o : AObs) (hs : 0 < opt.step)
    (h0 : Aggregator.Fresh env opt a0) (hc : ∀ op ∈ ops, op.clockOk) (hsh : ops.any AOp.sepHandler = false)
    (h : execAll env { a := a0 } ops = .ok o) : Accounted o fun as d => Ranges env opt as d := by
  obtain ⟨gR, gA, gS, segs, cur, h1, h2, h3, h4, _⟩ := C121_windows_partial env opt a0 ops o hs h0 hc h
  rw [hsh] at h3
  have key : ∀ {g : List (Int × AddArg)} {d : AggData},
      (∃ m w, (Steady opt.toReducerOpts → m = (Reducer.new opt.toReducerOpts).curMode) ∧
        OfUnused env opt.toReducerOpts m (g.map Prod.snd) w ∧ Aggregator.finish env.nth opt.outSize w = .ok d) →
      d.count = sumCount (g.map Prod.snd) ∧ Ranges env opt (g.map Prod.snd) d := by
    rintro g d ⟨m, w, hm, hw, hf⟩
    refine ⟨?_, ranges_of hm hw hf⟩
    obtain ⟨d0, r', hd, hw⟩ := hw
    have k := goodA_adds (goodA_unused env opt.toReducerOpts m hm) (g.map Prod.snd)
    rw [List.nil_append] at k
    obtain ⟨d', e, q⟩ := finish_spec env.nth opt.outSize w
    rw [hf] at e
    cases e
    rw [q.count, hw]
    exact (summary_of_detach k hd).count
  refine ⟨gR, gA, gS.flatten ++ cur, ?_, h3.imp fun g d hg => key ?_, h4.imp fun g d hg => key ?_⟩
  · rw [h2, ← List.append_assoc]
    refine List.Perm.append_right _ ?_
    have := h1.flatten
    simpa using this
  · obtain ⟨⟨m, w, a, b, c⟩, _⟩ := hg
    exact ⟨m, w, a, b, by simpa using c⟩
  · obtain ⟨⟨m, w, a, b, c⟩, _⟩ := hg
    exact ⟨m, w, a, b, c⟩

/-- A window with values 9, 2, 5, 2 and a summary handed on that tells of 1 and 40. -/
example : (execAll exactEnv { a := exANew } [.add 0 0 1003 (.many [9, 2, 5, 2] 4), .add 0 0 1004 (.reduced { data := [7], count := 4, min := 1, max := 40 }),
      .add 0 0 1013 (.one 1 1)]).toOption.map
      (fun o => (o.received ++ o.a.agList).map fun d => [d.min, d.perc50, d.perc80, d.perc95, d.perc99, d.perc100, d.max, d.avg]) =
    some [[1, 5, 9, 9, 9, 9, 40, 5]] := by
  decide +kernel

end Wrtstat
