/-
C142: a collector fed with the records of several aggregators against one aggregator fed with the events themselves.
-/
import Verif.Props.Order
import Verif.Props.Scale

namespace Wrtstat
open Aggregator

set_option autoImplicit false

/-- `d` is the record of a window in which the calls `as` arrived, in some order: it was delivered by, or lies ready in, an aggregator
with options `opt` in some history. -/
def RecordOf (env : Env) (opt : AggregatorOpts) (as : List AddArg) (d : AggData) : Prop :=
  ∃ (a : Aggregator) (ops : List AOp) (o : AObs), 0 < opt.step ∧ Fresh env opt a ∧ (∀ op ∈ ops, op.clockOk) ∧
    (∀ op ∈ ops, op.forced = false) ∧ (∀ op ∈ ops, op.handed = false) ∧ execAll env { a := a } ops = .ok o ∧
    d ∈ o.received ++ o.a.agList ∧ (eventsIn o.accepted d.ts (d.ts + opt.step)).Perm as

theorem Summary.perm {env : Env} {limit levels : Nat} {as bs : List AddArg} {d : AggData} (h : as.Perm bs)
    (s : Summary env limit levels as d) : Summary env limit levels bs d := by
  obtain ⟨hv, h1, h2, h3, h4⟩ := perm_values h
  refine ⟨fun e => s.nonempty (by rw [e] at h; exact h.eq_nil), by rw [s.count, h1], by rw [s.balance, h2],
    fun x => by rw [← hv.count_eq]; exact s.samples x, s.bound, by rw [s.size, hv.length_eq],
    fun hl hn => (s.complete hl (by rw [hv.length_eq]; exact hn)).trans hv, by rw [s.min, h3], by rw [s.max, h4], fun he hne => ?_⟩
  rw [s.avg he (fun e => hne (by rw [e] at hv; exact hv.symm.eq_nil)), hv.sum_eq, hv.length_eq]

theorem RecordOf.report {env : Env} {opt : AggregatorOpts} {as : List AddArg} {d : AggData} (h : RecordOf env opt as d) :
    Report env opt as d := by
  obtain ⟨a, ops, o, hs, hf, hc, h1, h2, e, hm, hp⟩ := h
  obtain ⟨raw, s, r⟩ := ((C22_fifo env opt a ops o hs hf hc h1 h2 e).2 d hm).2
  exact ⟨raw, s.perm hp, r⟩

/-- The figures of two records are the same. -/
structure SameFigures (d e : AggData) : Prop where
  count : d.count = e.count
  lossy : d.lossy = e.lossy
  min : d.min = e.min
  max : d.max = e.max
  avg : d.avg = e.avg
  p50 : d.perc50 = e.perc50
  p80 : d.perc80 = e.perc80
  p95 : d.perc95 = e.perc95
  p99 : d.perc99 = e.perc99

/-- A window's calls recorded by several aggregators, and their records merged by another: the figures of the merged record are those of
the record of one aggregator that gets all the calls. -/
def C142_FullClaim : Prop :=
  ∀ (env : Env) (opt : AggregatorOpts) (ps : List (List AddArg × AggData)) (d e : AggData),
    (∀ p ∈ ps, RecordOf env opt p.1 p.2) → RecordOf env opt (ps.map fun p => .reduced p.2.toReducedData) d →
    RecordOf env opt (ps.flatMap (·.1)) e → SameFigures d e

/-! ### Witnesses -/

/-- The record of a window in which these calls arrived. -/
def exTier (opt : AggregatorOpts) (as : List AddArg) : Option AggData :=
  (Aggregator.new opt 0 0 1000).toOption.bind fun a =>
    (execAll exactEnv { a := a } (as.map (fun x => AOp.add 0 0 1003 x) ++ [.add 0 0 1013 (.one 1 1)])).toOption.bind fun o =>
      match o.received ++ o.a.agList with
      | [d] => if eventsIn o.accepted d.ts (d.ts + opt.step) = as then some d else none
      | _ => none

theorem exTier_some {opt : AggregatorOpts} {as : List AddArg} {d : AggData} (hs : 0 < opt.step) (h : exTier opt as = some d) :
    RecordOf exactEnv opt as d := by
  unfold exTier at h
  cases ha : Aggregator.new opt 0 0 1000 with
  | error f => rw [ha] at h; cases h
  | ok a =>
    rw [ha] at h
    simp only [Except.toOption, Option.bind_some] at h
    cases ho : execAll exactEnv { a := a } (as.map (fun x => AOp.add 0 0 1003 x) ++ [.add 0 0 1013 (.one 1 1)]) with
    | error f => rw [ho] at h; cases h
    | ok o =>
      rw [ho] at h
      simp only [Option.bind_some] at h
      split at h
      · rename_i d' hl
        split_ifs at h with he
        injection h with h
        subst h
        refine ⟨a, _, o, hs, .new (clk := 0) (rand := 0) (ts := 1000) ha, ?_, ?_, ?_, ho, by rw [hl]; exact .head _, by rw [he]⟩
        all_goals
          intro op hm
          rw [List.mem_append, List.mem_map, List.mem_singleton] at hm
          rcases hm with ⟨x, _, rfl⟩ | rfl
        all_goals first | rfl | exact ⟨le_refl _, le_refl _⟩
      · cases h

/-- The records of the parts, the record of a collector that gets them, and the record of an aggregator that gets everything. -/
def exTiers {α : Type} (f : AggData → α) (opt : AggregatorOpts) (ass : List (List AddArg)) : Option (List α × α × α) := do
  let ds ← ass.mapM (exTier opt)
  let d ← exTier opt (ds.map fun d => .reduced d.toReducedData)
  let e ← exTier opt ass.flatten
  some (ds.map f, f d, f e)

theorem exTiers_some {α : Type} {f : AggData → α} {opt : AggregatorOpts} {ass : List (List AddArg)} {x y : α} {l : List α}
    (hs : 0 < opt.step) (h : exTiers f opt ass = some (l, x, y)) :
    ∃ (ps : List (List AddArg × AggData)) (d e : AggData), (∀ p ∈ ps, RecordOf exactEnv opt p.1 p.2) ∧
      RecordOf exactEnv opt (ps.map fun p => .reduced p.2.toReducedData) d ∧ RecordOf exactEnv opt (ps.flatMap (·.1)) e ∧
      ps.map (·.1) = ass ∧ ps.map (fun p => f p.2) = l ∧ f d = x ∧ f e = y := by
  unfold exTiers at h
  have key : ∀ (ass : List (List AddArg)) (ds : List AggData), ass.mapM (exTier opt) = some ds →
      ∃ ps : List (List AddArg × AggData), (∀ p ∈ ps, RecordOf exactEnv opt p.1 p.2) ∧ ps.map (·.1) = ass ∧ ps.map (·.2) = ds := by
    intro ass
    induction ass with
    | nil =>
      intro ds h
      rw [List.mapM_nil] at h
      cases h
      exact ⟨[], by simp, rfl, rfl⟩
    | cons as ass ih =>
      intro ds h
      rw [List.mapM_cons] at h
      cases h1 : exTier opt as with
      | none => rw [h1] at h; cases h
      | some d =>
        rw [h1] at h
        cases h2 : ass.mapM (exTier opt) with
        | none => rw [h2] at h; cases h
        | some ds' =>
          rw [h2] at h
          cases h
          obtain ⟨ps, k1, k2, k3⟩ := ih ds' h2
          refine ⟨(as, d) :: ps, ?_, by rw [List.map_cons, k2], by rw [List.map_cons, k3]⟩
          intro p hp
          rcases List.mem_cons.1 hp with rfl | hp
          · exact exTier_some hs h1
          · exact k1 p hp
  cases h1 : ass.mapM (exTier opt) with
  | none => rw [h1] at h; cases h
  | some ds =>
    rw [h1] at h
    obtain ⟨ps, k1, rfl, rfl⟩ := key ass ds h1
    simp only [Option.bind_eq_bind, Option.bind_some] at h
    cases h2 : exTier opt ((ps.map (·.2)).map fun d => .reduced d.toReducedData) with
    | none => rw [h2] at h; cases h
    | some d =>
      rw [h2] at h
      simp only [Option.bind_some] at h
      cases h3 : exTier opt (ps.map (·.1)).flatten with
      | none => rw [h3] at h; cases h
      | some e =>
        rw [h3] at h
        cases h
        refine ⟨ps, d, e, k1, ?_, ?_, rfl, by rw [List.map_map]; rfl, rfl, rfl⟩
        · have := exTier_some hs h2
          rwa [List.map_map] at this
        · have := exTier_some hs h3
          rwa [← List.flatMap_def] at this

def exTierOpt : AggregatorOpts := { limit := 8, levels := 2, step := 10, resolution := .seconds, outSize := 1 }

/-- Three ways the merged record differs: a record of counts alone is told as an enormous one; an extreme of 0 is not taken over; and what
was thinned in the parts is missing in the whole. -/
theorem C142_witnesses :
    exTiers (fun d => (d.count, d.min, d.max)) exTierOpt [[.many [] 5], [.one 7 1]] =
      some ([(5, 2 ^ 63 - 1, -(2 ^ 63)), (1, 7, 7)], (6, -(2 ^ 63), 2 ^ 63 - 1), (6, 7, 7)) ∧
    exTiers (fun d => (d.min, d.max)) exTierOpt [[.many [-5, 0] 2], [.one (-7) 1]] = some ([(-5, 0), (-7, -7)], (-7, -5), (-7, 0)) ∧
    exTiers (fun d => (d.lossy, d.avg, d.perc50)) exTierOpt [[.many [1, 2, 3] 3], [.many [10, 20] 2]] =
      some ([(0, 2, 2), (0, 15, 20)], (3, 5, 10), (0, 7, 3)) := by
  refine ⟨?_, ?_, ?_⟩ <;> decide +kernel

theorem C142_refuted : ¬ C142_FullClaim := by
  intro h
  obtain ⟨ps, d, e, h1, h2, h3, _, _, h4, h5⟩ := exTiers_some (by decide) C142_witnesses.1
  have := (h exactEnv exTierOpt ps d e h1 h2 h3).min
  simp only [Prod.mk.injEq] at h4 h5
  rw [h4.2.1, h5.2.1] at this
  revert this
  decide

/-! ### What is the same -/

theorem sumCount_parts {α : Type} (ps : List α) (f : α → List AddArg) (g : α → AddArg) (h : ∀ p ∈ ps, (g p).count = sumCount (f p)) :
    sumCount (ps.map g) = sumCount (ps.flatMap f) := by
  induction ps with
  | nil => rfl
  | cons p ps ih =>
    have e := ih (fun q hq => h q (.tail _ hq))
    have e0 := h p (.head _)
    simp only [sumCount, List.map_cons, List.sum_cons, List.flatMap_cons, List.map_append, List.sum_append] at e e0 ⊢
    omega

/-- The number of events is the same, whatever was thinned or dropped where, and whatever the options and platforms of all concerned. -/
theorem C142_count_partial (E1 E2 E3 : Env) (opt2 opt3 : AggregatorOpts) (ps : List (AggregatorOpts × List AddArg × AggData))
    (d e : AggData) (hp : ∀ p ∈ ps, RecordOf E1 p.1 p.2.1 p.2.2)
    (hd : RecordOf E2 opt2 (ps.map fun p => .reduced p.2.2.toReducedData) d) (he : RecordOf E3 opt3 (ps.flatMap (·.2.1)) e) :
    d.count = e.count := by
  obtain ⟨raw, s, r⟩ := hd.report
  obtain ⟨raw', s', r'⟩ := he.report
  rw [r.count, r'.count, s.count, s'.count]
  refine sumCount_parts ps _ _ (fun p hm => ?_)
  obtain ⟨raw, s, r⟩ := (hp p hm).report
  exact r.count.trans s.count

theorem le_minI {l : List Int} {x : Int} : x ≤ minI l ↔ x ≤ I64max ∧ ∀ v ∈ l, x ≤ v := by
  obtain ⟨m1, m2, m3⟩ := minI_aux l I64max
  constructor
  · intro h
    exact ⟨le_trans h m1, fun v hv => le_trans h (m2 v hv)⟩
  · rintro ⟨h1, h2⟩
    rcases m3 with m | m
    · exact le_of_le_of_eq h1 m.symm
    · exact h2 _ m

theorem maxI_le {l : List Int} {x : Int} : maxI l ≤ x ↔ I64min ≤ x ∧ ∀ v ∈ l, v ≤ x := by
  obtain ⟨m1, m2, m3⟩ := maxI_aux l I64min
  constructor
  · intro h
    exact ⟨le_trans m1 h, fun v hv => le_trans (m2 v hv) h⟩
  · rintro ⟨h1, h2⟩
    rcases m3 with m | m
    · exact le_of_eq_of_le m h1
    · exact h2 _ m

/-- The extremes a merged record brings along, besides its samples. -/
theorem mem_extremes {rd : ReducedData} {v : Int} :
    v ∈ allExtremes [.reduced rd] ↔ v ∈ rd.data ∨ (rd.min ≠ 0 ∧ v = rd.min) ∨ (rd.max ≠ 0 ∧ v = rd.max) := by
  unfold allExtremes
  rw [List.flatMap_singleton]
  simp only [AddArg.values, AddArg.extremes, List.mem_append]
  by_cases h1 : rd.min = 0 <;> by_cases h2 : rd.max = 0 <;> simp [h1, h2]

theorem Report.data_mem {env : Env} {opt : AggregatorOpts} {as : List AddArg} {d : AggData} (h : Report env opt as d) {v : Int}
    (hv : v ∈ d.data) : v ∈ allValues as := by
  obtain ⟨raw, s, r⟩ := h
  have h1 := List.count_pos_iff.2 hv
  exact List.count_pos_iff.1 (lt_of_lt_of_le h1 (le_trans (r.samples v) (s.samples v)))

theorem values_extremes {as : List AddArg} {v : Int} (h : v ∈ allValues as) : v ∈ allExtremes as := by
  unfold allValues at h
  unfold allExtremes
  rw [List.mem_flatMap] at h ⊢
  obtain ⟨a, ha, hv⟩ := h
  exact ⟨a, ha, List.mem_append.2 (.inl hv)⟩

/-- The extremes are the same if no part was a record of counts alone, and no part had an extreme of 0 that is not among the samples it
delivers. -/
theorem C142_extremes_partial (E1 E2 E3 : Env) (opt2 opt3 : AggregatorOpts) (ps : List (AggregatorOpts × List AddArg × AggData))
    (d e : AggData) (hp : ∀ p ∈ ps, RecordOf E1 p.1 p.2.1 p.2.2)
    (hd : RecordOf E2 opt2 (ps.map fun p => .reduced p.2.2.toReducedData) d) (he : RecordOf E3 opt3 (ps.flatMap (·.2.1)) e)
    (hne : ∀ p ∈ ps, allExtremes p.2.1 ≠ [])
    (h0 : ∀ p ∈ ps, (p.2.2.min = 0 ∨ p.2.2.max = 0) → (0 : Int) ∈ p.2.2.data) : d.min = e.min ∧ d.max = e.max := by
  obtain ⟨raw, s, r⟩ := hd.report
  obtain ⟨raw', s', r'⟩ := he.report
  rw [r.min, r'.min, s.min, s'.min, r.max, r'.max, s.max, s'.max]
  have parts : ∀ p ∈ ps, p.2.2.min = minI (allExtremes p.2.1) ∧ p.2.2.max = maxI (allExtremes p.2.1) ∧
      (∀ v ∈ p.2.2.data, v ∈ allExtremes p.2.1) ∧ p.2.2.min ≤ p.2.2.max := by
    intro p hm
    have h := (hp p hm).report
    obtain ⟨raw, s, r⟩ := h
    have e1 : p.2.2.min = minI (allExtremes p.2.1) := r.min.trans s.min
    have e2 : p.2.2.max = maxI (allExtremes p.2.1) := r.max.trans s.max
    refine ⟨e1, e2, fun v hv => values_extremes ((hp p hm).report.data_mem hv), ?_⟩
    obtain ⟨v, hv⟩ := List.exists_mem_of_ne_nil _ (hne p hm)
    rw [e1, e2]
    exact le_trans ((le_minI.1 (le_refl _)).2 v hv) ((maxI_le.1 (le_refl _)).2 v hv)
  have hc : ∀ v, v ∈ allExtremes (ps.map fun p => .reduced p.2.2.toReducedData) ↔
      ∃ p ∈ ps, v ∈ p.2.2.data ∨ (p.2.2.min ≠ 0 ∧ v = p.2.2.min) ∨ (p.2.2.max ≠ 0 ∧ v = p.2.2.max) := by
    intro v
    unfold allExtremes
    rw [List.flatMap_map, List.mem_flatMap]
    refine exists_congr fun p => and_congr_right fun _ => ?_
    have := mem_extremes (rd := p.2.2.toReducedData) (v := v)
    unfold allExtremes at this
    rwa [List.flatMap_singleton] at this
  have hf : ∀ v, v ∈ allExtremes (ps.flatMap (·.2.1)) ↔ ∃ p ∈ ps, v ∈ allExtremes p.2.1 := by
    intro v
    unfold allExtremes
    rw [List.flatMap_assoc, List.mem_flatMap]
  constructor
  · refine eq_of_forall_le_iff fun x => ?_
    rw [le_minI, le_minI]
    refine and_congr_right fun hx => ⟨fun h v hv => ?_, fun h v hv => ?_⟩
    · obtain ⟨p, hm, hv⟩ := (hf v).1 hv
      obtain ⟨e1, e2, e3, e4⟩ := parts p hm
      have hle : p.2.2.min ≤ v := by rw [e1]; exact (le_minI.1 (le_refl _)).2 v hv
      by_cases hz : p.2.2.min = 0
      · exact le_trans (le_of_le_of_eq (h 0 ((hc 0).2 ⟨p, hm, .inl (h0 p hm (.inl hz))⟩)) hz.symm) hle
      · exact le_trans (h _ ((hc _).2 ⟨p, hm, .inr (.inl ⟨hz, rfl⟩)⟩)) hle
    · obtain ⟨p, hm, hv⟩ := (hc v).1 hv
      obtain ⟨e1, e2, e3, e4⟩ := parts p hm
      have hle : x ≤ p.2.2.min := by
        rw [e1]
        exact le_minI.2 ⟨hx, fun w hw => h w ((hf w).2 ⟨p, hm, hw⟩)⟩
      rcases hv with hv | ⟨_, rfl⟩ | ⟨_, rfl⟩
      · exact h v ((hf v).2 ⟨p, hm, e3 v hv⟩)
      · exact hle
      · exact le_trans hle e4
  · refine eq_of_forall_ge_iff fun x => ?_
    rw [maxI_le, maxI_le]
    refine and_congr_right fun hx => ⟨fun h v hv => ?_, fun h v hv => ?_⟩
    · obtain ⟨p, hm, hv⟩ := (hf v).1 hv
      obtain ⟨e1, e2, e3, e4⟩ := parts p hm
      have hle : v ≤ p.2.2.max := by rw [e2]; exact (maxI_le.1 (le_refl _)).2 v hv
      by_cases hz : p.2.2.max = 0
      · exact le_trans hle (le_of_eq_of_le hz (h 0 ((hc 0).2 ⟨p, hm, .inl (h0 p hm (.inr hz))⟩)))
      · exact le_trans hle (h _ ((hc _).2 ⟨p, hm, .inr (.inr ⟨hz, rfl⟩)⟩))
    · obtain ⟨p, hm, hv⟩ := (hc v).1 hv
      obtain ⟨e1, e2, e3, e4⟩ := parts p hm
      have hle : p.2.2.max ≤ x := by
        rw [e2]
        exact maxI_le.2 ⟨hx, fun w hw => h w ((hf w).2 ⟨p, hm, hw⟩)⟩
      rcases hv with hv | ⟨_, rfl⟩ | ⟨_, rfl⟩
      · exact h v ((hf v).2 ⟨p, hm, e3 v hv⟩)
      · exact le_trans e4 hle
      · exact hle

/-- An aggregator with these options keeps and delivers all of these values. -/
def Roomy (opt : AggregatorOpts) (vs : List Int) : Prop :=
  1 ≤ opt.levels ∧ vs.length ≤ opt.limit ∧ (opt.outSize = 0 ∨ vs.length ≤ opt.outSize)

theorem Report.data_perm {env : Env} {opt : AggregatorOpts} {as : List AddArg} {d : AggData} (h : Report env opt as d)
    (hr : Roomy opt (allValues as)) : d.data.Perm (allValues as) := by
  obtain ⟨raw, s, r⟩ := h
  have hp := s.complete hr.1 hr.2.1
  exact (r.full (by rw [hp.length_eq]; exact hr.2.2)).trans hp

/-- If there is room for all values everywhere, the merged record tells the same in full: samples, loss, extremes, percentiles, and in
exact arithmetic the average. -/
theorem C142_all_partial (E1 E2 E3 : Env) (opt2 opt3 : AggregatorOpts) (ps : List (AggregatorOpts × List AddArg × AggData))
    (d e : AggData) (hp : ∀ p ∈ ps, RecordOf E1 p.1 p.2.1 p.2.2)
    (hd : RecordOf E2 opt2 (ps.map fun p => .reduced p.2.2.toReducedData) d) (he : RecordOf E3 opt3 (ps.flatMap (·.2.1)) e)
    (hw : ∀ p ∈ ps, ∀ a ∈ p.2.1, WellCounted a) (hr : ∀ p ∈ ps, Roomy p.1 (allValues p.2.1))
    (hr2 : Roomy opt2 (allValues (ps.flatMap (·.2.1)))) (hr3 : Roomy opt3 (allValues (ps.flatMap (·.2.1)))) :
    d.count = e.count ∧ d.lossy = e.lossy ∧ d.data.Perm e.data ∧ e.data.Perm (allValues (ps.flatMap (·.2.1))) ∧
    (allValues (ps.flatMap (·.2.1)) ≠ [] →
      d.perc50 = e.perc50 ∧ d.perc80 = e.perc80 ∧ d.perc95 = e.perc95 ∧ d.perc99 = e.perc99 ∧
      ((∀ x, E2.rnd x = x) → (∀ x, E3.rnd x = x) → d.avg = e.avg)) := by
  have hv : (allValues (ps.map fun p => .reduced p.2.2.toReducedData)).Perm (allValues (ps.flatMap (·.2.1))) := by
    unfold allValues
    rw [List.flatMap_map, List.flatMap_assoc]
    exact List.Perm.flatMap_left ps fun p hm => (hp p hm).report.data_perm (hr p hm)
  have hr2' : Roomy opt2 (allValues (ps.map fun p => .reduced p.2.2.toReducedData)) := by
    unfold Roomy at hr2 ⊢
    rwa [hv.length_eq]
  have hcnt := C142_count_partial E1 E2 E3 opt2 opt3 ps d e hp hd he
  have p2 := hd.report.data_perm hr2'
  have p3 := he.report.data_perm hr3
  obtain ⟨raw, s, r⟩ := hd.report
  obtain ⟨raw', s', r'⟩ := he.report
  have hraw := (s.complete hr2'.1 hr2'.2.1)
  have hraw' := (s'.complete hr3.1 hr3.2.1)
  have w2 : sumWeight (ps.map fun p => .reduced p.2.2.toReducedData) = d.count := by
    rw [wellCounted_sum, r.count, s.count]
    intro a ha
    obtain ⟨p, hm, rfl⟩ := List.mem_map.1 ha
    exact (C57_balance E1 p.1 p.2.1 p.2.2 (hw p hm) (hp p hm).report).1
  have w3 : sumWeight (ps.flatMap (·.2.1)) = e.count := by
    rw [wellCounted_sum, r'.count, s'.count]
    intro a ha
    obtain ⟨p, hm, ha⟩ := List.mem_flatMap.1 ha
    exact hw p hm a ha
  refine ⟨hcnt, ?_, p2.trans (hv.trans p3.symm), p3, fun hne => ?_⟩
  · have b := s.balance
    have b' := s'.balance
    have l1 := hraw.length_eq
    have l2 := hraw'.length_eq
    have l3 := hv.length_eq
    rw [r.lossy, r'.lossy]
    omega
  · have n3 : raw'.data ≠ [] := fun h => hne (by rw [h] at hraw'; exact hraw'.symm.eq_nil)
    have hrr : raw.data.Perm raw'.data := hraw.trans (hv.trans hraw'.symm)
    have n2 : raw.data ≠ [] := fun h => n3 (by rw [h] at hrr; exact hrr.symm.eq_nil)
    obtain ⟨q1, q2, q3, q4⟩ := percentiles_perm hrr (r.perc n2) (r'.perc n3)
    refine ⟨q1, q2, q3, q4, fun x2 x3 => ?_⟩
    rw [r.avg, r'.avg, s.avg x2 (fun h => hne (by rw [h] at hv; exact hv.symm.eq_nil)), s'.avg x3 hne, hv.sum_eq, hv.length_eq]

/-- Three aggregators, one of which saw a 0 and one of which counted more than it has values of: the merged record tells what one
aggregator would. -/
example : exTiers (fun d => [[(d.count : Int), d.lossy, d.min, d.max, d.avg, d.perc50, d.perc80, d.perc99], d.data])
      { exTierOpt with outSize := 0 } [[.many [1, 2, 3] 3], [.one 0 1], [.many [-5, -2] 7, .one 8 1]] =
    some ([[[3, 0, 1, 3, 2, 2, 3, 3], [1, 2, 3]], [[1, 0, 0, 0, 0, 0, 0, 0], [0]], [[8, 5, -5, 8, 0, -2, 8, 8], [-5, -2, 8]]],
      [[12, 5, -5, 8, 1, 1, 3, 8], [-5, -2, 0, 1, 2, 3, 8]], [[12, 5, -5, 8, 1, 1, 3, 8], [-5, -2, 0, 1, 2, 3, 8]]) := by
  decide +kernel

end Wrtstat
