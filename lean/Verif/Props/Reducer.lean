/-
Properties C01-C11 and C60 of the reducer.

Every theorem ranges over all options, all platforms `env` (any conforming `nth_element`, any
rounding unless stated) and all client histories `ops` starting from a newly built reducer;
`pending ops` is the list of `add` calls since the reducer was last emptied.
-/
import Verif.Lemmas.Detach
import Verif.Model.Instances

namespace Wrtstat
open Reducer

/-! ### A concrete history used in the examples

Two levels of three values, seven values added: the last one is dropped on arrival. -/

def exOpt : ReducerOpts := { limit := 3, levels := 2, mode := .nth, initialMode := .adapt }

def exOps : List ROp :=
  [.add (.one 5 2), .detach, .add (.many [9, 1, 4] 3), .look, .add (.init [7, 2, 8, 3]),
   .add (.reduced { count := 10, min := -4, max := 90, data := [6] })]

def exPend : List AddArg :=
  [.many [9, 1, 4] 3, .init [7, 2, 8, 3], .reduced { count := 10, min := -4, max := 90, data := [6] }]

example : pending exOps = exPend := by decide

/-- State after the history. -/
def exState : Reducer :=
  match run exactEnv (new exOpt) exOps with
  | .ok r => r
  | .error _ => new exOpt

/-- Summary of the history. -/
def exData : AggData :=
  { data := [1, 7, 9], avg := 5, count := 17, lossy := 14, min := -4, max := 90 }

theorem exRun : run exactEnv (new exOpt) exOps = .ok exState := by decide +kernel

theorem exDetach : ∃ r', detach exactEnv exState = .ok (some exData, r') := by
  refine ⟨new exOpt, ?_⟩
  decide +kernel

/-! ### C01 -/

/-- `total_count()` is the sum of the counts added since the reducer was last emptied. -/
theorem C01_total_count (env : Env) (opt : ReducerOpts) (ops : List ROp) (r : Reducer)
    (h : run env (new opt) ops = .ok r) : r.totalCount = sumCount (pending ops) :=
  (goodA_run h).good.total

/-- The count of the summary is the sum of the counts added. -/
theorem C01_detach_count (env : Env) (opt : ReducerOpts) (ops : List ROp) (r r' : Reducer)
    (d : AggData) (h : run env (new opt) ops = .ok r) (hd : detach env r = .ok (some d, r')) :
    d.count = sumCount (pending ops) := by
  obtain ⟨_, r1, _, _, _, _, _, _, _, a, _, rfl⟩ := detach_some (goodA_run h) hd
  exact (goodA_run h).good.total

example : sumCount exPend = 17 := by decide
example : exData.count = 17 := by
  obtain ⟨r', h⟩ := exDetach
  exact C01_detach_count _ _ _ _ _ _ exRun h

/-! ### C02 -/

/-- Loss accounting: what is reported lost plus what is returned is what was added. -/
theorem C02_balance (env : Env) (opt : ReducerOpts) (ops : List ROp) (r r' : Reducer) (d : AggData)
    (h : run env (new opt) ops = .ok r) (hd : detach env r = .ok (some d, r')) :
    d.lossy + d.data.length = sumWeight (pending ops) := by
  obtain ⟨_, r1, _, g, hl, hlo, _, _, _, a, _, rfl⟩ := detach_some (goodA_run h) hd
  have hb := g.good.bal
  simp only [resultOf, ← hlo]
  rw [← hb]
  congr 1
  unfold size
  match hr : r1.data with
  | [] => simp
  | [x] => simp
  | x :: y :: l => rw [hr] at hl; simp at hl

/-- When every call counts at least as many events as samples, `lossy + samples = count`. -/
theorem C02_balance_count (env : Env) (opt : ReducerOpts) (ops : List ROp) (r r' : Reducer)
    (d : AggData) (h : run env (new opt) ops = .ok r) (hd : detach env r = .ok (some d, r'))
    (hc : ∀ a ∈ pending ops, a.values.length ≤ a.count) : d.lossy + d.data.length = d.count := by
  rw [C02_balance env opt ops r r' d h hd, C01_detach_count env opt ops r r' d h hd]
  unfold sumWeight sumCount
  congr 1
  apply List.map_congr_left
  intro a ha
  have := hc a ha
  unfold AddArg.weight
  omega

example : ∀ a ∈ exPend, a.values.length ≤ a.count := by decide
example : exData.lossy + exData.data.length = sumWeight exPend := by
  obtain ⟨r', h⟩ := exDetach
  exact C02_balance _ _ _ _ _ _ exRun h

/-! ### C03 -/

/-- The samples are a sub-multiset of the values added, at most `reducer_limit` of them. -/
theorem C03_samples (env : Env) (opt : ReducerOpts) (ops : List ROp) (r r' : Reducer) (d : AggData)
    (h : run env (new opt) ops = .ok r) (hd : detach env r = .ok (some d, r')) :
    (∀ x, d.data.count x ≤ (allValues (pending ops)).count x) ∧ d.data.length ≤ opt.limit := by
  obtain ⟨_, r1, _, g, hl, _, _, _, _, a, _, rfl⟩ := detach_some (goodA_run h) hd
  have hsub := g.good.sub
  have ho : r1.opt.limit = opt.limit := by
    rw [g.opt_eq]; unfold new; split_ifs <;> rfl
  have hwf := g.good.wf
  unfold WF Shape at hwf
  simp only [resultOf]
  match hr : r1.data with
  | [] => simp
  | [x] =>
    rw [hr] at hsub hwf
    refine ⟨fun y => ?_, ?_⟩
    · have := List.Subperm.count_le hsub y
      simpa using this
    · rcases hwf with h | ⟨ini, last, e, _, _, hle, _⟩
      · cases h
      · have : ini = [] ∧ x = last := by
          cases ini with
          | nil => simp at e; exact ⟨rfl, e⟩
          | cons a b => simp at e
        rw [ho] at hle
        simpa [this.2] using hle
  | x :: y :: l => rw [hr] at hl; simp at hl

example : ∀ x, exData.data.count x ≤ [9, 1, 4, 7, 2, 8, 3, 6].count x := by
  obtain ⟨r', h⟩ := exDetach
  exact (C03_samples _ _ _ _ _ _ exRun h).1

/-! ### C04 -/

/-- With at most `reducer_limit` values nothing is thinned out. -/
theorem C04_lossless (env : Env) (opt : ReducerOpts) (ops : List ROp) (r r' : Reducer) (d : AggData)
    (h : run env (new opt) ops = .ok r) (hd : detach env r = .ok (some d, r'))
    (hl : 1 ≤ opt.levels) (hn : (allValues (pending ops)).length ≤ opt.limit) :
    d.data.Perm (allValues (pending ops)) ∧
      d.lossy = ((pending ops).map fun a => a.count - a.values.length).sum := by
  have hbal := C02_balance env opt ops r r' d h hd
  obtain ⟨_, r1, _, g, hle, _, _, _, _, a, _, rfl⟩ := detach_some (goodA_run h) hd
  have ho : r1.opt.limit = opt.limit ∧ r1.opt.levels = opt.levels := by
    rw [g.opt_eq]; unfold new; split_ifs <;> exact ⟨rfl, rfl⟩
  have hp := (g.good.ll (by omega) (by omega)).2
  have hp' : (r1.data.headD []).Perm (allValues (pending ops)) := by
    match hr : r1.data with
    | [] => rw [hr] at hp; simpa using hp
    | [x] => rw [hr] at hp; simpa using hp
    | x :: y :: l => rw [hr] at hle; simp at hle
  refine ⟨hp', ?_⟩
  have hlen := hp'.length_eq
  simp only [resultOf] at hbal ⊢
  have key : sumWeight (pending ops) = ((pending ops).map fun a => a.count - a.values.length).sum +
      (allValues (pending ops)).length := by
    generalize pending ops = as
    induction as with
    | nil => rfl
    | cons a as ih =>
      simp only [sumWeight, allValues, List.map_cons, List.sum_cons, List.flatMap_cons,
        List.length_append] at *
      rw [ih]
      unfold AddArg.weight
      omega
  omega

example : ∃ r r' d, run exactEnv (new exOpt) [.add (.many [3, 1] 7)] = .ok r ∧
    detach exactEnv r = .ok (some d, r') ∧ d.data.Perm [3, 1] ∧ d.lossy = 5 := by
  have h1 : run exactEnv (new exOpt) [.add (.many [3, 1] 7)] =
      .ok (Reducer.add exactEnv (new exOpt) (.many [3, 1] 7)) := rfl
  have h2 : detach exactEnv (Reducer.add exactEnv (new exOpt) (.many [3, 1] 7)) =
    .ok (some { data := [3, 1], avg := 2, count := 7, lossy := 5, min := 1, max := 3 }, new exOpt) := by
    decide +kernel
  exact ⟨_, _, _, h1, h2, C04_lossless _ _ _ _ _ _ h1 h2 (by decide) (by decide)⟩

/-! ### C05 and C60 -/

/-- The minimum and maximum of the summary are exact over every value added and every non-zero
merged extreme, whatever was dropped. -/
theorem C05_minmax (env : Env) (opt : ReducerOpts) (ops : List ROp) (r r' : Reducer) (d : AggData)
    (h : run env (new opt) ops = .ok r) (hd : detach env r = .ok (some d, r'))
    (hne : allExtremes (pending ops) ≠ []) (hv : ∀ v ∈ allExtremes (pending ops), InI64 v) :
    IsMinOf d.min (allExtremes (pending ops)) ∧ IsMaxOf d.max (allExtremes (pending ops)) := by
  obtain ⟨_, r1, _, g, hle, _, _, _, _, a, _, rfl⟩ := detach_some (goodA_run h) hd
  simp only [resultOf, (goodA_run h).good.min, (goodA_run h).good.max]
  exact ⟨minI_isMin hne hv, maxI_isMax hne hv⟩

example : IsMinOf exData.min [9, 1, 4, 7, 2, 8, 3, 6, -4, 90] := by
  obtain ⟨r', h⟩ := exDetach
  exact (C05_minmax _ _ _ _ _ _ exRun h (by decide) (by decide)).1

/-- C60, what holds: a merged summary whose extremes are non-zero is covered by the extremes of
the window. -/
theorem C60_merge_extremes_partial (env : Env) (opt : ReducerOpts) (ops : List ROp) (r r' : Reducer)
    (d : AggData) (rd : ReducedData) (h : run env (new opt) ops = .ok r)
    (hd : detach env r = .ok (some d, r')) (hrd : AddArg.reduced rd ∈ pending ops)
    (hmin : rd.min ≠ 0) (hmax : rd.max ≠ 0) : d.min ≤ rd.min ∧ rd.max ≤ d.max := by
  obtain ⟨_, r1, _, g, hle, _, _, _, _, a, _, rfl⟩ := detach_some (goodA_run h) hd
  simp only [resultOf, (goodA_run h).good.min, (goodA_run h).good.max]
  have hm : rd.min ∈ allExtremes (pending ops) ∧ rd.max ∈ allExtremes (pending ops) := by
    unfold allExtremes
    simp only [List.mem_flatMap]
    exact ⟨⟨_, hrd, by simp [AddArg.extremes, hmin]⟩, ⟨_, hrd, by simp [AddArg.extremes, hmax]⟩⟩
  exact ⟨(minI_aux _ _).2.1 _ hm.1, (maxI_aux _ _).2.1 _ hm.2⟩

example : exData.min ≤ -4 ∧ 90 ≤ exData.max := by
  obtain ⟨r', h⟩ := exDetach
  exact C60_merge_extremes_partial _ _ _ _ _ _ { count := 10, min := -4, max := 90, data := [6] }
    exRun h (by decide) (by decide) (by decide)

/-- C60 fails as stated: merging a summary with `min = 0` and no samples forgets the minimum. -/
theorem C60_merge_extremes_refuted : ∃ (env : Env) (opt : ReducerOpts) (rd : ReducedData) (r r' : Reducer)
    (d : AggData), run env (new opt) [.add (.reduced rd)] = .ok r ∧
      detach env r = .ok (some d, r') ∧ rd.min < d.min := by
  refine ⟨exactEnv, exOpt, { count := 1, min := 0, max := 10 },
    Reducer.add exactEnv (new exOpt) (.reduced { count := 1, min := 0, max := 10 }), new exOpt,
    { count := 1, lossy := 1, min := 10, max := 10 }, rfl, ?_, by decide⟩
  decide +kernel

/-- C60 fails as stated: a window that received counts but no samples publishes the sentinels,
`min = 2^63-1` and `max = -2^63`. -/
theorem C60_min_le_max_refuted : ∃ (env : Env) (opt : ReducerOpts) (r r' : Reducer) (d : AggData),
    run env (new opt) [.add (.many [] 5)] = .ok r ∧ detach env r = .ok (some d, r') ∧
      d.min = I64max ∧ d.max = I64min := by
  refine ⟨exactEnv, exOpt, Reducer.add exactEnv (new exOpt) (.many [] 5), new exOpt,
    { count := 5, lossy := 5, min := I64max, max := I64min }, rfl, ?_, rfl, rfl⟩
  decide +kernel

/-- C60, what holds: `min ≤ max` as soon as the window received a sample or a non-zero extreme. -/
theorem C60_min_le_max_partial (env : Env) (opt : ReducerOpts) (ops : List ROp) (r r' : Reducer)
    (d : AggData) (h : run env (new opt) ops = .ok r) (hd : detach env r = .ok (some d, r'))
    (hne : allExtremes (pending ops) ≠ []) : d.min ≤ d.max := by
  obtain ⟨_, r1, _, g, hle, _, _, _, _, a, _, rfl⟩ := detach_some (goodA_run h) hd
  simp only [resultOf, (goodA_run h).good.min, (goodA_run h).good.max]
  obtain ⟨v, hv⟩ := List.exists_mem_of_ne_nil _ hne
  exact ((minI_aux _ _).2.1 _ hv).trans ((maxI_aux _ _).2.1 _ hv)

example : exData.min ≤ exData.max := by
  obtain ⟨r', h⟩ := exDetach
  exact C60_min_le_max_partial _ _ _ _ _ _ exRun h (by decide)

/-! ### C06 -/

/-- In exact arithmetic `avg` is the mean of the values, truncated toward zero. -/
theorem C06_avg_exact (env : Env) (opt : ReducerOpts) (ops : List ROp) (r r' : Reducer) (d : AggData)
    (he : ∀ x, env.rnd x = x) (h : run env (new opt) ops = .ok r)
    (hd : detach env r = .ok (some d, r')) (hne : allValues (pending ops) ≠ []) :
    d.avg = (allValues (pending ops)).sum.tdiv (allValues (pending ops)).length := by
  obtain ⟨_, r1, _, g, hle, _, _, _, _, a, hc, rfl⟩ := detach_some (goodA_run h) hd
  have hex := avgFold_exact (env := env) (funext he) (allValues (pending ops))
  rw [(goodA_run h).good.avg] at hc
  have hpos : 0 < (allValues (pending ops)).length := List.length_pos_iff.2 hne
  have hq : (avgFold env (allValues (pending ops))).1 =
      ((allValues (pending ops)).sum : Rat) / (allValues (pending ops)).length := by
    have : ((allValues (pending ops)).length : Rat) ≠ 0 := by exact_mod_cast hpos.ne'
    rw [eq_div_iff this]; exact hex
  rw [hq] at hc
  show a = _
  by_cases hin : InI64 ((allValues (pending ops)).sum.tdiv (allValues (pending ops)).length)
  · rw [castInt_div _ _ hpos hin] at hc
    cases hc; rfl
  · exfalso
    unfold castInt at hc
    simp only [castInt_trunc _ _ hpos, hin, if_false] at hc
    cases hc

example : exData.avg = (40 : Int).tdiv 8 := by
  obtain ⟨r', h⟩ := exDetach
  exact C06_avg_exact _ _ _ _ _ _ (fun _ => rfl) exRun h (by decide)

/-- With round-to-nearest arithmetic `avg` lies between the extremes of the values, more generally
between any representable 64-bit bounds of the values. -/
theorem C06_avg_range (env : Env) (opt : ReducerOpts) (ops : List ROp) (r r' : Reducer) (d : AggData)
    (m M : Int) (B : Bounds env m M) (h : run env (new opt) ops = .ok r)
    (hd : detach env r = .ok (some d, r')) (hne : allValues (pending ops) ≠ [])
    (hv : ∀ v ∈ allValues (pending ops), m ≤ v ∧ v ≤ M) : m ≤ d.avg ∧ d.avg ≤ M := by
  obtain ⟨_, r1, _, g, hle, _, _, _, _, a, hc, rfl⟩ := detach_some (goodA_run h) hd
  rw [(goodA_run h).good.avg] at hc
  obtain ⟨a', e, hr⟩ := average_ok B (allValues (pending ops)) hv
  rw [e] at hc
  cases hc
  exact hr hne

theorem exBounds : Bounds exactEnv 1 9 :=
  ⟨FPLaws.id, by decide, by decide, rfl, rfl⟩

example : 1 ≤ exData.avg ∧ exData.avg ≤ 9 := by
  obtain ⟨r', h⟩ := exDetach
  exact C06_avg_range _ _ _ _ _ _ 1 9 exBounds exRun h (by decide) (by decide)

/-! ### C07 -/

/-- A reducer never stores more than `reducer_limit * reducer_levels` values. -/
theorem C07_memory (env : Env) (opt : ReducerOpts) (ops : List ROp) (r : Reducer)
    (h : run env (new opt) ops = .ok r) : r.size ≤ opt.limit * opt.levels := by
  have g := goodA_run h
  have ho : r.opt.limit = opt.limit ∧ r.opt.levels = opt.levels := by
    rw [g.opt_eq]; unfold new; split_ifs <;> exact ⟨rfl, rfl⟩
  have := shape_size_le g.good.wf
  rw [ho.1, ho.2] at this
  exact this

example : exState.size ≤ 6 := C07_memory _ _ _ _ exRun

/-- The values of all calls of a history. -/
def opsValues (ops : List ROp) : List Int :=
  ops.flatMap fun | .add a => a.values | _ => []

/-- No operation faults, as long as the values lie between representable 64-bit bounds (for
`double` these are `-2^63` and `2^63-1024`; the exact arithmetic bounds are those of the type). -/
theorem C07_no_fault (env : Env) (opt : ReducerOpts) (ops : List ROp) (m M : Int) (B : Bounds env m M)
    (hv : ∀ v ∈ opsValues ops, m ≤ v ∧ v ≤ M) : ∃ r, run env (new opt) ops = .ok r := by
  suffices H : ∀ (ops : List ROp) (r : Reducer) (as : List AddArg), GoodA env opt r as →
      (∀ v ∈ allValues as, m ≤ v ∧ v ≤ M) → (∀ v ∈ opsValues ops, m ≤ v ∧ v ≤ M) →
      ∃ r', run env r ops = .ok r' from H ops _ [] (goodA_new env opt) (by simp [allValues]) hv
  clear hv ops
  intro ops
  induction ops with
  | nil => intro r as _ _ _; exact ⟨r, rfl⟩
  | cons op ops ih =>
    intro r as g ha ho
    have ho' : ∀ v ∈ opsValues ops, m ≤ v ∧ v ≤ M := by
      intro v hv; apply ho; simp only [opsValues, List.flatMap_cons, List.mem_append]; exact .inr hv
    have hstep : ∃ r1, step env r op = .ok r1 ∧ (∀ v ∈ allValues (pendStep as op), m ≤ v ∧ v ≤ M) := by
      cases op with
      | add a =>
        refine ⟨_, rfl, ?_⟩
        intro v hv
        simp only [pendStep, allValues, List.flatMap_append, List.mem_append, List.flatMap_cons,
          List.flatMap_nil, List.append_nil] at hv
        rcases hv with hv | hv
        · exact ha v hv
        · apply ho; simp only [opsValues, List.flatMap_cons, List.mem_append]; exact .inl hv
      | reduce =>
        obtain ⟨r1, e, _⟩ := goodA_reduce g
        exact ⟨r1, e, ha⟩
      | clear => exact ⟨_, rfl, by simp [pendStep, allValues]⟩
      | detach =>
        obtain ⟨o, r1, e⟩ := detach_total B g ha
        exact ⟨r1, by simp [step, e, bind_ok], by simp [pendStep, allValues]⟩
      | look =>
        obtain ⟨o, r1, e⟩ := detach_total B (goodA_clone g) ha
        exact ⟨r, by simp [step, getReduced, e, bind_ok], ha⟩
    obtain ⟨r1, e, ha'⟩ := hstep
    obtain ⟨r2, e2⟩ := ih r1 _ (goodA_step g op e) ha' ho'
    refine ⟨r2, ?_⟩
    unfold run
    rw [List.foldlM_cons, e]
    exact e2

/-- Exact arithmetic: every 64-bit value is safe. -/
theorem exBounds64 : Bounds exactEnv I64min I64max :=
  ⟨FPLaws.id, by decide, by decide, rfl, rfl⟩

example : ∃ r, run exactEnv (new { limit := 3, levels := 2 })
    [.add (.one I64max 1), .add (.one I64min 1), .reduce, .add (.init [1, 2, 3]), .detach] = .ok r :=
  C07_no_fault _ _ _ _ _ exBounds64 (by decide)

/-- Adding never faults at all, and neither does `reduce`, whatever the values and the rounding. -/
theorem C07_reduce_no_fault (env : Env) (opt : ReducerOpts) (ops : List ROp) (r : Reducer)
    (h : run env (new opt) ops = .ok r) : ∃ r', reduce env r = .ok r' := by
  obtain ⟨r', e, _⟩ := goodA_reduce (goodA_run h)
  exact ⟨r', e⟩

example : ∃ r', reduce exactEnv exState = .ok r' := C07_reduce_no_fault _ _ _ _ exRun

/-! ### C08 -/

/-- `detach` returns a summary exactly when something was added since the reducer was last
emptied, and then leaves a reducer equal to a new one but for the adaptive sampling mode. -/
theorem C08_detach (env : Env) (opt : ReducerOpts) (ops : List ROp) (r r' : Reducer)
    (o : Option AggData) (h : run env (new opt) ops = .ok r) (hd : detach env r = .ok (o, r')) :
    (o = none ↔ pending ops = []) ∧ r' = { new opt with curMode := r'.curMode } ∧
      (opt.mode ≠ .adapt → r' = new opt) := by
  have g := goodA_run h
  have hnew : ∀ x : Reducer, x.opt = (new opt).opt → x.clear = { new opt with curMode := x.curMode } := by
    intro x hx
    have hf := new_fresh opt
    unfold Fresh at hf
    rw [hf]
    simp only [clear, hx]
  rcases detach_spec g with ⟨hp, e, hcl⟩ | ⟨hne, r1, er, g1, hl, hlo, hk, ha, ⟨a, hc, e⟩ | ⟨_, e⟩⟩
  · rw [e] at hd; cases hd
    have hx : r = { new opt with curMode := r.curMode } := by
      conv_lhs => rw [hcl]
      exact hnew r g.opt_eq
    refine ⟨by simp [hp], hx, fun hm => ?_⟩
    conv_lhs => rw [hx, g.cur (.inl hm)]
  · rw [e] at hd; cases hd
    refine ⟨by simp [hne], hnew r1 g1.opt_eq, fun hm => ?_⟩
    rw [hnew r1 g1.opt_eq, g1.cur (.inl hm)]
  · rw [e] at hd; cases hd

example : ∃ r', detach exactEnv exState = .ok (some exData, r') ∧ r' = new exOpt := by
  obtain ⟨r', h⟩ := exDetach
  exact ⟨r', h, (C08_detach _ _ _ _ _ _ exRun h).2.2 (by decide)⟩

/-- `empty()` tells whether anything was added, and `clear` restores a new reducer. -/
theorem C08_empty_clear (env : Env) (opt : ReducerOpts) (ops : List ROp) (r : Reducer)
    (h : run env (new opt) ops = .ok r) :
    (r.empty = true ↔ pending ops = []) ∧ r.clear = { new opt with curMode := r.curMode } := by
  have g := goodA_run h
  refine ⟨by rw [g.emp]; simp, ?_⟩
  have hf := new_fresh opt
  unfold Fresh at hf
  rw [hf]
  simp only [clear, g.opt_eq]

example : exState.empty = false := by
  have := (C08_empty_clear _ _ _ _ exRun).1
  cases he : exState.empty with
  | false => rfl
  | true => exact absurd (this.1 he) (by decide)

/-! ### C09 -/

/-- Looking at the current window succeeds iff a real detach would, and reports the same counters
and the same number of samples, drawn from the same values. -/
theorem C09_look (env : Env) (opt : ReducerOpts) (ops : List ROp) (r : Reducer)
    (h : run env (new opt) ops = .ok r) :
    (∀ r', detach env r = .ok (none, r') → getReduced env r = .ok none) ∧
    (∀ d r', detach env r = .ok (some d, r') → ∃ d', getReduced env r = .ok (some d') ∧
      d'.toReducedInfo = d.toReducedInfo ∧ d'.toPerc = d.toPerc ∧ d'.data.length = d.data.length ∧
      (∀ x, d'.data.count x ≤ (allValues (pending ops)).count x) ∧
      (opt.mode ≠ .adapt → d' = d)) ∧
    (∀ e, detach env r = .error e → getReduced env r = .error e) := by
  have g := goodA_run h
  have gc := goodA_clone g
  have hsub : ∀ {r1 : Reducer}, GoodA env opt r1 (pending ops) → r1.data.length ≤ 1 →
      ∀ x, (r1.data.headD []).count x ≤ (allValues (pending ops)).count x := by
    intro r1 g1 hl x
    have hs := g1.good.sub
    match hr : r1.data with
    | [] => simp
    | [y] => rw [hr] at hs; simpa using List.Subperm.count_le hs x
    | y :: z :: l => rw [hr] at hl; simp at hl
  have hlc : r.clone.lossyCount = r.lossyCount :=
    lossyCount_congr rfl (gc.opt_eq.trans g.opt_eq.symm) rfl
  rcases detach_spec g with ⟨hp, e, hcl⟩ | ⟨hne, r1, er, g1, hl, hlo, hk, ha, hd⟩
  · have e2 : detach env r.clone = .ok (none, r.clone) := by
      rcases detach_spec gc with ⟨_, e2, _⟩ | ⟨hne, _⟩
      · exact e2
      · exact absurd hp hne
    refine ⟨fun _ _ => by simp [getReduced, e2, bind_ok], fun d r' h => ?_, fun x h => ?_⟩
    · rw [e] at h; cases h
    · rw [e] at h; cases h
  · rcases detach_spec gc with ⟨hp, _, _⟩ | ⟨_, r2, er2, g2, hl2, hlo2, hk2, ha2, hd2⟩
    · exact absurd hp hne
    have hca : r.clone.average = r.average := rfl
    rw [hca] at hd2
    rcases hd with ⟨a, hc, e⟩ | ⟨hc, e⟩
    · rcases hd2 with ⟨a2, hc2, e2⟩ | ⟨hc2, e2⟩
      · rw [hc] at hc2; cases hc2
        refine ⟨fun r' h => ?_, fun d r' h => ?_, fun x h => ?_⟩
        · rw [e] at h; cases h
        · rw [e] at h; cases h
          refine ⟨resultOf r.clone (r2.data.headD []) a, by simp only [getReduced, e2, bind_ok], ?_, rfl, ?_,
            hsub g2 hl2, ?_⟩
          · simp only [resultOf, hlc]
            simp [clone]
          · simp only [resultOf]
            rw [hk2, hk]; rfl
          · intro hm
            have := clone_eq g (.inl hm)
            rw [this] at er2
            rw [er2] at er
            cases er
            rw [this]
        · rw [e] at h; cases h
      · rw [hc] at hc2; cases hc2
    · rcases hd2 with ⟨a2, hc2, e2⟩ | ⟨hc2, e2⟩
      · rw [hc] at hc2; cases hc2
      · refine ⟨fun r' h => ?_, fun d r' h => ?_, fun x h => ?_⟩
        · rw [e] at h; cases h
        · rw [e] at h; cases h
        · rw [e] at h; cases h
          simp only [getReduced, e2]; rfl

example : getReduced exactEnv exState = .ok (some exData) := by
  obtain ⟨r', h⟩ := exDetach
  obtain ⟨d', h1, _, _, _, _, h2⟩ := (C09_look _ _ _ _ exRun).2.1 _ _ h
  rw [h2 (by decide)] at h1; exact h1

/-! ### C10 -/

/-- `lossy_count()` predicts the loss of the summary. -/
theorem C10_lossy_count (env : Env) (opt : ReducerOpts) (ops : List ROp) (r r' : Reducer)
    (d : AggData) (h : run env (new opt) ops = .ok r) (hd : detach env r = .ok (some d, r')) :
    r.lossyCount = d.lossy := by
  obtain ⟨_, r1, _, g, hle, _, _, _, _, a, hc, rfl⟩ := detach_some (goodA_run h) hd
  rfl

example : exState.lossyCount = 14 := by
  obtain ⟨r', h⟩ := exDetach
  exact C10_lossy_count _ _ _ _ _ _ exRun h

/-- `filled()` is true exactly when the table has no room: the next value would be dropped. -/
theorem C10_filled (env : Env) (opt : ReducerOpts) (ops : List ROp) (r : Reducer) (v : Int)
    (h : run env (new opt) ops = .ok r) :
    r.filled = true ↔ (Reducer.add env r (.one v 1)).lossyCount = r.lossyCount + 1 ∧
      (Reducer.add env r (.one v 1)).size = r.size := by
  have g := goodA_run h
  have hadd : Reducer.add env r (.one v 1) = { add_ env { r with empty := false } v with
      total := r.total + 1 } := by
    simp [Reducer.add, addOne, add_eq]
  have hsz := tableAdd_size (cur := r.curMode) (v := v) g.good.wf
  have hs : (Reducer.add env r (.one v 1)).size =
      ((tableAdd r.opt r.curMode r.data v).1.map List.length).sum := by
    rw [hadd, add_eq]; rfl
  have hl : (Reducer.add env r (.one v 1)).lossyCount =
      { r with lossy := r.lossy + (tableAdd r.opt r.curMode r.data v).2
               data := (tableAdd r.opt r.curMode r.data v).1 }.lossyCount := by
    rw [hadd, add_eq]; rfl
  rw [hs, hl]
  have hrs : r.size = (r.data.map List.length).sum := rfl
  rcases tableAdd_cases r.opt r.curMode r.data v g.good.wf with ⟨e, hc⟩ | ⟨e0, e, h1, h2⟩ |
      ⟨ini, last, e0, h1, h2, h3, e⟩ | ⟨ini, last, e0, h1, e⟩
  · rw [e]
    constructor
    · intro _
      refine ⟨?_, hrs.symm⟩
      simp only [lossyCount, back]; split_ifs <;> omega
    · intro _
      rcases hc with hc | hc | ⟨ini, last, e0, hl1, hl2⟩
      · simp [filled, hc]
      · simp [filled, hc]
      · simp [filled, e0, back, hl1, hl2]
  · have : r.filled = false := by
      simp [filled, e0]; omega
    rw [this, e]; simp [hrs, e0]
  · have : r.filled = false := by
      simp [filled, e0, back]; omega
    rw [this, e, hrs, e0]
    simp only [Bool.false_eq_true, false_iff]
    rintro ⟨_, h⟩
    split_ifs at h <;> simp at h
  · have hlev : r.opt.levels ≠ 0 := by
      rcases g.good.wf with hn | ⟨_, _, _, _, _, _, hlev⟩
      · rw [e0] at hn; simp at hn
      · omega
    have : r.filled = false := by
      simp only [filled, e0, back, List.getLastD_concat]
      rw [if_neg (by omega), if_neg (by simp), decide_eq_false (by omega)]
    rw [this, e, hrs, e0]
    simp

example : exState.filled = true := by decide +kernel

/-! ### C11 -/

/-- In sorting mode the values that fit are cut in arrival order into chunks of `reducer_limit`;
the `i`-th sample is the `i`-th smallest of chunk `i mod n`, until the last chunk is exhausted, and
from there on the `i`-th smallest of the first chunk. -/
theorem C11_sorting (env : Env) (opt : ReducerOpts) (as : List AddArg) (r' : Reducer) (d : AggData)
    (hm : opt.mode = .sorting)
    (hd : detach env (as.foldl (Reducer.add env) (new opt)) = .ok (some d, r')) :
    (d.data = [] ∧ (allValues as).take (opt.limit * opt.levels) = []) ∨
    ∃ (cs : List (List Int)) (last : List Int),
      cs.flatten ++ last = (allValues as).take (opt.limit * opt.levels) ∧
      (∀ c ∈ cs, c.length = opt.limit) ∧ 0 < last.length ∧ last.length ≤ opt.limit ∧
      d.data.length = (if cs = [] then last.length else opt.limit) ∧
      ∀ i < d.data.length,
        (Exhausted (cs.length + 1) last.length i →
          d.data.getD i 0 = (sortInts ((cs ++ [last]).getD 0 [])).getD i 0) ∧
        (¬ Exhausted (cs.length + 1) last.length i →
          d.data.getD i 0 = (sortInts ((cs ++ [last]).getD (i % (cs.length + 1)) [])).getD i 0) := by
  obtain ⟨h1, h2, h3⟩ := adds_data env as (new opt)
  have hn : (new opt).opt = opt ∧ (new opt).curMode = .sorting ∧ (new opt).data = [] := by
    unfold new; simp [hm]
  rw [hn.1, hn.2.1, hn.2.2] at h1
  rw [hn.1] at h2
  rw [hn.2.1] at h3
  obtain ⟨⟨ht⟩, _⟩ := tableFold_table opt (allValues as)
  set r := as.foldl (Reducer.add env) (new opt) with hr
  have hred : ∃ r1 : Reducer, reduce env r = .ok r1 ∧ d.data = r1.data.headD [] := by
    unfold detach at hd
    by_cases he : r.empty = true
    · rw [if_pos he] at hd; cases hd
    rw [if_neg he] at hd
    cases hx : reduce env r with
    | error x => rw [hx] at hd; cases hd
    | ok r1 =>
      rw [hx] at hd
      simp only [bind_ok] at hd
      cases hy : castInt r1.average with
      | error x => rw [hy] at hd; cases hd
      | ok a => rw [hy] at hd; cases hd; exact ⟨r1, rfl, rfl⟩
  obtain ⟨r1, er, ed⟩ := hred
  rcases ht with ⟨e1, e2⟩ | ⟨cs, last, e1, e2, e3, e4, e5, e6⟩
  · left
    refine ⟨?_, e2⟩
    unfold reduce at er
    rw [if_pos (by rw [h1, e1])] at er
    cases er
    rw [ed, h1, e1]; rfl
  · right
    have := reduce_sorted (env := env) (r := r) (r' := r1) h3 (cs := cs) (last := last)
      (by rw [h1, e1]) (by rw [h2]; exact e3) e4 (by rw [h2]; exact e5) er
    rw [← ed, h2] at this
    exact ⟨cs, last, e2, e3, e4, e5, this⟩

/-- Eight values, limit three: chunks [9,1,4], [7,2,8], [3,6]; the samples are the smallest of the
first chunk, the second smallest of the second; the third chunk has no third element, so the last
sample is the largest of the first chunk. -/
example : ∃ r' d, detach exactEnv ([AddArg.many [9, 1, 4] 3, .init [7, 2, 8, 3, 6]].foldl
      (Reducer.add exactEnv) (new { limit := 3, levels := 5, mode := .sorting })) = .ok (some d, r') ∧
    d.data = [1, 7, 9] := by
  refine ⟨new { limit := 3, levels := 5, mode := .sorting },
    { data := [1, 7, 9], avg := 5, count := 8, lossy := 5, min := 1, max := 9 }, ?_, rfl⟩
  decide +kernel

end Wrtstat
