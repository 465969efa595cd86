/-
C128: whose average `avg` is, when calls stand for several events.
-/
import Verif.Props.Order
import Verif.Props.Info

namespace Wrtstat

set_option autoImplicit false

open Reducer

/-- The mean of events given as values with the number of events each stands for, rounded toward zero. -/
def weighted (es : List (Int × Nat)) : Int := (es.map fun e => (e.2 : Int) * e.1).sum.tdiv ((es.map fun e => e.2).sum : Nat)

/-- The calls `add(v, count)`. -/
def weightedCalls (es : List (Int × Nat)) : List AddArg := es.map fun e => .one e.1 e.2

/-- The claim: the average of a summary is the mean of its events, in exact arithmetic. -/
def C128_FullClaim : Prop :=
  ∀ (opt : ReducerOpts) (es : List (Int × Nat)) (d : AggData) (r : Reducer), (∀ e ∈ es, 0 < e.2) →
    detach exactEnv ((weightedCalls es).foldl (Reducer.add exactEnv) (new opt)) = .ok (some d, r) → d.avg = weighted es

/-- Nine events of value 10 and one of value 0, given in two calls: the average is told as 5, the mean is 9. -/
theorem C128_refuted : ¬ C128_FullClaim := by
  intro h
  obtain ⟨d, r, e, e1, _⟩ := toldSamples_some (x := detach exactEnv
    ((weightedCalls [(10, 9), (0, 1)]).foldl (Reducer.add exactEnv) (new { limit := 4, levels := 2 })))
    (i := { ts := 0, count := 10, lossy := 8, min := 0, max := 10, avg := 5 }) (l := [10, 0]) (by decide +kernel)
  have := h { limit := 4, levels := 2 } _ d r (by decide) e
  have e2 : d.toReducedInfo.avg = 5 := by rw [e1]
  rw [show d.avg = d.toReducedInfo.avg from rfl, e2] at this
  revert this
  decide

/-- The average told by a record is not handed on: of 0, 0, 100, 100, 100, 100 a reducer of two samples tells the average 66 and
keeps 0, 0; a second reducer that is given this summary tells the average 0, with the same count and extremes. -/
theorem C128_refuted_cascade : ∃ (d d' : AggData) (r r' : Reducer),
    detach exactEnv (([.many [0, 0, 100, 100, 100, 100] 6] : List AddArg).foldl (Reducer.add exactEnv) (new { limit := 2, levels := 1 })) =
      .ok (some d, r) ∧
    detach exactEnv (Reducer.add exactEnv (new { limit := 2, levels := 1 }) (.reduced d.toReducedData)) = .ok (some d', r') ∧
    d.avg = 66 ∧ d'.avg = 0 ∧ d'.count = d.count ∧ d'.max = d.max := by
  obtain ⟨d, r, e, e1, e2⟩ := toldSamples_some (x := detach exactEnv
    (([.many [0, 0, 100, 100, 100, 100] 6] : List AddArg).foldl (Reducer.add exactEnv) (new { limit := 2, levels := 1 })))
    (i := { ts := 0, count := 6, lossy := 4, min := 0, max := 100, avg := 66 }) (l := [0, 0]) (by decide +kernel)
  have hd : d.toReducedData = { ts := 0, count := 6, lossy := 4, min := 0, max := 100, avg := 66, data := [0, 0] } := by
    rw [← e2]
    rw [show d.toReducedData = { toReducedInfo := d.toReducedInfo, data := d.data } from rfl, e1]
  obtain ⟨d', r', e', e1', _⟩ := toldSamples_some (x := detach exactEnv (Reducer.add exactEnv (new { limit := 2, levels := 1 })
      (.reduced { ts := 0, count := 6, lossy := 4, min := 0, max := 100, avg := 66, data := [0, 0] })))
    (i := { ts := 0, count := 6, lossy := 4, min := 0, max := 100, avg := 0 }) (l := [0, 0]) (by decide +kernel)
  exact ⟨d, d', r, r', e, by rw [hd]; exact e', congrArg ReducedInfo.avg e1, congrArg ReducedInfo.avg e1',
    (congrArg ReducedInfo.count e1').trans (congrArg ReducedInfo.count e1).symm,
    (congrArg ReducedInfo.max e1').trans (congrArg ReducedInfo.max e1).symm⟩

theorem allValues_weighted (es : List (Int × Nat)) : allValues (weightedCalls es) = es.map Prod.fst := by
  unfold allValues weightedCalls
  rw [List.flatMap_map]
  induction es with
  | nil => rfl
  | cons e es ih => rw [List.flatMap_cons, ih]; rfl

theorem avg_of_calls {env : Env} (he : ∀ x, env.rnd x = x) {opt : ReducerOpts} {es : List (Int × Nat)} {d : AggData} {r : Reducer}
    (hne : es ≠ []) (h : detach env ((weightedCalls es).foldl (Reducer.add env) (new opt)) = .ok (some d, r)) :
    d.avg = (es.map Prod.fst).sum.tdiv es.length := by
  have s := summary_of_detach (goodA_fold (weightedCalls es) (goodA_new env opt)) h
  rw [List.nil_append] at s
  have := s.avg he (by rw [allValues_weighted]; simpa using hne)
  rw [this, allValues_weighted, List.length_map]

/-- The average is the mean of the values handed over, each counted once; so it is the mean of the events if all calls stand for as
many events. -/
theorem C128_equal_partial (env : Env) (he : ∀ x, env.rnd x = x) (opt : ReducerOpts) (es : List (Int × Nat)) (d : AggData) (r : Reducer)
    (hne : es ≠ []) (k : Nat) (hk : 0 < k) (hc : ∀ e ∈ es, e.2 = k)
    (h : detach env ((weightedCalls es).foldl (Reducer.add env) (new opt)) = .ok (some d, r)) : d.avg = weighted es := by
  rw [avg_of_calls he hne h]
  have h1 : (es.map fun e => (e.2 : Int) * e.1).sum = k * (es.map Prod.fst).sum := by
    clear h hne
    induction es with
    | nil => simp
    | cons e es ih =>
      rw [List.map_cons, List.sum_cons, List.map_cons, List.sum_cons, ih (fun x hx => hc x (List.mem_cons_of_mem _ hx)), hc e List.mem_cons_self]
      ring
  have h2 : (es.map fun e => e.2).sum = k * es.length := by
    clear h h1 hne
    induction es with
    | nil => simp
    | cons e es ih =>
      rw [List.map_cons, List.sum_cons, ih (fun x hx => hc x (List.mem_cons_of_mem _ hx)), hc e List.mem_cons_self, List.length_cons]
      ring
  unfold weighted
  rw [h1, h2]
  push_cast
  rw [Int.mul_tdiv_mul_of_pos _ _ (by omega)]

theorem weighted_between (es : List (Int × Nat)) (m M : Int) (hpos : 0 < (es.map fun e => e.2).sum) (hv : ∀ e ∈ es, m ≤ e.1 ∧ e.1 ≤ M) :
    m ≤ weighted es ∧ weighted es ≤ M := by
  have key : m * (es.map fun e => e.2).sum ≤ (es.map fun e => (e.2 : Int) * e.1).sum ∧
      (es.map fun e => (e.2 : Int) * e.1).sum ≤ M * (es.map fun e => e.2).sum := by
    clear hpos
    induction es with
    | nil => simp
    | cons e es ih =>
      obtain ⟨i1, i2⟩ := ih (fun x hx => hv x (List.mem_cons_of_mem _ hx))
      obtain ⟨j1, j2⟩ := hv e List.mem_cons_self
      have c : (0 : Int) ≤ e.2 := Int.natCast_nonneg _
      simp only [List.map_cons, List.sum_cons]
      push_cast at *
      constructor <;> nlinarith
  exact tdiv_between (by exact_mod_cast hpos) key.1 key.2

/-- In any case it is off by no more than the values differ. -/
theorem C128_range_partial (env : Env) (he : ∀ x, env.rnd x = x) (opt : ReducerOpts) (es : List (Int × Nat)) (d : AggData) (r : Reducer)
    (hpos : 0 < (es.map fun e => e.2).sum) (m M : Int) (hv : ∀ e ∈ es, m ≤ e.1 ∧ e.1 ≤ M)
    (h : detach env ((weightedCalls es).foldl (Reducer.add env) (new opt)) = .ok (some d, r)) : |d.avg - weighted es| ≤ M - m := by
  have hne : es ≠ [] := by rintro rfl; simp at hpos
  obtain ⟨h1, h2⟩ := weighted_between es m M hpos hv
  have h3 := weighted_between (es.map fun e => (e.1, 1)) m M (by
    rw [List.map_map, show ((fun e : Int × Nat => e.2) ∘ fun e : Int × Nat => (e.1, 1)) = fun _ => 1 from rfl]
    simpa using List.length_pos_iff.2 hne) (by
    intro e hm
    obtain ⟨x, hx, rfl⟩ := List.mem_map.1 hm
    exact hv x hx)
  have h4 : weighted (es.map fun e => (e.1, 1)) = d.avg := by
    rw [avg_of_calls he hne h]
    simp [weighted, List.map_map, Function.comp_def]
  rw [h4] at h3
  rw [abs_le]
  omega

/-- A second reducer tells the mean of the values given to the first ones, if no sample was dropped on the way: no window had more
than `limit` values, nor more than are let out. -/
theorem C128_cascade_partial (env : Env) (he : ∀ x, env.rnd x = x) (opt : AggregatorOpts) (opt2 : ReducerOpts)
    (ws : List (List AddArg × AggData)) (d : AggData) (r : Reducer) (hl : 1 ≤ opt.levels)
    (hw : ∀ w ∈ ws, Report env opt w.1 w.2 ∧ (allValues w.1).length ≤ opt.limit ∧ (opt.outSize = 0 ∨ (allValues w.1).length ≤ opt.outSize))
    (hne : (ws.flatMap fun w => allValues w.1) ≠ [])
    (h : detach env ((ws.map fun w => AddArg.reduced w.2.toReducedData).foldl (Reducer.add env) (new opt2)) = .ok (some d, r)) :
    d.avg = (ws.flatMap fun w => allValues w.1).sum.tdiv (ws.flatMap fun w => allValues w.1).length := by
  have s := summary_of_detach (goodA_fold _ (goodA_new env opt2)) h
  rw [List.nil_append] at s
  have hp : (allValues (ws.map fun w => AddArg.reduced w.2.toReducedData)).Perm (ws.flatMap fun w => allValues w.1) := by
    clear h hne s
    induction ws with
    | nil => exact .refl _
    | cons w ws ih =>
      have ih := ih (fun x hx => hw x (List.mem_cons_of_mem _ hx))
      obtain ⟨⟨raw, s, e⟩, h1, h2⟩ := hw w List.mem_cons_self
      have c := s.complete hl h1
      rw [← c.length_eq] at h2
      exact ((e.full h2).trans c).append ih
  rw [s.avg he (fun e => hne (by rw [e] at hp; exact hp.symm.eq_nil)), hp.sum_eq, hp.length_eq]

/-- The summary of 1, 2, 3. -/
def exOneTwoThree : ReducedData := { ts := 0, count := 3, lossy := 0, min := 1, max := 3, avg := 2, data := [1, 2, 3] }

/-- Two windows of a reducer of four samples, and a second reducer of two samples: the average of 1, 2, 3 and 10. -/
example : ∃ d d' r r', detach exactEnv (Reducer.add exactEnv (new { limit := 4, levels := 2 }) (.many [1, 2, 3] 3)) = .ok (some d, r) ∧
    detach exactEnv (([.reduced d.toReducedData, .reduced { count := 1, data := [10], min := 10, max := 10, avg := 10 }] : List AddArg).foldl
      (Reducer.add exactEnv) (new { limit := 2, levels := 1 })) = .ok (some d', r') ∧ d'.avg = 4 ∧ d'.lossy = 2 := by
  obtain ⟨d, r, e, e1, e2⟩ := toldSamples_some (x := detach exactEnv (Reducer.add exactEnv (new { limit := 4, levels := 2 }) (.many [1, 2, 3] 3)))
    (i := { ts := 0, count := 3, lossy := 0, min := 1, max := 3, avg := 2 }) (l := [1, 2, 3]) (by decide +kernel)
  have hd : d.toReducedData = exOneTwoThree := by
    rw [exOneTwoThree, ← e2]
    rw [show d.toReducedData = { toReducedInfo := d.toReducedInfo, data := d.data } from rfl, e1]
  obtain ⟨d', r', e', e1', _⟩ := toldSamples_some (x := detach exactEnv (([.reduced exOneTwoThree, .reduced { count := 1, data := [10], min := 10, max := 10, avg := 10 }] : List AddArg).foldl (Reducer.add exactEnv)
      (new { limit := 2, levels := 1 })))
    (i := { ts := 0, count := 4, lossy := 2, min := 1, max := 10, avg := 4 }) (l := [1, 2]) (by decide +kernel)
  exact ⟨d, d', r, r', e, by rw [hd]; exact e', congrArg ReducedInfo.avg e1', congrArg ReducedInfo.lossy e1'⟩

end Wrtstat
