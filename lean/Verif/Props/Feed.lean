/-
C122: how values are handed over - one by one, in lists, as summaries - does not matter.
-/
import Verif.Lemmas.Split
import Verif.Props.Loss

namespace Wrtstat

set_option autoImplicit false

open Reducer

/-- The claim: sequences of calls with the same values in the same order, and as many events, give the same summary. -/
def C122_FullClaim : Prop :=
  ∀ (env : Env) (opt : ReducerOpts) (as bs : List AddArg), allValues as = allValues bs → sumCount as = sumCount bs →
    Reducer.detach env (as.foldl (Reducer.add env) (Reducer.new opt)) = Reducer.detach env (bs.foldl (Reducer.add env) (Reducer.new opt))

/-- A call that carries nothing makes a summary of nothing. -/
theorem C122_refuted : ¬ C122_FullClaim := by
  intro h
  have := congrArg (fun x => match x with | .ok (d, _) => d.isSome | .error _ => false)
    (h exactEnv { limit := 4, levels := 2 } [] [.many [] 0] rfl rfl)
  revert this
  decide +kernel

/-- Of calls that stand for fewer events than they carry values, and others for more: the surplus of the others is told as lost. -/
theorem C122_refuted_counts : ¬ ∀ (env : Env) (opt : ReducerOpts) (as bs : List AddArg), as ≠ [] → bs ≠ [] →
    allValues as = allValues bs → sumCount as = sumCount bs →
    Reducer.detach env (as.foldl (Reducer.add env) (Reducer.new opt)) = Reducer.detach env (bs.foldl (Reducer.add env) (Reducer.new opt)) := by
  intro h
  have := congrArg (fun x => match x with | .ok (some d, _) => d.lossy | _ => 0)
    (h exactEnv { limit := 4, levels := 2 } [.many [5, 7] 1, .many [8] 2] [.many [5, 7, 8] 3] (by simp) (by simp) rfl rfl)
  revert this
  decide +kernel

/-- Whatever a reducer has seen: calls with the same values in the same order leave the same in it, if they stand for as many
events, as many of them without value, and none reaches beyond the extremes of the others. -/
theorem C122_same_partial (env : Env) (r : Reducer) (as bs : List AddArg) (he : as = [] ↔ bs = []) (hv : allValues as = allValues bs)
    (hc : sumCount as = sumCount bs) (hw : sumWeight as = sumWeight bs)
    (h1 : ∀ e ∈ allExtremes as, (∃ f ∈ allExtremes bs, f ≤ e) ∧ ∃ f ∈ allExtremes bs, e ≤ f)
    (h2 : ∀ e ∈ allExtremes bs, (∃ f ∈ allExtremes as, f ≤ e) ∧ ∃ f ∈ allExtremes as, e ≤ f) :
    as.foldl (Reducer.add env) r = bs.foldl (Reducer.add env) r := by
  rw [adds_given, adds_given]
  have e1 : as.isEmpty = bs.isEmpty := by
    rw [Bool.eq_iff_iff, List.isEmpty_iff, List.isEmpty_iff]
    exact he
  have e2 : surplus as = surplus bs := by
    have ha := surplus_eq as
    have hb := surplus_eq bs
    rw [hv] at ha
    omega
  have e3 : (allExtremes as).foldl Min.min r.min = (allExtremes bs).foldl Min.min r.min :=
    le_antisymm (fold_min_le fun e h => (h2 e h).1) (fold_min_le fun e h => (h1 e h).1)
  have e4 : (allExtremes as).foldl Max.max r.max = (allExtremes bs).foldl Max.max r.max :=
    le_antisymm (le_fold_max fun e h => (h1 e h).2) (le_fold_max fun e h => (h2 e h).2)
  unfold given
  rw [e1, e2, e3, e4, hv, hc]

/-- For a new reducer this is exact: with the same values nothing else is told apart. -/
theorem C122_exact_partial (env : Env) (opt : ReducerOpts) (as bs : List AddArg) (hv : allValues as = allValues bs) :
    as.foldl (Reducer.add env) (Reducer.new opt) = bs.foldl (Reducer.add env) (Reducer.new opt) ↔
      (as = [] ↔ bs = []) ∧ sumCount as = sumCount bs ∧ sumWeight as = sumWeight bs ∧
        minI (allExtremes as) = minI (allExtremes bs) ∧ maxI (allExtremes as) = maxI (allExtremes bs) := by
  have hn : (Reducer.new opt).empty = true ∧ (Reducer.new opt).min = I64max ∧ (Reducer.new opt).max = I64min := by
    unfold Reducer.new
    split_ifs <;> exact ⟨rfl, rfl, rfl⟩
  have sa := surplus_eq as
  have sb := surplus_eq bs
  rw [hv] at sa
  have hem : as.isEmpty = bs.isEmpty ↔ (as = [] ↔ bs = []) := by
    rw [Bool.eq_iff_iff, List.isEmpty_iff, List.isEmpty_iff]
  rw [adds_given, adds_given, hn.1, Bool.true_and, Bool.true_and]
  unfold given
  rw [hv, hn.2.1, hn.2.2]
  constructor
  · intro h
    simp only [Reducer.mk.injEq, true_and] at h
    obtain ⟨i1, i2, i3, i4, i5, _⟩ := h
    exact ⟨hem.1 i1, by omega, by omega, i2, i3⟩
  · rintro ⟨j1, j2, j3, j4, j5⟩
    unfold minI at j4
    unfold maxI at j5
    rw [hem.2 j1, j2, j4, j5, show surplus as = surplus bs by omega]

/-- A list in one call is its values one after the other. -/
theorem C122_list_partial (env : Env) (r : Reducer) (vs : List Int) (hne : vs ≠ []) :
    Reducer.add env r (.many vs vs.length) = (vs.map fun v => AddArg.one v 1).foldl (Reducer.add env) r := by
  have hv : allValues (vs.map fun v => AddArg.one v 1) = vs := by
    simp only [allValues, List.flatMap_map]
    simp [AddArg.values]
  have hx : allExtremes (vs.map fun v => AddArg.one v 1) = vs := by
    simp only [allExtremes, List.flatMap_map]
    simp [AddArg.values, AddArg.extremes]
  have hx' : allExtremes [AddArg.many vs vs.length] = vs := by simp [allExtremes, AddArg.values, AddArg.extremes]
  have := C122_same_partial env r [.many vs vs.length] (vs.map fun v => .one v 1) (by simp [hne])
    (by rw [hv]; simp [allValues, AddArg.values])
    (by simp [sumCount, AddArg.count, Function.comp_def]) (by simp [sumWeight, AddArg.weight, AddArg.count, AddArg.values, Function.comp_def])
    (by rw [hx, hx']; exact fun e h => ⟨⟨e, h, le_refl _⟩, e, h, le_refl _⟩)
    (by rw [hx, hx']; exact fun e h => ⟨⟨e, h, le_refl _⟩, e, h, le_refl _⟩)
  exact this

/-- An initializer list is a list; a summary whose extremes are among its samples, or not set, is its samples. -/
theorem C122_forms_partial (env : Env) (r : Reducer) (rd : ReducedData) (vs : List Int)
    (h1 : rd.min ≠ 0 → rd.min ∈ rd.data) (h2 : rd.max ≠ 0 → rd.max ∈ rd.data) :
    Reducer.add env r (.init vs) = Reducer.add env r (.many vs vs.length) ∧
    Reducer.add env r (.reduced rd) = Reducer.add env r (.many rd.data rd.count) := by
  constructor
  · exact C122_same_partial env r [.init vs] [.many vs vs.length] (by simp) rfl rfl rfl
      (fun e h => ⟨⟨e, h, le_refl _⟩, e, h, le_refl _⟩) (fun e h => ⟨⟨e, h, le_refl _⟩, e, h, le_refl _⟩)
  · have hx : ∀ e ∈ allExtremes [AddArg.reduced rd], e ∈ rd.data := by
      intro e he
      simp only [allExtremes, List.flatMap_cons, List.flatMap_nil, List.append_nil, AddArg.values, AddArg.extremes, List.mem_append] at he
      rcases he with he | he | he
      · exact he
      · by_cases hm : rd.min = 0
        · simp [hm] at he
        · simp only [ne_eq, hm, not_false_eq_true, if_true, List.mem_singleton] at he
          rw [he]; exact h1 hm
      · by_cases hm : rd.max = 0
        · simp [hm] at he
        · simp only [ne_eq, hm, not_false_eq_true, if_true, List.mem_singleton] at he
          rw [he]; exact h2 hm
    have hx' : allExtremes [AddArg.many rd.data rd.count] = rd.data := by simp [allExtremes, AddArg.values, AddArg.extremes]
    have hx2 : ∀ e ∈ rd.data, e ∈ allExtremes [AddArg.reduced rd] := by
      intro e he
      simp [allExtremes, AddArg.values, he]
    exact C122_same_partial env r [.reduced rd] [.many rd.data rd.count] (by simp) rfl rfl rfl
      (by rw [hx']; exact fun e h => ⟨⟨e, hx e h, le_refl _⟩, e, hx e h, le_refl _⟩)
      (by rw [hx']; exact fun e h => ⟨⟨e, hx2 e h, le_refl _⟩, e, hx2 e h, le_refl _⟩)

/-- A list may be cut, each part standing for at least as many events as it has values. -/
theorem C122_cut_partial (env : Env) (r : Reducer) (us vs : List Int) (m n : Nat) (hm : us.length ≤ m) (hn : vs.length ≤ n) :
    Reducer.add env r (.many (us ++ vs) (m + n)) = Reducer.add env (Reducer.add env r (.many us m)) (.many vs n) := by
  have hx : allExtremes [AddArg.many (us ++ vs) (m + n)] = us ++ vs := by simp [allExtremes, AddArg.values, AddArg.extremes]
  have hx' : allExtremes [AddArg.many us m, AddArg.many vs n] = us ++ vs := by simp [allExtremes, AddArg.values, AddArg.extremes]
  exact C122_same_partial env r [.many (us ++ vs) (m + n)] [.many us m, .many vs n] (by simp) (by simp [allValues, AddArg.values])
    (by simp [sumCount, AddArg.count])
    (by simp only [sumWeight, List.map_cons, List.map_nil, List.sum_cons, List.sum_nil, AddArg.weight, AddArg.count, AddArg.values,
          List.length_append]; omega)
    (by rw [hx, hx']; exact fun e h => ⟨⟨e, h, le_refl _⟩, e, h, le_refl _⟩)
    (by rw [hx, hx']; exact fun e h => ⟨⟨e, h, le_refl _⟩, e, h, le_refl _⟩)

example : Reducer.add exactEnv (Reducer.new { limit := 2, levels := 2 }) (.many [5, 7, 3, 4, 9] 7) =
    Reducer.add exactEnv (Reducer.add exactEnv (Reducer.new { limit := 2, levels := 2 }) (.many [5, 7] 3)) (.many [3, 4, 9] 4) := by
  decide +kernel

/-! ### The same for an aggregator -/

/-- Calls of `push` with the same time, one after the other: the results, and what the handler was given. -/
def pushEach (env : Env) (clk1 clk2 ts : Int) (handler : Bool) : List AddArg → Aggregator → M (List Bool × List AggData × Aggregator)
  | [], a => .ok ([], [], a)
  | x :: xs, a => do
    let (ok, out, a) ← a.push env clk1 clk2 ts x handler
    let (oks, out', a) ← pushEach env clk1 clk2 ts handler xs a
    .ok (ok :: oks, out ++ out', a)

theorem pushEach_cons {env : Env} {clk1 clk2 ts : Int} {handler : Bool} (xs : List AddArg) : ∀ (x : AddArg) (a a' : Aggregator)
    (ok : Bool) (out : List AggData),
    a.pushF env clk1 clk2 ts (fun r => xs.foldl (Reducer.add env) (Reducer.add env r x)) handler = .ok (ok, out, a') →
    pushEach env clk1 clk2 ts handler (x :: xs) a = .ok (List.replicate (xs.length + 1) ok, out, a') := by
  induction xs with
  | nil =>
    intro x a a' ok out h
    have e : a.push env clk1 clk2 ts x handler = .ok (ok, out, a') := h
    rw [pushEach, e, bind_ok']
    simp [pushEach, bind_ok']
  | cons y ys ih =>
    intro x a a' ok out h
    cases h1 : a.pushF env clk1 clk2 ts (fun r => Reducer.add env r x) handler with
    | error e =>
      exfalso
      obtain ⟨ok1, out1, a1, h2⟩ := Aggregator.pushF_ok (g := fun r => Reducer.add env r x) h
      rw [h1] at h2
      cases h2
    | ok p =>
      obtain ⟨ok1, out1, a1⟩ := p
      obtain ⟨a2, e1, e2⟩ := Aggregator.pushF_twice (g := fun r => (y :: ys).foldl (Reducer.add env) r) h1
      have e1' : a.pushF env clk1 clk2 ts (fun r => (y :: ys).foldl (Reducer.add env) (Reducer.add env r x)) handler = _ := e1
      rw [e1'] at h
      simp only [Except.ok.injEq, Prod.mk.injEq] at h
      obtain ⟨rfl, rfl, rfl⟩ := h
      have h1' : a.push env clk1 clk2 ts x handler = _ := h1
      rw [pushEach, h1', bind_ok']
      simp only
      rw [ih y a1 a2 ok1 [] e2, bind_ok']
      simp [List.replicate_succ]

/-- One call of `push` with a list, or calls with the same time for its parts: the answer, the record completed and the object are
the same. -/
theorem C122_push_partial (env : Env) (a a' : Aggregator) (clk1 clk2 ts : Int) (handler ok : Bool) (z : AddArg) (xs : List AddArg)
    (out : List AggData) (hne : xs ≠ []) (hz : ∀ r, Reducer.add env r z = xs.foldl (Reducer.add env) r)
    (h : a.push env clk1 clk2 ts z handler = .ok (ok, out, a')) :
    pushEach env clk1 clk2 ts handler xs a = .ok (List.replicate xs.length ok, out, a') := by
  cases xs with
  | nil => exact absurd rfl hne
  | cons x xs =>
    refine pushEach_cons xs x a a' ok out ?_
    rw [Aggregator.push_pushF] at h
    rw [← h]
    congr 1
    funext r
    exact (hz r).symm

/-- So a list pushed is its values pushed one by one. -/
theorem C122_push_list_partial (env : Env) (a a' : Aggregator) (clk1 clk2 ts : Int) (handler ok : Bool) (vs : List Int)
    (out : List AggData) (hne : vs ≠ []) (h : a.push env clk1 clk2 ts (.many vs vs.length) handler = .ok (ok, out, a')) :
    pushEach env clk1 clk2 ts handler (vs.map fun v => AddArg.one v 1) a = .ok (List.replicate vs.length ok, out, a') := by
  have := C122_push_partial env a a' clk1 clk2 ts handler ok _ (vs.map fun v => AddArg.one v 1) out (by simp [hne])
    (fun r => C122_list_partial env r vs hne) h
  simpa using this

end Wrtstat
