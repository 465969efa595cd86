/-
The unit tests of the repository for the reducer (tests/reducer_suite.cpp), run on the model.

Each test is a function of the parameters of its template; it is true when all expectations hold.
-/
import Verif.Props.Double
import Verif.Props.ReducerFull
import Verif.Props.Accessors

namespace Wrtstat
namespace Suite

set_option autoImplicit false

open Reducer

/-- `empty_reducer<Limit, Levels>` (tests/reducer_suite.cpp:8-41). -/
def emptyReducer (env : Env) (limit levels : Nat) : Bool :=
  let r := (new { limit := limit, levels := levels }).add env (.one 1 1)
  r.filled && r.size == 0 && r.totalCount == 1 && r.lossyCount == 1 && r.getMin == 1 && r.getMax == 1 &&
  match r.detach env with
  | .ok (some d, _) => d.count == 1 && d.lossy == 1 && d.min == 1 && d.max == 1 && d.avg == 1
  | _ => false

/-- The values 1, 2, ..., n. -/
def upTo (n : Nat) : List Int := (List.range n).map fun i : Nat => (i : Int) + 1

/-- `std::accumulate(values.begin(), values.end(), 0) / values.size()`. -/
def mean (l : List Int) : Int := l.sum.tdiv l.length

/-- A full reducer that received `1, ..., n`, each counted `count` times (tests/reducer_suite.cpp:85-110, 151-173). -/
def fullCheck (env : Env) (limit levels n count lossy : Nat) (avg : Int) (r : Reducer) : Bool :=
  r.filled && r.size == limit * levels && r.totalCount == n * count && r.lossyCount == lossy && r.getMin == 1 && r.getMax == n &&
  match r.detach env with
  | .ok (some d, _) => d.min == 1 && d.max == n && d.count == n * count && d.lossy == lossy && d.avg == avg && d.data.length == limit
  | _ => false

/-- A cleared reducer (tests/reducer_suite.cpp:113-122). -/
def clearedCheck (env : Env) (r : Reducer) : Bool :=
  r.filled == false && r.size == 0 && r.totalCount == 0 && r.lossyCount == 0 && r.getMin == 0 && r.getMax == 0 &&
  match r.detach env with
  | .ok (none, _) => true
  | _ => false

/-- The reducer left by `detach`. -/
def left (env : Env) (r : Reducer) : Reducer :=
  match r.detach env with
  | .ok (_, r) => r
  | _ => r

/-- `filled_reducer<Limit, Levels>` (tests/reducer_suite.cpp:58-176). -/
def filledReducer (env : Env) (limit levels : Nat) : Bool :=
  let n := 2 * levels * limit
  let r0 := new { limit := limit, levels := levels }
  let r := (upTo n).foldl (fun r v => r.add env (.one v 2)) r0
  let r1 := (left env r).clear
  let r2 := (upTo n).foldl (fun r v => r.add env (.one v 0)) (left env r1)
  r0.filled == false && fullCheck env limit levels n 2 (n * 2 - limit) (mean (upTo n)) r &&
  clearedCheck env r1 && fullCheck env limit levels n 0 (n - limit) (mean (upTo n)) r2

/-- One turn of the outer loop of `filled_reducer_reducer` (tests/reducer_suite.cpp:205-231): `limit * levels` more values go
to `r0`, and what it detaches to `r`. -/
def feed (env : Env) (limit levels : Nat) (s : Reducer × Reducer × List Int) (i : Nat) : Option (Reducer × Reducer × List Int) :=
  let (r0, r, vs) := s
  let r0 := (upTo (limit * levels)).foldl (fun r v => r.add env (.one (v + i * (limit * levels) : Int) 2)) r0
  match r0.detach env with
  | .ok (some d, r0) => some (r0.clear, r.add env (.reduced d.toReducedData), vs ++ d.data)
  | _ => none

/-- `filled_reducer_reducer<Limit, Levels>` (tests/reducer_suite.cpp:190-306). -/
def filledReducerReducer (env : Env) (limit levels : Nat) : Bool :=
  let new := new { limit := limit, levels := levels }
  let n := levels * levels * limit
  match (List.range levels).foldlM (feed env limit levels) (new, new, []) with
  | none => false
  | some (_, r, vs) =>
    let r1 := (left env r).clear
    let m := 2 * levels * limit
    let r2 := (upTo m).foldl (fun r v => r.add env (.one v 0)) (left env r1)
    fullCheck env limit levels n 2 (n * 2 - limit) (mean vs) r && clearedCheck env r1 &&
    fullCheck env limit levels m 0 (m - limit) (mean (upTo m)) r2

/-- `non_filled_reducer<Limit, Levels, Tail>` (tests/reducer_suite.cpp:333-384). -/
def nonFilledReducer (env : Env) (limit levels tail : Nat) : Bool :=
  let n := (levels - 1) * limit + tail
  let r := (upTo n).foldl (fun r v => r.add env (.one v 1)) (new { limit := limit, levels := levels })
  r.filled == false && r.size == n && r.totalCount == n && r.lossyCount == n - limit && r.getMin == 1 && r.getMax == n &&
  match r.detach env with
  | .ok (some d, _) => d.min == 1 && d.max == n && d.count == n && d.lossy == n - limit && d.avg == mean (upTo n) && d.data.length == limit
  | _ => false

/-- `array_reducer<Limit, Levels, Size>` (tests/reducer_suite.cpp:406-459). -/
def arrayReducer (env : Env) (limit levels size : Nat) : Bool :=
  let r := (new { limit := limit, levels := levels }).add env (.many (upTo size) size)
  r.filled == !(size < limit * levels : Bool) && r.size == min (limit * levels) size && r.totalCount == size &&
  r.lossyCount == size - limit && r.getMin == 1 && r.getMax == size &&
  match r.detach env with
  | .ok (some d, _) =>
    d.min == 1 && d.max == size && d.count == size && d.lossy == size - limit && d.avg == mean (upTo size) && d.data.length == min size limit
  | _ => false

/-- `empty_reducer_0_0`, `empty_reducer_0_1`, `empty_reducer_1_0`. -/
example : emptyReducer doubleEnv 0 0 = true ∧ emptyReducer doubleEnv 0 1 = true ∧ emptyReducer doubleEnv 1 0 = true := by decide +kernel

/-- `reducer_1_1`, `reducer_1_2`, `reducer_2_1`, `reducer_4_8`, `reducer_8_4` (also `reducer_reducer_8_4`). -/
example : filledReducer doubleEnv 1 1 = true ∧ filledReducer doubleEnv 1 2 = true ∧ filledReducer doubleEnv 2 1 = true ∧
    filledReducer doubleEnv 4 8 = true ∧ filledReducer doubleEnv 8 4 = true := by decide +kernel

/-- `reducer_reducer_1_1`, `reducer_reducer_1_2`, `reducer_reducer_2_1`, `reducer_reducer_4_8`. -/
example : filledReducerReducer doubleEnv 1 1 = true ∧ filledReducerReducer doubleEnv 1 2 = true ∧
    filledReducerReducer doubleEnv 2 1 = true ∧ filledReducerReducer doubleEnv 4 8 = true := by decide +kernel

/-- The reducer received, in calls standing for `weight` units, the values `1, ..., n`: what its accessors and `detach` say
under exact arithmetic. -/
theorem upTo_summary (limit levels n : Nat) (hl : 1 ≤ levels) (hn : 1 ≤ n) (hN : (n : Int) ≤ I64max)
    (ops : List ROp) (r : Reducer) (h : run exactEnv (new { limit := limit, levels := levels }) ops = .ok r)
    (hr : ROp.reduce ∉ ops) (hv : allValues (pending ops) = upTo n) (he : allExtremes (pending ops) = upTo n) :
    r.size = min (limit * levels) n ∧ (r.filled = true ↔ limit * levels ≤ n) ∧ r.totalCount = sumCount (pending ops) ∧
    r.lossyCount = sumWeight (pending ops) - min limit n ∧ r.getMin = 1 ∧ r.getMax = n ∧
    ∃ d r', r.detach exactEnv = .ok (some d, r') ∧ d.min = 1 ∧ d.max = n ∧ d.count = sumCount (pending ops) ∧
      d.lossy = sumWeight (pending ops) - min limit n ∧ d.avg = mean (upTo n) ∧ d.data.length = min limit n := by
  have hlen : (upTo n).length = n := by simp [upTo]
  have hne : upTo n ≠ [] := by rw [← List.length_pos_iff, hlen]; omega
  have hmem : ∀ v, v ∈ upTo n ↔ 1 ≤ v ∧ v ≤ (n : Int) := by
    intro v
    simp only [upTo, List.mem_map, List.mem_range]
    constructor
    · rintro ⟨i, hi, rfl⟩; omega
    · rintro ⟨h1, h2⟩
      exact ⟨(v - 1).toNat, by omega, by omega⟩
  have hI : ∀ v ∈ upTo n, InI64 v := by
    intro v h
    have := (hmem v).1 h
    exact ⟨by unfold I64min; omega, by omega⟩
  have hmin : ∀ m, IsMinOf m (upTo n) → m = 1 := by
    rintro m ⟨h1, h2⟩
    have := (hmem m).1 h1
    have := h2 1 ((hmem 1).2 ⟨by omega, by omega⟩)
    omega
  have hmax : ∀ m, IsMaxOf m (upTo n) → m = n := by
    rintro m ⟨h1, h2⟩
    have := (hmem m).1 h1
    have := h2 n ((hmem n).2 ⟨by omega, by omega⟩)
    omega
  have hsz := C96_size _ _ ops r hr h
  rw [hv, hlen] at hsz
  have hfl := C96_filled _ _ ops r h
  have h94 := C94_extremes_partial _ _ ops r h (by rw [he]; exact hne) (by rw [he]; exact hI)
  rw [he] at h94
  have h1 : (1 : Int) ∈ upTo n := (hmem 1).2 ⟨by omega, by omega⟩
  have hpend : pending ops ≠ [] := by
    intro e
    rw [e] at hv
    exact hne hv.symm
  obtain ⟨o, r', e⟩ := detach_total exBounds64 (goodA_run h) (by rw [hv]; exact fun v h => hI v h)
  cases o with
  | none => exact absurd ((C08_detach _ _ ops r r' none h e).1.1 rfl) hpend
  | some d =>
    have hk := C96_lossy _ _ ops r r' d h e hl
    have hd := C96_kept _ _ ops r r' d h e
    have h5 := C05_minmax _ _ ops r r' d h e (by rw [he]; exact hne) (by rw [he]; exact hI)
    have h6 := C06_avg_exact _ _ ops r r' d (fun _ => rfl) h e (by rw [hv]; exact hne)
    rw [hv, hlen] at hk hd h6
    rw [he] at h5
    simp only at hk hd hsz hfl
    rw [if_neg (by omega)] at hd
    refine ⟨hsz, ?_, C01_total_count _ _ ops r h, hk.1, hmin _ (h94.1.2 ⟨1, h1, by decide⟩), hmax _ (h94.2.2 ⟨1, h1, by decide⟩),
      d, r', e, hmin _ h5.1, hmax _ h5.2, C01_detach_count _ _ ops r r' d h e, hk.2, ?_, hd⟩
    · rw [hfl, hsz]; exact min_eq_left_iff
    · rw [h6, mean, hlen]

theorem run_adds (env : Env) (f : Int → AddArg) (vs : List Int) (r : Reducer) :
    run env r (vs.map fun v => .add (f v)) = .ok (vs.foldl (fun r v => r.add env (f v)) r) := by
  induction vs generalizing r with
  | nil => rfl
  | cons v vs ih => exact ih _

theorem pending_adds (f : Int → AddArg) (vs : List Int) : pending (vs.map fun v => .add (f v)) = vs.map f := by
  have : ∀ as : List AddArg, (vs.map fun v => ROp.add (f v)).foldl pendStep as = as ++ vs.map f := by
    induction vs with
    | nil => simp
    | cons v vs ih => intro as; simp [pendStep, ih]
  exact this []

/-- Adding `1, ..., n` one by one, each counted `count` times. -/
theorem ones_summary (limit levels n count : Nat) :
    ∃ ops, run exactEnv (new { limit := limit, levels := levels }) ops =
        .ok ((upTo n).foldl (fun r v => r.add exactEnv (.one v count)) (new { limit := limit, levels := levels })) ∧
      ROp.reduce ∉ ops ∧ allValues (pending ops) = upTo n ∧ allExtremes (pending ops) = upTo n ∧
      sumCount (pending ops) = n * count ∧ sumWeight (pending ops) = n * max count 1 := by
  have hlen : (upTo n).length = n := by simp [upTo]
  refine ⟨_, run_adds exactEnv (fun v => .one v count) (upTo n) _, by simp, ?_, ?_, ?_, ?_⟩ <;> rw [pending_adds]
  · simp [allValues, List.flatMap_map, AddArg.values]
  · simp [allExtremes, List.flatMap_map, AddArg.values, AddArg.extremes]
  · simp [sumCount, List.map_map, Function.comp_def, AddArg.count, hlen]
  · simp [sumWeight, List.map_map, Function.comp_def, AddArg.weight, AddArg.count, AddArg.values, hlen]

/-- `non_filled_reducer` holds for all parameters, not only those of the tests. -/
theorem nonFilledReducer_all (limit levels tail : Nat) (hl : 2 ≤ levels) (ht : 1 ≤ tail) (htl : tail < limit)
    (hN : ((levels - 1) * limit + tail : Nat) ≤ I64max) : nonFilledReducer exactEnv limit levels tail = true := by
  have hn : limit ≤ (levels - 1) * limit := Nat.le_mul_of_pos_left _ (by omega)
  have hm : (levels - 1) * limit + limit = limit * levels := by
    obtain ⟨k, rfl⟩ : ∃ k, levels = k + 1 := ⟨levels - 1, by omega⟩
    rw [Nat.add_sub_cancel]; ring
  obtain ⟨ops, e, hr, hv, hx, hc, hw⟩ := ones_summary limit levels ((levels - 1) * limit + tail) 1
  obtain ⟨h1, h2, h3, h4, h5, h6, d, r', ed, h7, h8, h9, h10, h11, h12⟩ :=
    upTo_summary limit levels _ (by omega) (by omega) hN ops _ e hr hv hx
  rw [hc] at h3 h9
  rw [hw] at h4 h10
  have hf : ¬ limit * levels ≤ (levels - 1) * limit + tail := by omega
  unfold nonFilledReducer
  simp only [ed, h1, h3, h4, h5, h6, h7, h8, h9, h10, h11, h12, Bool.and_eq_true, beq_iff_eq]
  refine ⟨⟨⟨⟨⟨⟨Bool.eq_false_iff.2 (fun h => hf (h2.1 h)), by omega⟩, by omega⟩, by simp; omega⟩, trivial⟩, trivial⟩,
    ⟨⟨⟨⟨trivial, trivial⟩, by omega⟩, by simp; omega⟩, trivial⟩, by omega⟩

/-- A reducer filled twice over with `1, ..., n` satisfies the expectations of `filled_reducer`. -/
theorem fullCheck_all (limit levels n count lossy : Nat) (hl : 1 ≤ levels) (hle : limit * levels ≤ n) (hn : 1 ≤ n)
    (hN : (n : Int) ≤ I64max) (ops : List ROp) (r : Reducer)
    (h : run exactEnv (new { limit := limit, levels := levels }) ops = .ok r) (hr : ROp.reduce ∉ ops)
    (hp : pending ops = (upTo n).map fun v => .one v count) (hw : lossy = n * max count 1 - limit) :
    fullCheck exactEnv limit levels n count lossy (mean (upTo n)) r = true := by
  have hlen : (upTo n).length = n := by simp [upTo]
  have hlim : limit ≤ n := le_trans (Nat.le_mul_of_pos_right _ hl) hle
  obtain ⟨h1, h2, h3, h4, h5, h6, d, r', ed, h7, h8, h9, h10, h11, h12⟩ :=
    upTo_summary limit levels n hl hn hN ops r h hr (by rw [hp]; simp [allValues, List.flatMap_map, AddArg.values])
      (by rw [hp]; simp [allExtremes, List.flatMap_map, AddArg.values, AddArg.extremes])
  have hc : sumCount (pending ops) = n * count := by
    rw [hp]; simp [sumCount, List.map_map, Function.comp_def, AddArg.count, hlen]
  have hs : sumWeight (pending ops) = n * max count 1 := by
    rw [hp]; simp [sumWeight, List.map_map, Function.comp_def, AddArg.weight, AddArg.count, AddArg.values, hlen]
  rw [hc] at h3 h9
  rw [hs, min_eq_left hlim, ← hw] at h4 h10
  rw [min_eq_left hle] at h1
  rw [min_eq_left hlim] at h12
  simp [fullCheck, ed, h1, h2.2 hle, h3, h4, h5, h6, h7, h8, h9, h10, h11, h12]

/-- `filled_reducer` holds for all parameters. -/
theorem filledReducer_all (limit levels : Nat) (hl : 1 ≤ levels) (hi : 1 ≤ limit)
    (hN : (2 * levels * limit : Nat) ≤ I64max) : filledReducer exactEnv limit levels = true := by
  have hle : limit * levels ≤ 2 * levels * limit := by
    rw [Nat.mul_assoc, Nat.mul_comm limit]; omega
  have h1 : 1 ≤ limit * levels := Nat.mul_pos hi hl
  have hlen : ∀ n, (upTo n).length = n := by simp [upTo]
  have hn : 1 ≤ 2 * levels * limit := by omega
  have e1 := run_adds exactEnv (fun v => .one v 2) (upTo (2 * levels * limit)) (new { limit := limit, levels := levels })
  have p1 := pending_adds (fun v => .one v 2) (upTo (2 * levels * limit))
  unfold filledReducer
  simp only
  generalize (upTo (2 * levels * limit)).foldl (fun r v => r.add exactEnv (.one v 2))
    (new { limit := limit, levels := levels }) = r at e1 ⊢
  have f1 := fullCheck_all limit levels _ 2 (2 * levels * limit * 2 - limit) hl hle hn hN _ r e1 (by simp) p1 rfl
  have hnr : ROp.reduce ∉ (upTo (2 * levels * limit)).map (fun v => ROp.add (.one v 2)) := by simp
  generalize (upTo (2 * levels * limit)).map (fun v => ROp.add (.one v 2)) = ops at e1 p1 hnr
  obtain ⟨o, r', ed⟩ := detach_total exBounds64 (goodA_run e1) (by
    rw [p1]
    intro v hv
    simp only [allValues, List.flatMap_map, AddArg.values, upTo, List.mem_flatMap, List.mem_range, List.mem_singleton] at hv
    obtain ⟨i, h, rfl⟩ := hv
    unfold I64min
    omega)
  have hr1 : left exactEnv r = r' := by unfold left; rw [ed]
  have e2 : run exactEnv (new { limit := limit, levels := levels }) (ops ++ [.detach, .clear]) = .ok r'.clear := by
    unfold run at e1 ⊢
    rw [List.foldlM_append, e1]
    show (step exactEnv r .detach >>= fun r => step exactEnv r .clear >>= fun r => pure r) = _
    simp only [step, ed]
    rfl
  have hr2 : left exactEnv r'.clear = r'.clear := rfl
  have hcl : clearedCheck exactEnv r'.clear = true := by
    have ho := (goodA_run e2).opt_eq
    have h3 : r'.clear.opt.levels = levels ∧ r'.clear.opt.limit = limit := by
      rw [ho]; unfold new; split_ifs <;> exact ⟨rfl, rfl⟩
    have hf : r'.clear.filled = false := by
      have h4 : ¬ (r'.clear.opt.levels = 0 ∨ r'.clear.opt.limit = 0) := by rw [h3.1, h3.2]; omega
      unfold filled
      rw [if_neg h4]
      rfl
    unfold clearedCheck
    rw [hf]
    rfl
  have e3 : run exactEnv (new { limit := limit, levels := levels })
      (ops ++ [.detach, .clear] ++ (upTo (2 * levels * limit)).map fun v => .add (.one v 0)) =
      .ok ((upTo (2 * levels * limit)).foldl (fun r v => r.add exactEnv (.one v 0)) r'.clear) := by
    rw [← run_adds exactEnv (fun v => .one v 0)]
    unfold run at e2 ⊢
    rw [List.foldlM_append, e2]
    rfl
  have p3 : pending (ops ++ [.detach, .clear] ++ (upTo (2 * levels * limit)).map fun v => .add (.one v 0)) =
      (upTo (2 * levels * limit)).map fun v => .one v 0 := by
    rw [← pending_adds]
    unfold pending
    rw [List.foldl_append, List.foldl_append]
    rfl
  have f3 := fullCheck_all limit levels _ 0 (2 * levels * limit - limit) hl hle hn hN _ _ e3 (by simp [hnr]) p3 (by simp)
  have hf0 : (new { limit := limit, levels := levels }).filled = false := by
    rw [← Bool.not_eq_true, C96_filled exactEnv _ [] _ rfl, C96_size exactEnv _ [] _ (by simp) rfl]
    simp only [pending, List.foldl_nil, allValues, List.flatMap_nil, List.length_nil]
    omega
  rw [hr1, hr2, hf0, f1, hcl, f3]
  rfl

/-- `array_reducer` holds for all parameters. -/
theorem arrayReducer_all (limit levels size : Nat) (hl : 1 ≤ levels) (hs : 1 ≤ size) (hN : (size : Int) ≤ I64max) :
    arrayReducer exactEnv limit levels size = true := by
  have hlen : (upTo size).length = size := by simp [upTo]
  obtain ⟨h1, h2, h3, h4, h5, h6, d, r', ed, h7, h8, h9, h10, h11, h12⟩ :=
    upTo_summary limit levels size hl hs hN [.add (.many (upTo size) size)]
      ((new { limit := limit, levels := levels }).add exactEnv (.many (upTo size) size)) rfl (by simp)
      (by simp [pending, pendStep, allValues, AddArg.values])
      (by simp [pending, pendStep, allExtremes, AddArg.values, AddArg.extremes])
  have hc : sumCount (pending [.add (.many (upTo size) size)]) = size := by simp [pending, pendStep, sumCount, AddArg.count]
  have hw : sumWeight (pending [.add (.many (upTo size) size)]) = size := by
    simp [pending, pendStep, sumWeight, AddArg.weight, AddArg.count, AddArg.values, hlen]
  rw [hc] at h3 h9
  rw [hw] at h4 h10
  unfold arrayReducer
  simp only [ed, h1, h3, h4, h5, h6, h7, h8, h9, h10, h11, h12, Bool.and_eq_true, beq_iff_eq]
  refine ⟨⟨⟨⟨⟨⟨?_, trivial⟩, trivial⟩, by omega⟩, trivial⟩, trivial⟩,
    ⟨⟨⟨⟨trivial, trivial⟩, trivial⟩, by omega⟩, trivial⟩, by omega⟩
  rw [Bool.eq_iff_iff, h2]
  simp

/-- `nf_reducer_4_8_2`; with exact arithmetic also `nf_reducer_43_29_13`, `nf_reducer_29_43_1`, `nf_reducer_1600_2_1500`. -/
example : nonFilledReducer doubleEnv 4 8 2 = true := by decide +kernel
example : nonFilledReducer exactEnv 43 29 13 = true ∧ nonFilledReducer exactEnv 29 43 1 = true ∧
    nonFilledReducer exactEnv 1600 2 1500 = true :=
  ⟨nonFilledReducer_all _ _ _ (by decide) (by decide) (by decide) (by decide),
    nonFilledReducer_all _ _ _ (by decide) (by decide) (by decide) (by decide),
    nonFilledReducer_all _ _ _ (by decide) (by decide) (by decide) (by decide)⟩

/-- `array_reducer_1_2_3`, `array_reducer_43_29_13`; with exact arithmetic also `array_reducer_1_2_144`,
`array_reducer_33_11_1333`. -/
example : arrayReducer doubleEnv 1 2 3 = true ∧ arrayReducer doubleEnv 43 29 13 = true := by decide +kernel
example : arrayReducer exactEnv 1 2 144 = true ∧ arrayReducer exactEnv 33 11 1333 = true :=
  ⟨arrayReducer_all _ _ _ (by decide) (by decide) (by decide), arrayReducer_all _ _ _ (by decide) (by decide) (by decide)⟩

end Suite
end Wrtstat
