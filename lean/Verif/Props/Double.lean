/-
C06 and C07 with the arithmetic of `double`.
-/
import Verif.Lemmas.DoubleAvg
import Verif.Props.Reducer

namespace Wrtstat
namespace Reducer

set_option autoImplicit false

/-- The platform with IEEE 754 arithmetic. -/
def doubleEnv : Env := { nth := .sorting, rnd := double }

/-- The last part of C06 as stated: with any rounding to nearest, `avg` is between the smallest and the largest value. -/
def C06_FullClaim : Prop :=
  ∀ (env : Env) (opt : ReducerOpts) (ops : List ROp) (r r' : Reducer) (d : AggData), FPLaws env.rnd →
    run env (new opt) ops = .ok r → detach env r = .ok (some d, r') → allValues (pending ops) ≠ [] →
    (∃ v ∈ allValues (pending ops), v ≤ d.avg) ∧ ∃ v ∈ allValues (pending ops), d.avg ≤ v

/-- The average of one value is that value rounded. -/
theorem avgFold_one {env : Env} (he : env.rnd = double) (v : Int) : (avgFold env [v]).1 = double v := by
  have h1 : double 1 = 1 := by
    have := double_laws.ints 1 (by norm_num)
    exact_mod_cast this
  show avgStep env 0 0 v = _
  unfold avgStep
  rw [he]
  have h2 : ((0 : Nat) : Rat) + 1 = 1 := by norm_num
  rw [h2, h1, sub_zero, div_one, zero_add, double_laws.idem, double_laws.idem, double_laws.idem]

theorem castInt_int (z : Int) : castInt (z : Rat) = if InI64 z then .ok z else .error .ub := by
  unfold castInt
  simp only [Int.floor_intCast, Int.ceil_intCast, ite_self]

/-- `2^53 + 1` is rounded to `2^53`. -/
theorem double_odd : double ((2 ^ 53 + 1 : Int) : Rat) = ((2 ^ 53 : Int) : Rat) := by
  unfold double lastBit
  have hl : Int.log 2 |((2 ^ 53 + 1 : Int) : Rat)| = 53 := by
    rw [abs_of_pos (by norm_num)]
    exact log_eq (by norm_num) (by norm_num)
  rw [hl]
  have hf : ⌊((2 ^ 53 + 1 : Int) : Rat) / 2 ^ ((53 : Int) - 52)⌋ = 2 ^ 52 := by
    rw [Int.floor_eq_iff]
    norm_num
  unfold nearestEven
  rw [hf]
  norm_num

/-- `2^63 - 1` is rounded to `2^63`. -/
theorem double_max : double (I64max : Rat) = ((2 ^ 63 : Int) : Rat) := by
  unfold double lastBit I64max
  have hl : Int.log 2 |((2 ^ 63 - 1 : Int) : Rat)| = 62 := by
    rw [abs_of_pos (by norm_num)]
    exact log_eq (by norm_num) (by norm_num)
  rw [hl]
  have hf : ⌊((2 ^ 63 - 1 : Int) : Rat) / 2 ^ ((62 : Int) - 52)⌋ = 2 ^ 53 - 1 := by
    rw [Int.floor_eq_iff]
    norm_num
  unfold nearestEven
  rw [hf]
  norm_num

theorem double_bounds (m M : Int) (hm : InI64 m) (hM : InI64 M) (h1 : double m = m) (h2 : double M = M) : Bounds doubleEnv m M :=
  ⟨double_laws, hm, hM, h1, h2⟩

/-- A single value of `2^53 + 1` is reported with the average `2^53`. -/
theorem C06_refuted : ¬ C06_FullClaim := by
  intro hc
  have hrun : run doubleEnv (new { limit := 3, levels := 2 }) [.add (.one (2 ^ 53 + 1) 1)] =
      .ok (Reducer.add doubleEnv (new { limit := 3, levels := 2 }) (.one (2 ^ 53 + 1) 1)) := rfl
  have hg := goodA_run hrun
  have hB : Bounds doubleEnv 0 (2 ^ 53 + 2) := by
    refine double_bounds _ _ (by decide) (by decide) (by simp [double_zero]) ?_
    have := double_exact (m := 2 ^ 52 + 1) 1 (by norm_num)
    push_cast at this ⊢
    norm_num at this ⊢
    exact this
  have hp : pending [.add (.one (2 ^ 53 + 1) 1)] = [.one (2 ^ 53 + 1) 1] := rfl
  obtain ⟨o, r', hd⟩ := detach_total hB hg (by rw [hp]; simp [allValues, AddArg.values])
  rcases detach_spec hg with ⟨h, -⟩ | ⟨-, r1, -, -, -, -, -, -, ⟨a, ha, e⟩ | ⟨-, e⟩⟩
  · rw [hp] at h; cases h
  · obtain ⟨⟨v, hv, hle⟩, -⟩ := hc _ _ _ _ _ _ double_laws hrun e (by rw [hp]; simp [allValues, AddArg.values])
    rw [hp] at hv
    simp only [allValues, AddArg.values, List.flatMap_cons, List.flatMap_nil, List.append_nil, List.mem_singleton] at hv
    subst hv
    have : (avgFold doubleEnv [2 ^ 53 + 1]).1 = ((2 ^ 53 : Int) : Rat) := by
      rw [avgFold_one rfl]; exact double_odd
    rw [hg.good.avg, hp] at ha
    rw [show allValues [.one (2 ^ 53 + 1) 1] = [2 ^ 53 + 1] from rfl, this] at ha
    rw [castInt_int, if_pos (by decide)] at ha
    cases ha
    exact absurd hle (by show ¬ (2 ^ 53 + 1 : Int) ≤ 2 ^ 53; decide)
  · rw [e] at hd; cases hd

/-- A single value of `2^63 - 1`: the average is `2^63`, and converting it to the type of the values is undefined. -/
theorem C06_overflow (opt : ReducerOpts) :
    detach doubleEnv (Reducer.add doubleEnv (new opt) (.one I64max 1)) = .error .ub := by
  have hrun : run doubleEnv (new opt) [.add (.one I64max 1)] = .ok (Reducer.add doubleEnv (new opt) (.one I64max 1)) := rfl
  have hg := goodA_run hrun
  have hp : pending [.add (.one I64max 1)] = [.one I64max 1] := rfl
  rcases detach_spec hg with ⟨h, -⟩ | ⟨-, r1, -, -, -, -, -, -, ⟨a, ha, e⟩ | ⟨-, e⟩⟩
  · rw [hp] at h; cases h
  · rw [hg.good.avg, hp, show allValues [.one I64max 1] = [I64max] from rfl, avgFold_one rfl, double_max] at ha
    rw [castInt_int, if_neg (by decide)] at ha
    cases ha
  · exact e

/-- What holds of the range with `double`: the average is between the smallest and the largest value, both rounded; so
between the values themselves if these are at most `2^53` in size. -/
theorem C06_double_range_partial (env : Env) (he : env.rnd = double) (opt : ReducerOpts) (ops : List ROp) (r r' : Reducer) (d : AggData)
    (h : run env (new opt) ops = .ok r) (hd : detach env r = .ok (some d, r')) (hne : allValues (pending ops) ≠ [])
    (m M : Int) (hv : ∀ v ∈ allValues (pending ops), m ≤ v ∧ v ≤ M) :
    double m - 1 < d.avg ∧ (d.avg : Rat) < double M + 1 ∧ (|m| ≤ 2 ^ 53 → m ≤ d.avg) ∧ (|M| ≤ 2 ^ 53 → d.avg ≤ M) := by
  obtain ⟨_, r1, _, g, hle, _, _, _, _, a, hc, rfl⟩ := detach_some (goodA_run h) hd
  rw [(goodA_run h).good.avg] at hc
  have L : FPLaws env.rnd := by rw [he]; exact double_laws
  obtain ⟨-, h1, h2⟩ := avgFold_range L _ hne m M (fun v h => (hv v h).1) (fun v h => (hv v h).2)
  rw [he] at h1 h2
  show double m - 1 < (a : Rat) ∧ (a : Rat) < double M + 1 ∧ (|m| ≤ 2 ^ 53 → m ≤ a) ∧ (|M| ≤ 2 ^ 53 → a ≤ M)
  unfold castInt at hc
  generalize (avgFold env (allValues (pending ops))).1 = q at *
  have hi := double_laws.ints
  simp only at hc
  split_ifs at hc with hq hin hin <;> cases hc
  · have f1 := Int.floor_le q
    have f2 := Int.lt_floor_add_one q
    refine ⟨by linarith, by linarith, fun hm => ?_, fun hM => ?_⟩
    · rw [hi m hm] at h1; exact Int.le_floor.2 h1
    · rw [hi M hM] at h2; exact_mod_cast f1.trans h2
  · have f1 := Int.le_ceil q
    have f2 := Int.ceil_lt_add_one q
    refine ⟨by linarith, by linarith, fun hm => ?_, fun hM => ?_⟩
    · rw [hi m hm] at h1; exact_mod_cast h1.trans f1
    · rw [hi M hM] at h2; exact Int.ceil_le.2 h2

/-- The average reported with `double` arithmetic differs from the mean of the `n` values, of size at most `V`, by less than
`1 + V * (n + 7) / 2^53`. -/
theorem C06_double_error (env : Env) (he : env.rnd = double) (opt : ReducerOpts) (ops : List ROp) (r r' : Reducer) (d : AggData)
    (h : run env (new opt) ops = .ok r) (hd : detach env r = .ok (some d, r')) (hne : allValues (pending ops) ≠ [])
    (V : Int) (hv : ∀ v ∈ allValues (pending ops), |v| ≤ V) (hn : (allValues (pending ops)).length ≤ 2 ^ 53) :
    |(d.avg : Rat) - (allValues (pending ops)).sum / (allValues (pending ops)).length| <
      1 + V * ((allValues (pending ops)).length + 7) / 2 ^ 53 := by
  obtain ⟨_, r1, _, g, hle, _, _, _, _, a, hc, rfl⟩ := detach_some (goodA_run h) hd
  rw [(goodA_run h).good.avg] at hc
  have hE := avgFold_err he V _ hn hv
  have hpos : (0 : Rat) < (allValues (pending ops)).length := by exact_mod_cast List.length_pos_iff.2 hne
  show |(a : Rat) - _| < _
  unfold castInt at hc
  generalize (avgFold env (allValues (pending ops))).1 = q at *
  generalize ((allValues (pending ops)).length : Rat) = n at *
  generalize ((allValues (pending ops)).sum : Rat) = S at *
  have h1 : |q - S / n| ≤ V * (n + 7) / 2 ^ 53 := by
    have e : q - S / n = (n * q - S) / n := by field_simp
    rw [e, abs_div, abs_of_pos hpos, div_le_iff₀ hpos]
    exact hE.trans (le_of_eq (by ring))
  have h2 : |(a : Rat) - q| < 1 := by
    simp only at hc
    split_ifs at hc with hq hin hin <;> cases hc
    · have f1 := Int.floor_le q
      have f2 := Int.lt_floor_add_one q
      rw [abs_lt]; constructor <;> linarith
    · have f1 := Int.le_ceil q
      have f2 := Int.ceil_lt_add_one q
      rw [abs_lt]; constructor <;> linarith
  have t := abs_add_le ((a : Rat) - q) (q - S / n)
  rw [show (a : Rat) - q + (q - S / n) = (a : Rat) - S / n by ring] at t
  linarith

/-- No operation faults if the values are at most `2^63 - 1024`, the largest `double` of the type. -/
theorem C07_double_no_fault (env : Env) (he : env.rnd = double) (opt : ReducerOpts) (ops : List ROp)
    (hv : ∀ v ∈ opsValues ops, -2 ^ 63 ≤ v ∧ v ≤ 2 ^ 63 - 1024) : ∃ r, run env (new opt) ops = .ok r := by
  refine C07_no_fault env opt ops (-2 ^ 63) (2 ^ 63 - 1024) ⟨by rw [he]; exact double_laws, by decide, by decide, ?_, ?_⟩ hv
  · rw [he]
    have := double_exact (m := -1) 63 (by norm_num)
    norm_num at this ⊢
    exact this
  · rw [he]
    have := double_exact (m := 2 ^ 53 - 1) 10 (by norm_num)
    norm_num at this ⊢
    exact this

/-! ### A run with `double` -/

example : ∃ r r' d, run doubleEnv (new { limit := 3, levels := 2 }) [.add (.many [10, 20, 40] 1)] = .ok r ∧
    detach doubleEnv r = .ok (some d, r') ∧ (d.avg = 23 ∨ d.avg = 24) := by
  have hrun : run doubleEnv (new { limit := 3, levels := 2 }) [.add (.many [10, 20, 40] 1)] =
      .ok (Reducer.add doubleEnv (new { limit := 3, levels := 2 }) (.many [10, 20, 40] 1)) := rfl
  have hg := goodA_run hrun
  have hp : pending [.add (.many [10, 20, 40] 1)] = [.many [10, 20, 40] 1] := rfl
  have hvals : allValues (pending [.add (.many [10, 20, 40] 1)]) = [10, 20, 40] := rfl
  have hB : Bounds doubleEnv 0 64 := double_bounds _ _ (by decide) (by decide) (by simp [double_zero])
    (by exact_mod_cast double_laws.ints 64 (by norm_num))
  obtain ⟨o, r', hd⟩ := detach_total hB hg (by rw [hvals]; decide)
  rcases detach_spec hg with ⟨h, -⟩ | ⟨-, r1, -, -, -, -, -, -, ⟨a, ha, e⟩ | ⟨-, e⟩⟩
  · rw [hp] at h; cases h
  · refine ⟨_, _, _, hrun, e, ?_⟩
    have h1 : |(a : Rat) - _| < _ := C06_double_error doubleEnv rfl _ _ _ _ _ hrun e (by rw [hvals]; simp) 40 (by rw [hvals]; decide)
      (by rw [hvals]; norm_num)
    rw [hvals, abs_lt] at h1
    norm_num at h1
    show a = 23 ∨ a = 24
    obtain ⟨h1, h2⟩ := h1
    have h3 : (22 : Rat) < a := by linarith
    have h4 : (a : Rat) < 25 := by linarith
    have h5 : 22 < a := by exact_mod_cast h3
    have h6 : a < 25 := by exact_mod_cast h4
    omega
  · rw [e] at hd; cases hd

end Reducer
end Wrtstat
