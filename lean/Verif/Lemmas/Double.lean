/-
Rounding to `double` has the laws assumed of it.
-/
import Verif.Spec.Double
import Mathlib.Tactic.Linarith
import Mathlib.Tactic.Positivity
import Mathlib.Tactic.NormNum
import Mathlib.Tactic.FieldSimp
import Mathlib.Tactic.Ring

namespace Wrtstat

set_option autoImplicit false

theorem nearestEven_int (z : Int) : nearestEven z = z := by
  unfold nearestEven
  rw [Int.floor_intCast, if_pos (by norm_num)]

/-- The rounded value is within a half. -/
theorem nearestEven_dist (q : Rat) : |(nearestEven q : Rat) - q| ≤ 1 / 2 := by
  have h1 := Int.floor_le q
  have h2 := Int.lt_floor_add_one q
  unfold nearestEven
  rw [abs_le]
  split_ifs <;> push_cast <;> constructor <;> linarith

theorem nearestEven_mono {p q : Rat} (h : p ≤ q) : nearestEven p ≤ nearestEven q := by
  rcases Int.lt_or_eq_of_le (Int.floor_le_floor h) with hf | hf
  · have a : nearestEven p ≤ ⌊p⌋ + 1 := by unfold nearestEven; split_ifs <;> omega
    have b : ⌊q⌋ ≤ nearestEven q := by unfold nearestEven; split_ifs <;> omega
    omega
  · unfold nearestEven
    rw [hf]
    split_ifs <;> first | omega | linarith

theorem nearestEven_neg (q : Rat) : nearestEven (-q) = -nearestEven q := by
  by_cases hz : q = ⌊q⌋
  · rw [hz, ← Int.cast_neg, nearestEven_int, nearestEven_int]
  · have h1 := Int.floor_le q
    have h2 := Int.lt_floor_add_one q
    have h3 : (⌊q⌋ : Rat) < q := lt_of_le_of_ne h1 (Ne.symm hz)
    have hf : ⌊-q⌋ = -⌊q⌋ - 1 := by
      rw [Int.floor_eq_iff]
      push_cast
      constructor <;> linarith
    unfold nearestEven
    rw [hf]
    push_cast
    split_ifs <;> first | omega | (exfalso; linarith)

theorem two_zpow_pos (e : Int) : (0 : Rat) < 2 ^ e := zpow_pos (by norm_num) e

/-- The exponent of a number between powers of two. -/
theorem log_eq {x : Rat} {e : Int} (h1 : (2 : Rat) ^ e ≤ x) (h2 : x < 2 ^ (e + 1)) : Int.log 2 x = e := by
  have hx : 0 < x := lt_of_lt_of_le (two_zpow_pos e) h1
  have a := (Int.zpow_le_iff_le_log (b := 2) (by norm_num) hx).1 (by exact_mod_cast h1)
  have b := (Int.lt_zpow_iff_log_lt (b := 2) (by norm_num) hx).1 (by exact_mod_cast h2)
  omega

theorem log_spec {x : Rat} (hx : 0 < x) : (2 : Rat) ^ Int.log 2 x ≤ x ∧ x < 2 ^ (Int.log 2 x + 1) := by
  constructor
  · exact_mod_cast Int.zpow_log_le_self (b := 2) (by norm_num) hx
  · exact_mod_cast Int.lt_zpow_succ_log_self (b := 2) (by norm_num) x

theorem double_zero : double 0 = 0 := by
  unfold double
  rw [zero_div, show (0 : Rat) = ((0 : Int) : Rat) by norm_num, nearestEven_int]
  simp

theorem double_neg (x : Rat) : double (-x) = -double x := by
  unfold double lastBit
  rw [abs_neg, neg_div, nearestEven_neg]
  push_cast
  ring

theorem zpow_split (e : Int) : (2 : Rat) ^ e = 2 ^ (52 : Nat) * 2 ^ (e - 52) := by
  rw [← zpow_natCast (2 : Rat) 52, ← zpow_add₀ (by norm_num)]
  congr 1
  push_cast
  ring

/-- Where a positive number is rounded to. -/
theorem double_between {x : Rat} (hx : 0 < x) : (2 : Rat) ^ Int.log 2 x ≤ double x ∧ double x ≤ 2 ^ (Int.log 2 x + 1) := by
  obtain ⟨h1, h2⟩ := log_spec hx
  unfold double lastBit
  rw [abs_of_pos hx]
  have hp := two_zpow_pos (Int.log 2 x - 52)
  have e1 := zpow_split (Int.log 2 x)
  have e2 : (2 : Rat) ^ (Int.log 2 x + 1) = 2 ^ (53 : Nat) * 2 ^ (Int.log 2 x - 52) := by
    rw [zpow_add_one₀ (by norm_num), e1]; ring
  have a : ((2 ^ 52 : Int) : Rat) ≤ x / 2 ^ (Int.log 2 x - 52) := by
    rw [le_div_iff₀ hp, show ((2 ^ 52 : Int) : Rat) = 2 ^ (52 : Nat) by norm_num, ← e1]; exact h1
  have b : x / 2 ^ (Int.log 2 x - 52) ≤ ((2 ^ 53 : Int) : Rat) := by
    rw [div_le_iff₀ hp, show ((2 ^ 53 : Int) : Rat) = 2 ^ (53 : Nat) by norm_num, ← e2]; exact h2.le
  have a' := nearestEven_mono a
  have b' := nearestEven_mono b
  rw [nearestEven_int] at a' b'
  rw [e1, e2]
  constructor
  · exact mul_le_mul_of_nonneg_right (by exact_mod_cast a') hp.le
  · exact mul_le_mul_of_nonneg_right (by exact_mod_cast b') hp.le

theorem double_nonneg {x : Rat} (hx : 0 ≤ x) : 0 ≤ double x := by
  rcases eq_or_lt_of_le hx with rfl | h
  · rw [double_zero]
  · exact (two_zpow_pos _).le.trans (double_between h).1

theorem double_mono_pos {x y : Rat} (hx : 0 < x) (h : x ≤ y) : double x ≤ double y := by
  have hy := lt_of_lt_of_le hx h
  have hl := Int.log_mono_right (b := 2) hx h
  rcases Int.lt_or_eq_of_le hl with hlt | heq
  · refine (double_between hx).2.trans (le_trans ?_ (double_between hy).1)
    exact zpow_le_zpow_right₀ (by norm_num) (by omega)
  · unfold double lastBit
    rw [abs_of_pos hx, abs_of_pos hy, heq]
    have hp := two_zpow_pos (Int.log 2 y - 52)
    refine mul_le_mul_of_nonneg_right ?_ hp.le
    exact_mod_cast nearestEven_mono (div_le_div_of_nonneg_right h hp.le)

theorem double_mono {x y : Rat} (h : x ≤ y) : double x ≤ double y := by
  rcases lt_trichotomy 0 x with hx | rfl | hx
  · exact double_mono_pos hx h
  · rw [double_zero]; exact double_nonneg h
  · rcases lt_or_ge y 0 with hy | hy
    · have := double_mono_pos (x := -y) (y := -x) (by linarith) (by linarith)
      rw [double_neg, double_neg] at this
      linarith
    · have h1 := double_nonneg (x := -x) (by linarith)
      rw [double_neg] at h1
      have h2 := double_nonneg hy
      linarith

/-- Numbers of at most 53 bits are exact. -/
theorem double_exact_pos {m : Int} (e : Int) (h0 : 0 < m) (h : m ≤ 2 ^ 53) : double (m * 2 ^ e) = m * 2 ^ e := by
  have hx : (0 : Rat) < m * 2 ^ e := mul_pos (by exact_mod_cast h0) (two_zpow_pos e)
  obtain ⟨h1, h2⟩ := log_spec hx
  generalize hL : Int.log 2 ((m : Rat) * 2 ^ e) = L at h1 h2
  have key : double (m * 2 ^ e) = nearestEven (m * 2 ^ e / 2 ^ (L - 52)) * 2 ^ (L - 52) := by
    unfold double lastBit
    rw [abs_of_pos hx, hL]
  have hq : (m : Rat) * 2 ^ e / 2 ^ (L - 52) = m * 2 ^ (e - (L - 52)) := by
    rw [mul_div_assoc, ← zpow_sub₀ (by norm_num)]
  by_cases hle : L - 52 ≤ e
  · obtain ⟨n, hn⟩ := Int.eq_ofNat_of_zero_le (show 0 ≤ e - (L - 52) by omega)
    have : (m : Rat) * 2 ^ e / 2 ^ (L - 52) = ((m * 2 ^ n : Int) : Rat) := by
      rw [hq, hn]; push_cast; rw [zpow_natCast]
    rw [key, this, nearestEven_int, ← this, div_mul_cancel₀]
    exact (two_zpow_pos _).ne'
  · have hm : (m : Rat) ≤ 2 ^ (53 : Nat) := by exact_mod_cast h
    have h3 : (m : Rat) * 2 ^ e ≤ 2 ^ (53 : Nat) * 2 ^ e := mul_le_mul_of_nonneg_right hm (two_zpow_pos e).le
    rw [← zpow_natCast (2 : Rat) 53, ← zpow_add₀ (by norm_num)] at h3
    have h4 : (2 : Rat) ^ L ≤ 2 ^ ((53 : Nat) + e : Int) := h1.trans h3
    have h5 := (zpow_le_zpow_iff_right₀ (by norm_num : (1 : Rat) < 2)).1 h4
    have h6 : L = 53 + e := by push_cast at h5; omega
    rw [h6] at h1
    rw [zpow_add₀ (by norm_num)] at h1
    have h7 : (m : Rat) = 2 ^ (53 : Nat) := by
      refine le_antisymm hm ?_
      have := le_of_mul_le_mul_right h1 (two_zpow_pos e)
      exact_mod_cast this
    have h8 : (m : Rat) * 2 ^ e / 2 ^ (L - 52) = ((2 ^ 52 : Int) : Rat) := by
      rw [hq, h6, h7, show e - (53 + e - 52) = -1 by ring]
      norm_num
    rw [key, h8, nearestEven_int, ← h8, div_mul_cancel₀]
    exact (two_zpow_pos _).ne'

theorem double_exact {m : Int} (e : Int) (h : |m| ≤ 2 ^ 53) : double (m * 2 ^ e) = m * 2 ^ e := by
  rcases lt_trichotomy 0 m with h0 | rfl | h0
  · exact double_exact_pos e h0 (by rwa [abs_of_pos h0] at h)
  · simp [double_zero]
  · have := double_exact_pos (m := -m) e (by omega) (by rwa [abs_of_neg h0] at h)
    rw [Int.cast_neg, neg_mul, double_neg] at this
    linarith

/-- Every rounded number has at most 53 bits. -/
theorem double_form (x : Rat) : ∃ (m e : Int), |m| ≤ 2 ^ 53 ∧ double x = m * 2 ^ e := by
  have pos : ∀ x : Rat, 0 < x → ∃ (m e : Int), |m| ≤ 2 ^ 53 ∧ double x = m * 2 ^ e := by
    intro x hx
    refine ⟨nearestEven (x / 2 ^ lastBit x), lastBit x, ?_, rfl⟩
    have h := (double_between hx).2
    have h0 := double_nonneg hx.le
    have e2 : (2 : Rat) ^ (Int.log 2 x + 1) = 2 ^ (53 : Nat) * 2 ^ (lastBit x) := by
      unfold lastBit
      rw [abs_of_pos hx, zpow_add_one₀ (by norm_num), zpow_split]; ring
    rw [e2] at h
    unfold double at h h0
    have a := le_of_mul_le_mul_right h (two_zpow_pos _)
    have b := nonneg_of_mul_nonneg_left h0 (two_zpow_pos _)
    have a' : nearestEven (x / 2 ^ lastBit x) ≤ 2 ^ 53 := by exact_mod_cast a
    have b' : 0 ≤ nearestEven (x / 2 ^ lastBit x) := by exact_mod_cast b
    rwa [abs_of_nonneg b']
  rcases lt_trichotomy 0 x with hx | rfl | hx
  · exact pos x hx
  · exact ⟨0, 0, by norm_num, by simp [double_zero]⟩
  · obtain ⟨m, e, h1, h2⟩ := pos (-x) (by linarith)
    refine ⟨-m, e, by rwa [abs_neg], ?_⟩
    rw [double_neg] at h2
    push_cast
    linarith

/-- The laws. -/
theorem double_laws : FPLaws double where
  mono _ _ h := double_mono h
  idem x := by
    obtain ⟨m, e, h1, h2⟩ := double_form x
    rw [h2, double_exact e h1]
  neg := double_neg
  ints z h := by
    have := double_exact (m := z) 0 h
    simpa using this
  half x hx := by
    obtain ⟨m, e, h1, h2⟩ := double_form x
    have h3 : double x / 2 = m * 2 ^ (e - 1) := by
      rw [h2, zpow_sub_one₀ (by norm_num)]
      ring
    rw [h3, double_exact _ h1, ← h3]
    rcases eq_or_lt_of_le hx with rfl | hpos
    · simp [double_zero]
    · obtain ⟨g1, -⟩ := log_spec hpos
      have := (double_between hpos).2
      rw [zpow_add_one₀ (by norm_num)] at this
      linarith

end Wrtstat
