/-
The running average in `double` arithmetic.
-/
import Verif.Lemmas.Double
import Verif.Lemmas.Detach

namespace Wrtstat

set_option autoImplicit false

/-- Relative error of a rounding. -/
theorem double_err (x : Rat) : |double x - x| ≤ |x| / 2 ^ 53 := by
  have pos : ∀ x : Rat, 0 < x → |double x - x| ≤ x / 2 ^ 53 := by
    intro x hx
    obtain ⟨h1, -⟩ := log_spec hx
    have hp := two_zpow_pos (lastBit x)
    have hd : double x - x = (nearestEven (x / 2 ^ lastBit x) - x / 2 ^ lastBit x) * 2 ^ lastBit x := by
      unfold double
      rw [sub_mul, div_mul_cancel₀ _ hp.ne']
    rw [hd, abs_mul, abs_of_pos hp]
    have h2 := mul_le_mul_of_nonneg_right (nearestEven_dist (x / 2 ^ lastBit x)) hp.le
    have e1 := zpow_split (Int.log 2 x)
    have e2 : lastBit x = Int.log 2 x - 52 := by unfold lastBit; rw [abs_of_pos hx]
    rw [e2] at h2 ⊢
    rw [e1] at h1
    rw [le_div_iff₀ (by norm_num)]
    calc _ ≤ 1 / 2 * 2 ^ (Int.log 2 x - 52) * 2 ^ 53 := mul_le_mul_of_nonneg_right h2 (by norm_num)
      _ = 2 ^ (52 : Nat) * 2 ^ (Int.log 2 x - 52) := by ring
      _ ≤ x := h1
  rcases lt_trichotomy 0 x with hx | rfl | hx
  · rw [abs_of_pos hx]; exact pos x hx
  · simp [double_zero]
  · have := pos (-x) (by linarith)
    rw [double_neg, show -double x - -x = -(double x - x) by ring, abs_neg] at this
    rwa [abs_of_neg hx]

namespace Reducer

theorem err_arith {u V N : Rat} (hu0 : 0 ≤ u) (hu1 : u ≤ 1 / 1000) (hV : 0 ≤ V) (hN : 1 ≤ N) :
    u * (2 * V * (1 + u)) ≤ u * V * (201 / 100) ∧ u * (2 * V * (1 + u) * (1 + u)) ≤ u * V * (202 / 100) ∧
      u * (N * (V * (1 + u)) + u * (2 * V * (1 + u)) + u * (2 * V * (1 + u) * (1 + u))) ≤ u * V * (2 * N) := by
  have huV : 0 ≤ u * V := mul_nonneg hu0 hV
  have p1 : (1 + u) * (1 + u) ≤ 101 / 100 := by nlinarith
  have b1 : u * (2 * V * (1 + u)) ≤ u * V * (201 / 100) := by
    calc _ = u * V * (2 * (1 + u)) := by ring
      _ ≤ _ := mul_le_mul_of_nonneg_left (by linarith) huV
  have b2 : u * (2 * V * (1 + u) * (1 + u)) ≤ u * V * (202 / 100) := by
    calc _ = u * V * (2 * ((1 + u) * (1 + u))) := by ring
      _ ≤ _ := mul_le_mul_of_nonneg_left (by linarith) huV
  refine ⟨b1, b2, ?_⟩
  have hVN : V ≤ N * V := by nlinarith
  have c2 : N * (V * (1 + u)) ≤ N * V * (101 / 100) := by
    calc _ = N * V * (1 + u) := by ring
      _ ≤ _ := mul_le_mul_of_nonneg_left (by linarith) (hV.trans hVN)
  have c3 : u * V ≤ 1 / 1000 * V := mul_le_mul_of_nonneg_right hu1 hV
  have c4 : N * (V * (1 + u)) + u * (2 * V * (1 + u)) + u * (2 * V * (1 + u) * (1 + u)) ≤ V * (2 * N) := by linarith
  calc _ ≤ u * (V * (2 * N)) := mul_le_mul_of_nonneg_left c4 hu0
    _ = _ := by ring

/-- The error made by one step. -/
theorem avgStep_err {env : Env} (he : env.rnd = double) {a V : Rat} {n : Nat} {v : Int} (hn : n + 1 ≤ 2 ^ 53)
    (hv : |(v : Rat)| ≤ V) (ha : |a| ≤ V * (1 + 1 / 2 ^ 53)) :
    |((n : Rat) + 1) * avgStep env a n v - (n * a + v)| ≤ V * (6 + 2 * (n + 1)) / 2 ^ 53 := by
  have hV : 0 ≤ V := (abs_nonneg _).trans hv
  have hN : (0 : Rat) < (n : Rat) + 1 := by positivity
  have hn1 : double ((n : Rat) + 1) = (n : Rat) + 1 := by
    have := double_laws.ints ((n : Int) + 1) (by rw [abs_of_nonneg (by omega)]; exact_mod_cast hn)
    exact_mod_cast this
  unfold avgStep
  rw [he, hn1]
  obtain ⟨u, hu⟩ : ∃ u : Rat, u = 1 / 2 ^ 53 := ⟨_, rfl⟩
  have hu0 : 0 < u := by rw [hu]; positivity
  have hu1 : u ≤ 1 / 1000 := by rw [hu]; norm_num
  have err : ∀ x : Rat, |double x - x| ≤ u * |x| := fun x => by
    have := double_err x
    rw [hu]
    calc _ ≤ _ := this
      _ = _ := by ring
  rw [← hu] at ha
  have hgoal : V * (6 + 2 * ((n : Rat) + 1)) / 2 ^ 53 = u * V * (6 + 2 * (n + 1)) := by rw [hu]; ring
  rw [hgoal]
  generalize hN1 : (n : Rat) + 1 = N at *
  have hnN : (n : Rat) = N - 1 := by linarith
  have hNge : 1 ≤ N := by rw [← hN1]; have : (0 : Rat) ≤ n := by positivity
                          linarith
  rw [hnN]
  obtain ⟨rv, hrv⟩ : ∃ rv, rv = double (v : Rat) := ⟨_, rfl⟩
  obtain ⟨x1, hx1⟩ : ∃ x1, x1 = double (rv - a) := ⟨_, rfl⟩
  obtain ⟨x2, hx2⟩ : ∃ x2, x2 = double (x1 / N) := ⟨_, rfl⟩
  obtain ⟨x3, hx3⟩ : ∃ x3, x3 = double (a + x2) := ⟨_, rfl⟩
  have g0 := err v
  have g1 := err (rv - a)
  have g2 := err (x1 / N)
  have g3 := err (a + x2)
  rw [← hrv, ← hx1, ← hx2, ← hx3]
  rw [← hrv] at g0
  rw [← hx1] at g1
  rw [← hx2, abs_div, abs_of_pos hN] at g2
  rw [← hx3] at g3
  -- sizes
  have s0 : |rv - v| ≤ u * V := g0.trans (mul_le_mul_of_nonneg_left hv hu0.le)
  have s1 : |rv| ≤ V * (1 + u) := by
    have := abs_add_le (rv - v) (v : Rat)
    rw [sub_add_cancel] at this
    nlinarith
  have s2 : |rv - a| ≤ 2 * V * (1 + u) := by
    have := abs_sub rv a
    linarith
  have s3 : |x1 - (rv - a)| ≤ u * (2 * V * (1 + u)) := g1.trans (mul_le_mul_of_nonneg_left s2 hu0.le)
  have s4 : |x1| ≤ 2 * V * (1 + u) * (1 + u) := by
    have := abs_add_le (x1 - (rv - a)) (rv - a)
    rw [sub_add_cancel] at this
    linarith
  have s5 : N * |x2 - x1 / N| ≤ u * (2 * V * (1 + u) * (1 + u)) := by
    have h := mul_le_mul_of_nonneg_left g2 hN.le
    have h' : N * (u * (|x1| / N)) = u * |x1| := by field_simp
    rw [h'] at h
    exact h.trans (mul_le_mul_of_nonneg_left s4 hu0.le)
  have hmix : |N * a + (rv - a)| ≤ N * (V * (1 + u)) := by
    have e : N * a + (rv - a) = (N - 1) * a + rv := by ring
    rw [e]
    have h := abs_add_le ((N - 1) * a) rv
    rw [abs_mul, abs_of_nonneg (by linarith : (0 : Rat) ≤ N - 1)] at h
    have := mul_le_mul_of_nonneg_left ha (by linarith : (0 : Rat) ≤ N - 1)
    nlinarith
  have s6 : N * |a + x2| ≤ N * (V * (1 + u)) + u * (2 * V * (1 + u)) + u * (2 * V * (1 + u) * (1 + u)) := by
    have e : N * (a + x2) = (N * a + (rv - a)) + (x1 - (rv - a)) + N * (x2 - x1 / N) := by
      field_simp
      ring
    have h1 : N * |a + x2| = |N * (a + x2)| := by rw [abs_mul, abs_of_pos hN]
    rw [h1, e]
    have h2 := abs_add_le ((N * a + (rv - a)) + (x1 - (rv - a))) (N * (x2 - x1 / N))
    have h3 := abs_add_le (N * a + (rv - a)) (x1 - (rv - a))
    have h4 : |N * (x2 - x1 / N)| = N * |x2 - x1 / N| := by rw [abs_mul, abs_of_pos hN]
    linarith
  have s7 : N * |x3 - (a + x2)| ≤ u * (N * (V * (1 + u)) + u * (2 * V * (1 + u)) + u * (2 * V * (1 + u) * (1 + u))) := by
    have h := mul_le_mul_of_nonneg_left g3 hN.le
    have h' : N * (u * |a + x2|) = u * (N * |a + x2|) := by ring
    rw [h'] at h
    exact h.trans (mul_le_mul_of_nonneg_left s6 hu0.le)
  have e : N * x3 - ((N - 1) * a + v) = (rv - v) + (x1 - (rv - a)) + N * (x2 - x1 / N) + N * (x3 - (a + x2)) := by
    field_simp
    ring
  rw [e]
  have t1 := abs_add_le ((rv - v) + (x1 - (rv - a)) + N * (x2 - x1 / N)) (N * (x3 - (a + x2)))
  have t2 := abs_add_le ((rv - v) + (x1 - (rv - a))) (N * (x2 - x1 / N))
  have t3 := abs_add_le (rv - v) (x1 - (rv - a))
  have t4 : |N * (x2 - x1 / N)| = N * |x2 - x1 / N| := by rw [abs_mul, abs_of_pos hN]
  have t5 : |N * (x3 - (a + x2))| = N * |x3 - (a + x2)| := by rw [abs_mul, abs_of_pos hN]
  have huV : 0 ≤ u * V := mul_nonneg hu0.le hV
  obtain ⟨b1, b2, b3⟩ := err_arith hu0.le hu1 hV hNge
  linarith

/-- The average of `n` values of size at most `V` is off by at most `V * (n + 7) / 2^53`. -/
theorem avgFold_err {env : Env} (he : env.rnd = double) (V : Int) (vs : List Int) (hn : vs.length ≤ 2 ^ 53)
    (hv : ∀ v ∈ vs, |v| ≤ V) :
    |(vs.length : Rat) * (avgFold env vs).1 - vs.sum| ≤ V * (vs.length * (vs.length + 7)) / 2 ^ 53 := by
  induction vs using List.reverseRecOn with
  | nil => simp [avgFold]
  | append_singleton l v ih =>
    have ih := ih (by simp at hn; omega) fun v h => hv v (by simp [h])
    have hvv : |(v : Rat)| ≤ V := by exact_mod_cast hv v (by simp)
    have hVn : (0 : Rat) ≤ V := (abs_nonneg _).trans hvv
    have ha : |(avgFold env l).1| ≤ V * (1 + 1 / 2 ^ 53) := by
      by_cases hl : l = []
      · subst hl
        simp only [avgFold, List.foldl_nil, abs_zero]
        positivity
      · have L : FPLaws env.rnd := by rw [he]; exact double_laws
        obtain ⟨-, h1, h2⟩ := avgFold_range L l hl (-V) V
          (fun v h => (abs_le.1 (hv v (by simp [h]))).1) (fun v h => (abs_le.1 (hv v (by simp [h]))).2)
        rw [he] at h1 h2
        have h3 := abs_le.1 (double_err V)
        rw [abs_of_nonneg hVn] at h3
        rw [Int.cast_neg, double_neg] at h1
        rw [abs_le]
        constructor <;> linarith [h3.2]
    have hs := avgStep_err he (n := l.length) (by simpa using hn) hvv ha
    rw [avgFold_concat]
    simp only [List.length_append, List.length_singleton, List.sum_append, List.sum_cons, List.sum_nil]
    push_cast
    have t := abs_add_le (((l.length : Rat) + 1) * avgStep env (avgFold env l).1 l.length v - (l.length * (avgFold env l).1 + v))
      (l.length * (avgFold env l).1 - l.sum)
    rw [show ((l.length : Rat) + 1) * avgStep env (avgFold env l).1 l.length v - (l.length * (avgFold env l).1 + v) +
      (l.length * (avgFold env l).1 - l.sum) = ((l.length : Rat) + 1) * avgStep env (avgFold env l).1 l.length v - (l.sum + (v + 0)) by ring] at t
    refine t.trans ((add_le_add hs ih).trans (le_of_eq ?_))
    ring

end Reducer
end Wrtstat
