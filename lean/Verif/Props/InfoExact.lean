/-
C63: for which counts the order of the operands does not matter.
-/
import Verif.Props.Info

namespace Wrtstat

set_option autoImplicit false

/-- A summary of `n` events whose two lowest percentiles are `-x`. -/
def lowInfo (n : Nat) (x : Int) : AggInfo :=
  { ts := 1, count := n, lossy := 0, min := 0, max := 0, avg := 0, perc50 := -x, perc80 := -x, perc95 := 0, perc99 := 0, perc100 := 0 }

/-- Two summaries of `n` events. -/
def flatInfo (n : Nat) : AggInfo := { ts := 1, count := n, perc50 := -2, perc80 := -2, perc95 := -2, perc99 := -2, perc100 := -2 }
def steepInfo (n : Nat) : AggInfo := { ts := 1, count := n, perc50 := -3, perc80 := -3, perc95 := -3, perc99 := -2, perc100 := -2 }

theorem lowInfo_ordered (n : Nat) {x : Int} (hx : 0 < x) : (lowInfo n x).toPerc.Ordered := by
  unfold Perc.Ordered lowInfo
  simp only
  omega

theorem sortPairs_split {L l : List (Int × Int)} {p z : Int × Int} {k : Nat} (h : L.Perm (l ++ p :: List.replicate k z)) (h1 : ∀ q ∈ l, pairLe q p) (h2 : pairLe p z) :
    sortPairs L = sortPairs l ++ p :: List.replicate k z := by
  refine List.Perm.eq_of_pairwise' (r := pairLe) (List.pairwise_insertionSort _ _) ?_
    ((List.perm_insertionSort _ L).trans (h.trans ((List.perm_insertionSort pairLe l).symm.append_right _)))
  refine List.pairwise_append.2 ⟨List.pairwise_insertionSort _ _, ?_, ?_⟩
  · refine List.pairwise_cons.2 ⟨fun q hq => ?_, ?_⟩
    · rw [List.eq_of_mem_replicate hq]; exact h2
    · exact List.pairwise_replicate.2 (Or.inr (by unfold pairLe; omega))
  · intro q hq r hr
    have hq' : q ∈ l := ((List.perm_insertionSort pairLe l).mem_iff).1 hq
    rcases List.mem_cons.1 hr with e | e
    · rw [e]; exact h1 q hq'
    · rw [List.eq_of_mem_replicate e]; exact _root_.trans (h1 q hq') h2

theorem weigh_low {n : Nat} {m : Nat} {x : Int} (hn : n < 2 ^ 60) (hx : 0 < x ∧ x ≤ 4) : (lowInfo m x).toPerc.weigh (ofSize n) =
    .ok [(-(x * ((n / 2 : Nat) + 1)), -x), (-(x * ((n / 3 : Nat) + 1)), -x), (0, 0), (0, 0), (0, 0)] := by
  have e2 : ((n : Nat) : Int).tdiv 2 = ((n / 2 : Nat) : Int) := by rw [Int.tdiv_eq_ediv_of_nonneg (by omega)]; rfl
  have e3 : ((n : Nat) : Int).tdiv 3 = ((n / 3 : Nat) : Int) := by rw [Int.tdiv_eq_ediv_of_nonneg (by omega)]; rfl
  have eM : I64max = 9223372036854775807 := by decide
  have em : I64min = -9223372036854775808 := by decide
  have b2 : x * (((n / 2 : Nat) : Int) + 1) ≤ 4 * ((n / 2 : Nat) + 1) := by nlinarith
  have b3 : x * (((n / 3 : Nat) : Int) + 1) ≤ 4 * ((n / 3 : Nat) + 1) := by nlinarith
  have c2 : 0 ≤ x * (((n / 2 : Nat) : Int) + 1) := by nlinarith
  have c3 : 0 ≤ x * (((n / 3 : Nat) : Int) + 1) := by nlinarith
  have z : ckI64 0 = .ok 0 := by decide +kernel
  unfold Perc.weigh
  rw [ofSize_fit (by omega), e2, e3]
  simp only [lowInfo, Int.neg_mul, Int.zero_mul, z]
  rw [ckI64_ok (v := -(x * (((n / 2 : Nat) : Int) + 1))) (by unfold InI64; omega), ckI64_ok (v := -(x * (((n / 3 : Nat) : Int) + 1))) (by unfold InI64; omega)]
  rfl

theorem reduced_low (m n : Nat) (x y : Int) (h : m + n < 2 ^ 60) :
    (lowInfo m x).toReducedInfo.merge (lowInfo n y).toReducedInfo = .ok { ts := 1, count := m + n, lossy := 0, min := 0, max := 0, avg := 0 } := by
  have z : ckI64 0 = .ok 0 := by decide +kernel
  unfold ReducedInfo.merge ReducedInfo.mergeAvg
  simp only [lowInfo, Int.mul_zero, Int.add_zero, z, bind_ok', Int.zero_tdiv, addSize_fit (show m + n < 2 ^ 64 by omega), ite_self]
  rfl

/-- The lowest percentile of the sum is that of the right operand if it weighs less. -/
theorem merge_low (m n : Nat) (x y : Int) (h : m + n < 2 ^ 60) (hx : 0 < x ∧ x ≤ 4) (hy : 0 < y ∧ y ≤ 4)
    (hlt : y * ((n / 3 : Nat) + 1) < x * (((m + n) / 3 : Nat) + 1)) :
    ∃ r, (lowInfo m x).merge (lowInfo n y) = .ok r ∧ r.toPerc.perc50 = -y := by
  have hs : sortPairs ([(-(x * (((m + n) / 2 : Nat) + 1)), -x), (-(x * (((m + n) / 3 : Nat) + 1)), -x), (0, 0), (0, 0), (0, 0)] ++
      [(-(y * ((n / 2 : Nat) + 1)), -y), (-(y * ((n / 3 : Nat) + 1)), -y), (0, 0), (0, 0), (0, 0)]) =
      sortPairs [(-(x * (((m + n) / 2 : Nat) + 1)), -x), (-(x * (((m + n) / 3 : Nat) + 1)), -x), (-(y * ((n / 2 : Nat) + 1)), -y)] ++
        (-(y * ((n / 3 : Nat) + 1)), -y) :: List.replicate 6 (0, 0) := by
    refine sortPairs_split ?_ ?_ ?_
    · rw [List.perm_iff_count]
      intro a
      simp only [List.count_append, List.count_cons, List.count_nil, List.replicate]
      omega
    · have d1 : (((m + n) / 3 : Nat) : Int) ≤ ((m + n) / 2 : Nat) := by omega
      have d2 : ((n / 3 : Nat) : Int) ≤ (n / 2 : Nat) := by omega
      have m1 : x * ((((m + n) / 3 : Nat) : Int) + 1) ≤ x * (((m + n) / 2 : Nat) + 1) := by nlinarith
      have m2 : y * (((n / 3 : Nat) : Int) + 1) ≤ y * ((n / 2 : Nat) + 1) := by nlinarith
      intro q hq
      simp only [List.mem_cons, List.not_mem_nil, or_false] at hq
      unfold pairLe
      rcases hq with rfl | rfl | rfl <;> simp only <;> omega
    · have : 0 < y * (((n / 3 : Nat) : Int) + 1) := by nlinarith
      unfold pairLe
      simp only
      omega
  have hl : (sortPairs [(-(x * (((m + n) / 2 : Nat) + 1)), -x), (-(x * (((m + n) / 3 : Nat) + 1)), -x), (-(y * ((n / 2 : Nat) + 1)), -y)]).length = 3 := by
    rw [sortPairs, List.length_insertionSort]; rfl
  obtain ⟨q1, q2, q3, hq⟩ := List.length_eq_three.1 hl
  rw [hq] at hs
  have hc : ∃ p : Perc, Perc.choose ([(-(x * (((m + n) / 2 : Nat) + 1)), -x), (-(x * (((m + n) / 3 : Nat) + 1)), -x), (0, 0), (0, 0), (0, 0)] ++
      [(-(y * ((n / 2 : Nat) + 1)), -y), (-(y * ((n / 3 : Nat) + 1)), -y), (0, 0), (0, 0), (0, 0)]) = .ok p ∧ p.perc50 = -y := by
    unfold Perc.choose
    simp only [hs]
    obtain ⟨y1, y2⟩ := hy
    have : y = 1 ∨ y = 2 ∨ y = 3 ∨ y = 4 := by omega
    rcases this with rfl | rfl | rfl | rfl <;> exact ⟨_, rfl, rfl⟩
  obtain ⟨p, hp, hp'⟩ := hc
  refine ⟨{ toReducedInfo := { ts := 1, count := m + n, lossy := 0, min := 0, max := 0, avg := 0 }, toPerc := p }, ?_, hp'⟩
  unfold AggInfo.merge
  rw [if_neg (show ¬ (lowInfo m x).ts = 0 from by simp [lowInfo]), reduced_low m n x y h, bind_ok', weigh_low (n := m + n) h hx, bind_ok']
  rw [show ofSize (lowInfo n y).count = ofSize n from rfl, weigh_low (n := n) (by omega) hy, bind_ok', hp, bind_ok']

/-- Short of overflow, the order of the operands does not matter, whatever the percentiles, exactly for summaries of at most one event in all;
also if only percentiles that do not decrease are considered. -/
theorem C63_exact_partial (m n : Nat) (h : m + n < 2 ^ 60) :
    (∀ a v r s : AggInfo, a.ts ≠ 0 → v.ts ≠ 0 → a.count = m → v.count = n → a.toPerc.Ordered → v.toPerc.Ordered →
        a.merge v = .ok r → v.merge a = .ok s → r.toPerc = s.toPerc) ↔ m + n ≤ 1 := by
  constructor
  · intro hall
    by_contra hmn
    have key : ∀ x y : Int, 0 < x ∧ x ≤ 4 → 0 < y ∧ y ≤ 4 → x ≠ y → y * ((n / 3 : Nat) + 1) < x * (((m + n) / 3 : Nat) + 1) →
        x * ((m / 3 : Nat) + 1) < y * (((n + m) / 3 : Nat) + 1) → False := by
      intro x y hx hy hxy h1 h2
      obtain ⟨r, e1, e2⟩ := merge_low m n x y h hx hy h1
      obtain ⟨s, f1, f2⟩ := merge_low n m y x (by omega) hy hx h2
      have := hall (lowInfo m x) (lowInfo n y) r s (by simp [lowInfo]) (by simp [lowInfo]) rfl rfl (lowInfo_ordered m hx.1) (lowInfo_ordered n hy.1) e1 f1
      rw [this, f2] at e2
      omega
    by_cases h3 : 3 ≤ m + n
    · by_cases hm : m ≤ n
      · exact key 4 3 (by omega) (by omega) (by omega) (by omega) (by omega)
      · exact key 3 4 (by omega) (by omega) (by omega) (by omega) (by omega)
    · have two : ∀ a v : AggInfo, a.ts ≠ 0 → v.ts ≠ 0 → a.count = m → v.count = n → a.toPerc.Ordered → v.toPerc.Ordered →
          (match a.merge v, v.merge a with | .ok r, .ok s => decide (r.toPerc ≠ s.toPerc) | _, _ => false) = true → False := by
        intro a v ha hv ea ev oa ov hp
        cases h1 : a.merge v with
        | error e => rw [h1] at hp; simp at hp
        | ok r =>
          cases h2 : v.merge a with
          | error e => rw [h1, h2] at hp; simp at hp
          | ok s =>
            rw [h1, h2] at hp
            simp only [decide_eq_true_eq] at hp
            exact hp (hall a v r s ha hv ea ev oa ov h1 h2)
      have : (m = 0 ∧ n = 2) ∨ (m = 1 ∧ n = 1) ∨ (m = 2 ∧ n = 0) := by omega
      rcases this with ⟨rfl, rfl⟩ | ⟨rfl, rfl⟩ | ⟨rfl, rfl⟩
      · exact two (flatInfo 0) (steepInfo 2) (by decide) (by decide) rfl rfl (by unfold Perc.Ordered; decide) (by unfold Perc.Ordered; decide) (by decide +kernel)
      · exact two (steepInfo 1) (flatInfo 1) (by decide) (by decide) rfl rfl (by unfold Perc.Ordered; decide) (by unfold Perc.Ordered; decide) (by decide +kernel)
      · exact two (steepInfo 2) (flatInfo 0) (by decide) (by decide) rfl rfl (by unfold Perc.Ordered; decide) (by unfold Perc.Ordered; decide) (by decide +kernel)
  · intro hmn a v r s ha hv e1 e2 _ _ h1 h2
    exact C63_symmetric_partial a v r s ha hv h1 h2 (by omega)

end Wrtstat
