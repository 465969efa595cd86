/-
C127: adding up many summaries with `+=`.
-/
import Verif.Props.Info

namespace Wrtstat

set_option autoImplicit false

/-- `reduced_info sum; for (const auto& x : l) sum += x;` -/
def ReducedInfo.addUp (l : List ReducedInfo) : M ReducedInfo := l.foldlM ReducedInfo.merge {}

/-- Number of events of all summaries. -/
def infoCount (l : List ReducedInfo) : Nat := (l.map fun x => x.count).sum

/-- Number of dropped samples of all summaries. -/
def infoLossy (l : List ReducedInfo) : Nat := (l.map fun x => x.lossy).sum

/-- Sum of the values as far as the averages tell it. -/
def infoSum (l : List ReducedInfo) : Int := (l.map fun x => (x.count : Int) * x.avg).sum

/-- The claim: the sum of summaries counts all events and all losses, and tells their mean up to less than one. -/
def C127_FullClaim : Prop :=
  ∀ (l : List ReducedInfo) (r : ReducedInfo), infoCount l < 2 ^ 63 → infoLossy l < 2 ^ 64 → 0 < infoCount l →
    ReducedInfo.addUp l = .ok r →
    r.count = infoCount l ∧ r.lossy = infoLossy l ∧ |(infoCount l : Int) * r.avg - infoSum l| < infoCount l

/-- A summary of `m` zeros, and then `j` summaries of one event, `m`. -/
def driftList (m j : Nat) : List ReducedInfo := { ts := 1, count := m } :: List.replicate j { ts := 1, count := 1, avg := m, min := m, max := m }

/-- The average is rounded at every step: of `m` zeros and then `j` times the value `m`, added one by one, the average is told as 0,
however many they are. -/
theorem C127_stalls (m j : Nat) (hm : 0 < m) (h : m + j < 2 ^ 63) :
    ReducedInfo.addUp (driftList m j) = .ok { ts := 1, count := m + j } ∧ infoCount (driftList m j) = m + j ∧
      infoSum (driftList m j) = j * m := by
  refine ⟨?_, by simp [driftList, infoCount], by simp [driftList, infoSum]⟩
  have key : ∀ (j n : Nat), m ≤ n → n + j < 2 ^ 63 →
      (List.replicate j ({ ts := 1, count := 1, avg := m, min := m, max := m } : ReducedInfo)).foldlM ReducedInfo.merge
        ({ ts := 1, count := n } : ReducedInfo) = .ok { ts := 1, count := n + j } := by
    intro j
    induction j with
    | zero => intro n _ _; rfl
    | succ j ih =>
      intro n hn hj
      have e : ReducedInfo.merge ({ ts := 1, count := n } : ReducedInfo) { ts := 1, count := 1, avg := m, min := m, max := m } =
          .ok { ts := 1, count := n + 1 } := by
        have e1 : addSize n 1 = n + 1 := addSize_fit (by omega)
        have e2 : ofSize n = n := ofSize_fit (by omega)
        have e3 : ofSize 1 = 1 := rfl
        have e4 : ofSize (n + 1) = (n + 1 : Nat) := ofSize_fit (by omega)
        have i0 : InI64 0 := by decide
        have i1 : InI64 m := by unfold InI64 I64min I64max; omega
        have e5 : (m : Int).tdiv (n + 1 : Nat) = 0 := Int.tdiv_eq_zero_of_lt (by omega) (by omega)
        have e6 : Min.min (0 : Int) m = 0 := by omega
        simp only [ReducedInfo.merge, ReducedInfo.mergeAvg, e1, e2, e3, e4, mul_zero, one_mul, zero_add, ckI64_ok i0, ckI64_ok i1, e5, e6,
          Nat.succ_ne_zero, ne_eq, not_false_eq_true, if_true, bind_ok', one_ne_zero, if_false]
        rfl
      rw [List.replicate_succ, List.foldlM_cons, e, bind_ok', ih (n + 1) (by omega) (by omega), show n + 1 + j = n + (j + 1) by omega]
  unfold ReducedInfo.addUp driftList
  rw [List.foldlM_cons, show ReducedInfo.merge {} ({ ts := 1, count := m } : ReducedInfo) = .ok { ts := 1, count := m } from rfl, bind_ok']
  exact key j m (le_refl _) h

/-- The mean of a thousand zeros and then a thousand times 1000 is 500, but 0 is told. -/
theorem C127_refuted : ¬ C127_FullClaim := by
  intro h
  obtain ⟨h1, h2, h3⟩ := C127_stalls 1000 1000 (by decide) (by decide)
  have := (h _ _ (by rw [h2]; decide) (by decide +kernel) (by rw [h2]; decide) h1).2.2
  rw [h2, h3] at this
  revert this
  decide

/-- And a summary without time is overwritten: of two summaries as a reducer gives them the second is told. -/
theorem C127_refuted_ts : ∃ a b r : ReducedInfo, ReducedInfo.addUp [a, b] = .ok r ∧ a.count = 3 ∧ b.count = 2 ∧ r.count = 2 :=
  ⟨{ count := 3, avg := 5 }, { count := 2, avg := 7 }, { count := 2, avg := 7 }, by decide +kernel, rfl, rfl, rfl⟩

/-- The order matters, too: the same summaries, the largest last. -/
theorem C127_refuted_order : ∃ l l' r r', l.Perm l' ∧ (∀ x ∈ l, x.ts ≠ 0) ∧ ReducedInfo.addUp l = .ok r ∧ ReducedInfo.addUp l' = .ok r' ∧
    r.avg = 0 ∧ r'.avg = 5 :=
  ⟨driftList 10 10, (driftList 10 10).reverse, _, { ts := 1, count := 20, min := 0, max := 0, avg := 5 }, (List.reverse_perm _).symm,
    by simp [driftList], (C127_stalls 10 10 (by decide) (by decide)).1, by decide +kernel, rfl, rfl⟩

theorem mergeAvg_err {a b r : ReducedInfo} (hts : a.ts ≠ 0) (hf : CountsFit a b) (h : a.merge b = .ok r) :
    |(r.count : Int) * r.avg - (a.count * a.avg + b.count * b.avg)| ≤ r.count := by
  obtain ⟨-, hc, -⟩ := C51_merge_partial a b r hts hf h
  by_cases hz : a.count + b.count = 0
  · have h1 : a.count = 0 := by omega
    have h2 : b.count = 0 := by omega
    rw [hc, h1, h2]
    simp
  · have e := C51_weighted_mean a b r hts hf hz h
    rw [e, hc]
    generalize (a.count * a.avg + b.count * b.avg : Int) = s
    have hn : (0 : Int) < (a.count + b.count : Nat) := by omega
    generalize ((a.count + b.count : Nat) : Int) = n at hn
    have pos : ∀ s : Int, 0 ≤ s → |n * s.tdiv n - s| ≤ n := by
      intro s hs
      rw [Int.tdiv_eq_ediv_of_nonneg hs]
      have h1 := Int.mul_ediv_self_le (x := s) (k := n) hn.ne'
      have h2 := Int.lt_mul_ediv_self_add (x := s) (k := n) hn
      rw [abs_le]
      omega
    rcases le_total 0 s with h | h
    · exact pos s h
    · have := pos (-s) (by omega)
      rw [Int.neg_tdiv, mul_neg, ← abs_neg] at this
      rw [show n * s.tdiv n - s = -(-(n * s.tdiv n) - -s) by ring]
      exact this

/-- What holds of summaries with a time: events and losses add up, the minimum is the least, the time is the first; and the average is
off by at most the number of additions. -/
theorem C127_sum_partial (a : ReducedInfo) (l : List ReducedInfo) (r : ReducedInfo) (hts : a.ts ≠ 0) (hc : infoCount (a :: l) < 2 ^ 63)
    (hl : infoLossy (a :: l) < 2 ^ 64) (h : ReducedInfo.addUp (a :: l) = .ok r) :
    r.ts = a.ts ∧ r.count = infoCount (a :: l) ∧ r.lossy = infoLossy (a :: l) ∧ r.min = (l.map fun x => x.min).foldl Min.min a.min ∧
    |(infoCount (a :: l) : Int) * r.avg - infoSum (a :: l)| ≤ l.length * infoCount (a :: l) := by
  have key : ∀ (l : List ReducedInfo) (a : ReducedInfo), a.ts ≠ 0 → infoCount (a :: l) < 2 ^ 63 → infoLossy (a :: l) < 2 ^ 64 →
      l.foldlM ReducedInfo.merge a = .ok r →
      r.ts = a.ts ∧ r.count = infoCount (a :: l) ∧ r.lossy = infoLossy (a :: l) ∧ r.min = (l.map fun x => x.min).foldl Min.min a.min ∧
      |(infoCount (a :: l) : Int) * r.avg - infoSum (a :: l)| ≤ l.length * infoCount (a :: l) := by
    intro l
    induction l with
    | nil =>
      intro a _ _ _ h
      cases h
      simp [infoCount, infoLossy, infoSum]
    | cons b l ih =>
      intro a hts hc hl h
      rw [List.foldlM_cons] at h
      obtain ⟨m, e, h⟩ := bind_inv h
      have c1 : infoCount (a :: b :: l) = a.count + b.count + infoCount l := by simp [infoCount]; omega
      have c2 : infoLossy (a :: b :: l) = a.lossy + b.lossy + infoLossy l := by simp [infoLossy]; omega
      have hf : CountsFit a b := ⟨by omega, by omega⟩
      obtain ⟨h1, h2, h3, h4, -⟩ := C51_merge_partial a b m hts hf e
      have c3 : infoCount (m :: l) = infoCount (a :: b :: l) := by rw [c1, ← h2]; simp [infoCount]
      have c4 : infoLossy (m :: l) = infoLossy (a :: b :: l) := by rw [c2, ← h3]; simp [infoLossy]
      obtain ⟨i1, i2, i3, i4, i5⟩ := ih m (by rw [h1]; exact hts) (by omega) (by omega) h
      refine ⟨i1.trans h1, i2.trans c3, i3.trans c4, by rw [i4, h4]; rfl, ?_⟩
      have he := mergeAvg_err hts hf e
      have s1 : infoSum (m :: l) = m.count * m.avg + infoSum l := by simp [infoSum]
      have s2 : infoSum (a :: b :: l) = a.count * a.avg + b.count * b.avg + infoSum l := by simp [infoSum]; ring
      rw [c3, s1] at i5
      rw [s2]
      have hm : (m.count : Int) ≤ infoCount (a :: b :: l) := by rw [c1]; omega
      generalize (infoCount (a :: b :: l) : Int) = n at *
      generalize (m.count : Int) * m.avg = x at *
      generalize (a.count : Int) * a.avg + b.count * b.avg = y at *
      generalize infoSum l = z at *
      rw [List.length_cons]
      push_cast
      rw [add_mul, one_mul]
      rw [abs_le] at *
      constructor <;> linarith [he.1, he.2, i5.1, i5.2]
  unfold ReducedInfo.addUp at h
  rw [List.foldlM_cons, C51_first {} a rfl, bind_ok'] at h
  exact key l a hts hc hl h

/-- Three summaries: the mean of three times 5, five times 14 and 1 is 86 / 9. -/
example : ReducedInfo.addUp [ExInfo.a, ExInfo.b, { ts := 30, count := 1, min := 1, max := 1, avg := 1 }] =
    .ok { ts := 10, count := 9, lossy := 1, min := 1, max := 1, avg := 9 } := by decide +kernel

end Wrtstat
