/-
Properties of the merging of published summaries: C51, C52, C63.
-/
import Verif.Model.Info
import Verif.Lemmas.MultiTotal

namespace Wrtstat

set_option autoImplicit false

/-! ### Vocabulary -/

/-- The percentiles in order. -/
def Perc.toList (p : Perc) : List Int := [p.perc50, p.perc80, p.perc95, p.perc99, p.perc100]

/-- The percentiles do not decrease. -/
def Perc.Ordered (p : Perc) : Prop :=
  p.perc50 ≤ p.perc80 ∧ p.perc80 ≤ p.perc95 ∧ p.perc95 ≤ p.perc99 ∧ p.perc99 ≤ p.perc100

/-- The counts can be added without wrapping round, as 64-bit signed values. -/
def CountsFit (a b : ReducedInfo) : Prop := a.count + b.count < 2 ^ 63 ∧ a.lossy + b.lossy < 2 ^ 64

/-! ### Range lemmas -/

theorem ckI64_ok {v : Int} (h : InI64 v) : ckI64 v = .ok v := by unfold ckI64; rw [if_pos h]

theorem ckI64_inv {v w : Int} (h : ckI64 v = .ok w) : w = v := by
  unfold ckI64 at h
  by_cases hv : InI64 v
  · rw [if_pos hv] at h; simpa using h.symm
  · rw [if_neg hv] at h; simp at h

theorem addSize_fit {a b : Nat} (h : a + b < 2 ^ 64) : addSize a b = a + b := Nat.mod_eq_of_lt h

theorem ofSize_fit {a : Nat} (h : a < 2 ^ 63) : ofSize a = (a : Int) := by unfold ofSize; rw [if_pos h]

/-- Truncated division keeps the quotient between the integer bounds of the fraction. -/
theorem tdiv_between {s d lo hi : Int} (hd : 0 < d) (h1 : lo * d ≤ s) (h2 : s ≤ hi * d) :
    lo ≤ s.tdiv d ∧ s.tdiv d ≤ hi := by
  by_cases hs : 0 ≤ s
  · rw [Int.tdiv_eq_ediv_of_nonneg hs]
    exact ⟨(Int.le_ediv_iff_mul_le hd).2 h1, by
      have := Int.ediv_le_ediv hd h2; rwa [Int.mul_ediv_cancel _ (by omega)] at this⟩
  · obtain ⟨t, rfl⟩ : ∃ t, s = -t := ⟨-s, by omega⟩
    rw [Int.neg_tdiv, Int.tdiv_eq_ediv_of_nonneg (by omega)]
    constructor
    · have : t ≤ (-lo) * d := by rw [Int.neg_mul]; omega
      have := Int.ediv_le_ediv hd this
      rw [Int.mul_ediv_cancel _ (by omega)] at this
      omega
    · have : (-hi) * d ≤ t := by rw [Int.neg_mul]; omega
      have := (Int.le_ediv_iff_mul_le hd).2 this
      omega

/-! ### C51 -/

namespace ExInfo

def a : ReducedInfo := { ts := 10, count := 3, lossy := 1, min := 2, max := 9, avg := 5 }
def b : ReducedInfo := { ts := 20, count := 5, lossy := 0, min := 1, max := 30, avg := 14 }

end ExInfo

open ExInfo in
example : a.merge b = .ok { ts := 10, count := 8, lossy := 1, min := 1, max := 9, avg := 10 } := by decide +kernel

open ExInfo in
example : ReducedInfo.merge { a with ts := 0 } b = .ok b := by decide +kernel

/-- The claim as it is stated. -/
def C51_FullClaim : Prop :=
  ∀ a b r : ReducedInfo, a.ts ≠ 0 → CountsFit a b → a.merge b = .ok r →
    r.count = a.count + b.count ∧ r.lossy = a.lossy + b.lossy ∧ r.min = Min.min a.min b.min ∧
    r.max = Max.max a.max b.max ∧ Min.min a.avg b.avg ≤ r.avg ∧ r.avg ≤ Max.max a.avg b.avg

open ExInfo in
/-- The merged `max` is the smaller one. -/
theorem C51_refuted : ¬ C51_FullClaim := fun h => by
  have := (h a b _ (by decide) (by constructor <;> decide) (by decide +kernel : a.merge b =
    .ok { ts := 10, count := 8, lossy := 1, min := 1, max := 9, avg := 10 })).2.2.2.1
  exact absurd this (by decide)

theorem merge_inv {a b r : ReducedInfo} (hts : a.ts ≠ 0) (h : a.merge b = .ok r) :
    ∃ avg, ReducedInfo.mergeAvg a b = .ok avg ∧
      r = { ts := a.ts, avg := avg, count := addSize a.count b.count, lossy := addSize a.lossy b.lossy,
            min := Min.min a.min b.min, max := Min.min a.max b.max } := by
  unfold ReducedInfo.merge at h
  rw [if_neg hts] at h
  obtain ⟨avg, h1, h2⟩ := bind_inv h
  exact ⟨avg, h1, by simpa using h2.symm⟩

theorem mergeAvg_between {a b : ReducedInfo} {v : Int} (hf : a.count + b.count < 2 ^ 63)
    (h : ReducedInfo.mergeAvg a b = .ok v) : Min.min a.avg b.avg ≤ v ∧ v ≤ Max.max a.avg b.avg := by
  unfold ReducedInfo.mergeAvg at h
  have hs : addSize a.count b.count = a.count + b.count := addSize_fit (by omega)
  rw [hs] at h
  have ha : ofSize a.count = (a.count : Int) := ofSize_fit (by omega)
  have hb : ofSize b.count = (b.count : Int) := ofSize_fit (by omega)
  have hab : ofSize (a.count + b.count) = ((a.count + b.count : Nat) : Int) := ofSize_fit hf
  rw [ha, hb, hab] at h
  have l1 := min_le_left a.avg b.avg
  have l2 := min_le_right a.avg b.avg
  have g1 := le_max_left a.avg b.avg
  have g2 := le_max_right a.avg b.avg
  by_cases hz : a.count + b.count ≠ 0
  · rw [if_pos hz] at h
    obtain ⟨x, h1, h⟩ := bind_inv h
    obtain ⟨y, h2, h⟩ := bind_inv h
    obtain ⟨s, h3, h⟩ := bind_inv h
    rw [ckI64_inv h, ckI64_inv h3, ckI64_inv h1, ckI64_inv h2]
    have ca : (0 : Int) ≤ a.count := Int.natCast_nonneg _
    have cb : (0 : Int) ≤ b.count := Int.natCast_nonneg _
    refine tdiv_between (by omega) ?_ ?_
    · push_cast
      nlinarith [mul_le_mul_of_nonneg_left l1 ca, mul_le_mul_of_nonneg_left l2 cb]
    · push_cast
      nlinarith [mul_le_mul_of_nonneg_left g1 ca, mul_le_mul_of_nonneg_left g2 cb]
  · rw [if_neg hz] at h
    obtain ⟨s, h3, h⟩ := bind_inv h
    rw [ckI64_inv h, ckI64_inv h3]
    exact tdiv_between (by omega) (by omega) (by omega)

/-- Everything claimed but the maximum, of which the code keeps the smaller one; so the maximum is right
exactly when the two are equal.  Missing from the full claim: the larger maximum. -/
theorem C51_merge_partial (a b r : ReducedInfo) (hts : a.ts ≠ 0) (hf : CountsFit a b) (h : a.merge b = .ok r) :
    r.ts = a.ts ∧ r.count = a.count + b.count ∧ r.lossy = a.lossy + b.lossy ∧ r.min = Min.min a.min b.min ∧
    Min.min a.avg b.avg ≤ r.avg ∧ r.avg ≤ Max.max a.avg b.avg ∧
    (r.max = Max.max a.max b.max ↔ a.max = b.max) := by
  obtain ⟨avg, h1, rfl⟩ := merge_inv hts h
  obtain ⟨hc, hl⟩ := hf
  obtain ⟨m1, m2⟩ := mergeAvg_between hc h1
  refine ⟨rfl, addSize_fit (by omega), addSize_fit hl, rfl, m1, m2, ?_⟩
  show Min.min a.max b.max = Max.max a.max b.max ↔ _
  constructor
  · intro e; omega
  · intro e; rw [e]; simp

/-- The merged average is exactly the weighted mean of the two, rounded toward zero. -/
theorem C51_weighted_mean (a b r : ReducedInfo) (hts : a.ts ≠ 0) (hf : CountsFit a b) (hz : a.count + b.count ≠ 0)
    (h : a.merge b = .ok r) : r.avg = (a.count * a.avg + b.count * b.avg).tdiv (a.count + b.count : Nat) := by
  obtain ⟨avg, h1, rfl⟩ := merge_inv hts h
  obtain ⟨hc, hl⟩ := hf
  unfold ReducedInfo.mergeAvg at h1
  have hs : addSize a.count b.count = a.count + b.count := addSize_fit (by omega)
  have ha : ofSize a.count = (a.count : Int) := ofSize_fit (by omega)
  have hb : ofSize b.count = (b.count : Int) := ofSize_fit (by omega)
  have hab : ofSize (a.count + b.count) = ((a.count + b.count : Nat) : Int) := ofSize_fit hc
  rw [hs, ha, hb, hab, if_pos hz] at h1
  obtain ⟨x, h1, h2⟩ := bind_inv h1
  obtain ⟨y, h3, h2⟩ := bind_inv h2
  obtain ⟨s, h4, h2⟩ := bind_inv h2
  show avg = _
  rw [ckI64_inv h2, ckI64_inv h4, ckI64_inv h1, ckI64_inv h3]

/-- A count of 2^63 or more enters the mean as the negative number with the same 64 bits. -/
theorem C51_conversion (n : Nat) (h : n < 2 ^ 64) : ofSize n = Int.bmod n (2 ^ 64) ∧ InI64 (ofSize n) := by
  unfold ofSize InI64 I64min I64max
  simp only [Int.bmod]
  constructor
  · split_ifs <;> omega
  · split_ifs <;> omega

/-- With such a count the mean leaves the interval of the two. -/
theorem C51_large_count : (ReducedInfo.merge { ts := 1, avg := 1, count := 2 ^ 63 + 2 ^ 62 } { ts := 1, avg := 1, count := 2 ^ 62 + 2 }).toOption.map
      (fun r => (r.avg, r.count)) = some (1, 2) ∧
    (ReducedInfo.merge { ts := 1, avg := 1, count := 2 ^ 63 } { ts := 1, avg := 2, count := 1 }).toOption.map
      (fun r => (r.avg, r.count)) = some (0, 2 ^ 63 + 1) ∧
    (ReducedInfo.merge { ts := 1, avg := 1, count := 2 ^ 64 - 2 } { ts := 1, avg := 5, count := 1 }).toOption.map
      (fun r => (r.avg, r.count)) = some (-3, 2 ^ 64 - 1) := by
  decide +kernel

/-- An object that has no timestamp yet takes over the other one. -/
theorem C51_first (a b : ReducedInfo) (hts : a.ts = 0) : a.merge b = .ok b := by
  unfold ReducedInfo.merge; rw [if_pos hts]

/-- The merge is defined whenever the total of the events times the larger absolute average fits. -/
theorem C51_total (a b : ReducedInfo) (B : Int) (hf : CountsFit a b)
    (ha : -B ≤ a.avg ∧ a.avg ≤ B) (hb : -B ≤ b.avg ∧ b.avg ≤ B)
    (hB : ((a.count + b.count : Nat) : Int) * B ≤ I64max) (hB2 : 2 * B ≤ I64max) : ∃ r, a.merge b = .ok r := by
  by_cases hts : a.ts = 0
  · exact ⟨b, C51_first a b hts⟩
  suffices hav : ∃ v, ReducedInfo.mergeAvg a b = .ok v by
    obtain ⟨v, hv⟩ := hav
    exact ⟨_, by unfold ReducedInfo.merge; rw [if_neg hts, hv]; rfl⟩
  obtain ⟨hc, -⟩ := hf
  have eM : I64max = 9223372036854775807 := by decide
  have em : I64min = -9223372036854775808 := by decide
  unfold ReducedInfo.mergeAvg
  rw [addSize_fit (show a.count + b.count < 2 ^ 64 by omega), ofSize_fit (show a.count < 2 ^ 63 by omega),
    ofSize_fit (show b.count < 2 ^ 63 by omega), ofSize_fit hc]
  have ca : (0 : Int) ≤ a.count := Int.natCast_nonneg _
  have cb : (0 : Int) ≤ b.count := Int.natCast_nonneg _
  have a1 := mul_le_mul_of_nonneg_left ha.1 ca
  have a2 := mul_le_mul_of_nonneg_left ha.2 ca
  have b1 := mul_le_mul_of_nonneg_left hb.1 cb
  have b2 := mul_le_mul_of_nonneg_left hb.2 cb
  have hB0 : 0 ≤ B := by omega
  have hsum : ((a.count + b.count : Nat) : Int) * B = a.count * B + b.count * B := by push_cast; ring
  have pa : 0 ≤ (a.count : Int) * B := mul_nonneg ca hB0
  have pb : 0 ≤ (b.count : Int) * B := mul_nonneg cb hB0
  have na : (a.count : Int) * -B = -(a.count * B) := by ring
  have nb : (b.count : Int) * -B = -(b.count * B) := by ring
  rw [hsum] at hB
  by_cases hz : a.count + b.count ≠ 0
  · rw [if_pos hz]
    rw [ckI64_ok (v := (a.count : Int) * a.avg) (by unfold InI64; omega), bind_ok',
      ckI64_ok (v := (b.count : Int) * b.avg) (by unfold InI64; omega), bind_ok',
      ckI64_ok (v := (a.count : Int) * a.avg + (b.count : Int) * b.avg) (by unfold InI64; omega), bind_ok']
    obtain ⟨q1, q2⟩ := tdiv_between (s := a.count * a.avg + b.count * b.avg) (d := ((a.count + b.count : Nat) : Int))
      (lo := -B) (hi := B) (by omega) (by push_cast; nlinarith) (by push_cast; nlinarith)
    exact ⟨_, ckI64_ok (by unfold InI64; omega)⟩
  · rw [if_neg hz, ckI64_ok (v := a.avg + b.avg) (by unfold InI64; omega), bind_ok']
    obtain ⟨q1, q2⟩ := tdiv_between (s := a.avg + b.avg) (d := 2) (lo := -B) (hi := B) (by omega) (by omega) (by omega)
    exact ⟨_, ckI64_ok (by unfold InI64; omega)⟩

/-! ### C52 -/

namespace ExInfo

def p10 : Perc := { perc50 := 10, perc80 := 10, perc95 := 10, perc99 := 10, perc100 := 10 }
def p15 : Perc := { perc50 := 15, perc80 := 15, perc95 := 15, perc99 := 15, perc100 := 15 }
def x : AggInfo := { ts := 1, count := 100, avg := 10, min := 10, max := 10, toPerc := p10 }
def y : AggInfo := { ts := 1, count := 100, avg := 15, min := 15, max := 15, toPerc := p15 }

end ExInfo

open ExInfo in
example : Passes (x.merge y) (fun r => decide (r.toPerc.toList = [10, 10, 10, 15, 15]) && decide (r.avg = 12)) = true := by
  decide +kernel

theorem deref_inv {α : Type} {l : List α} {i : Nat} {x : α} (h : deref l i = .ok x) : l[i]? = some x := by
  unfold deref at h
  cases h1 : l[i]? with
  | none => rw [h1] at h; simp at h
  | some z => rw [h1] at h; simp at h; rw [h]

theorem weigh_inv {p : Perc} {c : Int} {l : List (Int × Int)} (h : p.weigh c = .ok l) : l.map Prod.snd = p.toList := by
  unfold Perc.weigh at h
  obtain ⟨x1, -, h⟩ := bind_inv h
  obtain ⟨x2, -, h⟩ := bind_inv h
  obtain ⟨x3, -, h⟩ := bind_inv h
  obtain ⟨x4, -, h⟩ := bind_inv h
  obtain ⟨x5, -, h⟩ := bind_inv h
  simp at h
  rw [← h]; rfl

theorem sortInts_pairwise (l : List Int) : (sortInts l).Pairwise (· ≤ ·) := List.pairwise_insertionSort _ l

theorem choose_inv {l : List (Int × Int)} {p : Perc} (h : Perc.choose l = .ok p) :
    p.Ordered ∧ ∀ v ∈ p.toList, v ∈ l.map Prod.snd := by
  unfold Perc.choose at h
  obtain ⟨a0, d0, h⟩ := bind_inv h
  obtain ⟨a1, d1, h⟩ := bind_inv h
  obtain ⟨a2, d2, h⟩ := bind_inv h
  obtain ⟨a3, d3, h⟩ := bind_inv h
  obtain ⟨a4, d4, h⟩ := bind_inv h
  obtain ⟨y0, e0, h⟩ := bind_inv h
  obtain ⟨y1, e1, h⟩ := bind_inv h
  obtain ⟨y2, e2, h⟩ := bind_inv h
  obtain ⟨y3, e3, h⟩ := bind_inv h
  obtain ⟨y4, e4, h⟩ := bind_inv h
  have e0 := deref_inv e0
  have e1 := deref_inv e1
  have e2 := deref_inv e2
  have e3 := deref_inv e3
  have e4 := deref_inv e4
  have hmem : ∀ i (z : Int × Int), deref (sortPairs l) i = .ok z → z.2 ∈ l.map Prod.snd := by
    intro i z hz
    have := List.mem_of_getElem? (deref_inv hz)
    exact List.mem_map_of_mem ((List.perm_insertionSort _ l).mem_iff.1 this)
  have hin : ∀ (i : Nat) (z : Int), (sortInts [a0.2, a1.2, a2.2, a3.2, a4.2])[i]? = some z → z ∈ l.map Prod.snd := by
    intro i z hz
    have := (sortInts_perm _).mem_iff.1 (List.mem_of_getElem? hz)
    simp only [List.mem_cons, List.not_mem_nil, or_false] at this
    rcases this with rfl | rfl | rfl | rfl | rfl
    exacts [hmem _ _ d0, hmem _ _ d1, hmem _ _ d2, hmem _ _ d3, hmem _ _ d4]
  have hle : ∀ (i j : Nat) (u v : Int), i < j → (sortInts [a0.2, a1.2, a2.2, a3.2, a4.2])[i]? = some u →
      (sortInts [a0.2, a1.2, a2.2, a3.2, a4.2])[j]? = some v → u ≤ v := by
    intro i j u v hij hu hv
    obtain ⟨hi, rfl⟩ := List.getElem?_eq_some_iff.1 hu
    obtain ⟨hj, rfl⟩ := List.getElem?_eq_some_iff.1 hv
    exact List.pairwise_iff_getElem.1 (sortInts_pairwise _) i j hi hj hij
  simp at h
  subst h
  refine ⟨⟨hle 0 1 _ _ (by omega) e0 e1, hle 1 2 _ _ (by omega) e1 e2, hle 2 3 _ _ (by omega) e2 e3,
    hle 3 4 _ _ (by omega) e3 e4⟩, ?_⟩
  intro v hv
  simp only [Perc.toList, List.mem_cons, List.not_mem_nil, or_false] at hv
  rcases hv with rfl | rfl | rfl | rfl | rfl
  exacts [hin _ _ e0, hin _ _ e1, hin _ _ e2, hin _ _ e3, hin _ _ e4]

theorem choose_total {l : List (Int × Int)} (hl : l.length = 10) : ∃ p, Perc.choose l = .ok p := by
  have hs : (sortPairs l).length = 10 := by rw [← hl]; exact (List.perm_insertionSort _ l).length_eq
  have hd : ∀ i, i < 10 → ∃ z, deref (sortPairs l) i = .ok z := by
    intro i hi
    unfold deref
    rw [List.getElem?_eq_getElem (by omega)]
    exact ⟨_, rfl⟩
  have hd2 : ∀ (m : List Int) (i : Nat), m.length = 5 → i < 5 → ∃ z, deref (sortInts m) i = .ok z := by
    intro m i hm hi
    unfold deref
    rw [List.getElem?_eq_getElem (by rw [sortInts_length]; omega)]
    exact ⟨_, rfl⟩
  obtain ⟨a0, d0⟩ := hd 3 (by omega)
  obtain ⟨a1, d1⟩ := hd 6 (by omega)
  obtain ⟨a2, d2⟩ := hd 7 (by omega)
  obtain ⟨a3, d3⟩ := hd 8 (by omega)
  obtain ⟨a4, d4⟩ := hd 9 (by omega)
  obtain ⟨y0, e0⟩ := hd2 [a0.2, a1.2, a2.2, a3.2, a4.2] 0 rfl (by omega)
  obtain ⟨y1, e1⟩ := hd2 [a0.2, a1.2, a2.2, a3.2, a4.2] 1 rfl (by omega)
  obtain ⟨y2, e2⟩ := hd2 [a0.2, a1.2, a2.2, a3.2, a4.2] 2 rfl (by omega)
  obtain ⟨y3, e3⟩ := hd2 [a0.2, a1.2, a2.2, a3.2, a4.2] 3 rfl (by omega)
  obtain ⟨y4, e4⟩ := hd2 [a0.2, a1.2, a2.2, a3.2, a4.2] 4 rfl (by omega)
  unfold Perc.choose
  simp only [d0, d1, d2, d3, d4, bind_ok', e0, e1, e2, e3, e4]
  exact ⟨_, rfl⟩

theorem aggMerge_inv {a v r : AggInfo} (hts : a.ts ≠ 0) (h : a.merge v = .ok r) :
    ∃ w1 w2, a.toReducedInfo.merge v.toReducedInfo = .ok r.toReducedInfo ∧
      a.toPerc.weigh (ofSize r.count) = .ok w1 ∧ v.toPerc.weigh (ofSize v.count) = .ok w2 ∧
      Perc.choose (w1 ++ w2) = .ok r.toPerc := by
  unfold AggInfo.merge at h
  rw [if_neg hts] at h
  obtain ⟨ri, h1, h⟩ := bind_inv h
  obtain ⟨w1, h2, h⟩ := bind_inv h
  obtain ⟨w2, h3, h⟩ := bind_inv h
  obtain ⟨p, h4, h⟩ := bind_inv h
  simp at h
  subst h
  exact ⟨w1, w2, h1, h2, h3, h4⟩

/-- After a merge the percentiles do not decrease and each is one of the ten. -/
theorem C52_percentiles (a v r : AggInfo) (h : a.merge v = .ok r) (hts : a.ts ≠ 0 ∨ v.toPerc.Ordered) :
    r.toPerc.Ordered ∧ ∀ x ∈ r.toPerc.toList, x ∈ a.toPerc.toList ++ v.toPerc.toList := by
  by_cases h0 : a.ts = 0
  · unfold AggInfo.merge at h
    rw [if_pos h0] at h
    simp at h
    subst h
    exact ⟨hts.resolve_left (fun g => g h0), fun x hx => List.mem_append_right _ hx⟩
  · obtain ⟨w1, w2, -, h2, h3, h4⟩ := aggMerge_inv h0 h
    obtain ⟨o, m⟩ := choose_inv h4
    refine ⟨o, fun x hx => ?_⟩
    have := m x hx
    rwa [List.map_append, weigh_inv h2, weigh_inv h3] at this

/-- The rest of the summary is merged as C51 says. -/
theorem C52_info (a v r : AggInfo) (hts : a.ts ≠ 0) (h : a.merge v = .ok r) :
    a.toReducedInfo.merge v.toReducedInfo = .ok r.toReducedInfo :=
  let ⟨_, _, h1, _⟩ := aggMerge_inv hts h
  h1

theorem weigh_total {p : Perc} {c B : Int} (hc : 0 ≤ c) (hp : ∀ x ∈ p.toList, -B ≤ x ∧ x ≤ B)
    (hB : B * (c + 1) ≤ I64max) : ∃ l, p.weigh c = .ok l ∧ l.length = 5 := by
  have eM : I64max = 9223372036854775807 := by decide
  have em : I64min = -9223372036854775808 := by decide
  have key : ∀ x ∈ p.toList, ∀ d : Int, 0 < d → ckI64 (x * (c.tdiv d + 1)) = .ok (x * (c.tdiv d + 1)) := by
    intro x hx d hd
    obtain ⟨l, u⟩ := hp x hx
    obtain ⟨q1, q2⟩ := tdiv_between (s := c) (d := d) (lo := 0) (hi := c) hd (by omega) (by nlinarith)
    have hB0 : 0 ≤ B := by omega
    apply ckI64_ok
    unfold InI64
    constructor
    · nlinarith [mul_le_mul_of_nonneg_left (show c.tdiv d + 1 ≤ c + 1 by omega) hB0]
    · nlinarith [mul_le_mul_of_nonneg_left (show c.tdiv d + 1 ≤ c + 1 by omega) hB0]
  unfold Perc.weigh
  rw [key _ (by simp [Perc.toList]) 2 (by omega), bind_ok', key _ (by simp [Perc.toList]) 3 (by omega), bind_ok',
    key _ (by simp [Perc.toList]) 6 (by omega), bind_ok', key _ (by simp [Perc.toList]) 10 (by omega), bind_ok',
    key _ (by simp [Perc.toList]) 100 (by omega), bind_ok']
  exact ⟨_, rfl, rfl⟩

/-- The merge is defined when the averages and percentiles, times the total count, fit. -/
theorem C52_total (a v : AggInfo) (B : Int) (hf : CountsFit a.toReducedInfo v.toReducedInfo)
    (ha : ∀ x ∈ a.avg :: v.avg :: (a.toPerc.toList ++ v.toPerc.toList), -B ≤ x ∧ x ≤ B)
    (hB : B * ((a.count + v.count : Nat) + 1) ≤ I64max) (hB2 : 2 * B ≤ I64max) : ∃ r, a.merge v = .ok r := by
  by_cases hts : a.ts = 0
  · exact ⟨v, by unfold AggInfo.merge; rw [if_pos hts]⟩
  have hB0 : 0 ≤ B := by have := ha a.avg (by simp); omega
  obtain ⟨r, hr⟩ := C51_total a.toReducedInfo v.toReducedInfo B hf (ha _ (by simp)) (ha _ (by simp)) (by
    rw [Int.mul_comm]
    nlinarith) hB2
  have hc := (C51_merge_partial _ _ r hts hf hr).2.1
  obtain ⟨hf1, hf2⟩ := hf
  have hrc : r.count < 2 ^ 63 := by rw [hc]; exact hf1
  have hr2 : (r.count : Int) = ((a.count + v.count : Nat) : Int) := by rw [hc]
  obtain ⟨w1, h1, l1⟩ := weigh_total (p := a.toPerc) (c := ofSize r.count) (B := B)
    (by rw [ofSize_fit hrc]; omega) (fun x hx => ha x (by simp [hx])) (by rw [ofSize_fit hrc, hr2]; exact hB)
  obtain ⟨w2, h2, l2⟩ := weigh_total (p := v.toPerc) (c := ofSize v.count) (B := B)
    (by rw [ofSize_fit (by omega)]; omega) (fun x hx => ha x (by simp [hx])) (by
      rw [ofSize_fit (by omega)]
      push_cast at hB
      nlinarith [mul_nonneg hB0 (Int.natCast_nonneg a.count)])
  obtain ⟨p, hp⟩ := choose_total (l := w1 ++ w2) (by rw [List.length_append, l1, l2])
  unfold AggInfo.merge
  rw [if_neg hts, hr, bind_ok', h1, bind_ok', h2, bind_ok', hp, bind_ok']
  exact ⟨_, rfl⟩

/-! ### C63 -/

/-- The claim as it is stated: the order of the operands does not matter for the percentiles. -/
def C63_FullClaim : Prop :=
  ∀ a v r s : AggInfo, a.ts ≠ 0 → v.ts ≠ 0 → a.merge v = .ok r → v.merge a = .ok s → r.toPerc = s.toPerc

open ExInfo in
/-- The weights of the left operand are taken from the sum of the counts, so the left operand wins. -/
theorem C63_refuted : ¬ C63_FullClaim := fun h => by
  obtain ⟨r, hr, er⟩ := of_passes (show Passes (x.merge y) (fun r => decide (r.toPerc.perc95 = 10)) = true by decide +kernel)
  obtain ⟨s, hs, es⟩ := of_passes (show Passes (y.merge x) (fun r => decide (r.toPerc.perc95 = 15)) = true by decide +kernel)
  have := h x y r s (by decide) (by decide) hr hs
  simp only [decide_eq_true_eq] at er es
  rw [this, es] at er
  exact absurd er (by decide)

theorem weigh_one {p : Perc} {n : Nat} {l : List (Int × Int)} (hn : n ≤ 1) (h : p.weigh (ofSize n) = .ok l) :
    l = p.toList.map (fun v => (v, v)) := by
  have e : ∀ d : Int, 2 ≤ d → (ofSize n).tdiv d = 0 := by
    intro d hd
    rw [ofSize_fit (by omega)]
    exact Int.tdiv_eq_zero_of_lt (Int.natCast_nonneg _) (by omega)
  unfold Perc.weigh at h
  obtain ⟨x1, k1, h⟩ := bind_inv h
  obtain ⟨x2, k2, h⟩ := bind_inv h
  obtain ⟨x3, k3, h⟩ := bind_inv h
  obtain ⟨x4, k4, h⟩ := bind_inv h
  obtain ⟨x5, k5, h⟩ := bind_inv h
  rw [e _ (by omega)] at k1 k2 k3 k4 k5
  simp at h
  rw [← h, ckI64_inv k1, ckI64_inv k2, ckI64_inv k3, ckI64_inv k4, ckI64_inv k5]
  simp [Perc.toList]

instance : Std.Total pairLe := ⟨fun p q => by unfold pairLe; omega⟩
instance : IsTrans (Int × Int) pairLe := ⟨fun p q r h1 h2 => by unfold pairLe at *; omega⟩
instance : Std.Antisymm pairLe := ⟨fun p q h1 h2 => by
  unfold pairLe at *; exact Prod.ext (by omega) (by omega)⟩

theorem sortPairs_perm {l m : List (Int × Int)} (h : l.Perm m) : sortPairs l = sortPairs m :=
  List.Perm.eq_of_pairwise' (r := pairLe) (List.pairwise_insertionSort _ _) (List.pairwise_insertionSort _ _)
    (((List.perm_insertionSort _ l).trans h).trans (List.perm_insertionSort _ m).symm)

/-- The order does not matter when there is at most one event in all.  Missing from the full claim: any
larger count. -/
theorem C63_symmetric_partial (a v r s : AggInfo) (ha : a.ts ≠ 0) (hv : v.ts ≠ 0) (h1 : a.merge v = .ok r)
    (h2 : v.merge a = .ok s) (hc : a.count + v.count ≤ 1) : r.toPerc = s.toPerc := by
  obtain ⟨w1, w2, m1, k1, k2, k3⟩ := aggMerge_inv ha h1
  obtain ⟨u1, u2, m2, l1, l2, l3⟩ := aggMerge_inv hv h2
  have c1 : r.count = a.count + v.count := by
    obtain ⟨avg, -, e⟩ := merge_inv ha m1
    rw [e]; exact addSize_fit (by omega)
  have c2 : s.count = v.count + a.count := by
    obtain ⟨avg, -, e⟩ := merge_inv hv m2
    rw [e]; exact addSize_fit (by omega)
  rw [weigh_one (by omega) k1, weigh_one (by omega) k2] at k3
  rw [weigh_one (by omega) l1, weigh_one (by omega) l2] at l3
  unfold Perc.choose at k3 l3
  rw [sortPairs_perm List.perm_append_comm] at k3
  rw [k3] at l3
  simpa using l3

end Wrtstat
