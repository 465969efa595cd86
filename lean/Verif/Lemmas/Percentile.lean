import Verif.Model.Aggregator
import Verif.Spec.Percentile
import Verif.Lemmas.Reducer

namespace Wrtstat

theorem bind_ok' {α β : Type} (a : α) (f : α → M β) : ((Except.ok a : M α) >>= f) = f a := rfl

/-- Position `k` holds its order statistic and splits the list. -/
def Split (d : List Int) (k : Nat) : Prop :=
  ∃ A x B, d = A ++ x :: B ∧ A.length = k ∧ (∀ y ∈ A, y ≤ x) ∧ (∀ y ∈ B, x ≤ y)

theorem split_of_nth (E : NthElement) (l : List Int) (k : Nat) (hk : k < l.length) : Split (E.run l k) k := by
  have hlen : (E.run l k).length = l.length := (E.perm l k).length_eq
  have hk' : k < (E.run l k).length := by omega
  refine ⟨(E.run l k).take k, (E.run l k)[k], (E.run l k).drop (k + 1), ?_, by simp; omega, ?_, ?_⟩
  · rw [← List.drop_eq_getElem_cons hk', List.take_append_drop]
  · intro y hy
    obtain ⟨i, hi, rfl⟩ := List.getElem_of_mem hy
    rw [List.getElem_take]
    simp only [List.length_take] at hi
    exact E.le_nth l k i (by omega) hk'
  · intro y hy
    obtain ⟨i, hi, rfl⟩ := List.getElem_of_mem hy
    rw [List.getElem_drop]
    simp only [List.length_drop] at hi
    exact E.nth_le l k (k + 1 + i) (by omega) (by omega)

theorem split_order {d xs : List Int} {k : Nat} {A B : List Int} {x : Int} (hp : d.Perm xs)
    (e : d = A ++ x :: B) (hl : A.length = k) (hA : ∀ y ∈ A, y ≤ x) (hB : ∀ y ∈ B, x ≤ y) :
    IsOrderStat xs k x := by
  refine ⟨hp.mem_iff.1 (by rw [e]; simp), ?_, ?_⟩
  · rw [← hp.countP_eq, e, List.countP_append]
    have h1 : (x :: B).countP (fun y => decide (y < x)) = 0 := by
      rw [List.countP_eq_zero]
      intro y hy
      rcases List.mem_cons.1 hy with rfl | hy
      · simp
      · have := hB y hy; simp; exact this
    have h2 := List.countP_le_length (p := fun y => decide (y < x)) (l := A)
    omega
  · rw [← hp.countP_eq, e, List.countP_append]
    have h1 : A.countP (fun y => decide (y ≤ x)) = A.length := by
      rw [List.countP_eq_length]
      intro y hy; simpa using hA y hy
    rw [h1, List.countP_cons]
    simp; omega

/-- `nth_element` on a tail of the vector starting at or before a split point finds the order
statistic of the whole vector. -/
theorem nthRange_split (E : NthElement) (d : List Int) (b m k : Nat) (hbm : b ≤ m) (hmk : m ≤ k)
    (hk : k < d.length) (hs : ∀ y ∈ d.take b, ∀ z ∈ d.drop m, y ≤ z) :
    ∃ d', nthRange E d b k = .ok d' ∧ d'.Perm d ∧ Split d' k := by
  unfold nthRange
  rw [if_pos ⟨by omega, by omega⟩]
  have hp : (d.take b ++ E.run (d.drop b) (k - b)).Perm d := by
    have := (E.perm (d.drop b) (k - b)).append_left (d.take b)
    rwa [List.take_append_drop] at this
  refine ⟨_, rfl, hp, ?_⟩
  obtain ⟨A, x, B, e, hl, hA, hB⟩ := split_of_nth E (d.drop b) (k - b) (by simp; omega)
  refine ⟨d.take b ++ A, x, B, by rw [e]; simp, by simp; omega, ?_, hB⟩
  intro y hy
  rcases List.mem_append.1 hy with hy | hy
  · by_contra hlt
    have hlt : x < y := by omega
    -- count the elements of the tail not above x
    have hc : (d.drop b).countP (fun z => decide (z ≤ x)) = (A ++ x :: B).countP (fun z => decide (z ≤ x)) := by
      rw [← e]; exact ((E.perm _ _).countP_eq _).symm
    have h1 : A.length + 1 ≤ (A ++ x :: B).countP (fun z => decide (z ≤ x)) := by
      rw [List.countP_append, List.countP_cons]
      have : A.countP (fun z => decide (z ≤ x)) = A.length := by
        rw [List.countP_eq_length]; intro z hz; simpa using hA z hz
      rw [this]; simp
    have h2 : (d.drop b).countP (fun z => decide (z ≤ x)) ≤ m - b := by
      have : d.drop b = (d.drop b).take (m - b) ++ d.drop m := by
        have := (List.take_append_drop (m - b) (d.drop b)).symm
        rw [List.drop_drop] at this
        rw [show b + (m - b) = m by omega] at this
        exact this
      rw [this, List.countP_append]
      have h0 : (d.drop m).countP (fun z => decide (z ≤ x)) = 0 := by
        rw [List.countP_eq_zero]
        intro z hz
        have := hs y hy z hz
        simp; omega
      have h3 := List.countP_le_length (p := fun z => decide (z ≤ x)) (l := (d.drop b).take (m - b))
      rw [List.length_take] at h3
      omega
    omega
  · exact hA y hy

theorem split_sep {d : List Int} {k b : Nat} (h : Split d k) (hb : b ≤ k) :
    ∀ y ∈ d.take b, ∀ z ∈ d.drop k, y ≤ z := by
  obtain ⟨A, x, B, rfl, rfl, hA, hB⟩ := h
  intro y hy z hz
  have hy' : y ∈ A := by
    rw [List.take_append_of_le_length hb] at hy
    exact List.mem_of_mem_take hy
  rw [List.drop_left] at hz
  rcases List.mem_cons.1 hz with rfl | hz
  · exact hA y hy'
  · exact le_trans (hA y hy') (hB z hz)

theorem split_deref {d : List Int} {k : Nat} (h : Split d k) : ∃ x, deref d k = .ok x ∧
    IsOrderStat d k x ∧ ∀ j y, k ≤ j → d[j]? = some y → x ≤ y := by
  obtain ⟨A, x, B, rfl, rfl, hA, hB⟩ := h
  refine ⟨x, by simp [deref], split_order (List.Perm.refl _) rfl rfl hA hB, ?_⟩
  intro j y hj hy
  rw [List.getElem?_append_right hj] at hy
  have := List.mem_of_getElem? hy
  rcases List.mem_cons.1 this with rfl | h
  · exact le_refl _
  · exact hB y h

theorem order_perm {d xs : List Int} {k : Nat} {x : Int} (hp : d.Perm xs) (h : IsOrderStat d k x) :
    IsOrderStat xs k x := by
  obtain ⟨h1, h2, h3⟩ := h
  exact ⟨hp.mem_iff.1 h1, by rwa [← hp.countP_eq], by rwa [← hp.countP_eq]⟩

namespace Aggregator

theorem nth_split (E : NthElement) (perc off m : Nat) (d : List Int) (hoff : off ≤ m)
    (hm : m ≤ d.length * perc / 100) (hk : d.length * perc / 100 < d.length)
    (hs : ∀ y ∈ d.take off, ∀ z ∈ d.drop m, y ≤ z) :
    ∃ x d', nth_ E perc off d = .ok (x, d.length * perc / 100 - off, d') ∧ d'.Perm d ∧
      Split d' (d.length * perc / 100) ∧ IsOrderStat d (d.length * perc / 100) x ∧
      (∀ j y, d.length * perc / 100 ≤ j → d'[j]? = some y → x ≤ y) := by
  obtain ⟨d', e, hp, hsp⟩ := nthRange_split E d off m _ hoff hm hk hs
  obtain ⟨x, ex, ho, hj⟩ := split_deref hsp
  refine ⟨x, d', ?_, hp, hsp, order_perm hp ho, hj⟩
  unfold nth_
  simp only
  rw [if_neg (by omega), e]
  simp only [bind_ok', ex]

/-- Percentiles are computed without fault and are order statistics. -/
theorem calcPerc_spec (E : NthElement) (ag : AggData) (hne : ag.data ≠ []) :
    ∃ d p, calcPerc E ag = .ok { ag with data := d, toPerc := p } ∧ d.Perm ag.data ∧
      Percentiles ag.data p ∧ Split d (ag.data.length * 99 / 100) ∧ d[ag.data.length - 1]? = some p.perc100 := by
  have hpos : 0 < ag.data.length := List.length_pos_iff.2 hne
  generalize hs : ag.data.length = s at *
  obtain ⟨x1, d1, e1, p1, s1, o1, _⟩ := nth_split E 50 0 0 ag.data (by omega) (by omega) (by omega) (by simp)
  rw [hs] at e1 s1 o1
  have l1 : d1.length = s := by rw [p1.length_eq, hs]
  obtain ⟨x2, d2, e2, p2, s2, o2, _⟩ := nth_split E 80 (s * 50 / 100) (s * 50 / 100) d1 (by omega) (by omega)
    (by omega) (split_sep s1 (le_refl _))
  rw [l1] at e2 s2 o2
  have l2 : d2.length = s := by rw [p2.length_eq, l1]
  obtain ⟨x3, d3, e3, p3, s3, o3, _⟩ := nth_split E 95 (s * 80 / 100 - s * 50 / 100) (s * 80 / 100) d2 (by omega)
    (by omega) (by omega) (split_sep s2 (by omega))
  rw [l2] at e3 s3 o3
  have l3 : d3.length = s := by rw [p3.length_eq, l2]
  obtain ⟨x4, d4, e4, p4, s4, o4, j4⟩ := nth_split E 99 (s * 95 / 100 - (s * 80 / 100 - s * 50 / 100)) (s * 95 / 100) d3
    (by omega) (by omega) (by omega) (split_sep s3 (by omega))
  rw [l3] at e4 s4 o4 j4
  have l4 : d4.length = s := by rw [p4.length_eq, l3]
  have hl : d4[s - 1]? = some d4[s - 1] := List.getElem?_eq_getElem (by omega)
  refine ⟨d4, ⟨x1, x2, x3, x4, d4[s - 1]⟩, ?_, p4.trans (p3.trans (p2.trans p1)), ?_, s4, hl⟩
  · unfold calcPerc
    simp only [hs]
    rw [if_pos (by omega)]
    simp only [Nat.sub_zero] at e1
    simp only [e1, bind_ok', e2, e3, e4, deref, hl]
  · refine ⟨by rw [hs]; exact o1, ?_, ?_, ?_, ?_, ?_⟩
    · rw [hs]; exact order_perm p1 o2
    · rw [hs]; exact order_perm (p2.trans p1) o3
    · rw [hs]; exact order_perm (p3.trans (p2.trans p1)) o4
    · exact (p4.trans (p3.trans (p2.trans p1))).mem_iff.1 (List.getElem_mem _)
    · exact j4 (s - 1) _ (by omega) hl

/-! ### Thinning -/

theorem keepIdx_sublist (keep : Nat → Bool) (l : List Int) : ∀ i, (keepIdx keep i l).Sublist l := by
  induction l with
  | nil => intro i; exact List.Sublist.refl _
  | cons x l ih =>
    intro i
    unfold keepIdx
    split_ifs
    · exact (ih _).cons_cons x
    · exact (ih _).cons x

/-- Number of multiples of `s` below `n`. -/
def ceilDiv (n s : Nat) : Nat := (n + s - 1) / s

theorem ceilDiv_succ {s : Nat} (hs : 0 < s) (i : Nat) :
    ceilDiv (i + 1) s = ceilDiv i s + (if i % s = 0 then 1 else 0) := by
  unfold ceilDiv
  have e1 : i + 1 + s - 1 = i + s := by omega
  rw [e1, Nat.add_div_right _ hs]
  have h := Nat.div_add_mod i s
  have hlt := Nat.mod_lt i hs
  split_ifs with h0
  · have : (i + s - 1) / s = i / s := by
      have e : i + s - 1 = (s - 1) + s * (i / s) := by omega
      rw [e, Nat.add_mul_div_left _ _ hs, Nat.div_eq_of_lt (by omega)]; omega
    omega
  · have : (i + s - 1) / s = i / s + 1 := by
      have e : i + s - 1 = (i % s - 1) + s * (i / s + 1) := by rw [Nat.mul_add]; omega
      rw [e, Nat.add_mul_div_left _ _ hs, Nat.div_eq_of_lt (by omega)]; omega
    omega

theorem keepIdx_length_eq {s : Nat} (hs : 0 < s) (l : List Int) : ∀ i,
    (keepIdx (fun i => decide (i % s = 0)) i l).length + ceilDiv i s = ceilDiv (i + l.length) s := by
  induction l with
  | nil => intro i; simp [keepIdx]
  | cons x l ih =>
    intro i
    have h1 := ih (i + 1)
    have h2 := ceilDiv_succ hs i
    have e : i + (x :: l).length = i + 1 + l.length := by simp; omega
    unfold keepIdx
    rw [e]
    by_cases h0 : i % s = 0
    · simp only [h0, decide_true, if_true, List.length_cons] at *
      omega
    · simp only [h0, decide_false, if_false, Bool.false_eq_true] at *
      omega

theorem keepIdx_length_ne {s : Nat} (hs : 0 < s) (l : List Int) : ∀ i,
    (keepIdx (fun i => decide (i % s ≠ 0)) i l).length + ceilDiv (i + l.length) s = l.length + ceilDiv i s := by
  induction l with
  | nil => intro i; simp [keepIdx]
  | cons x l ih =>
    intro i
    have h1 := ih (i + 1)
    have h2 := ceilDiv_succ hs i
    have e : i + (x :: l).length = i + 1 + l.length := by simp; omega
    unfold keepIdx
    rw [e]
    by_cases h0 : i % s = 0
    · simp only [h0, ne_eq, not_true_eq_false, decide_false, Bool.false_eq_true, if_false, if_true,
        List.length_cons] at *
      omega
    · simp only [h0, ne_eq, not_false_eq_true, decide_true, if_false, if_true, List.length_cons] at *
      omega

theorem ceilDiv_zero {s : Nat} (hs : 0 < s) : ceilDiv 0 s = 0 := by
  unfold ceilDiv; exact Nat.div_eq_of_lt (by omega)

theorem ceilDiv_le {n s m : Nat} (hs : 0 < s) (h : n ≤ m * s) : ceilDiv n s ≤ m := by
  unfold ceilDiv
  have : n + s - 1 < (m + 1) * s := by rw [Nat.add_mul]; omega
  exact Nat.lt_succ_iff.1 ((Nat.div_lt_iff_lt_mul hs).2 this)

theorem le_ceilDiv {n s m : Nat} (hs : 0 < s) (h : m * s ≤ n) : m ≤ ceilDiv n s := by
  unfold ceilDiv
  exact (Nat.le_div_iff_mul_le hs).2 (by omega)

theorem reduce_keep (R : Nat) (d : List Int) (h : R = 0 ∨ d.length ≤ R) : reduce_ R d = .ok d := by
  unfold reduce_; rw [if_pos h]

/-- Removing branch: at most `R` samples remain. -/
theorem reduce_remove (R : Nat) (d : List Int) (hR : 0 < R) (hN : R < d.length) (h2 : d.length < R * 2) :
    ∃ k, reduce_ R d = .ok k ∧ k.Sublist d ∧ 0 < k.length ∧ k.length ≤ R := by
  unfold reduce_
  rw [if_neg (by omega), if_pos (show R * 2 > d.length by omega)]
  simp only
  generalize hn : d.length = N at *
  have hpos : 0 < N - R := by omega
  have hst : 2 ≤ N / (N - R) := (Nat.le_div_iff_mul_le hpos).2 (by omega)
  have hle : N / (N - R) * (N - R) ≤ N := Nat.div_mul_le_self _ _
  generalize N / (N - R) = st at *
  have hlen := keepIdx_length_ne (s := st) (by omega) d 0
  rw [ceilDiv_zero (by omega), Nat.zero_add, hn] at hlen
  have h1 : N - R ≤ ceilDiv N st := le_ceilDiv (by omega) (by rw [Nat.mul_comm]; exact hle)
  have h3 : ceilDiv N st ≤ N - 1 := ceilDiv_le (by omega) (by nlinarith [Nat.sub_add_cancel (show 1 ≤ N by omega)])
  rw [if_neg (by omega)]
  exact ⟨_, rfl, keepIdx_sublist _ _ _, by omega, by omega⟩

/-- Keeping branch: between `R` and `R + R/2` samples remain. -/
theorem reduce_pick (R : Nat) (d : List Int) (hR : 0 < R) (h2 : R * 2 ≤ d.length) :
    ∃ k, reduce_ R d = .ok k ∧ k.Sublist d ∧ R ≤ k.length ∧ k.length ≤ R + R / 2 ∧
      (d.length % R = 0 → k.length = R) := by
  unfold reduce_
  rw [if_neg (by omega), if_neg (show ¬ R * 2 > d.length by omega)]
  simp only
  generalize hn : d.length = N at *
  have hst : 2 ≤ N / R := (Nat.le_div_iff_mul_le hR).2 (by omega)
  have hle : N / R * R ≤ N := Nat.div_mul_le_self _ _
  have hlt : N < (N / R + 1) * R := by
    have := Nat.lt_succ_self (N / R)
    exact (Nat.div_lt_iff_lt_mul hR).1 this
  have hmod := Nat.div_add_mod N R
  generalize hq : N / R = st at *
  have hlen := keepIdx_length_eq (s := st) (by omega) d 0
  rw [ceilDiv_zero (by omega), Nat.zero_add, hn, Nat.add_zero] at hlen
  have h1 : R ≤ ceilDiv N st := le_ceilDiv (by omega) (by rw [Nat.mul_comm]; exact hle)
  have h3 : ceilDiv N st ≤ R + R / 2 := by
    unfold ceilDiv
    refine Nat.lt_succ_iff.1 ((Nat.div_lt_iff_lt_mul (by omega)).2 ?_)
    have hR2 : R ≤ R / 2 * 2 + 1 := by omega
    rw [Nat.add_mul] at hlt
    rw [Nat.succ_mul, Nat.add_mul]
    have h4 : R / 2 * 2 ≤ R / 2 * st := Nat.mul_le_mul_left _ hst
    rw [Nat.mul_comm st R] at hlt
    omega
  rw [if_neg (by omega)]
  refine ⟨_, rfl, keepIdx_sublist _ _ _, by omega, by omega, ?_⟩
  intro h0
  have h4 : ceilDiv N st ≤ R := ceilDiv_le (by omega) (by omega)
  omega

theorem reduce_total (R : Nat) (d : List Int) : ∃ k, reduce_ R d = .ok k ∧ k.Sublist d ∧ (d ≠ [] → k ≠ []) := by
  by_cases h : R = 0 ∨ d.length ≤ R
  · exact ⟨d, reduce_keep R d h, List.Sublist.refl _, fun h => h⟩
  · by_cases h2 : d.length < R * 2
    · obtain ⟨k, e, hs, hp, _⟩ := reduce_remove R d (by omega) (by omega) h2
      exact ⟨k, e, hs, fun _ => List.length_pos_iff.1 hp⟩
    · obtain ⟨k, e, hs, hp, _⟩ := reduce_pick R d (by omega) (by omega)
      exact ⟨k, e, hs, fun _ => List.length_pos_iff.1 (by omega)⟩

/-- The number of samples that remain. -/
theorem reduce_length (R : Nat) (d k : List Int) (h : reduce_ R d = .ok k) : k.length = thinned R d.length := by
  unfold thinned
  by_cases h0 : R = 0 ∨ d.length ≤ R
  · rw [reduce_keep R d h0] at h
    cases h
    rw [if_pos h0]
  rw [if_neg h0]
  unfold reduce_ at h
  rw [if_neg h0] at h
  by_cases h2 : d.length < 2 * R
  · rw [if_pos h2]
    rw [if_pos (show R * 2 > d.length by omega)] at h
    simp only at h
    have hst : 0 < d.length / (d.length - R) := Nat.div_pos (by omega) (by omega)
    have hlen := keepIdx_length_ne (s := d.length / (d.length - R)) hst d 0
    rw [ceilDiv_zero hst, Nat.zero_add] at hlen
    unfold ceilDiv at hlen
    split_ifs at h
    cases h
    omega
  · rw [if_neg h2]
    rw [if_neg (show ¬ R * 2 > d.length by omega)] at h
    simp only at h
    have hst : 0 < d.length / R := Nat.div_pos (by omega) (by omega)
    have hlen := keepIdx_length_eq (s := d.length / R) hst d 0
    rw [ceilDiv_zero hst, Nat.zero_add] at hlen
    unfold ceilDiv at hlen
    split_ifs at h
    cases h
    omega

/-- Records are finished without fault. -/
theorem finish_spec (E : NthElement) (R : Nat) (raw : AggData) :
    ∃ d, finish E R raw = .ok d ∧ Delivered R raw d := by
  unfold finish
  by_cases hne : raw.data = []
  · have e : calcPerc E raw = .ok raw := by unfold calcPerc; simp [hne]
    rw [e]
    simp only [bind_ok', hne, reduce_keep R [] (by simp)]
    refine ⟨raw, ?_, ⟨rfl, rfl, rfl, rfl, rfl, rfl, fun _ => le_refl _, fun h => h, fun _ => List.Perm.refl _, by simp [hne, thinned],
      fun h => absurd hne h, fun _ => rfl⟩⟩
    rw [← hne]
  · obtain ⟨d, p, e, hp, hperc, _⟩ := calcPerc_spec E raw hne
    rw [e]
    simp only [bind_ok']
    obtain ⟨k, ek, hs, hk⟩ := reduce_total R d
    have hd : d ≠ [] := by
      intro h; rw [h] at hp; exact hne hp.symm.eq_nil
    rw [ek]
    simp only [bind_ok']
    refine ⟨_, rfl, ⟨rfl, rfl, rfl, rfl, rfl, rfl, ?_, fun _ => hk hd, ?_, ?_, fun _ => hperc, fun h => absurd h hne⟩⟩
    · intro x
      show k.count x ≤ _
      rw [← hp.count_eq]
      exact hs.count_le x
    · intro h
      rw [reduce_keep R d (by rw [hp.length_eq]; exact h)] at ek
      cases ek
      exact hp
    · show k.length = _
      rw [reduce_length R d k ek, hp.length_eq]

end Aggregator
end Wrtstat
