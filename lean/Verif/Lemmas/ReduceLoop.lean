import Verif.Lemmas.Reducer
import Mathlib.Algebra.BigOperators.Intervals
import Mathlib.Data.List.GetD

namespace Wrtstat
namespace Reducer

open Finset

theorem nthRange_spec (E : NthElement) (d : List Int) (b k : Nat) (hb : b ≤ k) (hk : k ≤ d.length) :
    ∃ d', nthRange E d b k = .ok d' ∧ d'.length = d.length ∧ d'.take b = d.take b ∧
      (d'.drop b).Perm (d.drop b) := by
  refine ⟨_, if_pos ⟨hb, hk⟩, ?_, ?_, ?_⟩
  · have := (E.perm (d.drop b) (k - b)).length_eq
    simp only [List.length_append, this, List.length_take, List.length_drop]; omega
  · have : (d.take b).length = b := by simp; omega
    rw [List.take_append_of_le_length (by omega)]; simp
  · have : (d.take b).length = b := by simp; omega
    rw [List.drop_append_of_le_length (by omega)]
    simp [E.perm]

theorem nthRange_perm {E : NthElement} {d d' : List Int} {b k : Nat}
    (h : nthRange E d b k = .ok d') : d'.Perm d := by
  unfold nthRange at h
  split_ifs at h with hc
  cases h
  have := (E.perm (d.drop b) (k - b)).append_left (d.take b)
  simpa using this

/-- What one harvest at level `l` does. -/
theorem getNth_spec (E : NthElement) (cur : Mode) (data : List (List Int)) (l i : Nat)
    (hl : l < data.length) (hi : i < data[l].length) (hli : l ≤ i) :
    ∃ row' : List Int, ∃ h : i < row'.length,
      getNth_ E cur data l i = .ok (row'[i], data.set l row') ∧
      row'.length = data[l].length ∧ (row'.drop (i - l)).Perm (data[l].drop (i - l)) ∧
      (cur ≠ .nth → row' = data[l]) := by
  unfold getNth_ nthIf
  by_cases hc : cur = .nth
  · rw [if_pos hc]
    unfold nthElement_
    rw [deref_ok hl]
    have hil : ¬ i < l := by omega
    simp only [bind_ok, if_neg hil]
    obtain ⟨row', e, h1, h2, h3⟩ := nthRange_spec E data[l] (i - l) i (by omega) (by omega)
    rw [e]
    simp only [bind_ok]
    rw [deref_ok (by simpa using hl)]
    simp only [bind_ok, List.getElem_set_self]
    rw [vat_ok (by omega)]
    exact ⟨row', by omega, rfl, h1, h3, fun h => absurd hc h⟩
  · rw [if_neg hc]
    simp only [bind_ok]
    rw [deref_ok hl]
    simp only [bind_ok]
    rw [vat_ok hi]
    refine ⟨data[l], hi, ?_, rfl, .refl _, fun _ => rfl⟩
    simp [bind_ok]

theorem count_harvest {row row' : List Int} {c n i : Nat} (hi : i < row'.length)
    (hp : (row'.drop c).Perm (row.drop c)) (hc : c ≤ i) (hn : i < c + n) (x : Int) :
    (row'.drop (c + n)).count x + [row'[i]].count x ≤ (row.drop c).count x := by
  rw [← hp.count_eq x]
  have e : row'.drop c = (row'.drop c).take n ++ row'.drop (c + n) := by
    rw [← List.drop_drop]; exact (List.take_append_drop _ _).symm
  rw [e, List.count_append]
  have : [row'[i]].Sublist ((row'.drop c).take n) := by
    rw [List.singleton_sublist, List.mem_take_iff_getElem]
    refine ⟨i - c, by simp; omega, ?_⟩
    simp only [List.getElem_drop]
    congr 1; omega
  have := this.count_le x
  omega

theorem count_set_le (row : List Int) (i : Nat) (y x : Int) :
    (row.set i y).count x ≤ row.count x + [y].count x := by
  by_cases h : i < row.length
  · have := List.count_set (l := row) (a := y) (b := x) h
    rw [this]
    simp only [List.count_singleton]
    split_ifs <;> omega
  · rw [List.set_eq_of_length_le (by omega)]; omega

/-- The part of the table that is neither in the result row nor already harvested. -/
def rest (n : Nat) (data : List (List Int)) (c : Nat → Nat) (x : Int) : Nat :=
  ∑ j ∈ Finset.Ico 1 n, ((data.getD j []).drop (c j)).count x

/-- Loop invariant. -/
structure Inv (n limit lastLen : Nat) (N : Int → Nat) (i l : Nat) (data : List (List Int)) : Prop where
  hn : 2 ≤ n
  len : data.length = n
  rows : ∀ j, j + 1 < n → (data.getD j []).length = limit
  last : (data.getD (n - 1) []).length = lastLen
  bud : (l = n - 1 ∧ lastLen ≤ i ∧ ∀ x, (data.getD 0 []).count x ≤ N x) ∨
    ∃ t p, i = n * t + p ∧ p < n ∧ l = (if p = 0 then n else p) ∧
      ∀ x, (data.getD 0 []).count x +
        rest n data (fun j => n * t + if j < p then n else 0) x ≤ N x

theorem getD_set_ne {data : List (List Int)} {a b : Nat} {row : List Int} (h : a ≠ b) :
    (data.set a row).getD b [] = data.getD b [] := by
  simp [List.getD_eq_getElem?_getD, List.getElem?_set_ne h]

theorem getD_set_eq {data : List (List Int)} {a : Nat} {row : List Int} (h : a < data.length) :
    (data.set a row).getD a [] = row := by
  simp [List.getD_eq_getElem?_getD, h]

theorem setAt0_spec {data : List (List Int)} {i : Nat} {x : Int} (h : 0 < data.length)
    (hi : i < data[0].length) : setAt0 data i x = .ok (data.set 0 (data[0].set i x)) := by
  unfold setAt0
  rw [deref_ok h]
  simp [bind_ok, hi]

/-- One harvesting step keeps the invariant. -/
theorem step_harvest {E : NthElement} {cur : Mode} {n limit lastLen : Nat} {N : Int → Nat} {i l : Nat}
    {data : List (List Int)} (inv : Inv n limit lastLen N i l data) (hl : l ≠ n)
    (hi : i < (data.getD l []).length) (hlim : i < limit)
    (hst : ¬ (l = n - 1 ∧ lastLen ≤ i)) :
    ∃ x data', getNth_ E cur data l i = .ok (x, data') ∧ ∃ data'', setAt0 data' i x = .ok data'' ∧
      Inv n limit lastLen N (i + 1) (l + 1) data'' := by
  obtain ⟨hn, hlen, hrows, hlast, hb⟩ := inv
  rcases hb with ⟨a, b, _⟩ | ⟨t, p, e1, e2, e3, hb⟩
  · exact absurd ⟨a, b⟩ hst
  have hp : p ≠ 0 := by
    intro hp; rw [if_pos hp] at e3; exact hl e3
  rw [if_neg hp] at e3
  subst e3
  have hld : l < data.length := by omega
  have gl : data.getD l [] = data[l] := by simp [List.getD_eq_getElem?_getD, hld]
  rw [gl] at hi
  have hli : l ≤ i := by omega
  obtain ⟨row', hi', e, h1, h2, _⟩ := getNth_spec E cur data l i hld hi hli
  refine ⟨_, _, e, ?_⟩
  have h0 : 0 < (data.set l row').length := by simp; omega
  have h0r : (data.set l row')[0] = data[0] := by
    rw [List.getElem_set_ne (by omega)]
  have g0 : data.getD 0 [] = data[0] := by simp [List.getD_eq_getElem?_getD, show 0 < data.length by omega]
  have hi0 : i < (data.set l row')[0].length := by
    rw [h0r, ← g0, hrows 0 (by omega)]; exact hlim
  refine ⟨_, setAt0_spec h0 hi0, hn, by simpa using hlen, ?_, ?_, ?_⟩
  · intro j hj
    by_cases hj0 : j = 0
    · subst hj0
      rw [getD_set_eq h0, List.length_set, h0r, ← g0]; exact hrows 0 hj
    · rw [getD_set_ne (Ne.symm hj0)]
      by_cases hjl : j = l
      · subst hjl; rw [getD_set_eq hld, h1, ← gl]; exact hrows j hj
      · rw [getD_set_ne (Ne.symm hjl)]; exact hrows j hj
  · rw [getD_set_ne (by omega)]
    by_cases hjl : n - 1 = l
    · rw [← hlast, hjl, getD_set_eq hld, h1, ← gl]
    · rw [getD_set_ne (Ne.symm hjl)]; exact hlast
  · right
    have key : ∀ x, ((((data.set l row').set 0 ((data.set l row')[0].set i row'[i]))).getD 0 []).count x +
        rest n ((data.set l row').set 0 ((data.set l row')[0].set i row'[i]))
          (fun j => n * t + if j < l + 1 then n else 0) x ≤ N x := by
      intro x
      refine le_trans ?_ (hb x)
      rw [getD_set_eq h0, h0r, g0]
      have hc := count_set_le data[0] i row'[i] x
      have hh : (row'.drop (n * t + n)).count x + [row'[i]].count x ≤ (data[l].drop (n * t)).count x := by
        have : i - l = n * t := by omega
        rw [this] at h2
        exact count_harvest hi' h2 (by omega) (by omega) x
      have hmem : l ∈ Finset.Ico 1 n := by simp; omega
      have s1 : rest n ((data.set l row').set 0 (data[0].set i row'[i]))
          (fun j => n * t + if j < l + 1 then n else 0) x =
          (row'.drop (n * t + n)).count x + ∑ j ∈ (Finset.Ico 1 n).erase l,
            ((data.getD j []).drop (n * t + if j < l then n else 0)).count x := by
        unfold rest
        rw [← Finset.add_sum_erase _ _ hmem]
        congr 1
        · rw [getD_set_ne (by omega), getD_set_eq hld]; simp
        · apply Finset.sum_congr rfl
          intro j hj
          simp only [Finset.mem_erase, Finset.mem_Ico] at hj
          rw [getD_set_ne (by omega), getD_set_ne (Ne.symm hj.1)]
          have : (j < l + 1) ↔ (j < l) := by omega
          simp only [this]
      have s2 : rest n data (fun j => n * t + if j < l then n else 0) x =
          (data[l].drop (n * t)).count x + ∑ j ∈ (Finset.Ico 1 n).erase l,
            ((data.getD j []).drop (n * t + if j < l then n else 0)).count x := by
        unfold rest
        rw [← Finset.add_sum_erase _ _ hmem, gl]
        simp
      rw [s1, s2]
      omega
    by_cases hw : l + 1 = n
    · refine ⟨t + 1, 0, by rw [e1, Nat.mul_succ]; omega, by omega, by simpa using hw, ?_⟩
      intro x
      refine le_trans (Nat.le_of_eq ?_) (key x)
      congr 1
      unfold rest
      apply Finset.sum_congr rfl
      intro j hj
      simp only [Finset.mem_Ico] at hj
      have : j < l + 1 := by omega
      simp only [this, if_true, Nat.not_lt_zero, if_false, Nat.mul_succ, Nat.add_zero]
    · exact ⟨t, l + 1, by omega, by omega, by simp, key⟩

theorem step_row0 {E : NthElement} {cur : Mode} {n limit lastLen : Nat} {N : Int → Nat} {i : Nat}
    {data : List (List Int)} (inv : Inv n limit lastLen N i n data) (hlim : i < limit) :
    ∃ data', nthIf E cur data 0 i = .ok data' ∧
      Inv n limit lastLen N (i + 1) 1 data' := by
  obtain ⟨hn, hlen, hrows, hlast, hb⟩ := inv
  have h0 : 0 < data.length := by omega
  have g0 : data.getD 0 [] = data[0] := by simp [List.getD_eq_getElem?_getD, h0]
  have main : ∀ row' : List Int, row'.Perm data[0] → Inv n limit lastLen N (i + 1) 1 (data.set 0 row') := by
    intro row' hp
    refine ⟨hn, by simpa using hlen, ?_, ?_, ?_⟩
    · intro j hj
      by_cases hj0 : j = 0
      · subst hj0; rw [getD_set_eq h0, hp.length_eq, ← g0]; exact hrows 0 hj
      · rw [getD_set_ne (Ne.symm hj0)]; exact hrows j hj
    · rw [getD_set_ne (by omega)]; exact hlast
    · rcases hb with ⟨a, _, _⟩ | ⟨t, p, e1, e2, e3, hb⟩
      · omega
      · have hp0 : p = 0 := by
          by_contra hp0; rw [if_neg hp0] at e3; omega
        subst hp0
        refine .inr ⟨t, 1, by omega, by omega, by simp, ?_⟩
        intro x
        refine le_trans (Nat.le_of_eq ?_) (hb x)
        rw [getD_set_eq h0, g0, hp.count_eq]
        congr 1
        unfold rest
        apply Finset.sum_congr rfl
        intro j hj
        simp only [Finset.mem_Ico] at hj
        rw [getD_set_ne (by omega)]
        have : ¬ j < 1 := by omega
        simp [this]
  unfold nthIf
  by_cases hc : cur = .nth
  · rw [if_pos hc]
    unfold nthElement_
    rw [deref_ok h0]
    simp only [bind_ok, Nat.not_lt_zero, if_false, Nat.sub_zero]
    have hil : i ≤ data[0].length := by rw [← g0, hrows 0 (by omega)]; omega
    obtain ⟨row', e, _⟩ := nthRange_spec E data[0] i i (le_refl _) hil
    rw [e]
    exact ⟨_, rfl, main row' (nthRange_perm e)⟩
  · rw [if_neg hc]
    refine ⟨_, rfl, ?_⟩
    have := main data[0] (.refl _)
    simpa using this

/-- The loop never faults and its result row is drawn from the budget. -/
theorem reduceLoop_spec (E : NthElement) (cur : Mode) (n limit lastLen : Nat) (N : Int → Nat) :
    ∀ (k i l : Nat) (data : List (List Int)), i + k = limit → Inv n limit lastLen N i l data →
      ∃ data', reduceLoop E cur n k i l data = .ok data' ∧ data'.length = n ∧
        (data'.getD 0 []).length = limit ∧ ∀ x, (data'.getD 0 []).count x ≤ N x := by
  intro k
  induction k with
  | zero =>
    intro i l data _ inv
    refine ⟨data, rfl, inv.len, inv.rows 0 (by have := inv.hn; omega), ?_⟩
    intro x
    rcases inv.bud with ⟨_, _, h⟩ | ⟨_, _, _, _, _, h⟩
    · exact h x
    · have := h x; omega
  | succ k ih =>
    intro i l data hik inv
    have hlim : i < limit := by omega
    unfold reduceLoop
    by_cases hl : l = n
    · subst hl
      rw [if_pos rfl]
      obtain ⟨d', e, inv'⟩ := step_row0 (E := E) (cur := cur) inv hlim
      rw [e]
      simp only [bind_ok]
      exact ih _ _ _ (by omega) inv'
    · rw [if_neg hl]
      have hn := inv.hn
      by_cases hl1 : l = n - 1
      · rw [if_pos hl1]
        have hld : l < data.length := by rw [inv.len]; omega
        have gl : data.getD l [] = data[l] := by simp [List.getD_eq_getElem?_getD, hld]
        rw [deref_ok hld]
        simp only [bind_ok]
        by_cases hi : i < data[l].length
        · rw [if_pos hi]
          have hst : ¬ (l = n - 1 ∧ lastLen ≤ i) := by
            rintro ⟨_, h⟩
            rw [← gl, hl1, inv.last] at hi
            omega
          obtain ⟨x, d', e, d'', e', inv'⟩ := step_harvest (E := E) (cur := cur) inv hl
            (by rw [gl]; exact hi) hlim hst
          rw [e]; simp only [bind_ok]; rw [e']; simp only [bind_ok]
          exact ih _ _ _ (by omega) inv'
        · rw [if_neg hi]
          have hge : lastLen ≤ i := by
            rw [← gl, hl1, inv.last] at hi
            omega
          refine ih _ _ _ (by omega) ⟨hn, inv.len, inv.rows, inv.last, .inl ⟨hl1, by omega, ?_⟩⟩
          intro x
          rcases inv.bud with ⟨_, _, h⟩ | ⟨_, _, _, _, _, h⟩
          · exact h x
          · have := h x; omega
      · rw [if_neg hl1]
        have hst : ¬ (l = n - 1 ∧ lastLen ≤ i) := fun h => hl1 h.1
        have hlt : l + 1 < n := by
          rcases inv.bud with ⟨a, _, _⟩ | ⟨t, p, e1, e2, e3, _⟩
          · omega
          · split_ifs at e3 <;> omega
        obtain ⟨x, d', e, d'', e', inv'⟩ := step_harvest (E := E) (cur := cur) inv hl
            (by rw [inv.rows l hlt]; exact hlim) hlim hst
        rw [e]; simp only [bind_ok]; rw [e']; simp only [bind_ok]
        exact ih _ _ _ (by omega) inv'

theorem flatten_count_eq_sum (data : List (List Int)) (x : Int) :
    data.flatten.count x = ∑ j ∈ Finset.range data.length, (data.getD j []).count x := by
  induction data with
  | nil => simp
  | cons r d ih =>
    rw [List.flatten_cons, List.count_append, ih, List.length_cons, Finset.sum_range_succ']
    simp only [List.getD_cons_succ, List.getD_cons_zero]
    omega

/-- `reduceLoop` started as in `reduce`. -/
theorem reduceLoop_start (E : NthElement) (cur : Mode) (limit levels : Nat) (data : List (List Int))
    (h : Shape limit levels data) (h2 : 2 ≤ data.length) :
    ∃ data', reduceLoop E cur data.length limit 0 data.length data = .ok data' ∧
      data'.length = data.length ∧ (data'.getD 0 []).length = limit ∧
      (data'.getD 0 []).Subperm data.flatten := by
  rcases h with rfl | ⟨ini, last, rfl, hini, h0, hle, hlev⟩
  · simp at h2
  simp only [List.length_append, List.length_singleton] at h2
  have inv : Inv (ini ++ [last]).length limit last.length
      (fun x => (ini ++ [last]).flatten.count x) 0 (ini ++ [last]).length (ini ++ [last]) := by
    refine ⟨by simpa using h2, rfl, ?_, ?_, .inr ⟨0, 0, by simp, by simp, by simp, ?_⟩⟩
    · intro j hj
      simp only [List.length_append, List.length_singleton] at hj
      have hj' : j < ini.length := by omega
      rw [List.getD_append _ _ _ _ hj', List.getD_eq_getElem _ _ hj']
      exact hini _ (List.getElem_mem _)
    · simp
    · intro x
      rw [flatten_count_eq_sum]
      have hpos : 0 < (ini ++ [last]).length := by simp
      rw [Finset.range_eq_Ico, Finset.sum_eq_sum_Ico_succ_bot hpos]
      unfold rest
      simp
  obtain ⟨d', e, h1, h3, h4⟩ := reduceLoop_spec E cur _ _ _ _ _ _ _ _ (Nat.zero_add _) inv
  exact ⟨d', e, h1, h3, List.subperm_ext_iff.2 fun x _ => h4 x⟩

end Reducer
end Wrtstat
