/-
The reducer in `nth` mode: the table it builds, and what its loop takes from the rows.
-/
import Verif.Lemmas.SortMode

namespace Wrtstat
namespace Reducer

set_option autoImplicit false

/-- The table built in `nth` mode: the values that fit, cut into chunks. -/
structure TableN (limit levels : Nat) (vs : List Int) (data : List (List Int)) : Prop where
  ex : (data = [] ∧ vs.take (limit * levels) = []) ∨
    ∃ (cs : List (List Int)) (last : List Int), data = cs ++ [last] ∧ cs.flatten ++ last = vs.take (limit * levels) ∧
      (∀ c ∈ cs, c.length = limit) ∧ 0 < last.length ∧ last.length ≤ limit ∧ cs.length + 1 ≤ levels

theorem tableN_add {opt : ReducerOpts} {vs : List Int} {data : List (List Int)} (v : Int)
    (hsh : Shape opt.limit opt.levels data) (h : TableN opt.limit opt.levels vs data) :
    TableN opt.limit opt.levels (vs ++ [v]) (tableAdd opt .nth data v).1 := by
  have hfull : ∀ {c : Nat}, vs.length ≥ opt.limit * opt.levels →
      (vs ++ [v]).take (opt.limit * opt.levels) = vs.take (opt.limit * opt.levels) := by
    intro _ h; exact List.take_append_of_le_length h
  have hroom : vs.length < opt.limit * opt.levels →
      (vs ++ [v]).take (opt.limit * opt.levels) = vs.take (opt.limit * opt.levels) ++ [v] := by
    intro h
    rw [List.take_of_length_le (by simp; omega), List.take_of_length_le (by omega)]
  obtain ⟨h⟩ := h
  rcases h with ⟨rfl, h⟩ | ⟨cs, last, rfl, hf, hc, hp, hle, hlev⟩
  · by_cases hz : opt.levels = 0 ∨ opt.limit = 0
    · have hmul : opt.limit * opt.levels = 0 := by rcases hz with hz | hz <;> simp [hz]
      constructor; left
      refine ⟨?_, by simp [hmul]⟩
      rcases hz with hz | hz <;> simp [tableAdd, hz]
    · have h1 : opt.levels ≠ 0 := fun h => hz (.inl h)
      have h2 : opt.limit ≠ 0 := fun h => hz (.inr h)
      have hpos : 0 < opt.limit * opt.levels := Nat.mul_pos (by omega) (by omega)
      have hvs : vs = [] := by
        rw [List.take_eq_nil_iff] at h; rcases h with h | h
        · omega
        · exact h
      subst hvs
      constructor; right
      refine ⟨[], [v], ?_, ?_, by simp, by simp, by simp; omega, by simp; omega⟩
      · simp [tableAdd, h2, Ne.symm h1]
      · rw [hroom (by simpa using hpos)]; simp
  · have hcl := flatten_length_const hc
    have hkl : (vs.take (opt.limit * opt.levels)).length = opt.limit * cs.length + last.length := by
      rw [← hf, List.length_append, hcl]
    rw [List.length_take] at hkl
    by_cases hl : last.length = opt.limit
    · by_cases hlv : cs.length + 1 = opt.levels
      · constructor; right
        refine ⟨cs, last, by simp [tableAdd, hl, hlv], ?_, hc, hp, hle, hlev⟩
        have : opt.limit * opt.levels = opt.limit * cs.length + opt.limit := by
          rw [← hlv, Nat.mul_succ]
        rw [hfull (c := 0) (by omega), hf]
      · constructor; right
        refine ⟨cs ++ [last], [v], ?_, ?_, ?_, by simp, by simp; omega, by simp; omega⟩
        · have : opt.limit ≠ 0 := by omega
          unfold tableAdd
          simp [hl, hlv, this]
        · have : opt.limit * (cs.length + 2) ≤ opt.limit * opt.levels := Nat.mul_le_mul_left _ (by omega)
          have e : opt.limit * (cs.length + 2) = opt.limit * cs.length + opt.limit + opt.limit := by ring
          rw [hroom (by omega), ← hf]; simp
        · intro c hcm
          simp only [List.mem_append, List.mem_singleton] at hcm
          rcases hcm with hcm | rfl
          · exact hc c hcm
          · exact hl
    · constructor; right
      refine ⟨cs, last ++ [v], ?_, ?_, hc, by simp, by simp; omega, hlev⟩
      · unfold tableAdd; simp [hl]
      · have : opt.limit * (cs.length + 1) ≤ opt.limit * opt.levels := Nat.mul_le_mul_left _ hlev
        have e : opt.limit * (cs.length + 1) = opt.limit * cs.length + opt.limit := by ring
        rw [hroom (by omega), ← hf]; simp


theorem tableFold_tableN (opt : ReducerOpts) (vs : List Int) :
    TableN opt.limit opt.levels vs (tableFold opt .nth [] vs) ∧
      Shape opt.limit opt.levels (tableFold opt .nth [] vs) := by
  induction vs using List.reverseRecOn with
  | nil => exact ⟨⟨.inl ⟨rfl, by simp⟩⟩, .inl rfl⟩
  | append_singleton l v ih =>
    have e : tableFold opt .nth [] (l ++ [v]) =
        (tableAdd opt .nth (tableFold opt .nth [] l) v).1 := by simp [tableFold]
    rw [e]
    exact ⟨tableN_add v ih.2 ih.1, tableAdd_shape ih.2⟩

/-- The element at the place asked for is not above those behind it. -/
theorem nthRange_ge {E : NthElement} {d d' : List Int} {b k : Nat} (h : nthRange E d b k = .ok d') (hk : k < d'.length) :
    ∀ j, k ≤ j → d'.getD k 0 ≤ d'.getD j 0 ∨ d'.length ≤ j := by
  intro j hj
  unfold nthRange at h
  split_ifs at h with hc
  cases h
  rcases Nat.lt_or_ge j (d.take b ++ E.run (d.drop b) (k - b)).length with hlt | hge
  · left
    have hb : (d.take b).length = b := by simp; omega
    have hlt' : j - b < (E.run (d.drop b) (k - b)).length := by
      rw [List.length_append, hb] at hlt; omega
    rw [List.getD_eq_getElem _ _ hk, List.getD_eq_getElem _ _ hlt, List.getElem_append_right (by omega), List.getElem_append_right (by omega)]
    simp only [hb]
    exact E.nth_le (d.drop b) (k - b) (j - b) (by omega) hlt'
  · exact .inr hge

/-- Not more than `i` elements are below one that is not above those behind place `i`. -/
theorem countP_lt_le {row : List Int} {i : Nat} (h : ∀ j, i ≤ j → row.getD i 0 ≤ row.getD j 0 ∨ row.length ≤ j) :
    row.countP (fun y => decide (y < row.getD i 0)) ≤ i := by
  conv_lhs => rw [← List.take_append_drop i row]
  rw [List.countP_append]
  have h1 : (row.drop i).countP (fun y => decide (y < (row.take i ++ row.drop i).getD i 0)) = 0 := by
    rw [List.countP_eq_zero, List.take_append_drop]
    intro y hy
    obtain ⟨j, hj, rfl⟩ := List.getElem_of_mem hy
    rw [List.length_drop] at hj
    rw [List.getElem_drop]
    rcases h (i + j) (by omega) with h | h
    · rw [List.getD_eq_getElem _ _ (show i + j < row.length by omega)] at h
      simp only [decide_eq_true_eq]
      omega
    · omega
  rw [h1, Nat.add_zero]
  refine le_trans List.countP_le_length ?_
  simp

/-- What one harvest at level `l` does in `nth` mode. -/
theorem getNth_nth (E : NthElement) (data : List (List Int)) (l i : Nat)
    (hl : l < data.length) (hi : i < data[l].length) (hli : l ≤ i) :
    ∃ row' : List Int, getNth_ E .nth data l i = .ok (row'.getD i 0, data.set l row') ∧ row'.Perm data[l] ∧
      row'.countP (fun y => decide (y < row'.getD i 0)) ≤ i := by
  unfold getNth_ nthIf
  rw [if_pos rfl]
  unfold nthElement_
  rw [deref_ok hl]
  have hil : ¬ i < l := by omega
  simp only [bind_ok, if_neg hil]
  obtain ⟨row', e, h1, h2, h3⟩ := nthRange_spec E data[l] (i - l) i (by omega) (by omega)
  rw [e]
  simp only [bind_ok]
  rw [deref_ok (by simpa using hl)]
  simp only [bind_ok, List.getElem_set_self]
  rw [vat_ok (by omega)]
  refine ⟨row', ?_, nthRange_perm e, countP_lt_le (nthRange_ge e (by omega))⟩
  rw [List.getD_eq_getElem _ _ (by omega)]
  rfl

/-- Loop invariant in `nth` mode; `T` is the first turn that finds the last row exhausted. -/
structure NInv (n L T : Nat) (D : List (List Int)) (i l : Nat) (data : List (List Int)) : Prop where
  hn : 2 ≤ n
  len : data.length = n
  perm : ∀ j, 1 ≤ j → (data.getD j []).Perm (D.getD j [])
  len0 : (data.getD 0 []).length = L
  left : ∃ A : List Int, A.length = Min.min i T ∧ (A ++ (data.getD 0 []).drop (Min.min i T)).Perm (D.getD 0 [])
  low : ∀ j < i, j < T → (D.getD (j % n) []).countP (fun y => decide (y < (data.getD 0 []).getD j 0)) ≤ j
  ph : (l = n - 1 ∧ T ≤ i) ∨ ∃ t p, i = n * t + p ∧ p < n ∧ l = (if p = 0 then n else p) ∧ i ≤ T

theorem drop_cons_getD {l : List Int} {i : Nat} (h : i < l.length) : l.drop i = l.getD i 0 :: l.drop (i + 1) := by
  rw [List.getD_eq_getElem _ _ h, List.drop_eq_getElem_cons h]

theorem reduceLoop_nth (E : NthElement) (n L m T : Nat) (D : List (List Int))
    (hD : ∀ j, j + 1 < n → (D.getD j []).length = L) (hDl : (D.getD (n - 1) []).length = m)
    (hT : T % n = n - 1) (hTm : m ≤ T) (hTl : ∀ j, j % n = n - 1 → j < T → j < m) :
    ∀ (k i l : Nat) (data : List (List Int)), i + k = L → NInv n L T D i l data →
      ∃ data', reduceLoop E .nth n k i l data = .ok data' ∧ ∃ l', NInv n L T D L l' data' := by
  intro k
  induction k with
  | zero =>
    intro i l data hik inv
    simp only [Nat.add_zero] at hik
    subst hik
    exact ⟨data, rfl, l, inv⟩
  | succ k ih =>
    intro i l data hik inv
    have hlim : i < L := by omega
    obtain ⟨hn, hlen, hperm, hlen0, ⟨A, hA, hAp⟩, hlow, hph⟩ := inv
    have h0 : 0 < data.length := by omega
    have g0 : data.getD 0 [] = data[0] := by simp [List.getD_eq_getElem?_getD, h0]
    have hmod : ∀ {t p}, i = n * t + p → p < n → i % n = p := by
      intro t p e1 e2
      rw [e1, Nat.mul_add_mod, Nat.mod_eq_of_lt e2]
    unfold reduceLoop
    by_cases hl : l = n
    · subst hl
      rw [if_pos rfl]
      rcases hph with ⟨h, _⟩ | ⟨t, p, e1, e2, e3, hiT⟩
      · omega
      have hp : p = 0 := by
        by_contra hp; rw [if_neg hp] at e3; omega
      subst hp
      have him := hmod e1 e2
      have hlt : i < T := by
        rcases Nat.lt_or_ge i T with h | h
        · exact h
        · have : i = T := by omega
          rw [this] at him; omega
      have hmin : Min.min i T = i := by omega
      have hmin1 : Min.min (i + 1) T = i + 1 := by omega
      rw [hmin] at hA hAp
      unfold nthIf
      rw [if_pos rfl]
      unfold nthElement_
      rw [deref_ok h0]
      simp only [bind_ok, Nat.not_lt_zero, if_false, Nat.sub_zero]
      rw [g0] at hlen0
      obtain ⟨row', e, f1, f2, f3⟩ := nthRange_spec E data[0] i i (le_refl _) (by omega)
      rw [e]
      simp only [bind_ok]
      have hge := nthRange_ge e (by omega)
      have hdr : row'.drop i = row'.getD i 0 :: row'.drop (i + 1) := drop_cons_getD (by omega)
      have hAll : (A ++ row'.drop i).Perm (D.getD 0 []) := by
        refine List.Perm.trans ?_ hAp
        rw [g0]
        exact f3.append_left A
      refine ih _ _ _ (by omega) ⟨hn, by simpa using hlen, ?_, ?_, ?_, ?_, ?_⟩
      · intro j hj; rw [getD_set_ne (by omega)]; exact hperm j hj
      · rw [getD_set_eq h0, f1]; exact hlen0
      · rw [getD_set_eq h0, hmin1]
        refine ⟨A ++ [row'.getD i 0], by simp [hA], ?_⟩
        rw [List.append_assoc, List.singleton_append, ← hdr]
        exact hAll
      · intro j hj hjT
        rw [getD_set_eq h0]
        by_cases hji : j < i
        · have := hlow j hji hjT
          have e5 : row'.getD j 0 = data[0].getD j 0 := by
            have := congrArg (fun l => l.getD j 0) f2
            simp only [List.getD_eq_getElem?_getD, List.getElem?_take, hji, if_true] at this ⊢
            exact this
          rw [e5, ← g0]; exact this
        · have hji : j = i := by omega
          subst hji
          rw [him, ← hAll.countP_eq, List.countP_append]
          have z : (row'.drop j).countP (fun y => decide (y < row'.getD j 0)) = 0 := by
            rw [List.countP_eq_zero]
            intro y hy
            obtain ⟨a, ha, rfl⟩ := List.getElem_of_mem hy
            rw [List.length_drop] at ha
            rw [List.getElem_drop]
            rcases hge (j + a) (by omega) with h | h
            · rw [List.getD_eq_getElem _ _ (show j + a < row'.length by omega)] at h
              simp only [decide_eq_true_eq]
              omega
            · omega
          rw [z, Nat.add_zero]
          exact le_trans List.countP_le_length (by omega)
      · exact .inr ⟨t, 1, by omega, by omega, by simp, by omega⟩
    · rw [if_neg hl]
      -- common harvesting step
      have harvest : l < n → i % n = l → 0 < l → i < T → (∃ t, i = n * t + l) → i < (data.getD l []).length →
          ∃ data', (getNth_ E .nth data l i >>= fun x => setAt0 x.2 i x.1 >>= fun data =>
            reduceLoop E .nth n k (i + 1) (l + 1) data) = .ok data' ∧ ∃ l', NInv n L T D L l' data' := by
        intro hln himod hlpos hlt ⟨t, ht⟩ hil
        have hld : l < data.length := by omega
        have gl : data.getD l [] = data[l] := by simp [List.getD_eq_getElem?_getD, hld]
        have hmodle : i % n ≤ i := Nat.mod_le _ _
        have hmin : Min.min i T = i := by omega
        have hmin1 : Min.min (i + 1) T = i + 1 := by omega
        rw [hmin] at hA hAp
        obtain ⟨row', e, f1, f2⟩ := getNth_nth E data l i hld (by rw [← gl]; exact hil) (by omega)
        rw [e]
        simp only [bind_ok]
        have h0' : 0 < (data.set l row').length := by simpa using h0
        have h0r : (data.set l row')[0] = data[0] := by rw [List.getElem_set_ne (by omega)]
        rw [setAt0_spec h0' (by rw [h0r, ← g0, hlen0]; exact hlim), h0r]
        simp only [bind_ok]
        rw [g0] at hlen0 hAp hlow
        refine ih _ _ _ (by omega) ⟨hn, by simpa using hlen, ?_, ?_, ?_, ?_, ?_⟩
        · intro j hj
          rw [getD_set_ne (by omega)]
          by_cases hjl : j = l
          · subst hjl
            rw [getD_set_eq hld]
            refine f1.trans ?_
            rw [← gl]; exact hperm j hj
          · rw [getD_set_ne (Ne.symm hjl)]; exact hperm j hj
        · rw [getD_set_eq h0', List.length_set]; exact hlen0
        · rw [getD_set_eq h0', hmin1]
          refine ⟨A ++ [data[0].getD i 0], by simp [hA], ?_⟩
          rw [List.drop_set, if_pos (by omega), List.append_assoc, List.singleton_append, ← drop_cons_getD (by omega)]
          exact hAp
        · intro j hj hjT
          rw [getD_set_eq h0', List.getD_eq_getElem?_getD]
          by_cases hji : j < i
          · rw [List.getElem?_set_ne (by omega), ← List.getD_eq_getElem?_getD]
            exact hlow j hji hjT
          · have hji : j = i := by omega
            subst hji
            rw [List.getElem?_set_self (by omega), Option.getD_some, himod, ← (hperm l hlpos).countP_eq, gl, ← f1.countP_eq]
            exact f2
        · right
          by_cases hw : l + 1 = n
          · refine ⟨t + 1, 0, ?_, by omega, by simpa using hw, by omega⟩
            rw [ht, Nat.mul_succ]; omega
          · exact ⟨t, l + 1, by omega, by omega, by simp, by omega⟩
      by_cases hl1 : l = n - 1
      · rw [if_pos hl1]
        have hln : l < n := by clear hph; omega
        have hl0 : 1 ≤ l := by clear hph; omega
        have hld : l < data.length := by rw [hlen]; exact hln
        have gl : data.getD l [] = data[l] := by simp [List.getD_eq_getElem?_getD, hld]
        have hlm : data[l].length = m := by
          rw [← gl, (hperm l hl0).length_eq, hl1]; exact hDl
        rw [deref_ok hld]
        simp only [bind_ok]
        have skip : T ≤ i → ∃ data', reduceLoop E .nth n k (i + 1) l data = .ok data' ∧ ∃ l', NInv n L T D L l' data' := by
          intro hge
          clear hph
          refine ih _ _ _ (by omega) ⟨hn, hlen, hperm, hlen0, ⟨A, by omega, ?_⟩, ?_, .inl ⟨hl1, by omega⟩⟩
          · rw [show Min.min (i + 1) T = Min.min i T by omega]; exact hAp
          · intro j _ hjT; exact hlow j (by omega) hjT
        rcases hph with ⟨_, hge⟩ | ⟨t, p, e1, e2, e3, hiT⟩
        · rw [if_neg (by omega)]
          exact skip hge
        · have hp : p ≠ 0 := by
            intro hp; rw [if_pos hp] at e3; exact hl e3
          rw [if_neg hp] at e3
          subst e3
          have himod := hmod e1 e2
          by_cases hi : i < data[l].length
          · rw [if_pos hi]
            exact harvest (by omega) himod (by omega) (by omega) ⟨t, e1⟩ (by rw [gl]; exact hi)
          · rw [if_neg hi]
            refine skip ?_
            rcases Nat.lt_or_ge i T with h | h
            · exact absurd (hTl i (by omega) h) (by omega)
            · exact h
      · rw [if_neg hl1]
        rcases hph with ⟨h, _⟩ | ⟨t, p, e1, e2, e3, hiT⟩
        · exact absurd h hl1
        · have hp : p ≠ 0 := by
            intro hp; rw [if_pos hp] at e3; exact hl e3
          rw [if_neg hp] at e3
          subst e3
          have himod := hmod e1 e2
          refine harvest (by omega) himod (by omega) ?_ ⟨t, e1⟩ ?_
          · rcases Nat.lt_or_ge i T with h | h
            · exact h
            · have : i = T := by omega
              rw [this] at himod; omega
          · rw [(hperm l (by omega)).length_eq, hD l (by omega)]; exact hlim

/-- Samples left by `reduce` in `nth` mode. -/
theorem reduce_nth {env : Env} {r r' : Reducer} (hcur : r.curMode = .nth)
    {cs : List (List Int)} {last : List Int} (hd : r.data = cs ++ [last])
    (hc : ∀ c ∈ cs, c.length = r.opt.limit) {T : Nat} (hT : T % (cs.length + 1) = cs.length) (hTm : last.length ≤ T)
    (hTl : ∀ j, j % (cs.length + 1) = cs.length → j < T → j < last.length)
    (h : reduce env r = .ok r') :
    (cs = [] ∧ r'.data.headD [] = last) ∨
    ((r'.data.headD []).length = r.opt.limit ∧
      (∃ A : List Int, A.length = Min.min r.opt.limit T ∧
        (A ++ (r'.data.headD []).drop (Min.min r.opt.limit T)).Perm ((cs ++ [last]).getD 0 [])) ∧
      ∀ j < r.opt.limit, j < T →
        ((cs ++ [last]).getD (j % (cs.length + 1)) []).countP (fun y => decide (y < (r'.data.headD []).getD j 0)) ≤ j) := by
  unfold reduce at h
  rw [if_neg (by rw [hd]; simp)] at h
  simp only [hcur, reduceCtorEq, if_false] at h
  by_cases hcs : cs = []
  · subst hcs
    rw [if_pos (by rw [hd]; rfl)] at h
    cases h
    left
    simp [hd]
  · have hcl : 1 ≤ cs.length := by
      cases cs with
      | nil => exact absurd rfl hcs
      | cons a b => simp
    rw [if_neg (by rw [hd]; simp; omega)] at h
    right
    set D := cs ++ [last] with hD
    have hDn : D.length = cs.length + 1 := by simp [hD]
    have hrows : ∀ j, j + 1 < D.length → (D.getD j []).length = r.opt.limit := by
      intro j hj
      rw [hD, List.getD_append _ _ _ _ (by omega), List.getD_eq_getElem _ _ (by omega)]
      exact hc _ (List.getElem_mem _)
    have hlast : (D.getD (D.length - 1) []).length = last.length := by
      rw [hDn, hD]; simp
    have inv : NInv D.length r.opt.limit T D 0 D.length D := by
      refine ⟨by omega, rfl, fun _ _ => .refl _, hrows 0 (by omega), ⟨[], by simp, by simp⟩, ?_,
        .inr ⟨0, 0, by simp, by omega, by simp, by omega⟩⟩
      intro j hj; omega
    obtain ⟨d', e, l', inv'⟩ := reduceLoop_nth env.nth D.length r.opt.limit last.length T D hrows hlast
      (by rw [hDn]; exact hT) hTm (by rw [hDn]; exact hTl) _ _ _ _ (Nat.zero_add _) inv
    rw [hd, e] at h
    simp only [bind_ok] at h
    cases h
    have hhead : (d'.take 1).headD [] = d'.getD 0 [] := by cases d' <;> simp
    simp only [hhead]
    refine ⟨inv'.len0, inv'.left, ?_⟩
    have := inv'.low
    rw [hDn] at this
    exact this

end Reducer
end Wrtstat
