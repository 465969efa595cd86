import Verif.Lemmas.ReducerInv

namespace Wrtstat
namespace Reducer

/-- Loop invariant for the modes in which rows are not permuted. -/
structure SInv (n limit m : Nat) (D : List (List Int)) (i l : Nat) (data : List (List Int)) : Prop where
  hn : 2 ≤ n
  len : data.length = n
  same : ∀ j, 1 ≤ j → data.getD j [] = D.getD j []
  len0 : (data.getD 0 []).length = limit
  done : ∀ j, j < i → j < limit →
    (Exhausted n m j → (data.getD 0 []).getD j 0 = (D.getD 0 []).getD j 0) ∧
    (¬ Exhausted n m j → (data.getD 0 []).getD j 0 = (D.getD (j % n) []).getD j 0)
  todo : ∀ j, i ≤ j → (data.getD 0 []).getD j 0 = (D.getD 0 []).getD j 0
  ph : (l = n - 1 ∧ 0 < i ∧ Exhausted n m (i - 1)) ∨
    ∃ t p, i = n * t + p ∧ p < n ∧ l = (if p = 0 then n else p) ∧ (∀ j < i, ¬ Exhausted n m j)

theorem exhausted_mono {n m i j : Nat} (h : Exhausted n m i) (hij : i ≤ j) : Exhausted n m j := by
  obtain ⟨k, h1, h2⟩ := h
  exact ⟨k, h1.trans hij, h2⟩

theorem reduceLoop_sorted (E : NthElement) (cur : Mode) (hcur : cur ≠ .nth) (n limit m : Nat)
    (D : List (List Int)) (hD : ∀ j, j + 1 < n → (D.getD j []).length = limit)
    (hDl : (D.getD (n - 1) []).length = m) :
    ∀ (k i l : Nat) (data : List (List Int)), i + k = limit → SInv n limit m D i l data →
      ∃ data', reduceLoop E cur n k i l data = .ok data' ∧ ∃ l', SInv n limit m D limit l' data' := by
  intro k
  induction k with
  | zero =>
    intro i l data hik inv
    simp only [Nat.add_zero] at hik
    subst hik
    exact ⟨data, rfl, l, inv⟩
  | succ k ih =>
    intro i l data hik inv
    have hlim : i < limit := by omega
    obtain ⟨hn, hlen, hsame, hlen0, hdone, htodo, hph⟩ := inv
    have h0 : 0 < data.length := by omega
    have g0 : data.getD 0 [] = data[0] := by simp [List.getD_eq_getElem?_getD, h0]
    unfold reduceLoop
    by_cases hl : l = n
    · subst hl
      rw [if_pos rfl]
      simp only [nthIf, hcur, if_false, bind_ok]
      refine ih _ _ _ (by omega) ⟨hn, hlen, hsame, hlen0, ?_, ?_, ?_⟩
      · intro j hj hjl
        by_cases hji : j < i
        · exact hdone j hji hjl
        · have hji : j = i := by omega
          subst hji
          have ht := htodo j (le_refl _)
          rcases hph with ⟨h, _, _⟩ | ⟨t, p, e1, e2, e3, hne⟩
          · omega
          · have hp : p = 0 := by
              by_contra hp; rw [if_neg hp] at e3; omega
            have : j % l = 0 := by rw [e1, hp]; simp
            rw [this]
            exact ⟨fun _ => ht, fun _ => ht⟩
      · intro j hj; exact htodo j (by omega)
      · rcases hph with ⟨h, _, _⟩ | ⟨t, p, e1, e2, e3, hne⟩
        · omega
        · have hp : p = 0 := by
            by_contra hp; rw [if_neg hp] at e3; omega
          subst hp
          refine .inr ⟨t, 1, by omega, by omega, by simp, ?_⟩
          intro j hj hex
          obtain ⟨x, hx1, hx2, hx3⟩ := hex
          by_cases hxi : x < i
          · exact hne x hxi ⟨x, le_refl _, hx2, hx3⟩
          · have : x = i := by omega
            subst this
            have : x % l = 0 := by rw [e1]; simp
            omega
    · rw [if_neg hl]
      -- common harvesting step
      have harvest : l < n → (∀ j < i, ¬ Exhausted n m j) → ¬ Exhausted n m i → i % n = l → 0 < l →
          (∃ t, i = n * t + l) →
          i < (data.getD l []).length →
          ∃ data', (getNth_ E cur data l i >>= fun x => setAt0 x.2 i x.1 >>= fun data =>
            reduceLoop E cur n k (i + 1) (l + 1) data) = .ok data' ∧
            ∃ l', SInv n limit m D limit l' data' := by
        intro hln hne hnx himod hlpos ⟨t, ht⟩ hil
        have hld : l < data.length := by omega
        have gl : data.getD l [] = data[l] := by simp [List.getD_eq_getElem?_getD, hld]
        have hmodle : i % n ≤ i := Nat.mod_le _ _
        obtain ⟨row', hi', e, h1, _, h3⟩ := getNth_spec E cur data l i hld (by rw [← gl]; exact hil) (by omega)
        have h3 := h3 hcur
        subst h3
        rw [e]
        simp only [bind_ok, List.set_getElem_self]
        rw [setAt0_spec h0 (by rw [← g0, hlen0]; exact hlim)]
        simp only [bind_ok]
        refine ih _ _ _ (by omega) ⟨hn, by simpa using hlen, ?_, ?_, ?_, ?_, ?_⟩
        · intro j hj; rw [getD_set_ne (by omega)]; exact hsame j hj
        · rw [getD_set_eq h0, List.length_set, ← g0]; exact hlen0
        · intro j hj hjl
          rw [getD_set_eq h0, List.getD_eq_getElem?_getD, ← g0]
          by_cases hji : j < i
          · rw [List.getElem?_set_ne (by omega), ← List.getD_eq_getElem?_getD]
            exact hdone j hji hjl
          · have hji : j = i := by omega
            subst hji
            refine ⟨fun hx => absurd hx hnx, fun _ => ?_⟩
            rw [List.getElem?_set_self (by rw [hlen0]; exact hjl), himod, ← hsame l hlpos, gl]
            simp [List.getD_eq_getElem?_getD, hi']
        · intro j hj
          rw [getD_set_eq h0, List.getD_eq_getElem?_getD, ← g0, List.getElem?_set_ne (by omega),
            ← List.getD_eq_getElem?_getD]
          exact htodo j (by omega)
        · right
          have hne' : ∀ j < i + 1, ¬ Exhausted n m j := by
            intro j hj hex
            exact hnx (exhausted_mono hex (by omega))
          by_cases hw : l + 1 = n
          · refine ⟨t + 1, 0, ?_, by omega, by simpa using hw, hne'⟩
            rw [ht, Nat.mul_succ]; omega
          · exact ⟨t, l + 1, by omega, by omega, by simp, hne'⟩
      by_cases hl1 : l = n - 1
      · rw [if_pos hl1]
        have hld : l < data.length := by omega
        have gl : data.getD l [] = data[l] := by simp [List.getD_eq_getElem?_getD, hld]
        have hlm : data[l].length = m := by
          rw [← gl, hsame l (by omega), hl1]; exact hDl
        rw [deref_ok hld]
        simp only [bind_ok]
        rcases hph with ⟨_, hi0, hex⟩ | ⟨t, p, e1, e2, e3, hne⟩
        · -- already exhausted
          have hmi : m ≤ i := by
            obtain ⟨x, hx1, _, hx3⟩ := hex; omega
          rw [if_neg (by omega)]
          refine ih _ _ _ (by omega) ⟨hn, hlen, hsame, hlen0, ?_, ?_, .inl ⟨hl1, by omega, ?_⟩⟩
          · intro j hj hjl
            by_cases hji : j < i
            · exact hdone j hji hjl
            · have hji : j = i := by omega
              subst hji
              refine ⟨fun _ => htodo j (le_refl _), fun hx => absurd (exhausted_mono hex (by omega)) hx⟩
          · intro j hj; exact htodo j (by omega)
          · exact exhausted_mono hex (by omega)
        · have hp : p ≠ 0 := by
            intro hp; rw [if_pos hp] at e3; exact hl e3
          rw [if_neg hp] at e3
          subst e3
          have himod : i % n = l := by
            rw [e1, Nat.mul_add_mod]; exact Nat.mod_eq_of_lt e2
          by_cases hi : i < data[l].length
          · rw [if_pos hi]
            refine harvest (by omega) hne ?_ himod (by omega) ⟨t, e1⟩ (by rw [gl]; exact hi)
            rintro ⟨x, hx1, hx2, hx3⟩
            omega
          · rw [if_neg hi]
            have hex : Exhausted n m i := ⟨i, le_refl _, by omega, by omega⟩
            refine ih _ _ _ (by omega) ⟨hn, hlen, hsame, hlen0, ?_, ?_, .inl ⟨hl1, by omega, by simpa using hex⟩⟩
            · intro j hj hjl
              by_cases hji : j < i
              · exact hdone j hji hjl
              · have hji : j = i := by omega
                subst hji
                exact ⟨fun _ => htodo j (le_refl _), fun hx => absurd hex hx⟩
            · intro j hj; exact htodo j (by omega)
      · rw [if_neg hl1]
        rcases hph with ⟨h, _, _⟩ | ⟨t, p, e1, e2, e3, hne⟩
        · exact absurd h hl1
        · have hp : p ≠ 0 := by
            intro hp; rw [if_pos hp] at e3; exact hl e3
          rw [if_neg hp] at e3
          subst e3
          have himod : i % n = l := by
            rw [e1, Nat.mul_add_mod]; exact Nat.mod_eq_of_lt e2
          refine harvest (by omega) hne ?_ himod (by omega) ⟨t, e1⟩ ?_
          · rintro ⟨x, hx1, hx2, hx3⟩
            by_cases hxi : x < i
            · exact hne x hxi ⟨x, le_refl _, hx2, hx3⟩
            · have : x = i := by omega
              subst this; omega
          · rw [hsame l (by omega), hD l (by omega)]; exact hlim

/-- The table built in sorting mode: the values that fit, cut into chunks, all but the last
sorted. -/
structure Table (limit levels : Nat) (vs : List Int) (data : List (List Int)) : Prop where
  ex : (data = [] ∧ vs.take (limit * levels) = []) ∨
    ∃ (cs : List (List Int)) (last : List Int), data = cs.map sortInts ++ [last] ∧ cs.flatten ++ last = vs.take (limit * levels) ∧
      (∀ c ∈ cs, c.length = limit) ∧ 0 < last.length ∧ last.length ≤ limit ∧ cs.length + 1 ≤ levels

theorem flatten_length_const {cs : List (List Int)} {limit : Nat} (h : ∀ c ∈ cs, c.length = limit) :
    cs.flatten.length = limit * cs.length := by
  have : cs.map List.length = List.replicate cs.length limit :=
    List.eq_replicate_iff.2 ⟨by simp, by simpa using h⟩
  rw [List.length_flatten, this]; simp [Nat.mul_comm]

theorem table_add {opt : ReducerOpts} {vs : List Int} {data : List (List Int)} (v : Int)
    (hsh : Shape opt.limit opt.levels data) (h : Table opt.limit opt.levels vs data) :
    Table opt.limit opt.levels (vs ++ [v]) (tableAdd opt .sorting data v).1 := by
  have hfull : ∀ {c : Nat}, vs.length ≥ opt.limit * opt.levels →
      (vs ++ [v]).take (opt.limit * opt.levels) = vs.take (opt.limit * opt.levels) := by
    intro _ h; exact List.take_append_of_le_length h
  have hroom : vs.length < opt.limit * opt.levels →
      (vs ++ [v]).take (opt.limit * opt.levels) = vs.take (opt.limit * opt.levels) ++ [v] := by
    intro h
    rw [List.take_of_length_le (by simp; omega), List.take_of_length_le (by omega)]
  obtain ⟨h⟩ := h
  rcases h with ⟨rfl, h⟩ | ⟨cs, last, rfl, hf, hc, hp, hle, hlev⟩
  · by_cases hz : opt.levels = 0 ∨ opt.limit = 0
    · have hmul : opt.limit * opt.levels = 0 := by rcases hz with hz | hz <;> simp [hz]
      constructor; left
      refine ⟨?_, by simp [hmul]⟩
      rcases hz with hz | hz <;> simp [tableAdd, hz]
    · have h1 : opt.levels ≠ 0 := fun h => hz (.inl h)
      have h2 : opt.limit ≠ 0 := fun h => hz (.inr h)
      have hpos : 0 < opt.limit * opt.levels := Nat.mul_pos (by omega) (by omega)
      have hvs : vs = [] := by
        rw [List.take_eq_nil_iff] at h; rcases h with h | h
        · omega
        · exact h
      subst hvs
      constructor; right
      refine ⟨[], [v], ?_, ?_, by simp, by simp, by simp; omega, by simp; omega⟩
      · simp [tableAdd, h2, onBack, Ne.symm h1]
      · rw [hroom (by simpa using hpos)]; simp
  · have hcl := flatten_length_const hc
    have hkl : (vs.take (opt.limit * opt.levels)).length = opt.limit * cs.length + last.length := by
      rw [← hf, List.length_append, hcl]
    rw [List.length_take] at hkl
    by_cases hl : last.length = opt.limit
    · by_cases hlv : cs.length + 1 = opt.levels
      · constructor; right
        refine ⟨cs, last, by simp [tableAdd, hl, hlv], ?_, hc, hp, hle, hlev⟩
        have : opt.limit * opt.levels = opt.limit * cs.length + opt.limit := by
          rw [← hlv, Nat.mul_succ]
        rw [hfull (c := 0) (by omega), hf]
      · constructor; right
        refine ⟨cs ++ [last], [v], ?_, ?_, ?_, by simp, by simp; omega, by simp; omega⟩
        · have : opt.limit ≠ 0 := by omega
          unfold tableAdd
          simp [hl, hlv, this]
        · have : opt.limit * (cs.length + 2) ≤ opt.limit * opt.levels := Nat.mul_le_mul_left _ (by omega)
          have e : opt.limit * (cs.length + 2) = opt.limit * cs.length + opt.limit + opt.limit := by ring
          rw [hroom (by omega), ← hf]; simp
        · intro c hcm
          simp only [List.mem_append, List.mem_singleton] at hcm
          rcases hcm with hcm | rfl
          · exact hc c hcm
          · exact hl
    · constructor; right
      refine ⟨cs, last ++ [v], ?_, ?_, hc, by simp, by simp; omega, hlev⟩
      · unfold tableAdd; simp [hl]
      · have : opt.limit * (cs.length + 1) ≤ opt.limit * opt.levels := Nat.mul_le_mul_left _ hlev
        have e : opt.limit * (cs.length + 1) = opt.limit * cs.length + opt.limit := by ring
        rw [hroom (by omega), ← hf]; simp

end Reducer
end Wrtstat

namespace Wrtstat
namespace Reducer

/-- The table after a sequence of values. -/
def tableFold (opt : ReducerOpts) (cur : Mode) (data : List (List Int)) (vs : List Int) :
    List (List Int) :=
  vs.foldl (fun d v => (tableAdd opt cur d v).1) data

theorem foldl_data (env : Env) (vs : List Int) (r : Reducer) :
    (vs.foldl (add_ env) r).data = tableFold r.opt r.curMode r.data vs := by
  induction vs generalizing r with
  | nil => rfl
  | cons v vs ih =>
    simp only [List.foldl_cons, tableFold]
    rw [ih, (add_frame env r v).1, (add_frame env r v).2.2, add_eq]
    rfl

theorem add_data (env : Env) (r : Reducer) (a : AddArg) :
    (add env r a).data = tableFold r.opt r.curMode r.data a.values := by
  cases a with
  | one v c =>
    have := foldl_data env [v] { r with empty := false }
    simp only [List.foldl_cons, List.foldl_nil] at this
    simp only [add, addOne, AddArg.values]
    split_ifs <;> simpa using this
  | many us c =>
    have := foldl_data env us { r with empty := false }
    simp only [add, addMany, AddArg.values]
    split_ifs <;> simpa using this
  | init us =>
    have := foldl_data env us r
    simpa [add, addInit, AddArg.values] using this
  | reduced rd =>
    have := foldl_data env rd.data { r with empty := false }
    simp only [add, addReduced, addMany, minmax, AddArg.values]
    split_ifs <;> simpa using this

theorem adds_data (env : Env) (as : List AddArg) (r : Reducer) :
    (as.foldl (add env) r).data = tableFold r.opt r.curMode r.data (allValues as) ∧
      (as.foldl (add env) r).opt = r.opt ∧ (as.foldl (add env) r).curMode = r.curMode := by
  induction as generalizing r with
  | nil => exact ⟨rfl, rfl, rfl⟩
  | cons a as ih =>
    obtain ⟨h1, h2, h3⟩ := ih (add env r a)
    obtain ⟨h4, h5⟩ := add_opt env r a
    simp only [List.foldl_cons]
    refine ⟨?_, h2.trans h4, h3.trans h5⟩
    rw [h1, add_data, h4, h5]
    simp [tableFold, allValues]

theorem tableFold_table (opt : ReducerOpts) (vs : List Int) :
    Table opt.limit opt.levels vs (tableFold opt .sorting [] vs) ∧
      Shape opt.limit opt.levels (tableFold opt .sorting [] vs) := by
  induction vs using List.reverseRecOn with
  | nil => exact ⟨⟨.inl ⟨rfl, by simp⟩⟩, .inl rfl⟩
  | append_singleton l v ih =>
    have e : tableFold opt .sorting [] (l ++ [v]) =
        (tableAdd opt .sorting (tableFold opt .sorting [] l) v).1 := by simp [tableFold]
    rw [e]
    exact ⟨table_add v ih.2 ih.1, tableAdd_shape ih.2⟩

/-- Samples left by `reduce` in sorting mode. -/
theorem reduce_sorted {env : Env} {r r' : Reducer} (hcur : r.curMode = .sorting)
    {cs : List (List Int)} {last : List Int} (hd : r.data = cs.map sortInts ++ [last])
    (hc : ∀ c ∈ cs, c.length = r.opt.limit) (_hp : 0 < last.length) (_hle : last.length ≤ r.opt.limit)
    (h : reduce env r = .ok r') :
    (r'.data.headD []).length = (if cs = [] then last.length else r.opt.limit) ∧
    ∀ i < (r'.data.headD []).length,
      (Exhausted (cs.length + 1) last.length i →
        (r'.data.headD []).getD i 0 = (sortInts ((cs ++ [last]).getD 0 [])).getD i 0) ∧
      (¬ Exhausted (cs.length + 1) last.length i →
        (r'.data.headD []).getD i 0 =
          (sortInts ((cs ++ [last]).getD (i % (cs.length + 1)) [])).getD i 0) := by
  unfold reduce at h
  rw [if_neg (by rw [hd]; simp), if_pos hcur] at h
  simp only at h
  rw [hd, onBack_concat] at h
  by_cases hcs : cs = []
  · subst hcs
    simp only [List.map_nil, List.nil_append, List.length_singleton, if_true] at h
    cases h
    simp only [List.headD_cons, sortInts_length, if_true, List.length_nil, Nat.zero_add, Nat.mod_one,
      List.nil_append, List.getD_cons_zero, true_and]
    intro i _
    exact ⟨fun _ => trivial, fun _ => trivial⟩
  · have hcl : 1 ≤ cs.length := by
      cases cs with
      | nil => exact absurd rfl hcs
      | cons a b => simp
    rw [if_neg (by simp; omega)] at h
    set D := cs.map sortInts ++ [sortInts last] with hD
    have hDe : D = (cs ++ [last]).map sortInts := by simp [hD]
    have hDn : D.length = cs.length + 1 := by simp [hD]
    have hg : ∀ j, D.getD j [] = sortInts ((cs ++ [last]).getD j []) := by
      intro j
      rw [hDe]
      have := List.getD_map (l := cs ++ [last]) (d := ([] : List Int)) (n := j) sortInts
      rw [sortInts_nil] at this
      exact this
    have hrows : ∀ j, j + 1 < D.length → (D.getD j []).length = r.opt.limit := by
      intro j hj
      rw [hg, sortInts_length, List.getD_append _ _ _ _ (by omega), List.getD_eq_getElem _ _ (by omega)]
      exact hc _ (List.getElem_mem _)
    have hlast : (D.getD (D.length - 1) []).length = last.length := by
      rw [hg, sortInts_length, hDn]; simp
    have h00 : (D.getD 0 []).length = r.opt.limit := hrows 0 (by omega)
    have inv : SInv D.length r.opt.limit last.length D 0 D.length D := by
      refine ⟨by omega, rfl, fun _ _ => rfl, h00, ?_, fun _ _ => rfl, .inr ⟨0, 0, by simp, by omega, by simp, ?_⟩⟩
      · intro j hj; omega
      · intro j hj; omega
    obtain ⟨d', e, l', inv'⟩ := reduceLoop_sorted env.nth .sorting (by decide) _ _ _ D hrows hlast _ _ _ _
      (Nat.zero_add _) inv
    rw [hcur, e] at h
    simp only [bind_ok] at h
    cases h
    have hhead : (d'.take 1).headD [] = d'.getD 0 [] := by cases d' <;> simp
    simp only [hhead, inv'.len0, hcs, if_false, true_and]
    intro i hi
    have := inv'.done i hi hi
    rw [hg, hg, hDn] at this
    exact this

end Reducer
end Wrtstat
