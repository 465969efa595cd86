/-
Lemmas on the compaction of names.
-/
import Verif.Model.Packer
import Verif.Lemmas.RegistryStep
import Mathlib.Tactic.Linarith

namespace Wrtstat

set_option autoImplicit false

/-! ### breakAt -/

theorem breakAt_some {sep s a b : PName} (h : breakAt sep s = some (a, b)) : s = a ++ (sep ++ b) := by
  induction s generalizing a b with
  | nil =>
    unfold breakAt at h
    by_cases hs : sep = []
    · rw [if_pos hs] at h; simp at h; obtain ⟨rfl, rfl⟩ := h; simp [hs]
    · rw [if_neg hs] at h; simp at h
  | cons c s ih =>
    unfold breakAt at h
    by_cases hp : sep.isPrefixOf (c :: s)
    · rw [if_pos hp] at h
      simp at h
      obtain ⟨rfl, rfl⟩ := h
      obtain ⟨t, ht⟩ := List.isPrefixOf_iff_prefix.1 hp
      rw [← ht]; simp
    · rw [if_neg hp] at h
      cases hb : breakAt sep s with
      | none => rw [hb] at h; simp at h
      | some r =>
        obtain ⟨x, y⟩ := r
        rw [hb] at h
        simp at h
        obtain ⟨rfl, rfl⟩ := h
        rw [ih hb]; simp

theorem breakAt_nil (s : PName) : breakAt [] s = some ([], s) := by
  cases s with
  | nil => rfl
  | cons c s => simp [breakAt]

/-! ### findorcre -/

theorem idxOf?_some {l : List PName} {n : PName} {i : Nat} (h : l.idxOf? n = some i) : l[i]? = some n := by
  rw [List.idxOf?, List.findIdx?_eq_some_iff_getElem] at h
  obtain ⟨hi, h1, -⟩ := h
  rw [List.getElem?_eq_getElem hi]
  simpa using h1

theorem idxOf?_none {l : List PName} {n : PName} (h : l.idxOf? n = none) : n ∉ l := by
  rw [List.idxOf?, List.findIdx?_eq_none_iff] at h
  intro hn
  have := h n hn
  simp at this

/-- What `findorcre` gives: an index of the word in the legend, which is extended only by a new word. -/
theorem findorcre_spec (n : PName) (lg : List PName) :
    (findorcre n lg).2[(findorcre n lg).1]? = some n ∧
    ((n ∈ lg ∧ (findorcre n lg).2 = lg) ∨ (n ∉ lg ∧ (findorcre n lg).2 = lg ++ [n])) := by
  unfold findorcre
  cases h : lg.idxOf? n with
  | some i => exact ⟨idxOf?_some h, Or.inl ⟨List.mem_of_getElem? (idxOf?_some h), rfl⟩⟩
  | none => exact ⟨by simp, Or.inr ⟨idxOf?_none h, rfl⟩⟩

/-! ### The words of a name -/

/-- The words of a name. -/
def splitWords (sep : PName) : Nat → PName → M (List PName)
  | 0, _ => .error .diverge
  | fuel + 1, rest =>
    match breakAt sep rest with
    | none => .ok [rest]
    | some (item, rest) => do
      let ws ← splitWords sep fuel rest
      .ok (item :: ws)

/-- The indices of words in a legend, extended when needed. -/
def indexAll : List PName → List PName → List Nat × List PName
  | [], lg => ([], lg)
  | w :: ws, lg =>
    let r := findorcre w lg
    let q := indexAll ws r.2
    (r.1 :: q.1, q.2)

/-- The indices joined by `~`. -/
def joinIdx : List Nat → PName
  | [] => []
  | [i] => decimal i
  | i :: j :: is => decimal i ++ '~' :: joinIdx (j :: is)

theorem splitWords_ne_nil {sep : PName} {f : Nat} {s : PName} {ws : List PName} (h : splitWords sep f s = .ok ws) :
    ws ≠ [] := by
  cases f with
  | zero => simp [splitWords] at h
  | succ f =>
    unfold splitWords at h
    cases hb : breakAt sep s with
    | none => rw [hb] at h; simp at h; rw [← h]; simp
    | some r =>
      obtain ⟨a, b⟩ := r
      rw [hb] at h
      obtain ⟨ws', -, h⟩ := bind_inv h
      simp at h; rw [← h]; simp

theorem joinIdx_cons (i : Nat) {is : List Nat} (h : is ≠ []) : joinIdx (i :: is) = decimal i ++ '~' :: joinIdx is := by
  cases is with
  | nil => exact absurd rfl h
  | cons j is => rfl

theorem indexAll_length (ws lg : List PName) : (indexAll ws lg).1.length = ws.length := by
  induction ws generalizing lg with
  | nil => rfl
  | cons w ws ih => simp [indexAll, ih]

theorem compactLoop_words (sep : PName) (f : Nat) (s : PName) (lg : List PName) :
    compactLoop sep f s lg = (do
      let ws ← splitWords sep f s
      .ok (joinIdx (indexAll ws lg).1, (indexAll ws lg).2)) := by
  induction f generalizing s lg with
  | zero => rfl
  | succ f ih =>
    unfold compactLoop splitWords
    cases hb : breakAt sep s with
    | none => rfl
    | some r =>
      obtain ⟨a, b⟩ := r
      simp only [ih]
      cases hs : splitWords sep f b with
      | error e => rfl
      | ok ws =>
        have hne : (indexAll ws (findorcre a lg).2).1 ≠ [] := by
          have := splitWords_ne_nil hs
          intro h
          have h2 := indexAll_length ws (findorcre a lg).2
          rw [h] at h2
          exact this (List.length_eq_zero_iff.1 h2.symm)
        show Except.ok (_, _) = Except.ok (_, _)
        simp only [indexAll]
        rw [joinIdx_cons _ hne]

/-- With a separator the words are found in finitely many steps. -/
theorem splitWords_total {sep : PName} (hs : sep ≠ []) {f : Nat} {s : PName} (hf : s.length < f) :
    ∃ ws, splitWords sep f s = .ok ws := by
  induction f generalizing s with
  | zero => omega
  | succ f ih =>
    unfold splitWords
    cases hb : breakAt sep s with
    | none => exact ⟨_, rfl⟩
    | some r =>
      obtain ⟨a, b⟩ := r
      have hl := congrArg List.length (breakAt_some hb)
      have : 0 < sep.length := List.length_pos_iff.2 hs
      simp only [List.length_append] at hl
      obtain ⟨ws, hw⟩ := ih (s := b) (by omega)
      exact ⟨a :: ws, by simp only [hw]; rfl⟩

/-- Without one they are not. -/
theorem splitWords_diverges (f : Nat) (s : PName) : splitWords [] f s = .error .diverge := by
  induction f with
  | zero => rfl
  | succ f ih => unfold splitWords; rw [breakAt_nil]; simp only [ih]; rfl

theorem compactName_total {sep : PName} (hs : sep ≠ []) (n : PName) (lg : List PName) :
    ∃ ws, splitWords sep (n.length + 1) n = .ok ws ∧
      compactName sep n lg = .ok (joinIdx (indexAll ws lg).1, (indexAll ws lg).2) := by
  obtain ⟨ws, hw⟩ := splitWords_total hs (s := n) (Nat.lt_succ_self _)
  exact ⟨ws, hw, by unfold compactName; rw [compactLoop_words, hw]; rfl⟩

/-! ### The legend -/

theorem indexAll_prefix (ws lg : List PName) : lg <+: (indexAll ws lg).2 := by
  induction ws generalizing lg with
  | nil => exact List.prefix_refl _
  | cons w ws ih =>
    refine List.IsPrefix.trans ?_ (ih _)
    rcases (findorcre_spec w lg).2 with ⟨-, h⟩ | ⟨-, h⟩
    · rw [h]
    · rw [h]; exact List.prefix_append _ _

theorem mem_indexAll (ws lg : List PName) (x : PName) : x ∈ (indexAll ws lg).2 ↔ x ∈ lg ∨ x ∈ ws := by
  induction ws generalizing lg with
  | nil => simp [indexAll]
  | cons w ws ih =>
    show x ∈ (indexAll ws (findorcre w lg).2).2 ↔ _
    rw [ih]
    rcases (findorcre_spec w lg).2 with ⟨h1, h⟩ | ⟨-, h⟩ <;> rw [h]
    · simp only [List.mem_cons]
      constructor
      · rintro (h2 | h2) <;> tauto
      · rintro (h2 | rfl | h2) <;> tauto
    · simp only [List.mem_cons, List.mem_append, List.not_mem_nil, or_false]
      tauto

theorem nodup_indexAll (ws : List PName) {lg : List PName} (h : lg.Nodup) : (indexAll ws lg).2.Nodup := by
  induction ws generalizing lg with
  | nil => exact h
  | cons w ws ih =>
    apply ih
    rcases (findorcre_spec w lg).2 with ⟨-, h1⟩ | ⟨h2, h1⟩ <;> rw [h1]
    · exact h
    · rw [List.nodup_append]
      exact ⟨h, by simp, fun a ha b hb => by simp at hb; subst hb; rintro rfl; exact h2 ha⟩

/-- The indices point at the words, in the resulting legend and in every extension of it. -/
theorem indexAll_get (ws lg : List PName) {L : List PName} (hL : (indexAll ws lg).2 <+: L) :
    (indexAll ws lg).1.map (fun i => L[i]?) = ws.map some := by
  induction ws generalizing lg with
  | nil => rfl
  | cons w ws ih =>
    have h1 := ih (findorcre w lg).2 (by exact hL)
    have hp := (indexAll_prefix ws (findorcre w lg).2).trans hL
    obtain ⟨t, ht⟩ := hp
    show L[(findorcre w lg).1]? :: _ = some w :: _
    refine congrArg₂ _ ?_ h1
    have h2 := (findorcre_spec w lg).1
    obtain ⟨hlt, -⟩ := List.getElem?_eq_some_iff.1 h2
    rw [← ht, List.getElem?_append_left hlt, h2]

theorem lt_of_mem_indexAll {ws lg : List PName} {i : Nat} (h : i ∈ (indexAll ws lg).1) : i < (indexAll ws lg).2.length := by
  have := indexAll_get ws lg (List.prefix_refl _)
  have hm : (indexAll ws lg).2[i]? ∈ (indexAll ws lg).1.map (fun i => (indexAll ws lg).2[i]?) := List.mem_map_of_mem h
  rw [this] at hm
  obtain ⟨w, -, hw⟩ := List.mem_map.1 hm
  exact (List.getElem?_eq_some_iff.1 hw.symm).1

/-! ### Length of compact names -/

theorem decimal_length_pos (n : Nat) : 1 ≤ (decimal n).length := Nat.length_toDigits_pos

theorem decimal_length_one {n : Nat} (h : n < 10) : (decimal n).length = 1 := by
  unfold decimal; rw [Nat.toDigits_of_lt_base h]; rfl

theorem joinIdx_le (is : List Nat) : 2 * is.length - 1 ≤ (joinIdx is).length := by
  induction is with
  | nil => simp [joinIdx]
  | cons i is ih =>
    cases is with
    | nil => simp [joinIdx]; exact decimal_length_pos i
    | cons j is =>
      rw [joinIdx_cons i (by simp)]
      have := decimal_length_pos i
      simp only [List.length_append, List.length_cons] at *
      omega

theorem joinIdx_eq {is : List Nat} (h : ∀ i ∈ is, i < 10) : (joinIdx is).length = 2 * is.length - 1 := by
  induction is with
  | nil => rfl
  | cons i is ih =>
    cases is with
    | nil => simp [joinIdx]; exact decimal_length_one (h i (by simp))
    | cons j is =>
      rw [joinIdx_cons i (by simp)]
      have h1 := decimal_length_one (h i (by simp))
      have h2 := ih fun i hi => h i (List.mem_cons_of_mem _ hi)
      simp only [List.length_append, List.length_cons] at *
      omega

theorem joinIdx_plain (is : List Nat) : ∀ c ∈ joinIdx is, c.isDigit ∨ c = '~' := by
  have hd : ∀ (n : Nat) (c : Char), c ∈ decimal n → c.isDigit := fun n c h =>
    Nat.isDigit_of_mem_toDigits (by omega) (by omega) h
  induction is with
  | nil => simp [joinIdx]
  | cons i is ih =>
    cases is with
    | nil => intro c hc; exact Or.inl (hd i c hc)
    | cons j is =>
      rw [joinIdx_cons i (by simp)]
      intro c hc
      rcases List.mem_append.1 hc with h | h
      · exact Or.inl (hd i c h)
      · rcases List.mem_cons.1 h with rfl | h
        · exact Or.inr rfl
        · exact ih c h

/-! ### Restoring names -/

/-- The words joined by the separator. -/
def joinWords (sep : PName) : List PName → PName
  | [] => []
  | [w] => w
  | w :: x :: ws => w ++ (sep ++ joinWords sep (x :: ws))

theorem joinWords_cons (sep w : PName) {ws : List PName} (h : ws ≠ []) :
    joinWords sep (w :: ws) = w ++ (sep ++ joinWords sep ws) := by
  cases ws with
  | nil => exact absurd rfl h
  | cons x ws => rfl

theorem splitWords_join {sep : PName} {f : Nat} {s : PName} {ws : List PName} (h : splitWords sep f s = .ok ws) :
    joinWords sep ws = s := by
  induction f generalizing s ws with
  | zero => simp [splitWords] at h
  | succ f ih =>
    unfold splitWords at h
    cases hb : breakAt sep s with
    | none => rw [hb] at h; simp at h; rw [← h]; rfl
    | some r =>
      obtain ⟨a, b⟩ := r
      rw [hb] at h
      obtain ⟨ws', h1, h⟩ := bind_inv h
      simp at h
      rw [← h, joinWords_cons sep a (splitWords_ne_nil h1), ih h1, breakAt_some hb]

theorem recompactLoop_pos (W : Wjson) (sep : PName) (L : List PName) (f i : Nat) (s t ss w : PName)
    (hs : s = decimal i ++ t) (hi : L[i]? = some w) (hb : L.length ≤ 2 ^ 64) (ht : t.head? = none ∨ t.head? = some '~') :
    recompactLoop W sep L (f + 1) s ss =
      (match (i, t).2 with
      | [] => .ok (some (ss ++ w))
      | c :: beg => if c ≠ '~' then .ok none else recompactLoop W sep L f beg (ss ++ w ++ sep)) := by
  obtain ⟨hlt, -⟩ := List.getElem?_eq_some_iff.1 hi
  have hr := W.readInt_decimal i t (by omega) ht
  have hn := W.isNumber_decimal i t
  have hd : deref L i = .ok w := by unfold deref; rw [hi]
  rw [← hs] at hr hn
  cases s with
  | nil =>
    have := decimal_length_pos i
    rw [(List.append_eq_nil_iff.1 hs.symm).1] at this
    simp at this
  | cons c s =>
    conv_lhs => unfold recompactLoop
    rw [if_neg (by rw [hn]; simp)]
    simp only [hr]
    rw [if_neg (by omega), hd, bind_ok']
    cases t <;> rfl

theorem recompactLoop_join (W : Wjson) (sep : PName) {L : List PName} (hb : L.length ≤ 2 ^ 64) {is : List Nat}
    {ws : List PName} (hne : is ≠ []) (hg : is.map (fun i => L[i]?) = ws.map some) (f : Nat) (ss : PName)
    (hf : (joinIdx is).length < f) :
    recompactLoop W sep L f (joinIdx is) ss = .ok (some (ss ++ joinWords sep ws)) := by
  induction is generalizing ws f ss with
  | nil => exact absurd rfl hne
  | cons i is ih =>
    cases ws with
    | nil => simp at hg
    | cons w ws =>
      simp only [List.map_cons, List.cons.injEq] at hg
      obtain ⟨g1, g2⟩ := hg
      cases f with
      | zero => omega
      | succ f =>
        cases is with
        | nil =>
          cases ws with
          | cons => simp at g2
          | nil =>
            exact recompactLoop_pos W sep L f i _ [] ss w (List.append_nil _).symm g1 hb (Or.inl rfl)
        | cons j is =>
          rw [joinIdx_cons i (by simp)] at hf ⊢
          rw [recompactLoop_pos W sep L f i _ _ ss w rfl g1 hb (Or.inr rfl)]
          have hws : ws ≠ [] := by rintro rfl; simp at g2
          have := ih (by simp) g2 f (ss ++ w ++ sep) (by
            simp only [List.length_append, List.length_cons] at hf ⊢; omega)
          show recompactLoop W sep L f (joinIdx (j :: is)) (ss ++ w ++ sep) = _
          rw [this, joinWords_cons sep w hws]
          simp

/-- A name is restored from its compact form with any extension of the legend. -/
theorem recompact_name (W : Wjson) {sep : PName} {n s : PName} {lg lg' L : List PName}
    (h : compactName sep n lg = .ok (s, lg')) (hL : lg' <+: L) (hb : L.length ≤ 2 ^ 64) :
    recompactLoop W sep L (s.length + 1) s [] = .ok (some n) := by
  unfold compactName at h
  rw [compactLoop_words] at h
  obtain ⟨ws, h1, h2⟩ := bind_inv h
  simp only [Except.ok.injEq, Prod.mk.injEq] at h2
  obtain ⟨rfl, rfl⟩ := h2
  have hne : (indexAll ws lg).1 ≠ [] := by
    intro h
    have h2 := indexAll_length ws lg
    rw [h] at h2
    exact splitWords_ne_nil h1 (List.length_eq_zero_iff.1 h2.symm)
  rw [recompactLoop_join W sep hb hne (indexAll_get ws lg hL) _ _ (Nat.lt_succ_self _), splitWords_join h1]
  simp

theorem compactName_prefix {sep n s : PName} {lg lg' : List PName} (h : compactName sep n lg = .ok (s, lg')) :
    lg <+: lg' ∧ (lg ≠ [] ∨ lg' ≠ []) := by
  unfold compactName at h
  rw [compactLoop_words] at h
  obtain ⟨ws, h1, h2⟩ := bind_inv h
  simp only [Except.ok.injEq, Prod.mk.injEq] at h2
  obtain ⟨-, rfl⟩ := h2
  refine ⟨indexAll_prefix ws lg, Or.inr ?_⟩
  have hws := splitWords_ne_nil h1
  cases ws with
  | nil => exact absurd rfl hws
  | cons w ws =>
    intro h
    have := (mem_indexAll (w :: ws) lg w).2 (by simp)
    rw [h] at this
    simp at this

theorem compactAll_prefix {sep : PName} {ps ps' : List PushRequest} {lg lg' : List PName}
    (h : compactAll sep ps lg = .ok (ps', lg')) : lg <+: lg' ∧ (ps ≠ [] → lg' ≠ []) := by
  induction ps generalizing ps' lg lg' with
  | nil =>
    simp [compactAll] at h
    obtain ⟨-, rfl⟩ := h
    exact ⟨List.prefix_refl _, fun h => absurd rfl h⟩
  | cons p ps ih =>
    unfold compactAll at h
    obtain ⟨⟨n, lg1⟩, h1, h⟩ := bind_inv h
    obtain ⟨⟨qs, lg2⟩, h2, h⟩ := bind_inv h
    simp at h
    obtain ⟨rfl, rfl⟩ := h
    obtain ⟨a1, a2⟩ := compactName_prefix h1
    obtain ⟨b1, b2⟩ := ih h2
    refine ⟨a1.trans b1, fun _ h0 => ?_⟩
    rw [h0] at b1
    have e1 := List.prefix_nil.1 b1
    rw [e1] at a1 a2
    have e2 := List.prefix_nil.1 a1
    rcases a2 with h | h
    · exact h e2
    · exact h rfl

theorem recompactAll_spec (W : Wjson) {sep : PName} {ps ps' : List PushRequest} {lg lg' L : List PName}
    (h : compactAll sep ps lg = .ok (ps', lg')) (hL : lg' <+: L) (hb : L.length ≤ 2 ^ 64) :
    recompactAll W sep L ps' = .ok (true, ps) := by
  induction ps generalizing ps' lg lg' with
  | nil =>
    simp [compactAll] at h
    obtain ⟨rfl, -⟩ := h
    rfl
  | cons p ps ih =>
    unfold compactAll at h
    obtain ⟨⟨n, lg1⟩, h1, h⟩ := bind_inv h
    obtain ⟨⟨qs, lg2⟩, h2, h⟩ := bind_inv h
    simp at h
    obtain ⟨rfl, rfl⟩ := h
    have g1 := recompact_name W h1 ((compactAll_prefix h2).1.trans hL) hb
    have g2 := ih h2 hL
    unfold recompactAll
    simp only [g1, bind_ok', g2]

theorem compactAll_total {sep : PName} (hs : sep ≠ []) (ps : List PushRequest) (lg : List PName) :
    ∃ r, compactAll sep ps lg = .ok r := by
  induction ps generalizing lg with
  | nil => exact ⟨_, rfl⟩
  | cons p ps ih =>
    obtain ⟨ws, -, h1⟩ := compactName_total hs p.name lg
    obtain ⟨r, h2⟩ := ih (indexAll ws lg).2
    exact ⟨_, by unfold compactAll; rw [h1, bind_ok']; simp only [h2]; rfl⟩

/-! ### recompact on arbitrary input -/

theorem recompactLoop_total (W : Wjson) (sep : PName) (L : List PName) (f : Nat) (s ss : PName) (hf : s.length < f) :
    ∃ r, recompactLoop W sep L f s ss = .ok r := by
  induction f generalizing s ss with
  | zero => omega
  | succ f ih =>
    cases s with
    | nil => exact ⟨_, rfl⟩
    | cons c s =>
      unfold recompactLoop
      by_cases h1 : W.isNumber (c :: s) = false
      · rw [if_pos h1]; exact ⟨_, rfl⟩
      · rw [if_neg h1]
        by_cases h2 : (W.readInt (c :: s)).1 ≥ L.length
        · simp only; rw [if_pos h2]; exact ⟨_, rfl⟩
        · simp only; rw [if_neg h2]
          have hd : deref L (W.readInt (c :: s)).1 = .ok (L[(W.readInt (c :: s)).1]'(by omega)) := by
            unfold deref; rw [List.getElem?_eq_getElem (by omega)]
          rw [hd, bind_ok']
          have hsuf := W.suffix (c :: s)
          cases hr : (W.readInt (c :: s)).2 with
          | nil => exact ⟨_, rfl⟩
          | cons d t =>
            rw [hr] at hsuf
            have := hsuf.length_le
            simp only [List.length_cons] at this hf
            by_cases h3 : d ≠ '~'
            · simp only; rw [if_pos h3]; exact ⟨_, rfl⟩
            · simp only; rw [if_neg h3]; exact ih _ _ (by omega)

theorem recompactAll_total (W : Wjson) (sep : PName) (L : List PName) (ps : List PushRequest) :
    ∃ ok qs, recompactAll W sep L ps = .ok (ok, qs) ∧ qs.map PushRequest.ag = ps.map PushRequest.ag := by
  induction ps with
  | nil => exact ⟨_, _, rfl, rfl⟩
  | cons p ps ih =>
    obtain ⟨r, hr⟩ := recompactLoop_total W sep L (p.name.length + 1) p.name [] (Nat.lt_succ_self _)
    obtain ⟨ok, qs, hq, hm⟩ := ih
    unfold recompactAll
    rw [hr, bind_ok']
    cases r with
    | none => exact ⟨_, _, rfl, rfl⟩
    | some n => exact ⟨ok, { p with name := n } :: qs, by simp only [hq, bind_ok'], by simp [hm]⟩

end Wrtstat
