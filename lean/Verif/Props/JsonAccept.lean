/-
Property C118: what is accepted from JSON.

A text that is accepted gives representable numbers (`C118_range_partial`), and every member has the value told last for it, or
the one it had before (`C118_object_partial`, `C118_array_partial`).  But nothing has to be told: `{}` and `[]` are accepted as a
request for the empty name (`C118_refuted`).
-/
import Verif.Props.Json

namespace Wrtstat

set_option autoImplicit false

/-! ### Members -/

/-- Setting a member leaves another alone. -/
def Field.Apart {R : Type} (f g : Field R) : Prop := ∀ v r r', f.set v r = (r', true) → g.get r' = g.get r

theorem readInts_some {l : List JVal} : ∀ {vs : List Int}, readInts l = some vs ↔ l = vs.map .num ∧ ∀ v ∈ vs, I64 v := by
  induction l with
  | nil =>
    intro vs
    cases vs with
    | nil => simp [readInts]
    | cons v vs => simp [readInts]
  | cons j l ih =>
    intro vs
    cases j with
    | num v =>
      simp only [readInts]
      split_ifs with h
      · constructor
        · intro e
          obtain ⟨ws, e1, rfl⟩ := Option.map_eq_some_iff.1 e
          obtain ⟨e2, e3⟩ := ih.1 e1
          rw [e2]
          refine ⟨rfl, fun w hw => ?_⟩
          rcases List.mem_cons.1 hw with rfl | hw
          · exact h
          · exact e3 w hw
        · rintro ⟨e1, e2⟩
          cases vs with
          | nil => cases e1
          | cons w ws =>
            cases e1
            rw [(ih (vs := ws)).2 ⟨rfl, fun x hx => e2 x (by simp [hx])⟩]
            rfl
      · constructor
        · intro e; cases e
        · rintro ⟨e1, e2⟩
          cases vs with
          | nil => cases e1
          | cons w ws => cases e1; exact absurd (e2 v (by simp)) h
    | bool b => simp only [readInts]; constructor
                · intro e; cases e
                · rintro ⟨e1, _⟩; cases vs <;> cases e1
    | str s => simp only [readInts]; constructor
               · intro e; cases e
               · rintro ⟨e1, _⟩; cases vs <;> cases e1
    | arr a => simp only [readInts]; constructor
               · intro e; cases e
               · rintro ⟨e1, _⟩; cases vs <;> cases e1
    | obj a => simp only [readInts]; constructor
               · intro e; cases e
               · rintro ⟨e1, _⟩; cases vs <;> cases e1

theorem readStrs_some {l : List JVal} : ∀ {vs : List PName}, readStrs l = some vs ↔ l = vs.map .str := by
  induction l with
  | nil =>
    intro vs
    cases vs <;> simp [readStrs]
  | cons j l ih =>
    intro vs
    cases j with
    | str s =>
      simp only [readStrs]
      constructor
      · intro e
        obtain ⟨ws, e1, rfl⟩ := Option.map_eq_some_iff.1 e
        rw [ih.1 e1]
        rfl
      · intro e1
        cases vs with
        | nil => cases e1
        | cons w ws => cases e1; rw [(ih (vs := ws)).2 rfl]; rfl
    | num v => simp only [readStrs]; constructor
               · intro e; cases e
               · intro e1; cases vs <;> cases e1
    | bool b => simp only [readStrs]; constructor
                · intro e; cases e
                · intro e1; cases vs <;> cases e1
    | arr a => simp only [readStrs]; constructor
               · intro e; cases e
               · intro e1; cases vs <;> cases e1
    | obj a => simp only [readStrs]; constructor
               · intro e; cases e
               · intro e1; cases vs <;> cases e1

/-- What a field of the kinds used accepts. -/
theorem intField_iff {R : Type} (key : PName) (get : R → Int) (put : Int → R → R) (j : JVal) (r r' : R) :
    (intField key get put).set j r = (r', true) ↔ ∃ v, I64 v ∧ j = .num v ∧ r' = put v r := by
  unfold intField
  cases j with
  | num v =>
    simp only
    split_ifs with h
    · constructor
      · intro e; cases e; exact ⟨v, h, rfl, rfl⟩
      · rintro ⟨w, _, e, rfl⟩; cases e; rfl
    · constructor
      · intro e; cases e
      · rintro ⟨w, hw, e, rfl⟩; cases e; exact absurd hw h
  | bool b => constructor
              · intro e; cases e
              · rintro ⟨w, _, e, _⟩; cases e
  | str b => constructor
             · intro e; cases e
             · rintro ⟨w, _, e, _⟩; cases e
  | arr b => constructor
             · intro e; cases e
             · rintro ⟨w, _, e, _⟩; cases e
  | obj b => constructor
             · intro e; cases e
             · rintro ⟨w, _, e, _⟩; cases e

theorem natField_iff {R : Type} (key : PName) (get : R → Nat) (put : Nat → R → R) (j : JVal) (r r' : R) :
    (natField key get put).set j r = (r', true) ↔ ∃ v : Nat, v < 2 ^ 64 ∧ j = .num v ∧ r' = put v r := by
  unfold natField
  cases j with
  | num v =>
    simp only
    split_ifs with h
    · constructor
      · intro e; cases e; exact ⟨v.toNat, by omega, by congr 1; omega, rfl⟩
      · rintro ⟨w, _, e, rfl⟩; cases e; simp
    · constructor
      · intro e; cases e
      · rintro ⟨w, hw, e, rfl⟩; cases e; exact absurd ⟨by omega, by omega⟩ h
  | bool b => constructor
              · intro e; cases e
              · rintro ⟨w, _, e, _⟩; cases e
  | str b => constructor
             · intro e; cases e
             · rintro ⟨w, _, e, _⟩; cases e
  | arr b => constructor
             · intro e; cases e
             · rintro ⟨w, _, e, _⟩; cases e
  | obj b => constructor
             · intro e; cases e
             · rintro ⟨w, _, e, _⟩; cases e

theorem strField_iff {R : Type} (key : PName) (get : R → PName) (put : PName → R → R) (j : JVal) (r r' : R) :
    (strField key get put).set j r = (r', true) ↔ ∃ v, j = .str v ∧ r' = put v r := by
  unfold strField
  cases j <;> constructor <;> first
    | (intro e; cases e; exact ⟨_, rfl, rfl⟩)
    | (rintro ⟨w, e, rfl⟩; cases e; rfl)
    | (rintro ⟨w, e, _⟩; cases e; done)
    | (intro e; cases e; done)

theorem intsField_iff {R : Type} (key : PName) (get : R → List Int) (put : List Int → R → R) (j : JVal) (r r' : R) :
    (intsField key get put).set j r = (r', true) ↔ ∃ vs, (∀ v ∈ vs, I64 v) ∧ j = .arr (vs.map .num) ∧ r' = put vs r := by
  unfold intsField
  cases j with
  | arr l =>
    simp only
    cases h : readInts l with
    | some vs =>
      obtain ⟨h1, h2⟩ := readInts_some.1 h
      constructor
      · intro e; cases e; exact ⟨vs, h2, by rw [h1], rfl⟩
      · rintro ⟨ws, h3, e, rfl⟩
        cases e
        rw [readInts_num ws h3] at h
        cases h
        rfl
    | none =>
      constructor
      · intro e; cases e
      · rintro ⟨ws, h3, e, rfl⟩
        cases e
        rw [readInts_num ws h3] at h
        cases h
  | num b => constructor
             · intro e; cases e
             · rintro ⟨w, _, e, _⟩; cases e
  | bool b => constructor
              · intro e; cases e
              · rintro ⟨w, _, e, _⟩; cases e
  | str b => constructor
             · intro e; cases e
             · rintro ⟨w, _, e, _⟩; cases e
  | obj b => constructor
             · intro e; cases e
             · rintro ⟨w, _, e, _⟩; cases e

theorem strsField_iff {R : Type} (key : PName) (get : R → List PName) (put : List PName → R → R) (j : JVal) (r r' : R) :
    (strsField key get put).set j r = (r', true) ↔ ∃ vs, j = .arr (vs.map .str) ∧ r' = put vs r := by
  unfold strsField
  cases j with
  | arr l =>
    simp only
    cases h : readStrs l with
    | some vs =>
      have h1 := readStrs_some.1 h
      constructor
      · intro e; cases e; exact ⟨vs, by rw [h1], rfl⟩
      · rintro ⟨ws, e, rfl⟩
        cases e
        rw [readStrs_str ws] at h
        cases h
        rfl
    | none =>
      constructor
      · intro e; cases e
      · rintro ⟨ws, e, rfl⟩
        cases e
        rw [readStrs_str ws] at h
        cases h
  | num b => constructor
             · intro e; cases e
             · rintro ⟨w, e, _⟩; cases e
  | bool b => constructor
              · intro e; cases e
              · rintro ⟨w, e, _⟩; cases e
  | str b => constructor
             · intro e; cases e
             · rintro ⟨w, e, _⟩; cases e
  | obj b => constructor
             · intro e; cases e
             · rintro ⟨w, e, _⟩; cases e

/-! ### Objects and arrays -/

theorem readMembers_told {R : Type} {strict : Bool} {fs : List (Field R)} (hh : ∀ f ∈ fs, ∀ v r r', f.set v r = (r', true) → f.get r' = v)
    (ha : ∀ f ∈ fs, ∀ g ∈ fs, f.key ≠ g.key → f.Apart g) (hk : (fs.map (·.key)).Nodup) :
    ∀ (l : List (PName × JVal)) (r r' : R), readMembers strict fs l r = (r', true) →
    ∀ f ∈ fs, f.get r' = (l.reverse.lookup f.key).getD (f.get r) := by
  intro l
  induction l with
  | nil => intro r r' h f _; cases h; rfl
  | cons kv l ih =>
    obtain ⟨k, v⟩ := kv
    intro r r' h f hf
    have hrev : ((k, v) :: l).reverse.lookup f.key = (l.reverse.lookup f.key).or (if f.key = k then some v else none) := by
      rw [List.reverse_cons, List.lookup_append]
      congr 1
      by_cases e : f.key = k
      · subst e; simp [List.lookup]
      · have e' : (f.key == k) = false := by simpa using e
        rw [if_neg e, List.lookup_cons]
        simp [e']
    rw [hrev]
    rw [readMembers] at h
    cases hfind : fs.find? (fun g => g.key == k) with
    | none =>
      rw [hfind] at h
      simp only at h
      cases strict with
      | true => cases h
      | false =>
        simp only [Bool.false_eq_true, if_false] at h
        have hne : f.key ≠ k := by
          have := List.find?_eq_none.1 hfind f hf
          simpa using this
        rw [if_neg hne, Option.or_none]
        exact ih r r' h f hf
    | some g =>
      rw [hfind] at h
      simp only at h
      have hg : g ∈ fs := List.mem_of_find?_eq_some hfind
      have hgk : g.key = k := by simpa using List.find?_some hfind
      rcases hset : g.set v r with ⟨r1, b⟩
      rw [hset] at h
      cases b with
      | false => cases h
      | true =>
        simp only at h
        rw [ih r1 r' h f hf]
        by_cases e : f.key = k
        · have : f = g := by
            have := List.inj_on_of_nodup_map hk hf hg (e.trans hgk.symm)
            exact this
          subst this
          rw [if_pos e, hh f hf v r r1 hset]
          cases l.reverse.lookup f.key <;> rfl
        · rw [if_neg e, Option.or_none, ha g hg f hf (by rw [hgk]; exact fun h => e h.symm) v r r1 hset]

theorem readElems_told {R : Type} : ∀ (fs : List (Field R)) (l : List JVal) (r r' : R),
    (∀ f ∈ fs, ∀ v r r', f.set v r = (r', true) → f.get r' = v) →
    (fs.Pairwise fun f g => f.Apart g ∧ g.Apart f) → readElems fs l r = (r', true) →
    l.length ≤ fs.length ∧ (∀ (i : Nat) (f : Field R), fs[i]? = some f → f.get r' = (l[i]?).getD (f.get r)) ∧
      ∀ g : Field R, (∀ f ∈ fs, f.Apart g) → g.get r' = g.get r := by
  intro fs
  induction fs with
  | nil =>
    intro l r r' _ _ h
    cases l with
    | nil => cases h; exact ⟨le_refl _, fun i f hf => (by simp at hf), fun _ _ => rfl⟩
    | cons v l => cases h
  | cons f fs ih =>
    intro l r r' hh hp h
    cases l with
    | nil => cases h; exact ⟨by simp, fun i f _ => by simp, fun _ _ => rfl⟩
    | cons v l =>
      rw [readElems] at h
      rcases hset : f.set v r with ⟨r1, b⟩
      rw [hset] at h
      cases b with
      | false => cases h
      | true =>
        simp only at h
        obtain ⟨hp1, hp2⟩ := List.pairwise_cons.1 hp
        obtain ⟨i1, i2, i3⟩ := ih l r1 r' (fun g hg => hh g (by simp [hg])) hp2 h
        refine ⟨by simpa using i1, fun i g hg => ?_, fun g hg => ?_⟩
        · cases i with
          | zero =>
            simp only [List.getElem?_cons_zero, Option.some.injEq] at hg
            subst hg
            rw [i3 f (fun g hg => (hp1 g hg).2), hh f (by simp) v r r1 hset]
            rfl
          | succ i =>
            simp only [List.getElem?_cons_succ] at hg ⊢
            rw [i2 i g hg, (hp1 g (List.mem_of_getElem? hg)).1 v r r1 hset]
        · rw [i3 g (fun x hx => hg x (by simp [hx])), hg f (by simp) v r r1 hset]

/-! ### Requests -/

theorem intField_told {R : Type} {key : PName} {get : R → Int} {put : Int → R → R} (h : ∀ v r, get (put v r) = v) :
    ∀ v r r', (intField key get put).set v r = (r', true) → (intField key get put).get r' = v := by
  intro v r r' e
  obtain ⟨w, _, rfl, rfl⟩ := (intField_iff key get put v r r').1 e
  simp [intField, h]

theorem natField_told {R : Type} {key : PName} {get : R → Nat} {put : Nat → R → R} (h : ∀ v r, get (put v r) = v) :
    ∀ v r r', (natField key get put).set v r = (r', true) → (natField key get put).get r' = v := by
  intro v r r' e
  obtain ⟨w, _, rfl, rfl⟩ := (natField_iff key get put v r r').1 e
  simp [natField, h]

theorem strField_told {R : Type} {key : PName} {get : R → PName} {put : PName → R → R} (h : ∀ v r, get (put v r) = v) :
    ∀ v r r', (strField key get put).set v r = (r', true) → (strField key get put).get r' = v := by
  intro v r r' e
  obtain ⟨w, rfl, rfl⟩ := (strField_iff key get put v r r').1 e
  simp [strField, h]

theorem intsField_told {R : Type} {key : PName} {get : R → List Int} {put : List Int → R → R} (h : ∀ v r, get (put v r) = v) :
    ∀ v r r', (intsField key get put).set v r = (r', true) → (intsField key get put).get r' = v := by
  intro v r r' e
  obtain ⟨w, _, rfl, rfl⟩ := (intsField_iff key get put v r r').1 e
  simp [intsField, h]

theorem intField_apart {R : Type} {key : PName} {get : R → Int} {put : Int → R → R} {g : Field R}
    (h : ∀ v r, g.get (put v r) = g.get r) : (intField key get put).Apart g := by
  intro v r r' e
  obtain ⟨w, _, rfl, rfl⟩ := (intField_iff key get put v r r').1 e
  exact h w r

theorem natField_apart {R : Type} {key : PName} {get : R → Nat} {put : Nat → R → R} {g : Field R}
    (h : ∀ v r, g.get (put v r) = g.get r) : (natField key get put).Apart g := by
  intro v r r' e
  obtain ⟨w, _, rfl, rfl⟩ := (natField_iff key get put v r r').1 e
  exact h w r

theorem strField_apart {R : Type} {key : PName} {get : R → PName} {put : PName → R → R} {g : Field R}
    (h : ∀ v r, g.get (put v r) = g.get r) : (strField key get put).Apart g := by
  intro v r r' e
  obtain ⟨w, rfl, rfl⟩ := (strField_iff key get put v r r').1 e
  exact h w r

theorem intsField_apart {R : Type} {key : PName} {get : R → List Int} {put : List Int → R → R} {g : Field R}
    (h : ∀ v r, g.get (put v r) = g.get r) : (intsField key get put).Apart g := by
  intro v r r' e
  obtain ⟨w, _, rfl, rfl⟩ := (intsField_iff key get put v r r').1 e
  exact h w r

theorem pushFields_told : ∀ f ∈ pushFields, ∀ v r r', f.set v r = (r', true) → f.get r' = v := by
  simp only [pushFields, List.forall_mem_cons, List.not_mem_nil, false_implies, implies_true, and_true]
  refine ⟨strField_told ?_, intField_told ?_, intField_told ?_, natField_told ?_, intField_told ?_, intField_told ?_, intField_told ?_,
    intField_told ?_, intField_told ?_, natField_told ?_, intField_told ?_, intField_told ?_, intsField_told ?_⟩ <;> intro v r <;> rfl

theorem pushElems_told : ∀ f ∈ pushElems, ∀ v r r', f.set v r = (r', true) → f.get r' = v := by
  simp only [pushElems, List.forall_mem_cons, List.not_mem_nil, false_implies, implies_true, and_true]
  refine ⟨strField_told ?_, intField_told ?_, intField_told ?_, natField_told ?_, intField_told ?_, intField_told ?_, intField_told ?_,
    intField_told ?_, intField_told ?_, intField_told ?_, intField_told ?_, natField_told ?_, intsField_told ?_⟩ <;> intro v r <;> rfl

theorem pushFields_apart : pushFields.Pairwise fun f g => f.Apart g ∧ g.Apart f := by
  simp only [pushFields, List.pairwise_cons, List.forall_mem_cons, List.not_mem_nil, false_implies, implies_true, and_true,
    List.Pairwise.nil]
  repeat' apply And.intro
  all_goals first
    | (apply intField_apart; intro v r; rfl)
    | (apply natField_apart; intro v r; rfl)
    | (apply strField_apart; intro v r; rfl)
    | (apply intsField_apart; intro v r; rfl)

theorem pushElems_apart : pushElems.Pairwise fun f g => f.Apart g ∧ g.Apart f := by
  simp only [pushElems, List.pairwise_cons, List.forall_mem_cons, List.not_mem_nil, false_implies, implies_true, and_true,
    List.Pairwise.nil]
  repeat' apply And.intro
  all_goals first
    | (apply intField_apart; intro v r; rfl)
    | (apply natField_apart; intro v r; rfl)
    | (apply strField_apart; intro v r; rfl)
    | (apply intsField_apart; intro v r; rfl)

theorem pushFields_apart' : ∀ f ∈ pushFields, ∀ g ∈ pushFields, f.key ≠ g.key → f.Apart g := by
  intro f hf g hg hne
  have h := pushFields_apart
  rw [List.pairwise_iff_getElem] at h
  obtain ⟨i, hi, rfl⟩ := List.getElem_of_mem hf
  obtain ⟨j, hj, rfl⟩ := List.getElem_of_mem hg
  rcases Nat.lt_trichotomy i j with hij | rfl | hij
  · exact (h i j hi hj hij).1
  · exact absurd rfl hne
  · exact (h j i hj hi hij).2

/-- Everything is told: all members of the object are there, or all elements of the array. -/
def TellsAll (compact : Bool) (j : JVal) : Prop :=
  if compact then ∃ l, j = .arr l ∧ l.length = pushElems.length
  else ∃ l, j = .obj l ∧ ∀ f ∈ pushFields, (l.lookup f.key).isSome

/-- What is accepted as a request tells all its members. -/
def C118_FullClaim : Prop :=
  ∀ (compact : Bool) (j : JVal) (p : PushRequest), readJson compact (pushCodec compact) j {} = (p, true) → TellsAll compact j

/-- `[]` and `{}` are accepted. -/
theorem C118_refuted : ¬ C118_FullClaim := by
  intro H
  obtain ⟨l, h1, h2⟩ := H true (.arr []) {} rfl
  cases h1
  cases h2

theorem C118_refuted_object : readJson false (pushCodec false) (.obj []) {} = ({}, true) ∧ ¬ TellsAll false (.obj []) := by
  refine ⟨rfl, ?_⟩
  rintro ⟨l, h1, h2⟩
  cases h1
  have := h2 (strField ['n', 'a', 'm', 'e'] (·.name) (fun v p => { p with name := v })) (by simp [pushFields])
  simp at this

/-- An object: every member has the value told last for it, or the one it had before. -/
theorem C118_object_partial (l : List (PName × JVal)) (p0 p : PushRequest) (h : readJson false pushFields (.obj l) p0 = (p, true)) :
    ∀ f ∈ pushFields, f.get p = (l.reverse.lookup f.key).getD (f.get p0) :=
  readMembers_told pushFields_told pushFields_apart' (by decide) l p0 p h

/-- An array: the members told are the first ones, in order. -/
theorem C118_array_partial (l : List JVal) (p0 p : PushRequest) (h : readJson true pushElems (.arr l) p0 = (p, true)) :
    l.length ≤ pushElems.length ∧
      ∀ (i : Nat) (f : Field PushRequest), pushElems[i]? = some f → f.get p = (l[i]?).getD (f.get p0) :=
  let k := readElems_told pushElems l p0 p pushElems_told pushElems_apart h
  ⟨k.1, k.2.1⟩

/-! ### Range -/

/-- A property that no member breaks is not broken by reading, whether it succeeds or not. -/
theorem readJson_keeps {R : Type} {P : R → Prop} {fs : List (Field R)} (h : ∀ f ∈ fs, ∀ v r, P r → P (f.set v r).1) (compact : Bool)
    (j : JVal) (r : R) (hr : P r) : P (readJson compact fs j r).1 := by
  have h1 : ∀ (l : List (PName × JVal)) (r : R), P r → P (readMembers false fs l r).1 := by
    intro l
    induction l with
    | nil => intro r hr; exact hr
    | cons kv l ih =>
      obtain ⟨k, v⟩ := kv
      intro r hr
      rw [readMembers]
      cases hf : fs.find? (fun g => g.key == k) with
      | none => exact ih r hr
      | some f =>
        have hk := h f (List.mem_of_find?_eq_some hf) v r hr
        rcases hs : f.set v r with ⟨r1, b⟩
        rw [hs] at hk
        cases b with
        | true => simp only [hs]; exact ih r1 hk
        | false => simp only [hs]; exact hk
  have h2 : ∀ (fs : List (Field R)) (_ : ∀ f ∈ fs, ∀ v r, P r → P (f.set v r).1) (l : List JVal) (r : R), P r → P (readElems fs l r).1 := by
    intro fs
    induction fs with
    | nil => intro _ l r hr; cases l <;> exact hr
    | cons f fs ih =>
      intro h l r hr
      cases l with
      | nil => exact hr
      | cons v l =>
        rw [readElems]
        have hk := h f (by simp) v r hr
        rcases hs : f.set v r with ⟨r1, b⟩
        rw [hs] at hk
        cases b with
        | true => exact ih (fun g hg => h g (by simp [hg])) l r1 hk
        | false => exact hk
  unfold readJson
  cases compact <;> cases j <;> first
    | exact hr
    | exact h1 _ r hr
    | exact h2 fs h _ r hr

theorem intField_keeps {R : Type} {P : R → Prop} {key : PName} {get : R → Int} {put : Int → R → R}
    (h : ∀ v r, I64 v → P r → P (put v r)) (v : JVal) (r : R) (hr : P r) : P ((intField key get put).set v r).1 := by
  unfold intField
  cases v <;> simp only <;> first
    | exact hr
    | (split_ifs with hv
       · exact h _ r hv hr
       · exact hr)

theorem natField_keeps {R : Type} {P : R → Prop} {key : PName} {get : R → Nat} {put : Nat → R → R}
    (h : ∀ v r, v < 2 ^ 64 → P r → P (put v r)) (v : JVal) (r : R) (hr : P r) : P ((natField key get put).set v r).1 := by
  unfold natField
  cases v <;> simp only <;> first
    | exact hr
    | (split_ifs with hv
       · exact h _ r (by omega) hr
       · exact hr)

theorem strField_keeps {R : Type} {P : R → Prop} {key : PName} {get : R → PName} {put : PName → R → R}
    (h : ∀ v r, P r → P (put v r)) (v : JVal) (r : R) (hr : P r) : P ((strField key get put).set v r).1 := by
  unfold strField
  cases v <;> first
    | exact hr
    | exact h _ r hr

theorem intsField_keeps {R : Type} {P : R → Prop} {key : PName} {get : R → List Int} {put : List Int → R → R}
    (h : ∀ l r, (∀ v ∈ l, I64 v) → P r → P (put l r)) (v : JVal) (r : R) (hr : P r) : P ((intsField key get put).set v r).1 := by
  unfold intsField
  cases v with
  | arr l =>
    simp only
    cases hl : readInts l with
    | none => exact hr
    | some vs => exact h vs r (readInts_some.1 hl).2 hr
  | num v => exact hr
  | bool v => exact hr
  | str v => exact hr
  | obj v => exact hr

/-- Whatever the text, and whether it is accepted or not: the numbers of the request are values of their C++ types. -/
theorem C118_range_partial (compact : Bool) (j : JVal) (p0 : PushRequest) (h0 : p0.InRange) :
    (readJson compact (pushCodec compact) j p0).1.InRange := by
  refine readJson_keeps ?_ compact j p0 h0
  cases compact
  · show ∀ f ∈ pushFields, _
    simp only [pushFields, List.forall_mem_cons, List.not_mem_nil, false_implies, implies_true, and_true]
    refine ⟨strField_keeps ?_, intField_keeps ?_, intField_keeps ?_, natField_keeps ?_, intField_keeps ?_, intField_keeps ?_, intField_keeps ?_,
      intField_keeps ?_, intField_keeps ?_, natField_keeps ?_, intField_keeps ?_, intField_keeps ?_, intsField_keeps ?_⟩
    · rintro v r ⟨h1, h2, h3, h4, h5, h6, h7, h8, h9, h10, h11, h12⟩
      exact ⟨h1, h2, h3, h4, h5, h6, h7, h8, h9, h10, h11, h12⟩
    all_goals
      rintro v r hv ⟨h1, h2, h3, h4, h5, h6, h7, h8, h9, h10, h11, h12⟩
      constructor <;> assumption
  · show ∀ f ∈ pushElems, _
    simp only [pushElems, List.forall_mem_cons, List.not_mem_nil, false_implies, implies_true, and_true]
    refine ⟨strField_keeps ?_, intField_keeps ?_, intField_keeps ?_, natField_keeps ?_, intField_keeps ?_, intField_keeps ?_, intField_keeps ?_,
      intField_keeps ?_, intField_keeps ?_, intField_keeps ?_, intField_keeps ?_, natField_keeps ?_, intsField_keeps ?_⟩
    · rintro v r ⟨h1, h2, h3, h4, h5, h6, h7, h8, h9, h10, h11, h12⟩
      exact ⟨h1, h2, h3, h4, h5, h6, h7, h8, h9, h10, h11, h12⟩
    all_goals
      rintro v r hv ⟨h1, h2, h3, h4, h5, h6, h7, h8, h9, h10, h11, h12⟩
      constructor <;> assumption

theorem inRange_default : PushRequest.InRange {} := by
  constructor <;> decide

theorem readPushes_forall {compact : Bool} : ∀ {l : List JVal} {ps : List PushRequest}, readPushes compact l = some ps →
    List.Forall₂ (fun j p => readJson compact (pushCodec compact) j {} = (p, true)) l ps := by
  intro l
  induction l with
  | nil => intro ps h; cases h; exact .nil
  | cons j l ih =>
    intro ps h
    rw [readPushes] at h
    rcases hr : readJson compact (pushCodec compact) j {} with ⟨p, b⟩
    rw [hr] at h
    cases b with
    | false => cases h
    | true =>
      simp only at h
      obtain ⟨qs, h1, rfl⟩ := Option.map_eq_some_iff.1 h
      exact .cons hr (ih h1)

theorem strsField_keeps {R : Type} {P : R → Prop} {key : PName} {get : R → List PName} {put : List PName → R → R}
    (h : ∀ l r, P r → P (put l r)) (v : JVal) (r : R) (hr : P r) : P ((strsField key get put).set v r).1 := by
  unfold strsField
  cases v with
  | arr l =>
    simp only
    cases hl : readStrs l with
    | none => exact hr
    | some vs => exact h vs r hr
  | num v => exact hr
  | bool v => exact hr
  | str v => exact hr
  | obj v => exact hr

/-- The same for a batch. -/
theorem C118_multi_range_partial (compact : Bool) (j : JVal) (m0 : MultiPush) (h0 : ∀ p ∈ m0.data, p.InRange) :
    ∀ p ∈ (readJson compact (multiCodec compact) j m0).1.data, p.InRange := by
  refine readJson_keeps (P := fun m : MultiPush => ∀ p ∈ m.data, p.InRange) ?_ compact j m0 h0
  simp only [multiCodec, List.forall_mem_cons, List.not_mem_nil, false_implies, implies_true, and_true]
  refine ⟨strField_keeps fun _ _ h => h, strsField_keeps fun _ _ h => h, ?_⟩
  intro v r hr
  cases v with
  | arr l =>
    simp only
    cases hl : readPushes compact l with
    | none => exact hr
    | some ps =>
      intro p hp
      have h := readPushes_forall hl
      have hex : ∃ j, readJson compact (pushCodec compact) j {} = (p, true) := by
        clear hl hr
        induction h with
        | nil => cases hp
        | cons h1 _ ih =>
          rcases List.mem_cons.1 hp with rfl | hp
          · exact ⟨_, h1⟩
          · exact ih hp
      obtain ⟨j, hj⟩ := hex
      have := C118_range_partial compact j {} inRange_default
      rw [hj] at this
      exact this
  | num v => exact hr
  | bool v => exact hr
  | str v => exact hr
  | obj v => exact hr

/-! ### What is accepted -/

/-- Kinds of members. -/
inductive Kind
  | str
  | int
  | size
  | ints

/-- The values a member of a kind accepts. -/
def Kind.Admits : Kind → JVal → Prop
  | .str, v => ∃ s, v = .str s
  | .int, v => ∃ n, v = .num n ∧ I64 n
  | .size, v => ∃ n : Nat, v = .num n ∧ n < 2 ^ 64
  | .ints, v => ∃ l : List Int, v = .arr (l.map .num) ∧ ∀ n ∈ l, I64 n

/-- The members of a request and their kinds, by name. -/
def pushKinds : List (PName × Kind) :=
  [("name".toList, .str), ("ts".toList, .int), ("avg".toList, .int), ("count".toList, .size), ("perc50".toList, .int),
   ("perc80".toList, .int), ("perc95".toList, .int), ("perc99".toList, .int), ("perc100".toList, .int), ("lossy".toList, .size),
   ("min".toList, .int), ("max".toList, .int), ("data".toList, .ints)]

/-- Those of an array, by position. -/
def elemKinds : List Kind :=
  [.str, .int, .int, .size, .int, .int, .int, .int, .int, .int, .int, .size, .ints]

/-- A member is of a kind: it accepts just its values. -/
def Field.Of {R : Type} (f : Field R) (k : Kind) : Prop := ∀ v r, (f.set v r).2 = true ↔ k.Admits v

theorem strField_of {R : Type} (key : PName) (get : R → PName) (put : PName → R → R) : (strField key get put).Of .str := by
  intro v r
  constructor
  · intro h
    obtain ⟨w, e, _⟩ := (strField_iff key get put v r _).1 (Prod.ext rfl h)
    exact ⟨w, e⟩
  · rintro ⟨w, e⟩
    rw [(strField_iff key get put v r (put w r)).2 ⟨w, e, rfl⟩]

theorem intField_of {R : Type} (key : PName) (get : R → Int) (put : Int → R → R) : (intField key get put).Of .int := by
  intro v r
  constructor
  · intro h
    obtain ⟨w, h1, e, _⟩ := (intField_iff key get put v r _).1 (Prod.ext rfl h)
    exact ⟨w, e, h1⟩
  · rintro ⟨w, e, h1⟩
    rw [(intField_iff key get put v r (put w r)).2 ⟨w, h1, e, rfl⟩]

theorem natField_of {R : Type} (key : PName) (get : R → Nat) (put : Nat → R → R) : (natField key get put).Of .size := by
  intro v r
  constructor
  · intro h
    obtain ⟨w, h1, e, _⟩ := (natField_iff key get put v r _).1 (Prod.ext rfl h)
    exact ⟨w, e, h1⟩
  · rintro ⟨w, e, h1⟩
    rw [(natField_iff key get put v r (put w r)).2 ⟨w, h1, e, rfl⟩]

theorem intsField_of {R : Type} (key : PName) (get : R → List Int) (put : List Int → R → R) : (intsField key get put).Of .ints := by
  intro v r
  constructor
  · intro h
    obtain ⟨w, h1, e, _⟩ := (intsField_iff key get put v r _).1 (Prod.ext rfl h)
    exact ⟨w, e, h1⟩
  · rintro ⟨w, e, h1⟩
    rw [(intsField_iff key get put v r (put w r)).2 ⟨w, h1, e, rfl⟩]

theorem pushFields_of : List.Forall₂ (fun (f : Field PushRequest) (k : PName × Kind) => f.key = k.1 ∧ f.Of k.2) pushFields pushKinds := by
  refine .cons ⟨rfl, strField_of _ _ _⟩ <| .cons ⟨rfl, intField_of _ _ _⟩ <| .cons ⟨rfl, intField_of _ _ _⟩ <|
    .cons ⟨rfl, natField_of _ _ _⟩ <| .cons ⟨rfl, intField_of _ _ _⟩ <| .cons ⟨rfl, intField_of _ _ _⟩ <|
    .cons ⟨rfl, intField_of _ _ _⟩ <| .cons ⟨rfl, intField_of _ _ _⟩ <| .cons ⟨rfl, intField_of _ _ _⟩ <|
    .cons ⟨rfl, natField_of _ _ _⟩ <| .cons ⟨rfl, intField_of _ _ _⟩ <| .cons ⟨rfl, intField_of _ _ _⟩ <|
    .cons ⟨rfl, intsField_of _ _ _⟩ .nil

theorem pushElems_of : List.Forall₂ (fun (f : Field PushRequest) (k : Kind) => f.Of k) pushElems elemKinds := by
  refine .cons (strField_of _ _ _) <| .cons (intField_of _ _ _) <| .cons (intField_of _ _ _) <|
    .cons (natField_of _ _ _) <| .cons (intField_of _ _ _) <| .cons (intField_of _ _ _) <|
    .cons (intField_of _ _ _) <| .cons (intField_of _ _ _) <| .cons (intField_of _ _ _) <|
    .cons (intField_of _ _ _) <| .cons (intField_of _ _ _) <| .cons (natField_of _ _ _) <|
    .cons (intsField_of _ _ _) .nil

theorem readMembers_accepts {R : Type} {fs : List (Field R)} {ks : List (PName × Kind)}
    (h : List.Forall₂ (fun (f : Field R) (k : PName × Kind) => f.key = k.1 ∧ f.Of k.2) fs ks) :
    ∀ (l : List (PName × JVal)) (r : R), (readMembers false fs l r).2 = true ↔
      ∀ kv ∈ l, ∀ k, ks.lookup kv.1 = some k → k.Admits kv.2 := by
  have hfind : ∀ key, (fs.find? (fun g => g.key == key) = none ∧ ks.lookup key = none) ∨
      ∃ f k, fs.find? (fun g => g.key == key) = some f ∧ ks.lookup key = some k ∧ f.Of k := by
    intro key
    induction h with
    | nil => exact Or.inl ⟨rfl, rfl⟩
    | @cons f k fs ks hk _ ih =>
      obtain ⟨k1, k2⟩ := k
      obtain ⟨h1, h2⟩ := hk
      simp only at h1 h2
      by_cases e : f.key = key
      · right
        refine ⟨f, k2, ?_, ?_, h2⟩
        · simp [e]
        · rw [List.lookup_cons, show (key == k1) = true by rw [← e, h1]; simp]
      · have e1 : (f.key == key) = false := by simpa using e
        have e2 : (key == k1) = false := by rw [← h1]; simpa using fun h => e h.symm
        rw [List.find?_cons, List.lookup_cons, e1, e2]
        exact ih
  intro l
  induction l with
  | nil => intro r; simp [readMembers]
  | cons kv l ih =>
    obtain ⟨key, v⟩ := kv
    intro r
    rw [readMembers, List.forall_mem_cons]
    rcases hfind key with ⟨h1, h2⟩ | ⟨f, k, h1, h2, h3⟩
    · rw [h1]
      simp only [Bool.false_eq_true, if_false, h2]
      rw [ih r]
      simp
    · rw [h1]
      simp only [h2, Option.some.injEq, forall_eq']
      have h4 := h3 v r
      rcases hs : f.set v r with ⟨r1, b⟩
      rw [hs] at h4
      simp only at h4
      cases b with
      | true =>
        simp only
        rw [ih r1]
        simp only [true_iff] at h4
        exact ⟨fun h => ⟨h4, h⟩, fun h => h.2⟩
      | false =>
        simp only [Bool.false_eq_true, false_iff] at h4 ⊢
        exact fun h => h4 h.1

theorem readElems_accepts {R : Type} : ∀ {fs : List (Field R)} {ks : List Kind}, List.Forall₂ (fun (f : Field R) (k : Kind) => f.Of k) fs ks →
    ∀ (l : List JVal) (r : R), (readElems fs l r).2 = true ↔
      l.length ≤ ks.length ∧ ∀ (i : Nat) (v : JVal) (k : Kind), l[i]? = some v → ks[i]? = some k → k.Admits v := by
  intro fs ks h
  induction h with
  | nil =>
    intro l r
    cases l with
    | nil => simp [readElems]
    | cons v l => simp [readElems]
  | @cons f k fs ks hk _ ih =>
    intro l r
    cases l with
    | nil => simp [readElems]
    | cons v l =>
      rw [readElems]
      have h4 := hk v r
      rcases hs : f.set v r with ⟨r1, b⟩
      rw [hs] at h4
      simp only at h4
      cases b with
      | true =>
        simp only [true_iff] at h4
        simp only
        rw [ih l r1]
        constructor
        · rintro ⟨h1, h2⟩
          refine ⟨by simpa using h1, fun i w k' hw hk' => ?_⟩
          cases i with
          | zero => simp at hw hk'; subst hw hk'; exact h4
          | succ i => exact h2 i w k' (by simpa using hw) (by simpa using hk')
        · rintro ⟨h1, h2⟩
          exact ⟨by simpa using h1, fun i w k' hw hk' => h2 (i + 1) w k' (by simpa using hw) (by simpa using hk')⟩
      | false =>
        simp only [Bool.false_eq_true, false_iff] at h4 ⊢
        rintro ⟨_, h2⟩
        exact h4 (h2 0 v k rfl rfl)

/-- What exactly is accepted as an object: every member known has a value of its kind. -/
theorem C118_exact_partial (j : JVal) (p0 : PushRequest) :
    (readJson false pushFields j p0).2 = true ↔
      ∃ l, j = .obj l ∧ ∀ kv ∈ l, ∀ k, pushKinds.lookup kv.1 = some k → k.Admits kv.2 := by
  cases j with
  | obj l =>
    constructor
    · intro h
      exact ⟨l, rfl, (readMembers_accepts pushFields_of l p0).1 h⟩
    · rintro ⟨l', e, h⟩
      cases e
      exact (readMembers_accepts pushFields_of l p0).2 h
  | num v => constructor
             · intro h; cases h
             · rintro ⟨l, e, _⟩; cases e
  | bool v => constructor
              · intro h; cases h
              · rintro ⟨l, e, _⟩; cases e
  | str v => constructor
             · intro h; cases h
             · rintro ⟨l, e, _⟩; cases e
  | arr v => constructor
             · intro h; cases h
             · rintro ⟨l, e, _⟩; cases e

/-- What exactly is accepted as an array: not too many elements, each of the kind of its place. -/
theorem C118_exact_array_partial (j : JVal) (p0 : PushRequest) :
    (readJson true pushElems j p0).2 = true ↔
      ∃ l, j = .arr l ∧ l.length ≤ elemKinds.length ∧
        ∀ (i : Nat) (v : JVal) (k : Kind), l[i]? = some v → elemKinds[i]? = some k → k.Admits v := by
  cases j with
  | arr l =>
    constructor
    · intro h
      exact ⟨l, rfl, (readElems_accepts pushElems_of l p0).1 h⟩
    · rintro ⟨l', e, h⟩
      cases e
      exact (readElems_accepts pushElems_of l p0).2 h
  | num v => constructor
             · intro h; cases h
             · rintro ⟨l, e, _⟩; cases e
  | bool v => constructor
              · intro h; cases h
              · rintro ⟨l, e, _⟩; cases e
  | str v => constructor
             · intro h; cases h
             · rintro ⟨l, e, _⟩; cases e
  | obj v => constructor
             · intro h; cases h
             · rintro ⟨l, e, _⟩; cases e

/-- Told twice, the last counts; an unknown member is skipped; a number that does not fit is an error. -/
example : readJson false pushFields (.obj [("ts".toList, .num 5), ("x".toList, .bool true), ("ts".toList, .num 7)]) {} =
      ({ ag := { ts := 7 } }, true) ∧
    (readJson false pushFields (.obj [("ts".toList, .num (2 ^ 63))]) {}).2 = false ∧
    (readJson true pushElems (.arr [.str "a".toList, .num 5]) {}) = ({ name := "a".toList, ag := { ts := 5 } }, true) ∧
    (readJson false pushFields (.obj [("data".toList, .arr [.num 1, .num (2 ^ 63)])]) {}).2 = false := by
  refine ⟨rfl, ?_, rfl, ?_⟩ <;> decide +kernel

end Wrtstat
