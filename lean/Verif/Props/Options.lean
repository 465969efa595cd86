/-
C58, C76, C77, C78: `load_options` and the JSON form of the options.
-/
import Verif.Props.Json
import Mathlib.Tactic.Common

namespace Wrtstat

set_option autoImplicit false

/-! ### Vocabulary -/

/-- What can be set in JSON. -/
def WrtstatOptions.settings (o : WrtstatOptions) : List (PName × JVal) :=
  [("reducer_limit".toList, .num o.limit), ("reducer_levels".toList, .num o.levels),
   ("aggregation_step_ts".toList, .num o.step), ("soiled_start_ts".toList, .num o.soiled),
   ("resolution".toList, .str (resolutionName o.resolution)), ("outgoing_reduced_size".toList, .num o.outSize),
   ("pool_size".toList, .num o.poolSize)]

/-- What cannot. -/
def WrtstatOptions.hidden (o : WrtstatOptions) : Mode × Mode × Nat × Nat × Bool × Bool :=
  (o.mode, o.initialMode, o.idInit, o.idStep, o.hasInit, o.handler)

/-- The names of the counts, and of the times. -/
def countNames : List PName :=
  ["reducer_limit".toList, "reducer_levels".toList, "outgoing_reduced_size".toList, "pool_size".toList]

def timeNames : List PName := ["aggregation_step_ts".toList, "soiled_start_ts".toList]

/-- A member that may be given. -/
def ValidMember (k : PName) (v : JVal) : Prop :=
  (k ∈ countNames ∧ ∃ n : Nat, n < 2 ^ 64 ∧ v = .num n) ∨ (k ∈ timeNames ∧ ∃ n : Int, I64 n ∧ v = .num n) ∨
    (k = "resolution".toList ∧ ∃ r, v = .str (resolutionName r))

/-- The value given last for a name. -/
def lastGiven (l : List (PName × JVal)) (k : PName) : Option JVal := l.reverse.lookup k

/-- The options with the given settings. -/
theorem WrtstatOptions.ext_settings {o o' : WrtstatOptions} (h : o.settings = o'.settings) (h' : o.hidden = o'.hidden) :
    o = o' := by
  obtain ⟨⟨⟨⟨⟨a, b, c, d⟩, e, f, g⟩, i⟩, j, k, l⟩, m, n⟩ := o
  obtain ⟨⟨⟨⟨⟨a', b', c', d'⟩, e', f', g'⟩, i'⟩, j', k', l'⟩, m', n'⟩ := o'
  simp only [settings, hidden, List.cons.injEq, Prod.mk.injEq, JVal.num.injEq, JVal.str.injEq, Int.ofNat_inj, true_and,
    and_true] at h h'
  obtain ⟨rfl, rfl, rfl, rfl, h1, rfl, rfl⟩ := h
  obtain ⟨rfl, rfl, rfl, rfl, rfl, rfl⟩ := h'
  have : f = f' := by
    cases f <;> cases f' <;> first | rfl | (simp [resolutionName] at h1)
  rw [this]

/-! ### Members of the options -/

theorem settings_eq (o : WrtstatOptions) : o.settings = optionFields.map fun f => (f.key, f.get o) := rfl

theorem optionKeys : (optionFields.map (·.key)).Nodup := by decide +kernel

/-- The laws of a member. -/
structure FieldLaws (f : Field WrtstatOptions) : Prop where
  valid : ∀ v r, (f.set v r).2 = true ↔ ValidMember f.key v
  get : ∀ v r, (f.set v r).2 = true → f.get (f.set v r).1 = v
  keep : ∀ v r, (f.set v r).2 = false → (f.set v r).1 = r
  hidden : ∀ v r, (f.set v r).1.hidden = r.hidden

theorem natField_laws (key : PName) (get : WrtstatOptions → Nat) (put : Nat → WrtstatOptions → WrtstatOptions)
    (h1 : key ∈ countNames) (h2 : key ∉ timeNames) (h3 : key ≠ "resolution".toList) (h4 : ∀ n o, get (put n o) = n)
    (h5 : ∀ n o, (put n o).hidden = o.hidden) : FieldLaws (natField key get put) := by
  have hv : ∀ v, ValidMember key v ↔ ∃ n : Nat, n < 2 ^ 64 ∧ v = .num n := fun v => by
    simp only [ValidMember, h1, h2, h3, true_and, false_and, or_false]
  have hc : ∀ (v : JVal) (r : WrtstatOptions), (∃ n : Nat, n < 2 ^ 64 ∧ v = .num n ∧ (natField key get put).set v r = (put n r, true)) ∨
      ((¬ ∃ n : Nat, n < 2 ^ 64 ∧ v = .num n) ∧ (natField key get put).set v r = (r, false)) := by
    intro v r
    cases v with
    | num v =>
      by_cases h : 0 ≤ v ∧ v < 2 ^ 64
      · left
        refine ⟨v.toNat, by omega, by rw [Int.toNat_of_nonneg h.1], ?_⟩
        unfold natField
        simp only
        rw [if_pos h]
      · right
        refine ⟨?_, ?_⟩
        · rintro ⟨n, hn, e⟩
          simp only [JVal.num.injEq] at e
          omega
        · unfold natField
          simp only
          rw [if_neg h]
    | bool b => right; exact ⟨by rintro ⟨n, _, e⟩; simp at e, rfl⟩
    | str b => right; exact ⟨by rintro ⟨n, _, e⟩; simp at e, rfl⟩
    | arr b => right; exact ⟨by rintro ⟨n, _, e⟩; simp at e, rfl⟩
    | obj b => right; exact ⟨by rintro ⟨n, _, e⟩; simp at e, rfl⟩
  constructor
  · intro v r
    show _ ↔ ValidMember key v
    rw [hv]
    rcases hc v r with ⟨n, h1, h2, h3⟩ | ⟨h1, h2⟩
    · rw [h3]; exact ⟨fun _ => ⟨n, h1, h2⟩, fun _ => rfl⟩
    · rw [h2]; exact ⟨fun h => by simp at h, fun h => absurd h h1⟩
  · intro v r h
    rcases hc v r with ⟨n, h1, h2, h3⟩ | ⟨h1, h2⟩
    · rw [h3, h2]; show JVal.num (get (put n r)) = _; rw [h4]
    · rw [h2] at h; simp at h
  · intro v r h
    rcases hc v r with ⟨n, h1, h2, h3⟩ | ⟨h1, h2⟩
    · rw [h3] at h; simp at h
    · rw [h2]
  · intro v r
    rcases hc v r with ⟨n, h1, h2, h3⟩ | ⟨h1, h2⟩
    · rw [h3]; exact h5 _ _
    · rw [h2]

theorem intField_laws (key : PName) (get : WrtstatOptions → Int) (put : Int → WrtstatOptions → WrtstatOptions)
    (h1 : key ∈ timeNames) (h2 : key ∉ countNames) (h3 : key ≠ "resolution".toList) (h4 : ∀ n o, get (put n o) = n)
    (h5 : ∀ n o, (put n o).hidden = o.hidden) : FieldLaws (intField key get put) := by
  have hv : ∀ v, ValidMember key v ↔ ∃ n : Int, I64 n ∧ v = .num n := fun v => by
    simp only [ValidMember, h1, h2, h3, true_and, false_and, or_false, false_or]
  have hc : ∀ (v : JVal) (r : WrtstatOptions), (∃ n : Int, I64 n ∧ v = .num n ∧ (intField key get put).set v r = (put n r, true)) ∨
      ((¬ ∃ n : Int, I64 n ∧ v = .num n) ∧ (intField key get put).set v r = (r, false)) := by
    intro v r
    cases v with
    | num v =>
      by_cases h : I64 v
      · exact .inl ⟨v, h, rfl, if_pos h⟩
      · right
        refine ⟨?_, if_neg h⟩
        rintro ⟨n, hn, e⟩
        simp only [JVal.num.injEq] at e
        exact h (e ▸ hn)
    | bool b => right; exact ⟨by rintro ⟨n, _, e⟩; simp at e, rfl⟩
    | str b => right; exact ⟨by rintro ⟨n, _, e⟩; simp at e, rfl⟩
    | arr b => right; exact ⟨by rintro ⟨n, _, e⟩; simp at e, rfl⟩
    | obj b => right; exact ⟨by rintro ⟨n, _, e⟩; simp at e, rfl⟩
  constructor
  · intro v r
    show _ ↔ ValidMember key v
    rw [hv]
    rcases hc v r with ⟨n, h1, h2, h3⟩ | ⟨h1, h2⟩
    · rw [h3]; exact ⟨fun _ => ⟨n, h1, h2⟩, fun _ => rfl⟩
    · rw [h2]; exact ⟨fun h => by simp at h, fun h => absurd h h1⟩
  · intro v r h
    rcases hc v r with ⟨n, h1, h2, h3⟩ | ⟨h1, h2⟩
    · rw [h3, h2]; show JVal.num (get (put n r)) = _; rw [h4]
    · rw [h2] at h; simp at h
  · intro v r h
    rcases hc v r with ⟨n, h1, h2, h3⟩ | ⟨h1, h2⟩
    · rw [h3] at h; simp at h
    · rw [h2]
  · intro v r
    rcases hc v r with ⟨n, h1, h2, h3⟩ | ⟨h1, h2⟩
    · rw [h3]; exact h5 _ _
    · rw [h2]

theorem readResolution_name (r : Resolution) : readResolution (resolutionName r) = some r := by
  cases r <;> decide

theorem readResolution_some {s : PName} {r : Resolution} (h : readResolution s = some r) : s = resolutionName r := by
  have := List.find?_some h
  exact ((by simpa using this) : resolutionName r = s).symm

theorem optionFields_laws : ∀ f ∈ optionFields, FieldLaws f := by
  simp only [optionFields, List.forall_mem_cons, List.not_mem_nil, false_implies, implies_true, and_true]
  refine ⟨natField_laws _ _ _ (by decide) (by decide) (by decide) (fun _ _ => rfl) (fun _ _ => rfl),
    natField_laws _ _ _ (by decide) (by decide) (by decide) (fun _ _ => rfl) (fun _ _ => rfl),
    intField_laws _ _ _ (by decide) (by decide) (by decide) (fun _ _ => rfl) (fun _ _ => rfl),
    intField_laws _ _ _ (by decide) (by decide) (by decide) (fun _ _ => rfl) (fun _ _ => rfl), ?_,
    natField_laws _ _ _ (by decide) (by decide) (by decide) (fun _ _ => rfl) (fun _ _ => rfl),
    natField_laws _ _ _ (by decide) (by decide) (by decide) (fun _ _ => rfl) (fun _ _ => rfl)⟩
  have hv : ∀ v, ValidMember "resolution".toList v ↔ ∃ r, v = .str (resolutionName r) := fun v => by
    have h1 : "resolution".toList ∉ countNames := by decide
    have h2 : "resolution".toList ∉ timeNames := by decide
    simp only [ValidMember, h1, h2, false_and, true_and, false_or]
  unfold resolutionField
  constructor
  · intro v r
    show _ ↔ ValidMember "resolution".toList v
    rw [hv]
    cases v with
    | str s =>
      simp only
      cases h : readResolution s with
      | none =>
        simp only [JVal.str.injEq, Bool.false_eq_true, false_iff]
        rintro ⟨r, rfl⟩
        rw [readResolution_name] at h
        simp at h
      | some x => exact ⟨fun _ => ⟨x, by rw [readResolution_some h]⟩, fun _ => rfl⟩
    | _ => simp
  · intro v r h
    cases v with
    | str s =>
      simp only at h ⊢
      cases h' : readResolution s with
      | none => rw [h'] at h; simp at h
      | some x => simp only; rw [readResolution_some h']
    | _ => simp at h
  · intro v r h
    cases v with
    | str s =>
      simp only at h ⊢
      cases h' : readResolution s with
      | none => rfl
      | some x => rw [h'] at h; simp at h
    | _ => rfl
  · intro v r
    cases v with
    | str s =>
      simp only
      cases h' : readResolution s with
      | none => rfl
      | some x => rfl
    | _ => rfl

/-- A member does not change the others. -/
theorem optionFields_other : optionFields.Pairwise fun f g =>
    (∀ v r, g.get (f.set v r).1 = g.get r) ∧ (∀ v r, f.get (g.set v r).1 = f.get r) := by
  have hn : ∀ (key : PName) (get : WrtstatOptions → Nat) (put : Nat → WrtstatOptions → WrtstatOptions) (φ : WrtstatOptions → JVal),
      (∀ n o, φ (put n o) = φ o) → ∀ v r, φ ((natField key get put).set v r).1 = φ r := by
    intro key get put φ h v r
    unfold natField
    cases v <;> simp only
    split
    · exact h _ _
    · rfl
  have hi : ∀ (key : PName) (get : WrtstatOptions → Int) (put : Int → WrtstatOptions → WrtstatOptions) (φ : WrtstatOptions → JVal),
      (∀ n o, φ (put n o) = φ o) → ∀ v r, φ ((intField key get put).set v r).1 = φ r := by
    intro key get put φ h v r
    unfold intField
    cases v <;> simp only
    split
    · exact h _ _
    · rfl
  have hr : ∀ (φ : WrtstatOptions → JVal), (∀ n o, φ { o with resolution := n } = φ o) → ∀ v r, φ (resolutionField.set v r).1 = φ r := by
    intro φ h v r
    unfold resolutionField
    cases v <;> simp only
    split
    · exact h _ _
    · rfl
  simp only [optionFields, List.pairwise_cons, List.forall_mem_cons, List.not_mem_nil, false_implies, implies_true, and_true,
    List.Pairwise.nil]
  refine ⟨⟨?_, ?_, ?_, ?_, ?_, ?_⟩, ⟨?_, ?_, ?_, ?_, ?_⟩, ⟨?_, ?_, ?_, ?_⟩, ⟨?_, ?_, ?_⟩, ⟨?_, ?_⟩, ?_⟩ <;>
    constructor <;> first
      | exact hn _ _ _ _ (fun _ _ => rfl)
      | exact hi _ _ _ _ (fun _ _ => rfl)
      | exact hr _ (fun _ _ => rfl)

theorem option_other {f g : Field WrtstatOptions} (hf : f ∈ optionFields) (hg : g ∈ optionFields) (hk : f.key ≠ g.key)
    (v : JVal) (r : WrtstatOptions) : g.get (f.set v r).1 = g.get r := by
  have := List.Pairwise.forall_of_forall_of_flip (R := fun f g : Field WrtstatOptions => f.key ≠ g.key →
      (∀ v r, g.get (f.set v r).1 = g.get r)) (l := optionFields)
    (fun x _ hx => absurd rfl hx) (optionFields_other.imp fun h _ => h.1) (optionFields_other.imp fun h _ => h.2) hf hg hk
  exact this v r

theorem find_option {k : PName} {f : Field WrtstatOptions} (h : optionFields.find? (fun f => f.key == k) = some f) :
    f ∈ optionFields ∧ f.key = k :=
  ⟨List.mem_of_find?_eq_some h, by have := List.find?_some h; simpa using this⟩

theorem find_none {k : PName} (h : optionFields.find? (fun f => f.key == k) = none) (v : JVal) : ¬ ValidMember k v := by
  have hk : ∀ f ∈ optionFields, f.key ≠ k := by simpa using h
  have : k ∉ optionFields.map (·.key) := by simpa using hk
  rintro (⟨h1, -⟩ | ⟨h1, -⟩ | ⟨rfl, -⟩)
  · exact this (List.forall_iff_forall_mem.1 (by decide +kernel : countNames.Forall (· ∈ optionFields.map (·.key))) k h1)
  · exact this (List.forall_iff_forall_mem.1 (by decide +kernel : timeNames.Forall (· ∈ optionFields.map (·.key))) k h1)
  · exact this (by decide +kernel)

/-! ### C78 -/

/-- The members are accepted if and only if each has a known name and a value of the right kind and range. -/
theorem C78_accepted (l : List (PName × JVal)) (o : WrtstatOptions) :
    (readMembers true optionFields l o).2 = true ↔ ∀ m ∈ l, ValidMember m.1 m.2 := by
  induction l generalizing o with
  | nil => simp [readMembers]
  | cons m l ih =>
    obtain ⟨k, v⟩ := m
    rw [readMembers, List.forall_mem_cons]
    cases h : optionFields.find? (fun f => f.key == k) with
    | none => simp [find_none h v]
    | some f =>
      obtain ⟨hf, rfl⟩ := find_option h
      have hl := (optionFields_laws f hf).valid v o
      simp only
      cases hs : f.set v o with
      | mk o' b =>
        rw [hs] at hl
        cases b with
        | false => simp only at hl ⊢; simp only [← hl]; simp
        | true => simp only at hl ⊢; rw [ih o', ← hl]; simp

theorem lastGiven_nil (k : PName) : lastGiven [] k = none := rfl

theorem lastGiven_cons (m : PName × JVal) (l : List (PName × JVal)) (k : PName) :
    lastGiven (m :: l) k = (lastGiven l k).or (if k == m.1 then some m.2 else none) := by
  unfold lastGiven
  rw [List.reverse_cons, List.lookup_append]
  obtain ⟨a, b⟩ := m
  congr 1
  by_cases h : k = a
  · subst h; simp
  · simp only [List.lookup, beq_eq_false_iff_ne.2 h]; rfl

theorem lastGiven_mem (a : List (PName × JVal)) (ha : (a.map Prod.fst).Nodup) (k : PName) (v : JVal) :
    lastGiven a k = some v ↔ (k, v) ∈ a := by
  induction a with
  | nil => simp [lastGiven_nil]
  | cons m a ih =>
    rw [List.map_cons, List.nodup_cons] at ha
    rw [lastGiven_cons, Option.or_eq_some_iff, ih ha.2, List.mem_cons]
    constructor
    · rintro (e | ⟨-, e⟩)
      · exact .inr e
      · left
        split at e
        · rename_i hk
          simp only [Option.some.injEq] at e
          simp only [beq_iff_eq] at hk
          rw [hk, ← e]
        · simp at e
    · rintro (e | e)
      · right
        rw [← e]
        refine ⟨?_, by simp⟩
        cases hl : lastGiven a k with
        | none => rfl
        | some w =>
          exfalso
          have hex : ∃ w, (k, w) ∈ a := by
            unfold lastGiven at hl
            have : ∀ (b : List (PName × JVal)), b.lookup k = some w → (k, w) ∈ b := by
              intro b hb
              induction b with
              | nil => simp at hb
              | cons x b ihb =>
                obtain ⟨c, d⟩ := x
                by_cases hc : k = c
                · subst hc
                  simp at hb
                  simp [hb]
                · simp only [List.lookup, beq_eq_false_iff_ne.2 hc] at hb
                  simp [ihb hb]
            exact ⟨w, by simpa using this _ hl⟩
          obtain ⟨w, hw⟩ := hex
          apply ha.1
          have hk : m.1 = k := by rw [← e]
          rw [hk]
          exact List.mem_map_of_mem (f := Prod.fst) hw
      · exact .inl e

theorem values_aux (l : List (PName × JVal)) (o o' : WrtstatOptions) (h : readMembers true optionFields l o = (o', true)) :
    (∀ f ∈ optionFields, f.get o' = (lastGiven l f.key).getD (f.get o)) ∧ o'.hidden = o.hidden := by
  induction l generalizing o with
  | nil =>
    simp only [readMembers, Prod.mk.injEq, and_true] at h
    subst h
    simp [lastGiven_nil]
  | cons m l ih =>
    obtain ⟨k, v⟩ := m
    rw [readMembers] at h
    cases hf : optionFields.find? (fun f => f.key == k) with
    | none => rw [hf] at h; simp at h
    | some f =>
      obtain ⟨hm, rfl⟩ := find_option hf
      rw [hf] at h
      simp only at h
      have hlaw := optionFields_laws f hm
      cases hs : f.set v o with
      | mk o1 b =>
        rw [hs] at h
        cases b with
        | false => simp at h
        | true =>
          simp only at h
          obtain ⟨h1, h2⟩ := ih o1 h
          refine ⟨fun g hg => ?_, ?_⟩
          · rw [h1 g hg, lastGiven_cons]
            cases hl : lastGiven l g.key with
            | some x => rfl
            | none =>
              simp only [Option.getD_none, Option.none_or]
              by_cases hk : g.key = f.key
              · have : g = f := List.inj_on_of_nodup_map optionKeys hg hm hk
                subst this
                have := hlaw.get v o (by rw [hs])
                rw [hs] at this
                simpa using this
              · have := option_other hm hg (Ne.symm hk) v o
                rw [hs] at this
                simpa [hk] using this
          · have := hlaw.hidden v o
            rw [hs] at this
            rw [h2]
            exact this

/-- After reading members that are all accepted, each setting has the value given last, or the old one if none is
given: in particular the order of members with different names does not matter.  Nothing else changes. -/
theorem C78_values (l : List (PName × JVal)) (o o' : WrtstatOptions) (h : readMembers true optionFields l o = (o', true)) :
    o'.settings = o.settings.map (fun s => (s.1, (lastGiven l s.1).getD s.2)) ∧ o'.hidden = o.hidden := by
  obtain ⟨h1, h2⟩ := values_aux l o o' h
  refine ⟨?_, h2⟩
  rw [settings_eq, settings_eq, List.map_map]
  exact List.map_congr_left fun f hf => by simp [h1 f hf]

/-- Members with different names may come in any order. -/
theorem C78_order (l l' : List (PName × JVal)) (o o' : WrtstatOptions) (hp : l.Perm l') (hn : (l.map Prod.fst).Nodup)
    (h : readMembers true optionFields l o = (o', true)) : readMembers true optionFields l' o = (o', true) := by
  have hok : (readMembers true optionFields l' o).2 = true := by
    rw [C78_accepted]
    have := (C78_accepted l o).1 (by rw [h])
    exact fun m hm => this m (hp.mem_iff.2 hm)
  cases h' : readMembers true optionFields l' o with
  | mk o1 b =>
    rw [h'] at hok
    simp only at hok
    subst hok
    obtain ⟨h1, h2⟩ := C78_values l o o' h
    obtain ⟨g1, g2⟩ := C78_values l' o o1 h'
    have hlast : ∀ k, lastGiven l k = lastGiven l' k := by
      intro k
      have hn' : (l'.map Prod.fst).Nodup := (hp.map Prod.fst).nodup_iff.1 hn
      ext v
      rw [lastGiven_mem l hn, lastGiven_mem l' hn', hp.mem_iff]
    have : o1 = o' := WrtstatOptions.ext_settings (by rw [h1, g1]; simp only [hlast]) (by rw [h2, g2])
    rw [this]

/-- A name given twice, and one not given. -/
example : readMembers true optionFields [("pool_size".toList, .num 3), ("resolution".toList, .str "none".toList), ("pool_size".toList, .num 5)]
    ({ levels := 7 } : WrtstatOptions) = ({ levels := 7, poolSize := 5, resolution := .none }, true) := by decide +kernel

/-! ### C58 -/

/-- The text the options are read from: the argument itself if it begins an object, otherwise the file of this
name. -/
def LoadEnv.Source (E : LoadEnv) (arg s : PName) : Prop :=
  (E.isObject (E.parseSpace arg).1 = true ∧ s = (E.parseSpace arg).1) ∨
    (E.isObject (E.parseSpace arg).1 = false ∧ E.file arg = some s)

/-- The argument is accepted: there is a text, without syntax errors, and all its members are valid. -/
def LoadEnv.Accepts (E : LoadEnv) (arg s : PName) : Prop :=
  (E.parseSpace arg).2 = true ∧ E.Source arg s ∧ (E.parse s).2 = true ∧ ∀ m ∈ (E.parse s).1, ValidMember m.1 m.2

theorem source_unique {E : LoadEnv} {arg s s' : PName} (h : E.Source arg s) (h' : E.Source arg s') : s = s' := by
  rcases h with ⟨a, b⟩ | ⟨a, b⟩ <;> rcases h' with ⟨c, d⟩ | ⟨c, d⟩
  · rw [b, d]
  · rw [a] at c; simp at c
  · rw [a] at c; simp at c
  · rw [b] at d; exact Option.some.inj d

theorem load_source {E : LoadEnv} {arg s : PName} (h : E.Source arg s) (o : WrtstatOptions) (err : Bool) :
    E.load arg o err = if ((E.parseSpace arg).2 && (E.readOptions s o).2) = true then (true, (E.readOptions s o).1, none)
      else (false, (E.readOptions s o).1, if err then some (E.trace s) else none) := by
  have : (if E.isObject (E.parseSpace arg).1 then some (E.parseSpace arg).1 else E.file arg) = some s := by
    rcases h with ⟨a, b⟩ | ⟨a, b⟩
    · rw [if_pos a, b]
    · rw [if_neg (by simp [a]), b]
  unfold LoadEnv.load
  simp only [this]

theorem load_no_source {E : LoadEnv} {arg : PName} (h : ∀ s, ¬ E.Source arg s) (o : WrtstatOptions) (err : Bool) :
    E.load arg o err = (false, o, if err then some (E.strerror arg) else none) := by
  have : (if E.isObject (E.parseSpace arg).1 then some (E.parseSpace arg).1 else E.file arg) = none := by
    by_cases a : E.isObject (E.parseSpace arg).1 = true
    · exact absurd (.inl ⟨a, rfl⟩) (h (E.parseSpace arg).1)
    · rw [if_neg a]
      cases hf : E.file arg with
      | none => rfl
      | some s => exact absurd (.inr ⟨by simpa using a, hf⟩) (h s)
  unfold LoadEnv.load
  simp only [this]

theorem readOptions_ok (E : LoadEnv) (s : PName) (o : WrtstatOptions) :
    (E.readOptions s o).2 = true ↔ (E.parse s).2 = true ∧ ∀ m ∈ (E.parse s).1, ValidMember m.1 m.2 := by
  unfold LoadEnv.readOptions
  have := C78_accepted (E.parse s).1 o
  cases h : readMembers true optionFields (E.parse s).1 o with
  | mk o' b =>
    rw [h] at this
    simp only [Bool.and_eq_true] at this ⊢
    rw [this]
    tauto

/-- An accepted argument: the result is the defaults with the settings of the text, and no error is written. -/
theorem C58_accepted (E : LoadEnv) (arg s : PName) (err : Bool) (h : E.Accepts arg s) :
    ∃ o, E.loadValue arg err = (o, none) ∧ o.hidden = ({} : WrtstatOptions).hidden ∧
      o.settings = ({} : WrtstatOptions).settings.map fun x => (x.1, (lastGiven (E.parse s).1 x.1).getD x.2) := by
  obtain ⟨h1, h2, h3, h4⟩ := h
  have hok := (readOptions_ok E s {}).2 ⟨h3, h4⟩
  have hl := load_source h2 {} err
  rw [h1, hok] at hl
  simp only [Bool.and_self, if_true] at hl
  refine ⟨(E.readOptions s {}).1, by unfold LoadEnv.loadValue; rw [hl], ?_⟩
  have hr : readMembers true optionFields (E.parse s).1 {} = ((E.readOptions s {}).1, true) := by
    have h5 := (C78_accepted (E.parse s).1 {}).2 h4
    unfold LoadEnv.readOptions
    cases h6 : readMembers true optionFields (E.parse s).1 {} with
    | mk o b => rw [h6] at h5; simp only at h5; subst h5; rfl
  have := C78_values _ _ _ hr
  exact ⟨this.2, this.1⟩

/-- An argument that is not accepted: the result is the defaults, and an error is written if asked for. -/
theorem C58_rejected (E : LoadEnv) (arg : PName) (err : Bool) (h : ∀ s, ¬ E.Accepts arg s) :
    (E.loadValue arg err).1 = {} ∧ (E.loadValue arg err).2.isSome = err := by
  unfold LoadEnv.loadValue
  by_cases hs : ∃ s, E.Source arg s
  · obtain ⟨s, hs⟩ := hs
    rw [load_source hs]
    by_cases hc : ((E.parseSpace arg).2 && (E.readOptions s {}).2) = true
    · rw [Bool.and_eq_true, readOptions_ok] at hc
      exact absurd ⟨hc.1, hs, hc.2.1, hc.2.2⟩ (h s)
    · rw [if_neg hc]
      cases err <;> simp
  · rw [load_no_source (by simpa using hs)]
    cases err <;> simp

/-- A path that cannot be read is an error. -/
theorem C58_unreadable (E : LoadEnv) (arg : PName) (h1 : E.isObject (E.parseSpace arg).1 = false) (h2 : E.file arg = none) :
    E.loadValue arg true = ({}, some (E.strerror arg)) := by
  unfold LoadEnv.loadValue
  rw [load_no_source]
  · rfl
  · rintro s (⟨a, b⟩ | ⟨a, b⟩)
    · rw [h1] at a; simp at a
    · rw [h2] at b; simp at b

example : (exLoad "f".toList "{\"reducer_limit\":5,\"resolution\":\"none\"}".toList).loadValue "f".toList true =
    ({ limit := 5, resolution := .none }, none) := by decide +kernel

example : (exLoad "f".toList []).loadValue " {\"pool_size\":5}".toList true = ({ poolSize := 5 }, none) := by decide +kernel

example : (exLoad "f".toList []).loadValue "{\"pool_size\":5,\"id_step\":2}".toList true =
    ({}, some "{\"pool_size\":5,\"id_step\":2}".toList) := by decide +kernel

example : (exLoad "f".toList []).loadValue "g".toList true = ({}, some "g".toList) := by decide +kernel

/-! ### C76 -/

/-- The claim: if `load_options(path_or_json, opt, err)` returns false, the options are unchanged. -/
def C76_FullClaim : Prop :=
  ∀ (E : LoadEnv) (arg : PName) (o : WrtstatOptions) (err : Bool), (E.load arg o err).1 = false → (E.load arg o err).2.1 = o

/-- The members before the bad one have been assigned. -/
theorem C76_refuted : ¬ C76_FullClaim := by
  intro hc
  have h : (exLoad [] []).load "{\"pool_size\":5,\"id_step\":2}".toList {} false = (false, { poolSize := 5 }, none) := by
    decide +kernel
  have := hc (exLoad [] []) "{\"pool_size\":5,\"id_step\":2}".toList {} false (by rw [h])
  rw [h] at this
  revert this
  decide

theorem readMembers_parts (l : List (PName × JVal)) (o : WrtstatOptions) :
    (readMembers true optionFields l o).1.hidden = o.hidden ∧
    ∀ f ∈ optionFields, f.get (readMembers true optionFields l o).1 = f.get o ∨
      (f.key, f.get (readMembers true optionFields l o).1) ∈ l := by
  induction l generalizing o with
  | nil => exact ⟨rfl, fun f _ => .inl rfl⟩
  | cons m l ih =>
    obtain ⟨k, v⟩ := m
    rw [readMembers]
    cases hf : optionFields.find? (fun f => f.key == k) with
    | none => exact ⟨rfl, fun f _ => .inl rfl⟩
    | some f =>
      obtain ⟨hm, rfl⟩ := find_option hf
      have hlaw := optionFields_laws f hm
      simp only
      cases hs : f.set v o with
      | mk o1 b =>
        have hh := hlaw.hidden v o
        rw [hs] at hh
        cases b with
        | false =>
          have hk := hlaw.keep v o (by rw [hs])
          rw [hs] at hk
          simp only at hk ⊢
          subst hk
          exact ⟨rfl, fun f _ => .inl rfl⟩
        | true =>
          simp only at hh ⊢
          obtain ⟨h1, h2⟩ := ih o1
          refine ⟨h1.trans hh, fun g hg => ?_⟩
          rcases h2 g hg with e | e
          · by_cases hk : g.key = f.key
            · have : g = f := List.inj_on_of_nodup_map optionKeys hg hm hk
              subst this
              have := hlaw.get v o (by rw [hs])
              rw [hs] at this
              simp only at this
              right
              rw [e, this]
              simp
            · have := option_other hm hg (Ne.symm hk) v o
              rw [hs] at this
              exact .inl (e.trans this)
          · exact .inr (List.mem_cons_of_mem _ e)

/-- The part that holds: nothing changes if the file cannot be read, or if the first member is bad; otherwise every setting
has the old value or one given in the text.  Missing: that it has the old one. -/
theorem C76_partial (E : LoadEnv) (arg : PName) (o : WrtstatOptions) (err : Bool) :
    ((∀ s, ¬ E.Source arg s) → (E.load arg o err).2.1 = o) ∧
    ∀ s, E.Source arg s → (E.load arg o err).2.1.hidden = o.hidden ∧
      ((∀ m, (E.parse s).1.head? = some m → ¬ ValidMember m.1 m.2) → (E.load arg o err).2.1 = o) ∧
      ∀ (i : Nat) (k : PName) (v v' : JVal), o.settings[i]? = some (k, v) → (E.load arg o err).2.1.settings[i]? = some (k, v') →
        v' = v ∨ (k, v') ∈ (E.parse s).1 := by
  refine ⟨fun h => by rw [load_no_source h], fun s hs => ?_⟩
  have he : (E.load arg o err).2.1 = (readMembers true optionFields (E.parse s).1 o).1 := by
    rw [load_source hs]
    unfold LoadEnv.readOptions
    cases readMembers true optionFields (E.parse s).1 o
    simp only
    split <;> rfl
  rw [he]
  obtain ⟨h1, h2⟩ := readMembers_parts (E.parse s).1 o
  refine ⟨h1, fun hb => ?_, fun i k v v' hv hv' => ?_⟩
  · cases hl : (E.parse s).1 with
    | nil => rfl
    | cons m l =>
      have hb := hb m (by rw [hl]; rfl)
      obtain ⟨k, v⟩ := m
      rw [readMembers]
      cases hf : optionFields.find? (fun f => f.key == k) with
      | none => rfl
      | some f =>
        obtain ⟨hm, rfl⟩ := find_option hf
        have hlaw := optionFields_laws f hm
        have h3 := hlaw.valid v o
        have h4 := hlaw.keep v o
        simp only
        cases hs : f.set v o with
        | mk o1 b =>
          rw [hs] at h3 h4
          cases b with
          | false => exact h4 rfl
          | true => exact absurd (h3.1 rfl) hb
  · rw [settings_eq, List.getElem?_map, Option.map_eq_some_iff] at hv hv'
    obtain ⟨f, hf, e⟩ := hv
    obtain ⟨g, hg, e'⟩ := hv'
    rw [hf] at hg
    obtain rfl := Option.some.inj hg
    simp only [Prod.mk.injEq] at e e'
    obtain ⟨rfl, rfl⟩ := e
    obtain ⟨-, rfl⟩ := e'
    exact h2 f (List.mem_of_getElem? hf)

/-! ### C77 -/

/-- The parser of `load_options` reads what the writer has written: an object begins with a brace, and its members are
read back. -/
structure LoadEnv.Lawful (E : LoadEnv) : Prop where
  space : ∀ s, E.parseSpace ('{' :: s) = ('{' :: s, true)
  object : ∀ s, E.isObject ('{' :: s) = true
  parse : ∀ l, E.parse ((JVal.obj l).text E.q) = (l, true)

theorem exLoad_lawful (p c : PName) : (exLoad p c).Lawful := by
  refine ⟨fun s => rfl, fun s => rfl, fun l => ?_⟩
  show (match parseText ((JVal.obj l).text quote) with
    | some (.obj l) => (l, true)
    | _ => ([], false)) = _
  rw [parseText_text]

/-- All numbers are values of their C++ types. -/
structure WrtstatOptions.InRange (o : WrtstatOptions) : Prop where
  limit : o.limit < 2 ^ 64
  levels : o.levels < 2 ^ 64
  step : I64 o.step
  soiled : I64 o.soiled
  outSize : o.outSize < 2 ^ 64
  poolSize : o.poolSize < 2 ^ 64

/-- The claim: `load_options(serialize_options(o))` is `o`. -/
def C77_FullClaim : Prop :=
  ∀ (E : LoadEnv) (o : WrtstatOptions) (err : Bool), E.Lawful → o.InRange → E.loadValue (E.serialize o) err = (o, none)

/-- The part that holds: all that is written is read back; the rest (modes of the reducer, ids, functions) are the
defaults.  Missing: these. -/
theorem C77_settings_partial (E : LoadEnv) (o : WrtstatOptions) (err : Bool) (hE : E.Lawful) (ho : o.InRange) :
    ∃ o', E.loadValue (E.serialize o) err = (o', none) ∧ o'.settings = o.settings ∧
      o'.hidden = ({} : WrtstatOptions).hidden := by
  have htext : E.serialize o = '{' :: (JVal.members E.q o.settings ++ ['}']) := rfl
  have hs : E.Source (E.serialize o) (E.serialize o) := by
    left
    rw [htext, hE.space]
    exact ⟨hE.object _, rfl⟩
  have hp : E.parse (E.serialize o) = (o.settings, true) := hE.parse o.settings
  have hv : ∀ m ∈ o.settings, ValidMember m.1 m.2 := by
    obtain ⟨h1, h2, h3, h4, h5, h6⟩ := ho
    simp only [WrtstatOptions.settings, List.forall_mem_cons, List.not_mem_nil, false_implies, implies_true, and_true]
    refine ⟨.inl ⟨by decide, _, h1, rfl⟩, .inl ⟨by decide, _, h2, rfl⟩, .inr (.inl ⟨by decide, _, h3, rfl⟩),
      .inr (.inl ⟨by decide, _, h4, rfl⟩), .inr (.inr ⟨rfl, _, rfl⟩), .inl ⟨by decide, _, h5, rfl⟩, .inl ⟨by decide, _, h6, rfl⟩⟩
  obtain ⟨o', h1, h2, h3⟩ := C58_accepted E (E.serialize o) (E.serialize o) err ⟨by rw [htext, hE.space], hs, by rw [hp], by rw [hp]; exact hv⟩
  refine ⟨o', h1, ?_, h2⟩
  rw [h3, hp]
  have hk : ∀ o : WrtstatOptions, o.settings.map Prod.fst = optionFields.map (·.key) := fun o => by
    rw [settings_eq, List.map_map]; rfl
  have hn : (o.settings.map Prod.fst).Nodup := by rw [hk]; exact optionKeys
  rw [settings_eq, settings_eq, List.map_map]
  refine List.map_congr_left fun f hf => ?_
  have := (lastGiven_mem o.settings hn f.key (f.get o)).2 (by rw [settings_eq]; exact List.mem_map_of_mem (f := fun f => (f.key, f.get o)) hf)
  rw [settings_eq] at this
  simp [this]

/-- The mode of the reducer is not written. -/
theorem C77_refuted : ¬ C77_FullClaim := by
  intro hc
  obtain ⟨o', h1, -, h3⟩ := C77_settings_partial (exLoad [] []) { mode := .sorting } false (exLoad_lawful _ _)
    ⟨by decide, by decide, by decide, by decide, by decide, by decide⟩
  have h := hc (exLoad [] []) { mode := .sorting } false (exLoad_lawful _ _)
    ⟨by decide, by decide, by decide, by decide, by decide, by decide⟩
  rw [h1] at h
  simp only [Prod.mk.injEq, and_true] at h
  rw [h] at h3
  revert h3
  decide

/-- `packer_options`: all but the debugging options, which are not written (and not in the model). -/
theorem C77_packer_partial (o o0 : PackerOpts) (h1 : o.pushLimit < 2 ^ 64) (h2 : o.dataLimit < 2 ^ 64) (h3 : o.jsonLimit < 2 ^ 64) :
    readJson false packerFields (write false packerFields o) o0 = (o, true) := by
  show readMembers false packerFields (packerFields.map fun f => (f.key, f.get o)) o0 = _
  rw [readMembers_write packerFields o [fun r => { r with pushLimit := o.pushLimit }, fun r => { r with dataLimit := o.dataLimit },
    fun r => { r with jsonLimit := o.jsonLimit }, fun r => { r with jsonCompact := o.jsonCompact },
    fun r => { r with nameSep := o.nameSep }, fun r => { r with nameCompact := o.nameCompact }] (by decide +kernel) rfl]
  · rfl
  · simp only [packerFields, List.zip_cons_cons, List.zip_nil_right, List.forall_mem_cons, List.not_mem_nil, false_implies,
      implies_true, and_true]
    exact ⟨natField_set _ _ _ h1, natField_set _ _ _ h2, natField_set _ _ _ h3, fun _ => rfl, fun _ => rfl, fun _ => rfl⟩

/-- `multi_aggregator_options`: everything but the modes of the reducer, which are not written and stay as they were. -/
theorem C77_multi_partial (o o0 : MultiOptions) (h1 : o.limit < 2 ^ 64) (h2 : o.levels < 2 ^ 64) (h3 : I64 o.step) (h4 : I64 o.soiled)
    (h5 : o.outSize < 2 ^ 64) (h6 : o.poolSize < 2 ^ 64) (h7 : o.hashSize < 2 ^ 64) :
    readMembers true multiOptionFields (multiOptionFields.map fun f => (f.key, f.get o)) o0 =
      ({ o with mode := o0.mode, initialMode := o0.initialMode }, true) := by
  rw [readMembers_write multiOptionFields o [fun r => { r with limit := o.limit }, fun r => { r with levels := o.levels },
    fun r => { r with step := o.step }, fun r => { r with soiled := o.soiled }, fun r => { r with resolution := o.resolution },
    fun r => { r with outSize := o.outSize }, fun r => { r with poolSize := o.poolSize },
    fun r => { r with hashSize := o.hashSize }] (by decide +kernel) rfl]
  · rfl
  · simp only [multiOptionFields, List.zip_cons_cons, List.zip_nil_right, List.forall_mem_cons, List.not_mem_nil, false_implies,
      implies_true, and_true]
    refine ⟨natField_set _ _ _ h1, natField_set _ _ _ h2, intField_set _ _ _ h3, intField_set _ _ _ h4, fun r => ?_,
      natField_set _ _ _ h5, natField_set _ _ _ h6, natField_set _ _ _ h7⟩
    cases o.resolution <;> rfl

example : (writeObj multiOptionFields {}).text quote =
    "{\"reducer_limit\":4096,\"reducer_levels\":256,\"aggregation_step_ts\":1,\"soiled_start_ts\":0,\"resolution\":\"seconds\",\"outgoing_reduced_size\":128,\"pool_size\":0,\"hash_size\":4096}".toList := by
  decide +kernel

example : (exLoad [] []).serialize { limit := 8, step := -1, resolution := .nanoseconds } =
    "{\"reducer_limit\":8,\"reducer_levels\":256,\"aggregation_step_ts\":-1,\"soiled_start_ts\":0,\"resolution\":\"nanoseconds\",\"outgoing_reduced_size\":128,\"pool_size\":0}".toList := by
  decide +kernel

end Wrtstat
