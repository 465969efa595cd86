/-
C149: options written by the older sources.
-/
import Verif.Model.LegacyOptions
import Verif.Props.ExactOptions

namespace Wrtstat

set_option autoImplicit false

/-- The claim: options written by the older sources can be loaded, and mean what they meant. -/
def C149_FullClaim : Prop :=
  ∀ (E : LoadEnv) (o : OldOptions) (err : Bool), E.Lawful → o.toWrtstatOptions.InRange →
    ∃ o', E.loadValue (E.oldDump o) err = (o', none) ∧ o'.settings = o.toWrtstatOptions.settings

/-- A member of today's options as a member of the older ones. -/
def Field.old (f : Field WrtstatOptions) : Field OldOptions where
  key := f.key
  get o := f.get o.toWrtstatOptions
  set j o := ({ o with toWrtstatOptions := (f.set j o.toWrtstatOptions).1 }, (f.set j o.toWrtstatOptions).2)

def prefixesField : Field OldOptions := strsField "prefixes".toList (·.prefixes) (fun v o => { o with prefixes := v })

theorem field_ext {R : Type} {f g : Field R} (h1 : f.key = g.key) (h2 : ∀ r, f.get r = g.get r) (h3 : ∀ j r, f.set j r = g.set j r) :
    f = g := by
  cases f
  cases g
  simp only [Field.mk.injEq]
  exact ⟨h1, funext h2, funext fun j => funext fun r => h3 j r⟩

theorem natField_old (k : PName) (g : WrtstatOptions → Nat) (p : Nat → WrtstatOptions → WrtstatOptions) :
    natField k (fun o : OldOptions => g o.toWrtstatOptions) (fun v o => { o with toWrtstatOptions := p v o.toWrtstatOptions }) =
      (natField k g p).old := by
  refine field_ext rfl (fun _ => rfl) fun j r => ?_
  cases j <;> first | rfl | skip
  simp only [natField, Field.old]
  split <;> rfl

theorem intField_old (k : PName) (g : WrtstatOptions → Int) (p : Int → WrtstatOptions → WrtstatOptions) :
    intField k (fun o : OldOptions => g o.toWrtstatOptions) (fun v o => { o with toWrtstatOptions := p v o.toWrtstatOptions }) =
      (intField k g p).old := by
  refine field_ext rfl (fun _ => rfl) fun j r => ?_
  cases j <;> first | rfl | skip
  simp only [intField, Field.old]
  split <;> rfl

theorem resolutionField_old : ({
      key := "resolution".toList
      get := fun o => .str (resolutionName o.resolution)
      set := fun j o => match j with
        | .str s => match readResolution s with
          | some v => ({ o with resolution := v }, true)
          | none => (o, false)
        | _ => (o, false) } : Field OldOptions) = resolutionField.old := by
  refine field_ext rfl (fun _ => rfl) fun j r => ?_
  cases j with
  | str s =>
    unfold resolutionField Field.old
    dsimp only
    generalize readResolution s = x
    cases x with
    | none => rfl
    | some v => rfl
  | _ => rfl

theorem oldOptionFields_eq : oldOptionFields = optionFields.map Field.old ++ [prefixesField] :=
  congrArg₂ List.cons (natField_old _ (·.limit) (fun v o => { o with limit := v })) <|
  congrArg₂ List.cons (natField_old _ (·.levels) (fun v o => { o with levels := v })) <|
  congrArg₂ List.cons (intField_old _ (·.step) (fun v o => { o with step := v })) <|
  congrArg₂ List.cons (intField_old _ (·.soiled) (fun v o => { o with soiled := v })) <|
  congrArg₂ List.cons resolutionField_old <|
  congrArg₂ List.cons (natField_old _ (·.outSize) (fun v o => { o with outSize := v })) <|
  congrArg₂ List.cons (natField_old _ (·.poolSize) (fun v o => { o with poolSize := v })) rfl

theorem oldLoad_source {E : LoadEnv} {arg s : PName} (h : E.Source arg s) (o : OldOptions) (err : Bool) : E.oldLoad arg o err =
    if ((E.parseSpace arg).2 && (E.oldReadOptions s o).2) = true then (true, (E.oldReadOptions s o).1, none)
    else (false, (E.oldReadOptions s o).1, if err then some (E.trace s) else none) := by
  have : (if E.isObject (E.parseSpace arg).1 then some (E.parseSpace arg).1 else E.file arg) = some s := by
    rcases h with ⟨a, b⟩ | ⟨a, b⟩
    · rw [if_pos a, b]
    · rw [if_neg (by simp [a]), b]
  unfold LoadEnv.oldLoad
  simp only [this]

theorem readOptions_eq (E : LoadEnv) (s : PName) (o : WrtstatOptions) : E.readOptions s o =
    ((readMembers true optionFields (E.parse s).1 o).1, (readMembers true optionFields (E.parse s).1 o).2 && (E.parse s).2) := by
  unfold LoadEnv.readOptions
  cases readMembers true optionFields (E.parse s).1 o
  rfl

theorem oldReadOptions_eq (E : LoadEnv) (s : PName) (o : OldOptions) : E.oldReadOptions s o =
    ((readMembers true oldOptionFields (E.parse s).1 o).1, (readMembers true oldOptionFields (E.parse s).1 o).2 && (E.parse s).2) := by
  unfold LoadEnv.oldReadOptions
  cases readMembers true oldOptionFields (E.parse s).1 o
  rfl

theorem find_old (k : PName) (h : k ≠ "prefixes".toList) :
    oldOptionFields.find? (fun f => f.key == k) = (optionFields.find? (fun f => f.key == k)).map Field.old := by
  have h1 : (prefixesField.key == k) = false := by
    rw [beq_eq_false_iff_ne]
    exact fun e => h e.symm
  rw [oldOptionFields_eq, List.find?_append, List.find?_map]
  simp only [List.find?_cons, h1, List.find?_nil, Option.or_none]
  rfl

theorem find_prefixes : optionFields.find? (fun f => f.key == "prefixes".toList) = none := by decide +kernel

/-- A text read by both. -/
theorem readMembers_old (l : List (PName × JVal)) (hl : ∀ m ∈ l, m.1 ≠ "prefixes".toList) : ∀ (o : OldOptions),
    readMembers true oldOptionFields l o =
      ({ o with toWrtstatOptions := (readMembers true optionFields l o.toWrtstatOptions).1 },
        (readMembers true optionFields l o.toWrtstatOptions).2) := by
  induction l with
  | nil => intro o; rfl
  | cons m l ih =>
    obtain ⟨k, v⟩ := m
    intro o
    unfold readMembers
    rw [find_old k (hl (k, v) (by simp))]
    cases optionFields.find? (fun f => f.key == k) with
    | none => rfl
    | some f =>
      simp only [Option.map_some]
      cases hb : f.set v o.toWrtstatOptions with
      | mk o' b =>
        have : f.old.set v o = ({ o with toWrtstatOptions := o' }, b) := by
          unfold Field.old
          simp only [hb]
        rw [this]
        cases b with
        | false => rfl
        | true =>
          simp only
          rw [ih fun m hm => hl m (by simp [hm])]

/-- A text with prefixes is refused today. -/
theorem readMembers_prefixes (l : List (PName × JVal)) (hl : ∃ m ∈ l, m.1 = "prefixes".toList) (o : WrtstatOptions) :
    (readMembers true optionFields l o).2 = false := by
  induction l generalizing o with
  | nil => obtain ⟨m, hm, _⟩ := hl; cases hm
  | cons m l ih =>
    obtain ⟨k, v⟩ := m
    unfold readMembers
    by_cases hk : k = "prefixes".toList
    · subst hk
      rw [find_prefixes]
      rfl
    · cases optionFields.find? (fun f => f.key == k) with
      | none => rfl
      | some f =>
        cases hb : f.set v o with
        | mk o' b =>
          simp only [hb]
          cases b with
          | false => rfl
          | true =>
            simp only
            refine ih ?_ o'
            obtain ⟨m, hm, e⟩ := hl
            rcases List.mem_cons.1 hm with rfl | hm
            · exact absurd e hk
            · exact ⟨m, hm, e⟩

/-- Which arguments are loaded today, and which were: exactly those without a member `prefixes`, and they mean the same. -/
theorem C149_exact_partial (E : LoadEnv) (arg : PName) (o : OldOptions) (err : Bool) (w : WrtstatOptions) :
    (∃ e, E.load arg o.toWrtstatOptions err = (true, w, e)) ↔
      (∃ o' e, E.oldLoad arg o err = (true, o', e) ∧ o'.toWrtstatOptions = w) ∧
        ∀ s, E.Source arg s → ∀ m ∈ (E.parse s).1, m.1 ≠ "prefixes".toList := by
  by_cases hs : ∃ s, E.Source arg s
  · obtain ⟨s, hs⟩ := hs
    rw [load_source hs, oldLoad_source hs]
    by_cases hp : ∀ m ∈ (E.parse s).1, m.1 ≠ "prefixes".toList
    · have e : E.oldReadOptions s o = ({ o with toWrtstatOptions := (E.readOptions s o.toWrtstatOptions).1 }, (E.readOptions s o.toWrtstatOptions).2) := by
        unfold LoadEnv.oldReadOptions LoadEnv.readOptions
        rw [readMembers_old _ hp]
      rw [e]
      by_cases hb : ((E.parseSpace arg).2 && (E.readOptions s o.toWrtstatOptions).2) = true
      · rw [if_pos hb, if_pos hb]
        constructor
        · rintro ⟨x, hx⟩
          cases hx
          refine ⟨⟨_, _, rfl, rfl⟩, fun s' h' => ?_⟩
          rw [source_unique h' hs]
          exact hp
        · rintro ⟨⟨o', x, hx, hw⟩, _⟩
          cases hx
          exact ⟨none, by rw [← hw]⟩
      · rw [if_neg hb, if_neg hb]
        constructor
        · rintro ⟨x, hx⟩; cases hx
        · rintro ⟨⟨o', x, hx, hw⟩, _⟩; cases hx
    · have e : (E.readOptions s o.toWrtstatOptions).2 = false := by
        have := readMembers_prefixes (E.parse s).1 (by
          by_contra hn
          exact hp fun m hm e => hn ⟨m, hm, e⟩) o.toWrtstatOptions
        unfold LoadEnv.readOptions
        cases h : readMembers true optionFields (E.parse s).1 o.toWrtstatOptions with
        | mk o' b =>
          rw [h] at this
          simp only at this ⊢
          rw [this]
          rfl
      rw [e, Bool.and_false, if_neg (by simp)]
      constructor
      · rintro ⟨x, hx⟩; cases hx
      · rintro ⟨_, h⟩
        exact absurd (h s hs) hp
  · have hn : ∀ s, ¬ E.Source arg s := fun s h => hs ⟨s, h⟩
    rw [load_no_source hn]
    constructor
    · rintro ⟨x, hx⟩; cases hx
    · rintro ⟨⟨o', x, hx, hw⟩, _⟩
      have hnone : (if E.isObject (E.parseSpace arg).1 then some (E.parseSpace arg).1 else E.file arg) = none := by
        cases h : (if E.isObject (E.parseSpace arg).1 then some (E.parseSpace arg).1 else E.file arg) with
        | none => rfl
        | some s =>
          by_cases a : E.isObject (E.parseSpace arg).1 = true
          · exact absurd (.inl ⟨a, rfl⟩) (hn (E.parseSpace arg).1)
          · rw [if_neg a] at h
            exact absurd (.inr ⟨by simpa using a, h⟩) (hn s)
      unfold LoadEnv.oldLoad at hx
      simp only [hnone] at hx
      cases hx

theorem inRange_valid {o : WrtstatOptions} (ho : o.InRange) : ∀ m ∈ o.settings, ValidMember m.1 m.2 := by
  obtain ⟨h1, h2, h3, h4, h5, h6⟩ := ho
  simp only [WrtstatOptions.settings, List.forall_mem_cons, List.not_mem_nil, false_implies, implies_true, and_true]
  refine ⟨.inl ⟨by decide, _, h1, rfl⟩, .inl ⟨by decide, _, h2, rfl⟩, .inr (.inl ⟨by decide, _, h3, rfl⟩),
    .inr (.inl ⟨by decide, _, h4, rfl⟩), .inr (.inr ⟨rfl, _, rfl⟩), .inl ⟨by decide, _, h5, rfl⟩, .inl ⟨by decide, _, h6, rfl⟩⟩

theorem settings_given (o o0 o' : WrtstatOptions) (h : o'.settings = o0.settings.map fun x => (x.1, (lastGiven o.settings x.1).getD x.2)) :
    o'.settings = o.settings := by
  rw [h]
  have hk : o.settings.map Prod.fst = optionFields.map (·.key) := by
    rw [settings_eq, List.map_map]; rfl
  have hn : (o.settings.map Prod.fst).Nodup := by rw [hk]; exact optionKeys
  rw [settings_eq, settings_eq, List.map_map]
  refine List.map_congr_left fun f hf => ?_
  have := (lastGiven_mem o.settings hn f.key (f.get o)).2 (by rw [settings_eq]; exact List.mem_map_of_mem (f := fun f => (f.key, f.get o)) hf)
  rw [settings_eq] at this
  simp [this]

/-- No text written by the older sources is accepted, whatever the options; an object that is loaded into has then all their
settings all the same. -/
theorem C149_refused (E : LoadEnv) (o : OldOptions) (o0 : WrtstatOptions) (err : Bool) (hE : E.Lawful) (ho : o.toWrtstatOptions.InRange) :
    ∃ w, E.load (E.oldDump o) o0 err = (false, w, if err then some (E.trace (E.oldDump o)) else none) ∧
      w.settings = o.toWrtstatOptions.settings ∧ w.hidden = o0.hidden ∧
      E.loadValue (E.oldDump o) err = ({}, if err then some (E.trace (E.oldDump o)) else none) := by
  have hw : writeObj oldOptionFields o = .obj (o.toWrtstatOptions.settings ++ [("prefixes".toList, .arr (o.prefixes.map .str))]) := rfl
  have htext : E.oldDump o = '{' :: (JVal.members E.q (o.toWrtstatOptions.settings ++ [("prefixes".toList, .arr (o.prefixes.map .str))]) ++ ['}']) := rfl
  have hs : E.Source (E.oldDump o) (E.oldDump o) := by
    left
    rw [htext, hE.space]
    exact ⟨hE.object _, rfl⟩
  have hp : E.parse (E.oldDump o) = (o.toWrtstatOptions.settings ++ [("prefixes".toList, .arr (o.prefixes.map .str))], true) := by
    unfold LoadEnv.oldDump
    rw [hw]
    exact hE.parse _
  have hr : ∀ x : WrtstatOptions, ∃ w, E.readOptions (E.oldDump o) x = (w, false) ∧ w.settings = o.toWrtstatOptions.settings ∧ w.hidden = x.hidden := by
    intro x
    obtain ⟨w, e1, e2⟩ := readMembers_append o.toWrtstatOptions.settings [("prefixes".toList, .arr (o.prefixes.map .str))] x (inRange_valid ho)
    have e3 : readMembers true optionFields [("prefixes".toList, .arr (o.prefixes.map .str))] w = (w, false) := by
      unfold readMembers
      rw [find_prefixes]
      rfl
    have := C78_values _ _ _ e1
    refine ⟨w, ?_, settings_given _ x w this.1, this.2⟩
    rw [readOptions_eq, hp]
    simp only [e2, e3, Bool.false_and]
  obtain ⟨w, h1, h2, h3⟩ := hr o0
  obtain ⟨w', k1, _, _⟩ := hr {}
  refine ⟨w, ?_, h2, h3, ?_⟩
  · rw [load_source hs, h1]
    simp
  · unfold LoadEnv.loadValue
    rw [load_source hs, k1]
    simp

theorem C149_refuted : ¬ C149_FullClaim := by
  intro h
  have ho : ({} : OldOptions).toWrtstatOptions.InRange := ⟨by decide, by decide, by decide, by decide, by decide, by decide⟩
  obtain ⟨o', h1, _⟩ := h (exLoad [] []) {} true (exLoad_lawful _ _) ho
  obtain ⟨_, _, _, _, h2⟩ := C149_refused (exLoad [] []) {} {} true (exLoad_lawful _ _) ho
  rw [h1] at h2
  simp at h2

/-- What is written today, the older sources load, and it means the same. -/
theorem C149_forward (E : LoadEnv) (o : WrtstatOptions) (err : Bool) (hE : E.Lawful) (ho : o.InRange) :
    ∃ o', E.oldLoadValue (E.serialize o) err = (o', none) ∧ o'.toWrtstatOptions.settings = o.settings ∧ o'.prefixes = [] := by
  have htext : E.serialize o = '{' :: (JVal.members E.q o.settings ++ ['}']) := rfl
  have hp : E.parse (E.serialize o) = (o.settings, true) := hE.parse o.settings
  obtain ⟨w, e1, _⟩ := readMembers_append o.settings [] ({} : WrtstatOptions) (inRange_valid ho)
  have hnp : ∀ m ∈ o.settings, m.1 ≠ "prefixes".toList := by
    intro m hm
    have : m.1 ∈ o.settings.map Prod.fst := List.mem_map_of_mem hm
    have hk : o.settings.map Prod.fst = optionFields.map (·.key) := by
      rw [settings_eq, List.map_map]; rfl
    rw [hk] at this
    obtain ⟨f, hf, e⟩ := List.mem_map.1 this
    have := List.find?_eq_none.1 find_prefixes f hf
    intro h
    rw [e, h] at this
    exact this (beq_self_eq_true _)
  have e2 : E.oldReadOptions (E.serialize o) {} = ({ toWrtstatOptions := w }, true) := by
    have e3 : ∀ x : OldOptions, readMembers true optionFields o.settings x.toWrtstatOptions = (w, true) →
        readMembers true oldOptionFields o.settings x = ({ x with toWrtstatOptions := w }, true) := by
      intro x hx
      rw [readMembers_old _ hnp, hx]
    rw [oldReadOptions_eq, hp, e3 {} e1, Bool.and_self]
  refine ⟨{ toWrtstatOptions := w }, ?_, settings_given _ {} w (C78_values _ _ _ e1).1, rfl⟩
  have hs : E.Source (E.serialize o) (E.serialize o) := by
    left
    rw [htext, hE.space]
    exact ⟨hE.object _, rfl⟩
  have h2 : (E.parseSpace (E.serialize o)).2 = true := by rw [htext, hE.space]
  unfold LoadEnv.oldLoadValue
  rw [oldLoad_source hs, e2, h2]
  rfl

/-- What the older sources cannot load yields the defaults, not the settings read before the mistake. -/
theorem C149_defaults (E : LoadEnv) (arg : PName) (err : Bool) (h : (E.oldLoad arg {} err).1 = false) :
    E.oldLoadValue arg err = ({}, (E.oldLoad arg {} err).2.2) := by
  unfold LoadEnv.oldLoadValue
  generalize E.oldLoad arg {} err = x at h ⊢
  obtain ⟨ok, o, e⟩ := x
  cases h
  rfl

open LoadEnv in
/-- A file of the older sources with two prefixes is refused, and so is one without any, since the member is always written. -/
example : ((exLoad [] []).load ((exLoad [] []).oldDump { limit := 7, prefixes := [['a'], ['b']] }) {} false).1 = false ∧
    ((exLoad [] []).load ((exLoad [] []).oldDump { limit := 7 }) {} false).1 = false ∧
    ((exLoad [] []).load ((exLoad [] []).oldDump { limit := 7 }) {} false).2.1.limit = 7 ∧
    ((exLoad [] []).loadValue ((exLoad [] []).oldDump { limit := 7 }) false).1.limit = 4096 ∧
    ((exLoad [] []).oldLoadValue ((exLoad [] []).oldDump { limit := 7, prefixes := [['a'], ['b']] }) false).1.prefixes = [['a'], ['b']] ∧
    ((exLoad [] []).oldLoadValue ((exLoad [] []).serialize { limit := 7 }) false).1.limit = 7 := by decide +kernel

end Wrtstat
