/-
When exactly a failed load of options leaves them unchanged (C76).
-/
import Verif.Props.Options

namespace Wrtstat

set_option autoImplicit false

/-- Reading goes on after members that are accepted. -/
theorem readMembers_append (l l' : List (PName × JVal)) (o : WrtstatOptions) (h : ∀ m ∈ l, ValidMember m.1 m.2) :
    ∃ o1, readMembers true optionFields l o = (o1, true) ∧
      readMembers true optionFields (l ++ l') o = readMembers true optionFields l' o1 := by
  induction l generalizing o with
  | nil => exact ⟨o, rfl, rfl⟩
  | cons m l ih =>
    obtain ⟨k, v⟩ := m
    obtain ⟨hv, hl⟩ := List.forall_mem_cons.1 h
    rw [List.cons_append, readMembers, readMembers]
    cases hf : optionFields.find? (fun f => f.key == k) with
    | none => exact absurd hv (find_none hf v)
    | some f =>
      obtain ⟨hm, rfl⟩ := find_option hf
      have h3 := ((optionFields_laws f hm).valid v o).2 hv
      simp only
      cases hs : f.set v o with
      | mk o1 b =>
        rw [hs] at h3
        simp only at h3
        subst h3
        simp only
        exact ih o1 hl

/-- Reading stops at a member that is not accepted. -/
theorem readMembers_bad (m : PName × JVal) (l : List (PName × JVal)) (o : WrtstatOptions) (h : ¬ ValidMember m.1 m.2) :
    readMembers true optionFields (m :: l) o = (o, false) := by
  obtain ⟨k, v⟩ := m
  rw [readMembers]
  cases hf : optionFields.find? (fun f => f.key == k) with
  | none => rfl
  | some f =>
    obtain ⟨hm, rfl⟩ := find_option hf
    have h3 := (optionFields_laws f hm).valid v o
    have h4 := (optionFields_laws f hm).keep v o
    simp only
    cases hs : f.set v o with
    | mk o1 b =>
      rw [hs] at h3 h4
      cases b with
      | false => have := h4 rfl; simp only at this ⊢; rw [this]
      | true => exact absurd (h3.1 rfl) h

/-- The members before the first bad one. -/
theorem good_prefix (l : List (PName × JVal)) : ∃ pre rest, l = pre ++ rest ∧ (∀ m ∈ pre, ValidMember m.1 m.2) ∧
    ∀ m, rest.head? = some m → ¬ ValidMember m.1 m.2 := by
  induction l with
  | nil => exact ⟨[], [], rfl, by simp, by simp⟩
  | cons m l ih =>
    by_cases hm : ValidMember m.1 m.2
    · obtain ⟨pre, rest, rfl, h1, h2⟩ := ih
      exact ⟨m :: pre, rest, rfl, List.forall_mem_cons.2 ⟨hm, h1⟩, h2⟩
    · exact ⟨[], m :: l, rfl, by simp, fun x hx => by cases hx; exact hm⟩

/-- Whether or not the load succeeds: the members before the first bad one are applied, in order, and no other.  So the options are
unchanged exactly if each of these, where it is the last of its name, has the value that was there. -/
theorem C76_exact_partial (E : LoadEnv) (arg s : PName) (o : WrtstatOptions) (err : Bool) (hs : E.Source arg s) :
    ∃ pre rest, (E.parse s).1 = pre ++ rest ∧ (∀ m ∈ pre, ValidMember m.1 m.2) ∧
      (∀ m, rest.head? = some m → ¬ ValidMember m.1 m.2) ∧
      (E.load arg o err).2.1.settings = o.settings.map (fun x => (x.1, (lastGiven pre x.1).getD x.2)) ∧
      (E.load arg o err).2.1.hidden = o.hidden ∧
      ((E.load arg o err).2.1 = o ↔ ∀ x ∈ o.settings, ∀ v, lastGiven pre x.1 = some v → v = x.2) := by
  obtain ⟨pre, rest, h1, h2, h3⟩ := good_prefix (E.parse s).1
  have he : (E.load arg o err).2.1 = (readMembers true optionFields (E.parse s).1 o).1 := by
    rw [load_source hs]
    unfold LoadEnv.readOptions
    cases readMembers true optionFields (E.parse s).1 o
    simp only
    split <;> rfl
  obtain ⟨o1, h4, h5⟩ := readMembers_append pre rest o h2
  have h6 : (E.load arg o err).2.1 = o1 := by
    rw [he, h1, h5]
    cases rest with
    | nil => rfl
    | cons m rest => rw [readMembers_bad m rest o1 (h3 m rfl)]
  obtain ⟨h7, h8⟩ := C78_values pre o o1 h4
  refine ⟨pre, rest, h1, h2, h3, by rw [h6, h7], by rw [h6, h8], ?_⟩
  rw [h6]
  have hmap : o1.settings = o.settings ↔ ∀ x ∈ o.settings, ∀ v, lastGiven pre x.1 = some v → v = x.2 := by
    rw [h7]
    have hx : o.settings.map (fun x => (x.1, (lastGiven pre x.1).getD x.2)) = o.settings ↔
        ∀ x ∈ o.settings, (x.1, (lastGiven pre x.1).getD x.2) = x := by
      conv_lhs => rhs; rw [← List.map_id o.settings]
      exact List.map_inj_left
    rw [hx]
    refine forall₂_congr fun x _ => ?_
    obtain ⟨k, w⟩ := x
    cases hl : lastGiven pre k with
    | none => simp
    | some v => simp
  rw [← hmap]
  exact ⟨fun e => by rw [e], fun e => WrtstatOptions.ext_settings e h8⟩

/-- A text that fails and says nothing new before its bad member, and one that does. -/
example : (exLoad [] []).load "{\"pool_size\":5,\"id_step\":2}".toList { poolSize := 5 } false = (false, { poolSize := 5 }, none) ∧
    (exLoad [] []).load "{\"pool_size\":6,\"id_step\":2,\"reducer_limit\":1}".toList { poolSize := 5 } false =
      (false, { poolSize := 6 }, none) := by decide +kernel

end Wrtstat
