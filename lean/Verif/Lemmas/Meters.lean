/-
Conservation of measurements in programs over points.
-/
import Verif.Spec.MeterSpec
import Mathlib.Data.List.Perm.Basic

namespace Wrtstat
namespace PClass

variable {F : Type} {C : PClass F}

/-- What the member functions do with the meter function. -/
structure Lawful (C : PClass F) : Prop where
  new : ∀ k f a, C.fn (C.new k f a) = f
  upd : ∀ p u, C.fn (C.upd p u) = C.fn p
  push : ∀ p k ts, (C.push p k ts).1.map Call.fn = (C.fn p).toList ∧ C.fn (C.push p k ts).2 = none
  pushNow : ∀ p k, (C.pushNow p k).1.map Call.fn = (C.fn p).toList ∧ C.fn (C.pushNow p k).2 = none
  resetWith : ∀ p k k' f a, (C.resetWith p k k' f a).1.map Call.fn = (C.fn p).toList ∧
    C.fn (C.resetWith p k k' f a).2 = f
  clone : ∀ p k a, C.fn (C.clone p k a) = C.fn p
  moved : ∀ p, C.fn (C.moved p) = none

theorem perm_set {α β : Type} (g : α → List β) : ∀ (l : List α) (i : Nat) (a b : α), l[i]? = some a →
    (g b ++ l.flatMap g).Perm (g a ++ (l.set i b).flatMap g)
  | [], i, a, b, h => by simp at h
  | x :: l, 0, a, b, h => by
    simp only [List.getElem?_cons_zero, Option.some.injEq] at h
    subst h
    simp only [List.set_cons_zero, List.flatMap_cons, ← List.append_assoc]
    exact List.Perm.append_right _ List.perm_append_comm
  | x :: l, i + 1, a, b, h => by
    simp only [List.getElem?_cons_succ] at h
    have ih := perm_set g l i a b h
    simp only [List.set_cons_succ, List.flatMap_cons]
    have h1 : (g b ++ (g x ++ l.flatMap g)).Perm (g x ++ (g b ++ l.flatMap g)) := by
      simp only [← List.append_assoc]
      exact List.Perm.append_right _ List.perm_append_comm
    have h2 : (g x ++ (g a ++ (l.set i b).flatMap g)).Perm (g a ++ (g x ++ (l.set i b).flatMap g)) := by
      simp only [← List.append_assoc]
      exact List.Perm.append_right _ List.perm_append_comm
    exact h1.trans ((ih.append_left (g x)).trans h2)

theorem step_law (hC : Lawful C) (p : C.St) (x : C.Op) :
    ((C.step p x).1.map Call.fn ++ (C.fn (C.step p x).2).toList) = (C.fn p).toList := by
  cases x with
  | push k ts => simp [step, hC.push]
  | pushNow k => simp [step, hC.pushNow]
  | upd u => simp [step, hC.upd]

/-- Calls made, measurements running and measurements overwritten are the measurements started. -/
def Law (o : C.Obs) : Prop := (o.calls.map Call.fn ++ C.pending o ++ o.overwritten).Perm o.started

theorem join_some {α : Type} {l : List (Option α)} {i : Nat} {p : α} (h : l[i]?.join = some p) : l[i]? = some (some p) := by
  cases hx : l[i]? with
  | none => rw [hx] at h; cases h
  | some y => rw [hx] at h; simp only [Option.join_some] at h; rw [h]

theorem law_exec (hC : Lawful C) {o o' : C.Obs} (h : Law o) {x : C.POp} (hx : C.exec o x = some o') : Law o' := by
  classical
  unfold Law pending at *
  rw [List.perm_iff_count] at h ⊢
  intro f
  have h := h f
  simp only [List.count_append] at h ⊢
  cases x with
  | create k g a =>
    simp only [exec, Option.some.injEq] at hx
    subst hx
    simp only [List.flatMap_append, List.flatMap_cons, List.flatMap_nil, Option.bind_some, hC.new, List.count_append, List.append_nil]
    omega
  | op i x =>
    simp only [exec, bind, Option.bind_eq_some_iff, Option.some.injEq] at hx
    obtain ⟨p, hp, rfl⟩ := hx
    have h1 := (perm_set (fun p => (p.bind C.fn).toList) _ i (some p) (some (C.step p x).2) (join_some hp)).count_eq f
    have h2 := congrArg (List.count f) (step_law hC p x)
    simp only [List.count_append, Option.bind_some, List.map_append] at h1 h2 ⊢
    omega
  | resetWith i k k' g a =>
    simp only [exec, bind, Option.bind_eq_some_iff, Option.some.injEq] at hx
    obtain ⟨p, hp, rfl⟩ := hx
    have h1 := (perm_set (fun p => (p.bind C.fn).toList) _ i (some p) (some (C.resetWith p k k' g a).2) (join_some hp)).count_eq f
    obtain ⟨h2, h3⟩ := hC.resetWith p k k' g a
    simp only [List.count_append, Option.bind_some, List.map_append, h2, h3] at h1 ⊢
    omega
  | clone i k a =>
    simp only [exec, bind, Option.bind_eq_some_iff, Option.some.injEq] at hx
    obtain ⟨p, hp, rfl⟩ := hx
    simp only [List.flatMap_append, List.flatMap_cons, List.flatMap_nil, Option.bind_some, hC.clone, List.count_append, List.append_nil]
    omega
  | move i =>
    simp only [exec, bind, Option.bind_eq_some_iff, Option.some.injEq] at hx
    obtain ⟨p, hp, rfl⟩ := hx
    have h1 := (perm_set (fun p => (p.bind C.fn).toList) _ i (some p) (some (C.moved p)) (join_some hp)).count_eq f
    simp only [List.flatMap_append, List.flatMap_cons, List.flatMap_nil, Option.bind_some, hC.moved, List.count_append, List.append_nil,
      Option.toList_none, List.count_nil] at h1 ⊢
    omega
  | assign i j =>
    simp only [exec, bind, Option.bind_eq_some_iff] at hx
    obtain ⟨p, hp, q, hq, hx⟩ := hx
    by_cases hij : i = j
    · rw [if_pos hij] at hx; cases hx
    rw [if_neg hij] at hx
    simp only [Option.some.injEq] at hx
    subst hx
    have h1 := (perm_set (fun p => (p.bind C.fn).toList) _ j (some q) (some (C.moved q)) (join_some hq)).count_eq f
    have hp' : (o.pts.set j (some (C.moved q)))[i]? = some (some p) := by
      rw [List.getElem?_set_ne (Ne.symm hij)]
      exact join_some hp
    have h2 := (perm_set (fun p => (p.bind C.fn).toList) _ i (some p) (some q) hp').count_eq f
    simp only [List.count_append, Option.bind_some, hC.moved, Option.toList_none, List.count_nil] at h1 h2 ⊢
    omega
  | destroy i k =>
    simp only [exec, bind, Option.bind_eq_some_iff, Option.some.injEq] at hx
    obtain ⟨p, hp, rfl⟩ := hx
    have h1 := (perm_set (fun p => (p.bind C.fn).toList) _ i (some p) none (join_some hp)).count_eq f
    obtain ⟨h2, _⟩ := hC.pushNow p k
    simp only [List.count_append, Option.bind_some, List.map_append, h2, Option.bind_none, Option.toList_none, List.count_nil] at h1 ⊢
    omega

theorem law_execAll (hC : Lawful C) (ops : List C.POp) : ∀ {o o' : C.Obs}, Law o → C.execAll o ops = some o' → Law o' := by
  induction ops with
  | nil => intro o o' h hx; cases hx; exact h
  | cons x ops ih =>
    intro o o' h hx
    simp only [execAll, List.foldlM_cons, bind, Option.bind_eq_some_iff] at hx
    obtain ⟨o1, h1, h2⟩ := hx
    exact ih (law_exec hC h h1) h2

theorem life_none (hC : Lawful C) (kd : Clock) (ops : List C.Op) : ∀ {p : C.St}, C.fn p = none → C.life p kd ops = [] := by
  induction ops with
  | nil =>
    intro p h
    have := (hC.pushNow p kd).1
    rw [h] at this
    simpa [life] using this
  | cons x ops ih =>
    intro p h
    have := step_law hC p x
    rw [h] at this
    simp only [Option.toList_none, List.append_eq_nil_iff, List.map_eq_nil_iff, Option.toList_eq_nil_iff] at this
    simp [life, this.1, ih this.2]

theorem life_once (hC : Lawful C) (kd : Clock) (ops : List C.Op) : ∀ {p : C.St},
    (C.life p kd ops).map Call.fn = (C.fn p).toList := by
  induction ops with
  | nil => intro p; exact (hC.pushNow p kd).1
  | cons x ops ih =>
    intro p
    simp only [life, List.map_append, ih]
    exact step_law hC p x

theorem lawful_time (unit : Int) : Lawful (timeClass F unit) where
  new _ _ _ := rfl
  upd _ _ := rfl
  push p k ts := by simp only [timeClass, TimePoint.push]; cases h : p.fn <;> simp [h]
  pushNow p k := by simp only [timeClass, TimePoint.pushNow, TimePoint.push]; cases h : p.fn <;> simp [h]
  resetWith p k k' f a := by
    simp only [timeClass, TimePoint.resetWith, TimePoint.pushNow, TimePoint.push]; cases h : p.fn <;> simp
  clone _ _ _ := rfl
  moved _ := rfl

theorem lawful_size : Lawful (sizeClass F) where
  new _ _ _ := rfl
  upd p u := by cases u <;> rfl
  push p k ts := by simp only [sizeClass, SizePoint.push]; cases h : p.fn <;> simp [h]
  pushNow p k := by simp only [sizeClass, SizePoint.pushNow, SizePoint.push]; cases h : p.fn <;> simp [h]
  resetWith p k k' f a := by
    simp only [sizeClass, SizePoint.resetWith, SizePoint.pushNow, SizePoint.push]; cases h : p.fn <;> simp
  clone _ _ _ := rfl
  moved _ := rfl

theorem lawful_composite (unit : Int) : Lawful (compositeClass F unit) where
  new _ _ _ := rfl
  upd p u := by cases u <;> rfl
  push p k ts := by simp only [compositeClass, CompositePoint.push]; cases h : p.fn <;> simp [h]
  pushNow p k := by simp only [compositeClass, CompositePoint.pushNow, CompositePoint.push]; cases h : p.fn <;> simp [h]
  resetWith p k k' f a := by
    simp only [compositeClass, CompositePoint.resetWith, CompositePoint.pushNow, CompositePoint.push]; cases h : p.fn <;> simp
  clone _ _ _ := rfl
  moved _ := rfl

end PClass
end Wrtstat
