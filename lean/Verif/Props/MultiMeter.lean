/-
Property C89: measuring points that report to several meters.
-/
import Verif.Model.MultiMeter
import Verif.Lemmas.Meters

set_option autoImplicit false

namespace Wrtstat
namespace PClass

variable {F : Type} {C : PClass F}

/-- What `multi_point` needs from its points. -/
structure MLawful (C : PClass F) : Prop where
  new : ∀ k f a, C.fn (C.new k f a) = f
  upd : ∀ p u, C.fn (C.upd p u) = C.fn p
  gone : ∀ p k, (C.pushNow p k).1.map Call.fn = (C.fn p).toList
  clone : ∀ p k a, C.fn (C.clone p k a) = C.fn p
  cloned : ∀ p k a, C.clone p k a = C.new k (C.fn p) a
  moved : ∀ p, C.fn (C.moved p) = none

/-- The four classes of points. -/
def Known (C : PClass F) (unit : Int) : Prop :=
  C = timeClass F unit ∨ C = sizeClass F ∨ C = valueClass F ∨ C = compositeClass F unit

theorem Known.lawful {unit : Int} (h : Known C unit) : MLawful C := by
  rcases h with rfl | rfl | rfl | rfl
  · exact ⟨(lawful_time unit).new, (lawful_time unit).upd, fun p k => ((lawful_time unit).pushNow p k).1,
      (lawful_time unit).clone, fun _ _ _ => rfl, (lawful_time unit).moved⟩
  · exact ⟨lawful_size.new, lawful_size.upd, fun p k => (lawful_size.pushNow p k).1,
      lawful_size.clone, fun _ _ _ => rfl, lawful_size.moved⟩
  · refine ⟨fun _ _ _ => rfl, fun p u => by cases u <;> rfl, fun p k => ?_, fun _ _ _ => rfl, fun _ _ _ => rfl, fun _ => rfl⟩
    simp only [valueClass, ValuePoint.pushNow, ValuePoint.push]; cases h : p.fn <;> simp
  · exact ⟨(lawful_composite unit).new, (lawful_composite unit).upd, fun p k => ((lawful_composite unit).pushNow p k).1,
      (lawful_composite unit).clone, fun _ _ _ => rfl, (lawful_composite unit).moved⟩

theorem gone_moved (hC : MLawful C) (p : C.St) (k : Clock) : (C.pushNow (C.moved p) k).1 = [] := by
  have h := hC.gone (C.moved p) k
  rw [hC.moved] at h
  simpa using h

theorem destroyAll_moved (hC : MLawful C) (ps : List C.St) : ∀ kd, C.destroyAll kd (ps.map C.moved) = [] := by
  induction ps with
  | nil => intro kd; rfl
  | cons p ps ih => intro kd; simp only [List.map_cons, destroyAll, gone_moved hC, ih, List.nil_append]

theorem destroyAll_fn (hC : MLawful C) (ps : List C.St) : ∀ kd,
    (C.destroyAll kd ps).map Call.fn = ps.flatMap fun p => (C.fn p).toList := by
  induction ps with
  | nil => intro kd; rfl
  | cons p ps ih => intro kd; simp only [destroyAll, List.map_append, hC.gone, ih, List.flatMap_cons]

theorem mpPush_eq (hC : MLawful C) (ps : List C.St) (p : C.St) (grow : Bool) (ka : Clock) (kd : Nat → Clock) :
    C.mpPush ps p grow ka kd = ([], ps ++ [p]) := by
  simp only [mpPush, vecPush, gone_moved hC, destroyAll_moved hC, List.append_nil, ite_self]

theorem mpLoop_eq (hC : MLawful C) {A : Type} (mk : Nat → A → C.St) (ka : Nat → Clock) (kd : Nat → Nat → Clock) (l : List A) :
    ∀ (n : Nat) (ps : List C.St), C.mpLoop mk ka kd n ps l = ([], ps ++ l.mapIdx fun i x => mk (n + i) x) := by
  induction l with
  | nil => intro n ps; simp [mpLoop]
  | cons x l ih =>
    intro n ps
    simp only [mpLoop, mpPush_eq hC, ih, List.nil_append, List.mapIdx_cons, Nat.add_zero, List.append_assoc,
      List.cons_append, Prod.mk.injEq, true_and]
    congr 3
    funext i x
    congr 1
    omega

/-! ### C89 -/

/-- `multi_meter::create` makes one point for each meter, in order, as the meter would, and reports nothing. -/
theorem C89_create (F : Type) (C : PClass F) (unit : Int) (hC : Known C unit) (meters : List (Option F))
    (k ka : Nat → Clock) (kd : Nat → Nat → Clock) (a : C.Arg) :
    C.mmCreate meters k ka kd a = ([], meters.mapIdx fun i f => C.new (k i) f a) := by
  simp only [mmCreate, mpLoop_eq hC.lawful, List.nil_append, Nat.zero_add]

/-- `multi_point::clone` makes one new point for each point, with its function, and reports nothing. -/
theorem C89_clone (F : Type) (C : PClass F) (unit : Int) (hC : Known C unit) (ps : List C.St)
    (k ka : Nat → Clock) (kd : Nat → Nat → Clock) (a : C.Arg) :
    C.mpClone ps k ka kd a = ([], ps.mapIdx fun i p => C.new (k i) (C.fn p) a) := by
  simp only [mpClone, mpLoop_eq hC.lawful, List.nil_append, Nat.zero_add, hC.lawful.cloned]

/-- From creation to destruction a `multi_point` reports what separate points would have reported, one for
each meter, given the same arguments and the same setters. -/
theorem C89_as_single (F : Type) (C : PClass F) (unit : Int) (hC : Known C unit) (meters : List (Option F))
    (k ka : Nat → Clock) (kc : Nat → Nat → Clock) (a : C.Arg) (us : List C.Upd) (kd : Nat → Clock) :
    C.mpDestroy (us.foldl C.mpUpd (C.mmCreate meters k ka kc a).2) kd =
      (meters.mapIdx fun i f => C.life (C.new (k i) f a) (kd i) (us.map Op.upd)).flatten := by
  rw [C89_create F C unit hC]
  have hfold : ∀ (us : List C.Upd) (ps : List C.St), us.foldl C.mpUpd ps = ps.map fun p => us.foldl C.upd p := by
    intro us
    induction us with
    | nil => intro ps; simp
    | cons u us ih => intro ps; simp only [List.foldl_cons, ih, mpUpd, List.map_map]; rfl
  have hlife : ∀ (us : List C.Upd) (p : C.St) (kd : Clock), C.life p kd (us.map Op.upd) = (C.pushNow (us.foldl C.upd p) kd).1 := by
    intro us
    induction us with
    | nil => intro p kd; rfl
    | cons u us ih => intro p kd; simp only [List.map_cons, life, step, List.nil_append, ih, List.foldl_cons]
  have hdes : ∀ (ps : List C.St) (kd : Nat → Clock), C.destroyAll kd ps = (ps.mapIdx fun i p => (C.pushNow p (kd i)).1).flatten := by
    intro ps
    induction ps with
    | nil => intro kd; rfl
    | cons p ps ih => intro kd; simp only [destroyAll, ih, List.mapIdx_cons, List.flatten_cons]
  simp only [mpDestroy, hfold, hdes, hlife]
  congr 1
  apply List.ext_getElem <;> simp

/-- Calls made and measurements running are the measurements started. -/
def MLaw (o : C.MObs) : Prop := (o.calls.map Call.fn ++ C.mpending o).Perm o.started

theorem mlaw_exec (hC : MLawful C) {o o' : C.MObs} (h : MLaw o) {x : C.MOp} (hx : C.mexec o x = some o') : MLaw o' := by
  classical
  unfold MLaw mpending at *
  rw [List.perm_iff_count] at h ⊢
  intro f
  have h := h f
  simp only [List.count_append] at h ⊢
  have hfn : ∀ (l : List (Option F)) (k : Nat → Clock) (a : C.Arg),
      (l.mapIdx fun i f => C.new (k i) f a).flatMap (fun p => (C.fn p).toList) = l.flatMap Option.toList := by
    intro l
    induction l with
    | nil => intro k a; rfl
    | cons y l ih => intro k a; simp only [List.mapIdx_cons, List.flatMap_cons, hC.new, ih (fun i => k (i + 1)) a]
  have hcl : ∀ (l : List C.St) (k : Nat → Clock) (a : C.Arg),
      (l.mapIdx fun i p => C.clone p (k i) a).flatMap (fun p => (C.fn p).toList) = l.flatMap (fun p => (C.fn p).toList) := by
    intro l
    induction l with
    | nil => intro k a; rfl
    | cons y l ih => intro k a; simp only [List.mapIdx_cons, List.flatMap_cons, hC.clone, ih (fun i => k (i + 1)) a]
  let g : Option (List C.St) → List F := fun ps => (ps.getD []).flatMap fun p => (C.fn p).toList
  cases x with
  | create meters k ka kd a =>
    simp only [mexec, mmCreate, mpLoop_eq hC, List.nil_append, Option.some.injEq, Nat.zero_add] at hx
    subst hx
    simp only [List.flatMap_append, List.flatMap_cons, List.flatMap_nil, List.append_nil, Option.getD_some, hfn,
      List.count_append]
    omega
  | empty =>
    simp only [mexec, Option.some.injEq] at hx
    subst hx
    simp only [List.flatMap_append, List.flatMap_cons, List.flatMap_nil, List.append_nil, Option.getD_some]
    omega
  | push i k fn a grow ka kd =>
    simp only [mexec, mpPush_eq hC, bind, Option.bind_eq_some_iff, Option.some.injEq] at hx
    obtain ⟨ps, hp, rfl⟩ := hx
    have h1 := (perm_set g _ i (some ps) (some (ps ++ [C.new k fn a])) (join_some hp)).count_eq f
    simp only [g, List.count_append, Option.getD_some, List.flatMap_append, List.flatMap_cons, List.flatMap_nil,
      List.append_nil, hC.new] at h1 ⊢
    omega
  | upd i u =>
    simp only [mexec, bind, Option.bind_eq_some_iff, Option.some.injEq] at hx
    obtain ⟨ps, hp, rfl⟩ := hx
    have h1 := (perm_set g _ i (some ps) (some (C.mpUpd ps u)) (join_some hp)).count_eq f
    have h2 : (C.mpUpd ps u).flatMap (fun p => (C.fn p).toList) = ps.flatMap (fun p => (C.fn p).toList) := by
      simp only [mpUpd, List.flatMap_map, hC.upd]
    simp only [g, List.count_append, Option.getD_some, h2] at h1 ⊢
    omega
  | clone i k ka kd a =>
    simp only [mexec, mpClone, mpLoop_eq hC, bind, Option.bind_eq_some_iff, Option.some.injEq, List.nil_append,
      Nat.zero_add] at hx
    obtain ⟨ps, hp, rfl⟩ := hx
    simp only [List.flatMap_append, List.flatMap_cons, List.flatMap_nil, List.append_nil, Option.getD_some, hcl,
      List.count_append]
    omega
  | move i =>
    simp only [mexec, bind, Option.bind_eq_some_iff, Option.some.injEq] at hx
    obtain ⟨ps, hp, rfl⟩ := hx
    have h1 := (perm_set g _ i (some ps) (some []) (join_some hp)).count_eq f
    simp only [g, List.count_append, Option.getD_some, List.flatMap_append, List.flatMap_cons, List.flatMap_nil,
      List.append_nil, List.count_nil] at h1 ⊢
    omega
  | assign i j kd =>
    simp only [mexec, bind, Option.bind_eq_some_iff] at hx
    obtain ⟨ps, hp, qs, hq, hx⟩ := hx
    by_cases hij : i = j
    · rw [if_pos hij] at hx; cases hx
    rw [if_neg hij] at hx
    simp only [mpAssign, Option.some.injEq] at hx
    subst hx
    have h1 := (perm_set g _ j (some qs) (some []) (join_some hq)).count_eq f
    have hp' : (o.vars.set j (some []))[i]? = some (some ps) := by
      rw [List.getElem?_set_ne (Ne.symm hij)]
      exact join_some hp
    have h2 := (perm_set g _ i (some ps) (some qs) hp').count_eq f
    simp only [g, List.count_append, Option.getD_some, List.map_append, destroyAll_fn hC, List.flatMap_nil,
      List.count_nil] at h1 h2 ⊢
    omega
  | destroy i kd =>
    simp only [mexec, bind, Option.bind_eq_some_iff, Option.some.injEq] at hx
    obtain ⟨ps, hp, rfl⟩ := hx
    have h1 := (perm_set g _ i (some ps) none (join_some hp)).count_eq f
    simp only [g, List.count_append, Option.getD_some, Option.getD_none, List.map_append, mpDestroy, destroyAll_fn hC,
      List.flatMap_nil, List.count_nil] at h1 ⊢
    omega

theorem mlaw_execAll (hC : MLawful C) (ops : List C.MOp) : ∀ {o o' : C.MObs}, MLaw o → C.mexecAll o ops = some o' → MLaw o' := by
  induction ops with
  | nil => intro o o' h hx; cases hx; exact h
  | cons x ops ih =>
    intro o o' h hx
    simp only [mexecAll, List.foldlM_cons, bind, Option.bind_eq_some_iff] at hx
    obtain ⟨o1, h1, h2⟩ := hx
    exact ih (mlaw_exec hC h h1) h2

/-- In every program over `multi_point`s of any of the four kinds, move assignments included, the calls made
and the measurements running are, together, the measurements started. -/
theorem C89_program (F : Type) (C : PClass F) (unit : Int) (hC : Known C unit) (ops : List C.MOp) (o : C.MObs)
    (h : C.mexecAll {} ops = some o) : (o.calls.map Call.fn ++ C.mpending o).Perm o.started :=
  mlaw_execAll hC.lawful ops (o := {}) (List.Perm.refl _) h

/-- So once all are destroyed every measurement started was reported exactly once. -/
theorem C89_each_once (F : Type) (C : PClass F) (unit : Int) (hC : Known C unit) (ops : List C.MOp) (o : C.MObs)
    (h : C.mexecAll {} ops = some o) (hd : ∀ v ∈ o.vars, v = none) : (o.calls.map Call.fn).Perm o.started := by
  have hl := C89_program F C unit hC ops o h
  have hp : C.mpending o = [] := by
    unfold mpending
    rw [List.flatMap_eq_nil_iff]
    intro v hv
    rw [hd v hv]
    rfl
  rwa [hp, List.append_nil] at hl

def exClk (n : Nat) : Clock := ⟨n, 100 + n⟩

/-- Two meters, a clone, an assignment over the clone: the functions of all four points are called, in the
assignment those of the clone. -/
example : (((compositeClass Nat 1).mexecAll {}
      [.create [some 1, none, some 2] exClk exClk (fun _ => exClk) { count := 3 },
       .upd 0 (.setRead 5), .clone 0 (fun _ => ⟨4, 0⟩) exClk (fun _ => exClk) { count := 7 },
       .assign 1 0 (fun _ => ⟨10, 50⟩), .destroy 0 (fun _ => ⟨11, 60⟩), .destroy 1 (fun _ => ⟨20, 70⟩)]).map
    fun o => o.calls) = some
    [{ fn := 1, now := 50, value := 6, count := 7 }, { fn := 2, now := 50, value := 6, count := 7 },
     { fn := 1, now := 70, value := 20, count := 3, readed := 5 }, { fn := 2, now := 70, value := 18, count := 3, readed := 5 }] := by
  decide

/-- The vector grows in `push_back`: no reports. -/
example : (((valueClass Nat).mexecAll {}
      [.empty, .push 0 ⟨0, 0⟩ (some 1) (5, 2) false ⟨0, 0⟩ exClk, .push 0 ⟨0, 0⟩ (some 2) (6, 2) true ⟨0, 0⟩ exClk,
       .move 0, .destroy 0 exClk]).map
    fun o => (o.calls.length, (o.vars.map fun v => v.map List.length))) = some (0, [none, some 2]) := by
  decide

end PClass
end Wrtstat
