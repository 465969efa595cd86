/-
Properties C37 and C81: measuring points.
-/
import Verif.Lemmas.Meters

namespace Wrtstat
namespace PClass

/-- The claim for one point: whatever is pushed or set between creation and destruction, the meter
function is called exactly once. -/
def ExactlyOnce {F : Type} (C : PClass F) : Prop :=
  ∀ (k0 : Clock) (f : F) (a : C.Arg) (ops : List C.Op) (kd : Clock),
    (C.life (C.new k0 (some f) a) kd ops).map Call.fn = [f]

/-- It holds for time, size and composite points. -/
theorem C37_once_partial (F : Type) (unit : Int) : ExactlyOnce (timeClass F unit) ∧ ExactlyOnce (sizeClass F) ∧
    ExactlyOnce (compositeClass F unit) := by
  refine ⟨?_, ?_, ?_⟩ <;> intro k0 f a ops kd
  · rw [life_once (lawful_time unit)]; rfl
  · rw [life_once lawful_size]; rfl
  · rw [life_once (lawful_composite unit)]; rfl

/-- It fails for value points: a pushed point reports again when destroyed. -/
theorem C37_value_refuted : ¬ ExactlyOnce (valueClass Nat) := by
  intro h
  have := h ⟨0, 0⟩ 7 (5, 1) [.pushNow ⟨0, 100⟩] ⟨0, 101⟩
  exact absurd this (by decide)

/-- Pushes among the operations on a point. -/
def Op.isPush {F : Type} {C : PClass F} : C.Op → Bool
  | .push _ _ => true
  | .pushNow _ => true
  | .upd _ => false

/-- What value points do: one report for each push, and one at destruction. -/
theorem C37_value_partial (F : Type) (k0 : Clock) (f : F) (a : Int × Nat) (ops : List (valueClass F).Op) (kd : Clock) :
    ((valueClass F).life ((valueClass F).new k0 (some f) a) kd ops).map Call.fn =
      List.replicate (ops.countP Op.isPush + 1) f := by
  have key : ∀ (ops : List (valueClass F).Op) (p : ValuePoint F), p.fn = some f →
      ((valueClass F).life p kd ops).map Call.fn = List.replicate (ops.countP Op.isPush + 1) f := by
    intro ops
    induction ops with
    | nil =>
      intro p hp
      simp [life, valueClass, ValuePoint.pushNow, ValuePoint.push, hp]
    | cons x ops ih =>
      intro p hp
      cases x with
      | push k ts =>
        have h1 : (valueClass F).step p (.push k ts) = ([{ fn := f, now := ts, value := p.value, count := p.count }], p) := by
          simp [step, valueClass, ValuePoint.push, hp]
        simp only [life, h1, List.map_append, ih p hp, List.countP_cons, Op.isPush, if_true]
        rw [List.replicate_succ']
        simp [← List.replicate_succ', ← List.replicate_succ]
      | pushNow k =>
        have h1 : (valueClass F).step p (.pushNow k) = ([{ fn := f, now := k.now, value := p.value, count := p.count }], p) := by
          simp [step, valueClass, ValuePoint.pushNow, ValuePoint.push, hp]
        simp only [life, h1, List.map_append, ih p hp, List.countP_cons, Op.isPush, if_true]
        rw [List.replicate_succ']
        simp [← List.replicate_succ', ← List.replicate_succ]
      | upd u =>
        have h1 : ((valueClass F).upd p u).fn = some f := by cases u <;> exact hp
        simp only [life, step, List.nil_append, ih _ h1, List.countP_cons, Op.isPush]
        simp
  exact key ops _ rfl

/-- The report is that of the first push: later operations and destruction add nothing. -/
theorem C37_first_report (F : Type) (C : PClass F) (unit : Int)
    (hC : C = timeClass F unit ∨ C = sizeClass F ∨ C = compositeClass F unit)
    (p : C.St) (us : List C.Upd) (k : Clock) (ts : Int) (rest : List C.Op) (kd : Clock) :
    C.life p kd (us.map .upd ++ .push k ts :: rest) = (C.push (us.foldl C.upd p) k ts).1 := by
  have hL : Lawful C := by
    rcases hC with rfl | rfl | rfl
    · exact lawful_time unit
    · exact lawful_size
    · exact lawful_composite unit
  induction us generalizing p with
  | nil =>
    simp only [List.map_nil, List.nil_append, life, step, List.foldl_nil]
    rw [life_none hL kd rest (hL.push p k ts).2, List.append_nil]
  | cons u us ih =>
    simp only [List.map_cons, List.cons_append, life, step, List.nil_append, List.foldl_cons]
    exact ih _

/-- A time point reports the time since its creation, in whole ticks, and its count. -/
theorem C37_time_report (F : Type) (unit : Int) (k0 : Clock) (f : F) (count : Nat) (k : Clock) (ts : Int)
    (rest : List (timeClass F unit).Op) (kd : Clock) :
    (timeClass F unit).life (.new k0 (some f) count) kd (.push k ts :: rest) =
      [{ fn := f, now := ts, value := (k.steady - k0.steady).tdiv unit, count := count }] :=
  C37_first_report F (timeClass F unit) unit (.inl rfl) (.new k0 (some f) count) [] k ts rest kd

/-- A size point that is not pushed reports at destruction the last size set, also as count. -/
theorem C37_size_report (F : Type) (f : F) (s s' : Int) (h0 : 0 ≤ s' ∧ s' < 2 ^ 63) (kd : Clock) :
    (sizeClass F).life (.new (some f) s) kd [.upd (.setSize s')] =
      [{ fn := f, now := kd.now, value := s', count := s'.toNat }] := by
  have : s' % 18446744073709551616 = s' := by omega
  simp [life, step, sizeClass, SizePoint.new, SizePoint.setSize, SizePoint.pushNow, SizePoint.push, this]

/-- A composite point reports the time since its creation (or since `shift` ticks before it), its count
and the last sizes set. -/
theorem C37_composite_report (F : Type) (unit : Int) (k0 : Clock) (f : F) (count : Nat)
    (r0 w0 shift r w : Int) (k : Clock) (ts : Int) (rest : List (compositeClass F unit).Op) (kd : Clock) :
    (compositeClass F unit).life (.new unit k0 (some f) count r0 w0 shift) kd
        (.upd (.setRead r) :: .upd (.setWrite w) :: .push k ts :: rest) =
      [{ fn := f, now := ts, value := (k.steady - k0.steady + shift * unit).tdiv unit, count := count,
         readed := r, writed := w }] := by
  have h := C37_first_report F (compositeClass F unit) unit (.inr (.inr rfl)) (.new unit k0 (some f) count r0 w0 shift)
    [.setRead r, .setWrite w] k ts rest kd
  refine h.trans ?_
  simp only [compositeClass, List.foldl_cons, List.foldl_nil, CompositePoint.push, CompositePoint.setRead,
    CompositePoint.setWrite, CompositePoint.new]
  have hs : k.steady - (if shift ≠ 0 then k0.steady - shift * unit else k0.steady) = k.steady - k0.steady + shift * unit := by
    by_cases h0 : shift = 0
    · subst h0; simp
    · rw [if_pos h0]; omega
  rw [hs]

/-- Two milliseconds and a half, in milliseconds; the second push and destruction add nothing. -/
example : (timeClass Nat 1000000).life (.new ⟨500, 0⟩ (some 7) 3) ⟨9000000, 12⟩
    [.push ⟨2500500, 0⟩ 10, .pushNow ⟨7000000, 11⟩] = [{ fn := 7, now := 10, value := 2, count := 3 }] := by decide

/-- The claim for programs with any number of points, in which points are created, pushed, reset,
cloned, moved, assigned and destroyed: once all points are destroyed, every measurement started was
reported exactly once. -/
def EachOnce {F : Type} (C : PClass F) (P : C.POp → Prop) : Prop :=
  ∀ (ops : List C.POp) (o : C.Obs), (∀ x ∈ ops, P x) → C.execAll {} ops = some o → (∀ p ∈ o.pts, p = none) →
    (o.calls.map Call.fn).Perm o.started

/-- Move assignment does not report what it overwrites. -/
theorem C37_assign_refuted : ¬ EachOnce (timeClass Nat 1) (fun _ => True) := by
  intro h
  have := h [.create ⟨0, 0⟩ (some 1) (1 : Nat), .create ⟨0, 0⟩ (some 2) (1 : Nat), .assign 0 1, .destroy 0 ⟨5, 5⟩, .destroy 1 ⟨5, 5⟩]
    _ (by simp) rfl (by decide)
  have h2 := this.length_eq
  exact absurd h2 (by decide)

/-- In every program the calls made, the measurements running and those overwritten by move assignment
are, together, exactly the measurements started. -/
theorem C37_program_partial (F : Type) (C : PClass F) (unit : Int)
    (hC : C = timeClass F unit ∨ C = sizeClass F ∨ C = compositeClass F unit) (ops : List C.POp) (o : C.Obs)
    (h : C.execAll {} ops = some o) : (o.calls.map Call.fn ++ C.pending o ++ o.overwritten).Perm o.started := by
  have hL : Lawful C := by
    rcases hC with rfl | rfl | rfl
    · exact lawful_time unit
    · exact lawful_size
    · exact lawful_composite unit
  exact law_execAll hL ops (o := {}) (List.Perm.refl _) h

/-- Operations other than move assignment. -/
def POp.notAssign {F : Type} {C : PClass F} : C.POp → Prop
  | .assign _ _ => False
  | _ => True

/-- So the claim holds for programs without move assignment. -/
theorem C37_each_once_partial (F : Type) (C : PClass F) (unit : Int)
    (hC : C = timeClass F unit ∨ C = sizeClass F ∨ C = compositeClass F unit) : EachOnce C POp.notAssign := by
  intro ops o hP h hd
  have hl := C37_program_partial F C unit hC ops o h
  have hp : C.pending o = [] := by
    unfold pending
    rw [List.flatMap_eq_nil_iff]
    intro p hp
    rw [hd p hp]
    rfl
  have ho : o.overwritten = [] := by
    have key : ∀ (ops : List C.POp) (o o' : C.Obs), (∀ x ∈ ops, POp.notAssign x) → C.execAll o ops = some o' →
        o'.overwritten = o.overwritten := by
      intro ops
      induction ops with
      | nil => intro o o' _ h; cases h; rfl
      | cons x ops ih =>
        intro o o' hP h
        simp only [execAll, List.foldlM_cons, bind, Option.bind_eq_some_iff] at h
        obtain ⟨o1, h1, h2⟩ := h
        rw [ih o1 o' (fun y hy => hP y (List.mem_cons_of_mem _ hy)) h2]
        cases x with
        | assign i j => exact absurd (hP _ List.mem_cons_self) (by simp [POp.notAssign])
        | create k f a => simp only [exec, Option.some.injEq] at h1; rw [← h1]
        | _ =>
          simp only [exec, bind, Option.bind_eq_some_iff, Option.some.injEq] at h1
          obtain ⟨p, _, h1⟩ := h1
          rw [← h1]
    exact key ops {} o hP h
  rw [hp, ho] at hl
  simpa using hl

/-- A point is created, cloned, moved and reset to another function: three measurements, three
reports. -/
example : (((timeClass Nat 1).execAll {} [.create ⟨0, 0⟩ (some 1) (1 : Nat), .clone 0 ⟨1, 1⟩ (1 : Nat), .move 0,
      .resetWith 2 ⟨3, 3⟩ ⟨4, 4⟩ (some 2) (1 : Nat), .destroy 0 ⟨5, 5⟩, .destroy 1 ⟨6, 6⟩, .destroy 2 ⟨7, 7⟩]).map
    fun o => o.calls.map fun c => (c.fn, c.value)) = some [(1, 3), (1, 5), (2, 3)] := by decide

/-! ### C81 -/

/-- The value given last, or the one at the beginning. -/
def lastOr {U A : Type} (pick : U → Option A) (a : A) (us : List U) : A := ((us.filterMap pick).getLast?).getD a

theorem lastOr_cons {U A : Type} (pick : U → Option A) (a : A) (u : U) (us : List U) :
    lastOr pick a (u :: us) = lastOr pick ((pick u).getD a) us := by
  unfold lastOr
  cases h : pick u with
  | none => simp [h]
  | some b => simp [h, List.getLast?_cons]

/-- What each setter of a composite point says about the read size, the written size, the count and the start. -/
def CompositeUpd.read? : CompositeUpd → Option Int
  | .setRead s => some s
  | .reset => some 0
  | _ => none

def CompositeUpd.write? : CompositeUpd → Option Int
  | .setWrite s => some s
  | .reset => some 0
  | _ => none

def CompositeUpd.count? : CompositeUpd → Option Nat
  | .reset => some 0
  | _ => none

def CompositeUpd.start? : CompositeUpd → Option Int
  | .setStart t => some t
  | _ => none

/-- A composite point reports, whatever was set before, the time since the start set last or since its creation, and the
sizes and the count set last; `reset()` sets these, but not the start, to 0. -/
theorem C81_composite (F : Type) (unit : Int) (k0 : Clock) (f : F) (a : CompositeArg) (us : List CompositeUpd) (k : Clock) (ts : Int)
    (rest : List (compositeClass F unit).Op) (kd : Clock) :
    (compositeClass F unit).life ((compositeClass F unit).new k0 (some f) a) kd (us.map (Op.upd (C := compositeClass F unit)) ++ .push k ts :: rest) =
      [{ fn := f, now := ts, value := (k.steady - lastOr CompositeUpd.start? (k0.steady - a.shift * unit) us).tdiv unit,
         count := lastOr CompositeUpd.count? a.count us, readed := lastOr CompositeUpd.read? a.readed us,
         writed := lastOr CompositeUpd.write? a.writed us }] := by
  refine (C37_first_report F (compositeClass F unit) unit (.inr (.inr rfl)) _ us k ts rest kd).trans ?_
  have key : ∀ (us : List CompositeUpd) (p : CompositePoint F), p.fn = some f →
      ((compositeClass F unit).push (us.foldl (compositeClass F unit).upd p) k ts).1 =
      [{ fn := f, now := ts, value := (k.steady - lastOr CompositeUpd.start? p.start us).tdiv unit,
         count := lastOr CompositeUpd.count? p.count us, readed := lastOr CompositeUpd.read? p.readed us,
         writed := lastOr CompositeUpd.write? p.writed us }] := by
    intro us
    induction us with
    | nil => intro p hp; simp [compositeClass, CompositePoint.push, hp, lastOr]
    | cons u us ih =>
      intro p hp
      rw [lastOr_cons, lastOr_cons, lastOr_cons, lastOr_cons]
      exact (ih _ (by cases u <;> exact hp)).trans (by cases u <;> rfl)
  refine (key us _ rfl).trans ?_
  have hs : ((compositeClass F unit).new k0 (some f) a).start = k0.steady - a.shift * unit := by
    show (if a.shift ≠ 0 then k0.steady - a.shift * unit else k0.steady) = _
    by_cases h0 : a.shift = 0
    · rw [if_neg (by simpa using h0), h0]; simp
    · rw [if_pos h0]
  let c (x : Int) : Call F :=
    { fn := f, now := ts, value := (k.steady - lastOr CompositeUpd.start? x us).tdiv unit,
      count := lastOr CompositeUpd.count? a.count us, readed := lastOr CompositeUpd.read? a.readed us,
      writed := lastOr CompositeUpd.write? a.writed us }
  exact congrArg (fun x => [c x]) hs

/-- What each setter of a size point says about the size. -/
def SizeUpd.size? : SizeUpd → Option Int
  | .setSize s => some s
  | .reset => some 0

/-- A size point reports the size set last, as value and, as a 64-bit number without sign, as count. -/
theorem C81_size (F : Type) (k0 : Clock) (f : F) (s : Int) (us : List SizeUpd) (k : Clock) (ts : Int)
    (rest : List (sizeClass F).Op) (kd : Clock) :
    (sizeClass F).life ((sizeClass F).new k0 (some f) s) kd (us.map (Op.upd (C := sizeClass F)) ++ .push k ts :: rest) =
      [{ fn := f, now := ts, value := lastOr SizeUpd.size? s us, count := (lastOr SizeUpd.size? s us % 2 ^ 64).toNat }] := by
  refine (C37_first_report F (sizeClass F) 1 (.inr (.inl rfl)) _ us k ts rest kd).trans ?_
  have key : ∀ (us : List SizeUpd) (p : SizePoint F), p.fn = some f →
      ((sizeClass F).push (us.foldl (sizeClass F).upd p) k ts).1 =
      [{ fn := f, now := ts, value := lastOr SizeUpd.size? p.size us, count := (lastOr SizeUpd.size? p.size us % 2 ^ 64).toNat }] := by
    intro us
    induction us with
    | nil => intro p hp; simp [sizeClass, SizePoint.push, hp, lastOr]
    | cons u us ih =>
      intro p hp
      rw [lastOr_cons]
      exact (ih _ (by cases u <;> exact hp)).trans (by cases u <;> rfl)
  exact key us _ rfl

/-- What each setter of a value point says about the value and the count. -/
def ValueUpd.value? : ValueUpd → Option Int
  | .setValue v => some v
  | .setCount _ => none
  | .reset => some 0

def ValueUpd.count? : ValueUpd → Option Nat
  | .setValue _ => none
  | .setCount c => some c
  | .reset => some 0

/-- A value point reports, at the first push, the value and the count set last. -/
theorem C81_value (F : Type) (k0 : Clock) (f : F) (a : Int × Nat) (us : List ValueUpd) (k : Clock) (ts : Int) :
    ((valueClass F).push (us.foldl (valueClass F).upd ((valueClass F).new k0 (some f) a)) k ts).1 =
      [{ fn := f, now := ts, value := lastOr ValueUpd.value? a.1 us, count := lastOr ValueUpd.count? a.2 us }] := by
  have key : ∀ (us : List ValueUpd) (p : ValuePoint F), p.fn = some f →
      ((valueClass F).push (us.foldl (valueClass F).upd p) k ts).1 =
      [{ fn := f, now := ts, value := lastOr ValueUpd.value? p.value us, count := lastOr ValueUpd.count? p.count us }] := by
    intro us
    induction us with
    | nil => intro p hp; simp [valueClass, ValuePoint.push, hp, lastOr]
    | cons u us ih =>
      intro p hp
      rw [lastOr_cons, lastOr_cons]
      exact (ih _ (by cases u <;> exact hp)).trans (by cases u <;> rfl)
  exact key us _ rfl

/-- A time point reports the time since its creation, `reset()` or not; after `reset()` its count is 0. -/
theorem C81_time (F : Type) (unit : Int) (k0 : Clock) (f : F) (count : Nat) (us : List Unit) (k : Clock) (ts : Int)
    (rest : List (timeClass F unit).Op) (kd : Clock) :
    (timeClass F unit).life ((timeClass F unit).new k0 (some f) count) kd (us.map (Op.upd (C := timeClass F unit)) ++ .push k ts :: rest) =
      [{ fn := f, now := ts, value := (k.steady - k0.steady).tdiv unit, count := if us = [] then count else 0 }] := by
  refine (C37_first_report F (timeClass F unit) unit (.inl rfl) _ us k ts rest kd).trans ?_
  have key : ∀ (us : List Unit) (p : TimePoint F), p.fn = some f →
      ((timeClass F unit).push (us.foldl (timeClass F unit).upd p) k ts).1 =
      [{ fn := f, now := ts, value := (k.steady - p.start).tdiv unit, count := if us = [] then p.count else 0 }] := by
    intro us
    induction us with
    | nil => intro p hp; simp [timeClass, TimePoint.push, hp]
    | cons u us ih =>
      intro p hp
      exact (ih p.reset hp).trans (by simp [TimePoint.reset])
  exact key us _ rfl

/-- `push()` and destruction report the same as `push(ts)` with the present time. -/
theorem C81_now (F : Type) (C : PClass F) (unit : Int)
    (hC : C = timeClass F unit ∨ C = sizeClass F ∨ C = valueClass F ∨ C = compositeClass F unit) (p : C.St) (k : Clock) :
    C.pushNow p k = C.push p k k.now ∧ C.life p k [] = (C.push p k k.now).1 := by
  rcases hC with rfl | rfl | rfl | rfl <;> exact ⟨rfl, rfl⟩

/-- A clone is a new point with the same function; a point reset with a function reports what it had and is then a new
point. -/
theorem C81_fresh (F : Type) (C : PClass F) (unit : Int)
    (hC : C = timeClass F unit ∨ C = sizeClass F ∨ C = valueClass F ∨ C = compositeClass F unit) (p : C.St) (k k' : Clock)
    (f : Option F) (a : C.Arg) :
    C.clone p k a = C.new k (C.fn p) a ∧ C.resetWith p k k' f a = ((C.push p k k.now).1, C.new k' f a) := by
  rcases hC with rfl | rfl | rfl | rfl <;> exact ⟨rfl, rfl⟩

/-- A size set twice and a start moved; reset before the written size. -/
example : (compositeClass Nat 10).life ((compositeClass Nat 10).new ⟨500, 0⟩ (some 7) { count := 3, readed := 1, shift := 2 }) ⟨0, 0⟩
    [.upd (.setRead 5), .upd .reset, .upd (.setWrite 8), .push ⟨600, 0⟩ 77] =
    [{ fn := 7, now := 77, value := 12, count := 0, readed := 0, writed := 8 }] := by decide

/-- The same with a start time set. -/
example : (compositeClass Nat 10).life ((compositeClass Nat 10).new ⟨500, 0⟩ (some 7) { count := 3 }) ⟨0, 0⟩
    [.upd (.setStart 300), .upd (.setRead 5), .push ⟨600, 0⟩ 77] =
    [{ fn := 7, now := 77, value := 30, count := 3, readed := 5, writed := 0 }] := by decide

end PClass
end Wrtstat
