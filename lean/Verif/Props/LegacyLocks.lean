/-
C183: which calls of the older registry can deadlock.
-/
import Verif.Model.LegacyLocks
import Verif.Props.LocksExact

namespace Wrtstat

set_option autoImplicit false

open Relation

namespace OldCall

variable {A : Type}

/-- Calls of the current registry that take the same locks. -/
def now : OldCall A → List (RegCall A)
  | count => [.look]
  | del => [.change]
  | create named => if named then [.change] else []
  | byIds l => l.flatMap nowId
  | byNames l => l.flatMap nowCreate ++ l.flatMap nowId
  | enable l => [.enable l]
  | push a n => [.push a n]
where
  nowCreate : OldFound A → List (RegCall A)
    | .bad => []
    | _ => [.change]
  nowId : OldFound A → List (RegCall A)
    | .bad => []
    | .unknown => [.look]
    | .found a => [.use a]

theorem acts_now (c : OldCall A) : (now c).flatMap RegCall.acts = c.acts := by
  have hc : ∀ o : OldFound A, (now.nowCreate o).flatMap RegCall.acts = createActs o := fun o => by cases o <;> rfl
  have hi : ∀ o : OldFound A, (now.nowId o).flatMap RegCall.acts = idActs o := fun o => by cases o <;> rfl
  cases c with
  | count => rfl
  | del => rfl
  | create b => cases b <;> rfl
  | byIds l => simp [now, acts, List.flatMap_assoc, hi]
  | byNames l => simp [now, acts, List.flatMap_assoc, List.flatMap_append, hi, hc]
  | enable l => simp [now, acts, RegCall.acts]
  | push a n => simp [now, acts, RegCall.acts]

theorem push_now (cs : List (OldCall A)) (a : A) (n : Nat) : RegCall.push a n ∈ cs.flatMap now ↔ OldCall.push a n ∈ cs := by
  have hc : ∀ o : OldFound A, RegCall.push a n ∉ now.nowCreate o := fun o => by cases o <;> simp [now.nowCreate]
  have hi : ∀ o : OldFound A, RegCall.push a n ∉ now.nowId o := fun o => by cases o <;> simp [now.nowId]
  rw [List.mem_flatMap]
  constructor
  · rintro ⟨c, h, h'⟩
    cases c with
    | create b => cases b <;> simp [now] at h'
    | byIds l => simp [now, hi] at h'
    | byNames l => simp [now, hi, hc] at h'
    | push b m => simp only [now, List.mem_singleton, RegCall.push.injEq] at h'; rw [h'.1, h'.2]; exact h
    | _ => simp [now] at h'
  · exact fun h => ⟨_, h, by simp [now]⟩

theorem enable_now (cs : List (OldCall A)) (l : List A) : RegCall.enable l ∈ cs.flatMap now ↔ OldCall.enable l ∈ cs := by
  have hc : ∀ o : OldFound A, RegCall.enable l ∉ now.nowCreate o := fun o => by cases o <;> simp [now.nowCreate]
  have hi : ∀ o : OldFound A, RegCall.enable l ∉ now.nowId o := fun o => by cases o <;> simp [now.nowId]
  rw [List.mem_flatMap]
  constructor
  · rintro ⟨c, h, h'⟩
    cases c with
    | create b => cases b <;> simp [now] at h'
    | byIds l => simp [now, hi] at h'
    | byNames l => simp [now, hi, hc] at h'
    | enable k => simp only [now, List.mem_singleton, RegCall.enable.injEq] at h'; rw [h']; exact h
    | _ => simp [now] at h'
  · exact fun h => ⟨_, h, by simp [now]⟩

end OldCall

namespace LockState

variable {T A : Type} [DecidableEq T] [DecidableEq A]

omit [DecidableEq T] [DecidableEq A] in
theorem initOld_eq (calls : T → List (OldCall A)) : initOld calls = init (fun t => (calls t).flatMap OldCall.now) := by
  simp only [initOld, init, List.flatMap_assoc, OldCall.acts_now]

/-- Threads that use the older registry can deadlock exactly if one of them pushes to an aggregator with a handler that asks for the name
while another one calls `enable` when that aggregator is in the registry. -/
theorem C183_exact_partial [Fintype T] (calls : T → List (OldCall A)) :
    (∃ s, ReflTransGen Step (initOld calls) s ∧ Deadlock s) ↔
      ∃ t u, t ≠ u ∧ ∃ a n l, OldCall.push a (n + 1) ∈ calls t ∧ OldCall.enable l ∈ calls u ∧ a ∈ l := by
  rw [initOld_eq]
  refine (C182_exact _).trans ?_
  simp only [OldCall.push_now, OldCall.enable_now]

/-- Every step brings the threads nearer to their ends. -/
theorem C183_ends_partial [Fintype T] {s s' : LockState T A} (h : Step s s') :
    ∑ t, (s'.prog t).length < ∑ t, (s.prog t).length := C54_ends_partial h

/-- So the older registry deadlocks too. -/
theorem C183_refuted : ∃ (calls : Bool → List (OldCall Nat)) (s : LockState Bool Nat), ReflTransGen Step (initOld calls) s ∧ Deadlock s := by
  obtain ⟨s, h⟩ := (C183_exact_partial (fun b : Bool => if b then [OldCall.byNames [.found 7], .push 7 1] else [.create true, .enable [3, 7]])).2
    ⟨true, false, by decide, 7, 0, [3, 7], by simp, by simp, by simp⟩
  exact ⟨_, s, h⟩

/-- Three pushers by name, one name empty: two aggregators are made, then both are asked for a pusher. -/
example : (OldCall.byNames [.found 1, .bad, .found 2] : OldCall Nat).acts =
    [.wr, .uwr, .wr, .uwr, .rd, .urd, .lk 1, .ul 1, .rd, .urd, .lk 2, .ul 2] := rfl

example : ¬ ∃ s, ReflTransGen Step (initOld (fun b : Bool => if b then [OldCall.push (7 : Nat) 1, .enable [3, 7]] else [.del, .enable [3], .push 7 0])) s ∧
    Deadlock s := by
  rw [C183_exact_partial]
  rintro ⟨t, u, htu, a, n, l, h1, h2, h3⟩
  cases t <;> cases u <;> simp_all

end LockState
end Wrtstat
