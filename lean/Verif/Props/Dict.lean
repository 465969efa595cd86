/-
C98: the dictionary of ids.
-/
import Verif.Lemmas.Dict
import Verif.Props.Registry

namespace Wrtstat
namespace Dict

set_option autoImplicit false

/-- A dictionary and its trace agree: `get_id` tells the id a name holds, `get_name` the name that holds an id, and no two names
hold the same id. -/
structure Agrees (t : List (Op × Ans)) (d : Dict) : Prop where
  getId : ∀ n, d.getId n = (held t n).getD badId
  getName : ∀ n i, held t n = some i → d.getName i = n
  nobody : ∀ i, (∀ n, held t n ≠ some i) → d.getName i = []
  inj : ∀ n m i, held t n = some i → held t m = some i → n = m
  bad : ∀ n, held t n ≠ some badId

/-- The claims: after every history dictionary and trace agree; ... -/
def C98_FullClaim : Prop := ∀ (initial step : Nat) (ops : List Op), initial < idMod → step < idMod → 0 < step →
  Agrees ((new initial step).run ops).1 ((new initial step).run ops).2

/-- ... `free` tells whether the id was held; ... -/
def C98_FreeClaim : Prop := ∀ (initial step : Nat) (ops : List Op) (i : Nat), initial < idMod → step < idMod → 0 < step →
  ((((new initial step).run ops).2.freeId i).1 = true ↔ ∃ n, held ((new initial step).run ops).1 n = some i)

/-- ... and after `clear` the dictionary is as new. -/
def C98_ClearClaim : Prop := ∀ (initial step : Nat) (ops ops' : List Op), initial < idMod → step < idMod → 0 < step →
  (((new initial step).run ops).2.clear.run ops').1 = ((new initial step).run ops').1

/-- With the step 2^63 there are two ids: the third name gets the id of the first. -/
theorem C98_refuted : ¬ C98_FullClaim := by
  intro h
  have := (h 0 (2 ^ 63) [.create 0 ['a'], .create 0 ['b'], .create 0 ['c']] (by decide) (by decide) (by decide)).inj ['a'] ['c'] (2 ^ 63)
    (by decide) (by decide)
  exact absurd this (by decide)

/-- `free` returns false in every case. -/
theorem C98_free_refuted : ¬ C98_FreeClaim := by
  intro h
  have := (h 0 1 [.create 0 ['a']] 1 (by decide) (by decide) (by decide)).2 ⟨['a'], by decide⟩
  exact absurd this (by decide)

/-- The same for `free` by name. -/
theorem C98_free_name_refuted : ¬ ∀ (initial step : Nat) (ops : List Op) (n : Name), initial < idMod → step < idMod → 0 < step →
    ((((new initial step).run ops).2.freeName n).1 = true ↔ held ((new initial step).run ops).1 n ≠ none) := by
  intro h
  have := (h 0 1 [.create 0 ['a']] ['a'] (by decide) (by decide) (by decide)).2 (by decide)
  exact absurd this (by decide)

/-- `clear` sets the counter to 0, not to what it was at first. -/
theorem C98_clear_refuted : ¬ C98_ClearClaim := by
  intro h
  exact absurd (h 5 1 [] [.create 0 ['a']] (by decide) (by decide) (by decide)) (by decide)

theorem run_inv {init step : Nat} (h0 : 0 < step) (ops : List Op) : ∀ {n : Nat} {h : Name → Option Nat} {d : Dict}, Inv init step n h d →
    init + (n + creates ops) * step < badId →
    Inv init step (n + creates ops) ((d.run ops).1.foldl heldStep h) (d.run ops).2 := by
  induction ops with
  | nil => intro n h d hi _; exact hi
  | cons op ops ih =>
    intro n h d hi hr
    cases op with
    | create pick name =>
      have hc : creates (.create pick name :: ops) = creates ops + 1 := by simp [creates]
      rw [hc, show n + (creates ops + 1) = n + 1 + creates ops by omega] at hr ⊢
      have hle : init + (n + 1) * step ≤ init + (n + 1 + creates ops) * step := Nat.add_le_add_left (Nat.mul_le_mul_right _ (by omega)) _
      exact ih (hi.create h0 (by omega) pick name).1 hr
    | free i =>
      have hc : creates (.free i :: ops) = creates ops := by simp [creates]
      rw [hc] at hr ⊢
      exact ih (hi.freeId i) hr
    | freeName name =>
      have hc : creates (.freeName name :: ops) = creates ops := by simp [creates]
      rw [hc] at hr ⊢
      have hle : init + n * step ≤ init + (n + creates ops) * step := Nat.add_le_add_left (Nat.mul_le_mul_right _ (by omega)) _
      exact ih (hi.freeName (by omega) name) hr
    | clear =>
      have hc : creates (.clear :: ops) = creates ops := by simp [creates]
      rw [hc] at hr ⊢
      exact ih hi.clear hr

variable {initial step : Nat} {ops : List Op}

theorem run_inv' (h0 : 0 < step) (hr : initial + creates ops * step < badId) :
    Inv initial step (creates ops) (held ((new initial step).run ops).1) ((new initial step).run ops).2 := by
  have := run_inv h0 ops (inv_new initial step) (by rw [Nat.zero_add]; exact hr)
  rw [Nat.zero_add] at this
  exact this

/-- As long as no more ids are created than there are, dictionary and trace agree. -/
theorem C98_agrees_partial (h0 : 0 < step) (hr : initial + creates ops * step < badId) :
    Agrees ((new initial step).run ops).1 ((new initial step).run ops).2 := by
  have hi := run_inv' h0 hr
  refine ⟨hi.getId, fun n i h => ?_, fun i h => ?_, fun n m i h1 h2 => hi.inj h1 h2, fun n h => ?_⟩
  · rw [Dict.getName, hi.index.2 h]
    rfl
  · rw [Dict.getName]
    cases hx : ((new initial step).run ops).2.index.lookup i with
    | none => rfl
    | some m => exact absurd (hi.index.1 hx) (h m)
  · have := hi.le h
    omega

/-- A name that holds an id is given it again, a new one an id that nobody holds. -/
theorem C98_create (h0 : 0 < step) (hr : initial + (creates ops + 1) * step < badId) (pick : Nat) (name : Name) :
    (∀ i, held ((new initial step).run ops).1 name = some i → (((new initial step).run ops).2.createId pick name).1 = i) ∧
    (held ((new initial step).run ops).1 name = none →
      ∀ m, held ((new initial step).run ops).1 m ≠ some (((new initial step).run ops).2.createId pick name).1) := by
  have hle : initial + creates ops * step ≤ initial + (creates ops + 1) * step := Nat.add_le_add_left (Nat.mul_le_mul_right _ (by omega)) _
  have hi := run_inv' h0 (ops := ops) (show initial + creates ops * step < badId by omega)
  have := hi.create h0 hr pick name
  exact ⟨this.2.1, this.2.2.1⟩

/-- `free` of what nobody holds returns false and changes nothing. -/
theorem C98_free_partial (h0 : 0 < step) (hr : initial + creates ops * step < badId) :
    (∀ i, (∀ n, held ((new initial step).run ops).1 n ≠ some i) →
      ((new initial step).run ops).2.freeId i = (false, ((new initial step).run ops).2)) ∧
    ∀ n, held ((new initial step).run ops).1 n = none →
      ((new initial step).run ops).2.freeName n = (false, ((new initial step).run ops).2) := by
  have hi := run_inv' h0 hr
  refine ⟨fun i h => ?_, fun n h => ?_⟩
  · rw [freeId]
    cases hx : ((new initial step).run ops).2.index.lookup i with
    | none => rfl
    | some m => exact absurd (hi.index.1 hx) (h m)
  · simp only [freeName, hi.getId, h, Option.getD_none, if_true]

/-- When ids run out, `get_name` tells the name that got the id first. -/
theorem C98_collision : ((new 0 (2 ^ 63)).run [.create 0 ['a'], .create 0 ['b'], .create 0 ['c']]).2.getName (2 ^ 63) = ['a'] ∧
    ((new 0 (2 ^ 63)).run [.create 0 ['a'], .create 0 ['b'], .create 0 ['c']]).2.getId ['c'] = 2 ^ 63 := by
  decide +kernel

theorem run_step_eq (ops : List Op) : ∀ (d : Dict), (d.run ops).2.step = d.step := by
  induction ops with
  | nil => intro d; rfl
  | cons op ops ih =>
    intro d
    show (((d.exec op).2).run ops).2.step = d.step
    rw [ih]
    cases op with
    | create pick name =>
      show (d.createId pick name).2.step = d.step
      unfold createId
      split
      · rfl
      · split <;> rfl
    | free i =>
      show (d.freeId i).2.step = d.step
      unfold freeId
      split <;> rfl
    | freeName name =>
      show (d.freeName name).2.step = d.step
      unfold freeName
      simp only
      split_ifs
      · rfl
      · unfold freeId
        split <;> rfl
    | clear => rfl

/-- With the initial id 0 the dictionary is as new after `clear`. -/
theorem C98_clear_partial (h : initial = 0) (ops' : List Op) :
    (((new initial step).run ops).2.clear.run ops').1 = ((new initial step).run ops').1 := by
  have e : ((new initial step).run ops).2.clear = new initial step := by
    subst h
    rw [clear, run_step_eq]
    rfl
  rw [e]

/-- ... and only then. -/
theorem C98_clear_exact_partial (hi : initial < idMod) :
    (∀ ops', (((new initial step).run ops).2.clear.run ops').1 = ((new initial step).run ops').1) ↔ initial = 0 := by
  constructor
  · intro h
    have h1 := h [.create 0 ['a']]
    have hs : ((new initial step).run ops).2.clear = new 0 step := by
      rw [clear, run_step_eq]
      rfl
    rw [hs] at h1
    have h2 : (0 + step) % idMod = (initial + step) % idMod := by
      simpa [run, exec, createId, new, getId] using h1
    unfold idMod at *
    omega
  · intro h ops'
    exact C98_clear_partial h ops'

/-- Two names, one of them freed: its id goes to the third name. -/
def exDictOps : List Op := [.create 0 ['a'], .create 0 ['b'], .freeName ['a'], .create 0 ['c'], .free 99]

example : ((new 2 5).run exDictOps).1.map Prod.snd = [.id 7, .id 12, .ok false, .id 7, .ok false] ∧
    held ((new 2 5).run exDictOps).1 ['a'] = none ∧ held ((new 2 5).run exDictOps).1 ['c'] = some 7 := by decide +kernel

example : ((new 2 5).run exDictOps).2.getName 7 = ['c'] :=
  (C98_agrees_partial (initial := 2) (step := 5) (ops := exDictOps) (by decide) (by decide)).getName ['c'] 7 (by decide +kernel)

end Dict

open Registry in
/-- In a registry whose step is 2^63 the third name shares the aggregator of the first: what is recorded for one is recorded for
the other. -/
theorem C98_shared : ∃ o, rexecAll exactEnv { r := Registry.new { exROpt with idInit := 0, idStep := 2 ^ 63 } }
      [.create { clk := 1000 } ['a'] 0, .create { clk := 1000 } ['b'] 0, .addData {} ['c'] 0 0 { ts := 1003, count := 4, min := 1, max := 3, data := [1, 3] }] =
        .ok o ∧
    o.r.cellOf ['c'] = o.r.cellOf ['a'] ∧ ((o.r.cellOf ['a']).map fun c => c.agg.sep.reducer.total) = some 4 := by
  refine ⟨_, rfl, ?_⟩
  decide +kernel

end Wrtstat
