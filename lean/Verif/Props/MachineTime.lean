/-
Property C107: the times an aggregator computes are representable.
-/
import Verif.Lemmas.MachineTime
import Verif.Model.Instances
import Mathlib.NumberTheory.Padics.PadicVal.Basic

namespace Wrtstat

set_option autoImplicit false

namespace Separator

theorem sepLoop_upper {env : Env} {step ts : Int} : ∀ (k : Nat) (next : Int) (r : Reducer), (ts - next + 1).toNat ≤ k →
    ∀ x, sepLoop env step ts next r = .ok x → x.2.1 ≤ max next (ts + step) := by
  intro k
  induction k with
  | zero =>
    intro next r hk x hx
    rw [sepLoop, dif_neg (by omega)] at hx
    cases hx; exact le_max_left _ _
  | succ k ih =>
    intro next r hk x hx
    rw [sepLoop] at hx
    split_ifs at hx with h1 h2
    · obtain ⟨⟨o, r1⟩, -, hx⟩ := bind_ok_iff.1 hx
      obtain ⟨⟨out, n, r2⟩, hy, hx⟩ := bind_ok_iff.1 hx
      have := ih (next + step) r1 (by omega) _ hy
      cases hx
      simp only at this ⊢
      omega
    · cases hx; exact le_max_left _ _

/-- A time that leaves room for a step. -/
def Room (step t : Int) : Prop := InI64 t ∧ t + step ≤ I64max

theorem getTsWith_room {step clk ts t : Int} {resolution : Resolution} (hs : 0 < step) (h0 : step ≤ I64max) (hc : Room step clk)
    (ht : Room step ts) (h : getTsWith step resolution clk ts = .ok t) : Room step t := by
  refine ⟨?_, ?_⟩
  · obtain ⟨-, t', e, hi⟩ := getTsWithT_eq (resolution := resolution) hs hc.1 ht.1
    rw [h] at e; cases e; exact hi
  · unfold getTsWith at h
    simp only at h
    rw [if_neg hs.ne'] at h
    cases h
    have hr : Room step (if ts ≠ 0 ∨ resolution = .none then ts else clk) := by split <;> assumption
    set n := if ts ≠ 0 ∨ resolution = .none then ts else clk
    obtain ⟨b1, b2⟩ := tdiv_toward_zero (n := n) hs
    have := hr.2
    rcases le_total 0 n with hn | hn
    · have := b1 hn; omega
    · have := b2 hn; omega

theorem separate_room {env : Env} {s : Separator} {clk ts : Int} {handler force : Bool} {x : Bool × List AggData × Separator}
    (hs : 0 < s.step) (h0 : s.step ≤ I64max) (hc : Room s.step clk) (ht : Room s.step ts) (hn : s.next ≤ I64max)
    (h : s.separate env clk ts handler force = .ok x) : x.2.2.next ≤ I64max := by
  unfold separate at h
  obtain ⟨t, e, h⟩ := bind_ok_iff.1 h
  have hr := getTsWith_room hs h0 hc ht e
  split_ifs at h
  · cases h; exact hn
  all_goals
    obtain ⟨y, hy, h⟩ := bind_ok_iff.1 h
    have := sepLoop_upper _ _ _ (Nat.le_refl _) _ hy
    cases h
    exact this.trans (max_le hn hr.2)

theorem push_room {env : Env} {s : Separator} {clk1 clk2 ts : Int} {a : AddArg} {handler : Bool}
    {x : Bool × List AggData × Separator} (hs : 0 < s.step) (h0 : s.step ≤ I64max) (hc1 : Room s.step clk1)
    (hc2 : Room s.step clk2) (ht : Room s.step ts) (hn : s.next ≤ I64max)
    (h : s.push env clk1 clk2 ts a handler = .ok x) : x.2.2.next ≤ I64max := by
  unfold push at h
  obtain ⟨t, e, h⟩ := bind_ok_iff.1 h
  have hr := getTsWith_room hs h0 hc1 ht e
  obtain ⟨⟨b, out, s'⟩, hy, h⟩ := bind_ok_iff.1 h
  have := separate_room hs h0 hc2 hr hn hy
  simp only at h
  split_ifs at h <;> cases h <;> exact this

end Separator

namespace Aggregator

open Separator (Room)

/-- The times of an operation leave room for a step. -/
def AOp.room (step : Int) : AOp → Prop
  | .add c1 c2 ts _ => Room step c1 ∧ Room step c2 ∧ Room step ts
  | .push c1 c2 ts _ _ => Room step c1 ∧ Room step c2 ∧ Room step ts
  | .separate c ts _ _ => Room step c ∧ Room step ts
  | _ => True

theorem AOp.room.inI64 {step : Int} {op : AOp} (h : op.room step) : op.inI64 := by
  cases op with
  | add => exact ⟨h.1.1, h.2.1.1, h.2.2.1⟩
  | push => exact ⟨h.1.1, h.2.1.1, h.2.2.1⟩
  | separate => exact ⟨h.1.1, h.2.1⟩
  | _ => trivial

theorem add_room {env : Env} {a : Aggregator} {clk1 clk2 ts : Int} {x : AddArg} {y : Bool × Aggregator}
    (hs : 0 < a.sep.step) (h0 : a.sep.step ≤ I64max) (hc1 : Room a.sep.step clk1) (hc2 : Room a.sep.step clk2)
    (ht : Room a.sep.step ts) (hn : a.sep.next ≤ I64max) (h : a.add env clk1 clk2 ts x = .ok y) : y.2.sep.next ≤ I64max := by
  unfold add at h
  split_ifs at h
  · cases h; exact hn
  · obtain ⟨⟨ok, s⟩, hs', h⟩ := bind_ok_iff.1 h
    unfold Separator.add at hs'
    obtain ⟨z, hz, hs'⟩ := bind_ok_iff.1 hs'
    have := Separator.push_room hs h0 hc1 hc2 ht hn hz
    cases hs'
    simp only at h
    split_ifs at h
    · cases h; exact this
    · obtain ⟨w, hw, h⟩ := bind_ok_iff.1 h
      have e1 := (aggregate0_next hw).1
      cases h
      simp only at e1 ⊢
      rw [e1]; exact this

theorem exec_room {env : Env} {o o' : AObs} {op : AOp} (hs : 0 < o.a.sep.step) (h0 : o.a.sep.step ≤ I64max)
    (hn : o.a.sep.Fits) (hr : op.room o.a.sep.step) (h : exec env o op = .ok o') : o'.a.sep.next ≤ I64max := by
  cases op with
  | add c1 c2 ts x =>
    obtain ⟨y, hy, h⟩ := bind_ok_iff.1 h
    cases h; exact add_room hs h0 hr.1 hr.2.1 hr.2.2 hn.2 hy
  | push c1 c2 ts x hd =>
    obtain ⟨y, hy, h⟩ := bind_ok_iff.1 h
    cases h
    unfold push at hy
    split_ifs at hy
    · cases hy; exact hn.2
    · obtain ⟨z, hz, hy⟩ := bind_ok_iff.1 hy
      cases hy; exact add_room hs h0 hr.1 hr.2.1 hr.2.2 hn.2 hz
    · obtain ⟨z, hz, hy⟩ := bind_ok_iff.1 hy
      obtain ⟨w, -, hy⟩ := bind_ok_iff.1 hy
      cases hy; exact Separator.push_room hs h0 hr.1 hr.2.1 hr.2.2 hn.2 hz
  | separate c ts hd f =>
    obtain ⟨y, hy, h⟩ := bind_ok_iff.1 h
    cases h
    unfold separate at hy
    obtain ⟨z, hz, hy⟩ := bind_ok_iff.1 hy
    obtain ⟨w, hw, hy⟩ := bind_ok_iff.1 hy
    have e1 := (aggregate0_next hw).1
    cases hy
    simp only at e1 ⊢
    rw [e1]; exact Separator.separate_room hs h0 hr.1 hr.2 hn.2 hz
  | pop => exact ((execT_agree (env := env) hs hn (op := .pop) trivial o').1 h).2
  | forcePop =>
    have e := execT_agree (env := env) hs hn (op := .forcePop) trivial o'
    have : execT env o .forcePop = exec env o .forcePop := by
      show (do let (d, a) ← o.a.forcePopT env; _) = _
      unfold forcePopT; rw [Separator.forcePopT_eq hs hn]; rfl
    rw [this] at e
    exact (e.1 h).2
  | look =>
    obtain ⟨y, -, h⟩ := bind_ok_iff.1 h
    cases h; exact hn.2
  | enable v => cases h; exact hn.2

/-- The claim: with times of 64 bits, a history of calls is defined if it is with unbounded times. -/
def C107_FullClaim : Prop :=
  ∀ (env : Env) (opt : AggregatorOpts) (clk rand ts : Int) (ops : List AOp) (a : Aggregator) (o : AObs), 0 < opt.step →
    InI64 opt.step → InI64 clk → InI64 ts → (∀ op ∈ ops, op.inI64) → new opt clk rand ts = .ok a →
    execAll env { a := a } ops = .ok o → newT opt clk rand ts = .ok a ∧ execAllT env { a := a } ops = .ok o

/-- An aggregator, with windows of ten. -/
def exOptT : AggregatorOpts := { limit := 3, levels := 2, step := 10, resolution := .none }

/-- An aggregator made in the last window before the end of time. -/
def exLate : Aggregator :=
  { sep := { reducer := Reducer.new exOptT.toReducerOpts, step := 10, next := I64max - 7, resolution := .none }, outSize := exOptT.outSize }

/-- An event at the end of time. -/
theorem C107_refuted : ¬ C107_FullClaim := fun h => by
  have ht : ∀ op ∈ [AOp.add 0 0 I64max (.one 1 1)], op.inI64 := by
    simp only [List.mem_singleton, forall_eq]; exact ⟨by decide, by decide, by decide⟩
  cases e : execAll exactEnv { a := exLate } [.add 0 0 I64max (.one 1 1)] with
  | error f =>
    have : (match execAll exactEnv { a := exLate } [.add 0 0 I64max (.one 1 1)] with
      | .ok _ => true | .error _ => false) = true := by decide +kernel
    rw [e] at this; cases this
  | ok o =>
    have h1 := (h exactEnv exOptT 0 0 (I64max - 15) _ exLate o (by decide) (by decide) (by decide) (by decide) ht
      (by decide +kernel) e).2
    have : (match execAllT exactEnv { a := exLate } [.add 0 0 I64max (.one 1 1)] with
      | .ok _ => true | .error _ => false) = false := by decide +kernel
    rw [h1] at this; cases this

/-- Exactly: a history of calls with representable times is defined, and does the same, iff it is with unbounded times and the end of
the last window is representable. -/
theorem C107_exact_partial (env : Env) (a : Aggregator) (ops : List AOp) (o : AObs) (hs : 0 < a.sep.step)
    (h1 : I64min ≤ a.sep.currentTime) (h2 : a.sep.nextTime ≤ I64max) (ht : ∀ op ∈ ops, op.inI64) :
    execAllT env { a := a } ops = .ok o ↔ execAll env { a := a } ops = .ok o ∧ o.a.sep.nextTime ≤ I64max :=
  execAllT_agree ops (o := { a := a }) hs ⟨h1, h2⟩ ht o

/-- It is enough that every time leaves room for a step. -/
theorem C107_room_partial (env : Env) (a : Aggregator) (ops : List AOp) (o : AObs) (hs : 0 < a.sep.step) (h0 : a.sep.step ≤ I64max)
    (h1 : I64min ≤ a.sep.currentTime) (h2 : a.sep.nextTime ≤ I64max) (ht : ∀ op ∈ ops, op.room a.sep.step) :
    execAllT env { a := a } ops = .ok o ↔ execAll env { a := a } ops = .ok o := by
  rw [C107_exact_partial env a ops o hs h1 h2 fun op h => (ht op h).inI64]
  refine ⟨fun h => h.1, fun h => ⟨h, ?_⟩⟩
  have key : ∀ (ops : List AOp) (o o' : AObs), o.a.sep.step = a.sep.step → o.a.sep.Fits → (∀ op ∈ ops, op.room a.sep.step) →
      execAll env o ops = .ok o' → o'.a.sep.next ≤ I64max := by
    intro ops
    induction ops with
    | nil => intro o o' _ hf _ h; cases h; exact hf.2
    | cons op ops ih =>
      intro o o' he hf hr h
      unfold execAll at h
      rw [List.foldlM_cons] at h
      obtain ⟨o1, h1, h⟩ := bind_ok_iff.1 h
      obtain ⟨m, e⟩ := exec_mono h1
      have hn := exec_room (by rw [he]; exact hs) (by rw [he]; exact h0) hf (by rw [he]; exact hr op (by simp)) h1
      refine ih o1 o' (e.trans he) ⟨?_, hn⟩ (fun q hq => hr q (by simp [hq])) h
      have := hf.1
      rw [e]; omega
  exact key ops { a := a } o rfl ⟨h1, h2⟩ ht h

/-- No square leaves `2^63` modulo `2^64`: the exponent of two in a square is even. -/
theorem square_bmod_ne (r : Int) : Int.bmod (r * r) (2 ^ 64) ≠ -2 ^ 63 := by
  intro h
  have h1 : ∃ k, r * r = 2 ^ 63 * (2 * k + 1) := by
    have e := Int.emod_add_mul_ediv (r * r) (2 ^ 64)
    rw [Int.bmod_def] at h
    refine ⟨(r * r) / 2 ^ 64, ?_⟩
    split_ifs at h with h2
    · have := Int.emod_nonneg (r * r) (b := ((2 ^ 64 : Nat) : Int)) (by decide)
      norm_num at h this
      omega
    · norm_num at h e ⊢
      omega
  obtain ⟨k, hk⟩ := h1
  have hr : r ≠ 0 := by
    rintro rfl
    omega
  have e1 : padicValInt 2 (r * r) = padicValInt 2 r + padicValInt 2 r := padicValInt.mul hr hr
  have e2 : padicValInt 2 (2 ^ 63 * (2 * k + 1)) = padicValInt 2 (2 ^ 63) + padicValInt 2 (2 * k + 1) :=
    padicValInt.mul (by norm_num) (by omega)
  have e3 : padicValInt 2 (2 * k + 1) = 0 := padicValInt.eq_zero_of_not_dvd (by push_cast; omega)
  have e4 : padicValInt 2 (2 ^ 63) = 63 := by
    have : ((2 : Int) ^ 63) = ((2 ^ 63 : Nat) : Int) := by norm_num
    rw [this, padicValInt.of_nat, padicValNat.prime_pow]
  rw [hk, e2, e3, e4] at e1
  omega

/-- The constructor is defined iff the bounds of the first window are representable. -/
theorem C107_new_partial (opt : AggregatorOpts) (clk rand ts : Int) (a : Aggregator) (hs : 0 < opt.step)
    (hc : InI64 clk) (ht : InI64 ts) :
    newT opt clk rand ts = .ok a ↔ new opt clk rand ts = .ok a ∧ InI64 a.sep.currentTime ∧ InI64 a.sep.nextTime := by
  unfold newT new Separator.newT Separator.new Separator.currentTime Separator.nextTime
  obtain ⟨e, t, et, ti⟩ := Separator.getTsWithT_eq (resolution := opt.resolution) hs hc ht
  rw [e, et]
  simp only [bind_ok]
  by_cases h0 : opt.soiled = 0
  · simp only [h0, ne_eq, not_true_eq_false, if_false]
    by_cases hm : InI64 (t + opt.step)
    · rw [fit_ok hm]
      simp only [bind_ok]
      refine ⟨fun h => ?_, fun h => h.1⟩
      cases h
      exact ⟨rfl, by simpa using ti, hm⟩
    · rw [fit_bad hm]
      refine ⟨fun h => (by cases h), fun ⟨h, _, h2⟩ => ?_⟩
      cases h; exact absurd h2 hm
  · set x := Int.bmod (rand * rand) (2 ^ 64) with hx
    have hxi : InI64 x := by
      have b1 := Int.le_bmod (x := rand * rand) (m := 2 ^ 64) (by decide)
      have b2 := Int.bmod_lt (x := rand * rand) (m := 2 ^ 64) (by decide)
      rw [← hx] at b1 b2
      unfold InI64 I64min I64max
      norm_num at b1 b2 ⊢
      omega
    have hxm : x ≠ -2 ^ 63 := square_bmod_ne rand
    have hq : InI64 (x.tdiv opt.soiled) := by
      have e1 := Int.natAbs_tdiv x opt.soiled
      have e2 : x.natAbs.div opt.soiled.natAbs ≤ x.natAbs := Nat.div_le_self x.natAbs opt.soiled.natAbs
      rw [← e1] at e2
      clear e1
      unfold InI64 I64min I64max at hxi ⊢
      norm_num at hxi hxm ⊢
      omega
    simp only [h0, ne_eq, not_false_eq_true, if_true, fit_ok hq, bind_ok]
    by_cases hm : InI64 (t - x.tmod opt.soiled)
    · rw [fit_ok hm]
      simp only [bind_ok]
      by_cases hm2 : InI64 (t - x.tmod opt.soiled + opt.step)
      · rw [fit_ok hm2]
        simp only [bind_ok]
        refine ⟨fun h => ?_, fun h => h.1⟩
        cases h
        exact ⟨rfl, by simpa using hm, hm2⟩
      · rw [fit_bad hm2]
        refine ⟨fun h => (by cases h), fun ⟨h, _, h2⟩ => ?_⟩
        cases h; exact absurd h2 hm2
    · rw [fit_bad hm]
      refine ⟨fun h => (by cases h), fun ⟨h, h2, _⟩ => ?_⟩
      cases h; exact absurd (by simpa using h2) hm

/-- `clear` is defined iff the end of the window it begins is representable. -/
theorem C107_clear_partial (a a' : Aggregator) (clk ts : Int) (hs : 0 < a.sep.step) (hc : InI64 clk) (ht : InI64 ts) :
    clearT a clk ts = .ok a' ↔ a.clear clk ts = .ok a' ∧ a'.sep.nextTime ≤ I64max := by
  unfold clearT clear Separator.clearT Separator.clear Separator.getTsT Separator.getTs Separator.nextTime
  obtain ⟨e, t, et, ti⟩ := Separator.getTsWithT_eq (resolution := a.sep.resolution) hs hc ht
  rw [e, et]
  simp only [bind_ok]
  by_cases hm : t + a.sep.step ≤ I64max
  · rw [fit_ok ⟨by have := ti.1; omega, hm⟩]
    simp only [bind_ok]
    refine ⟨fun h => ?_, fun h => h.1⟩
    cases h; exact ⟨rfl, hm⟩
  · rw [fit_bad (fun h => hm h.2)]
    refine ⟨fun h => (by cases h), fun ⟨h, h2⟩ => ?_⟩
    cases h; exact absurd h2 hm

/-- Near the end of time: the event before the last one is recorded as ever. -/
example : (match execAllT exactEnv { a := exLate } [.add 0 0 (I64max - 8) (.one 1 1)] with
    | .ok o => (o.a.sep.nextTime, o.accepted.length) | .error _ => (0, 0)) = (I64max - 7, 1) := by decide +kernel

example : exLate.sep.currentTime = I64max - 17 ∧ AOp.room 10 (.add 0 0 (I64max - 10) (.one 1 1)) ∧
    ¬ AOp.room 10 (.add 0 0 (I64max - 8) (.one 1 1)) := by
  refine ⟨by decide, ⟨by unfold Room; decide, by unfold Room; decide, by unfold Room; decide⟩, fun h => ?_⟩
  have := h.2.2.2
  revert this; decide

end Aggregator
end Wrtstat
