/-
C145: the aggregator of the older sources does what the current one does.  C146: the hash map of the older sources.
-/
import Verif.Model.Legacy
import Verif.Props.Multi
import Verif.Props.Aggregator

namespace Wrtstat
namespace Legacy

set_option autoImplicit false

open Aggregator (AObs AOp Fresh)

/-! ### The operations -/

/-- The older thinning never aborts. -/
theorem reduce_eq (R : Nat) (d : List Int) : reduce_ R d = Aggregator.reduce_ R d := by
  unfold reduce_ Aggregator.reduce_
  by_cases h : R = 0 ∨ d.length ≤ R
  · rw [if_pos h, if_pos h]
  · rw [if_neg h, if_neg h]
    simp only
    obtain ⟨k, e, _⟩ := Aggregator.reduce_total R d
    unfold Aggregator.reduce_ at e
    rw [if_neg h] at e
    simp only at e
    generalize (if R * 2 > d.length then Aggregator.keepIdx (fun i => decide (i % (d.length / (d.length - R)) ≠ 0)) 0 d
      else Aggregator.keepIdx (fun i => decide (i % (d.length / R) = 0)) 0 d) = l at e ⊢
    by_cases hl : l.length = 0
    · rw [if_pos hl] at e
      cases e
    · rw [if_neg hl, if_pos (by omega)]

theorem finish_eq (E : NthElement) (R : Nat) : finish E R = Aggregator.finish E R := by
  funext d
  unfold finish Aggregator.finish
  simp only [reduce_eq]

theorem aggregate0_eq (E : NthElement) (a : Aggregator) : aggregate0_ E a = Aggregator.aggregate0_ E a := by
  unfold aggregate0_ Aggregator.aggregate0_
  rw [finish_eq]

theorem add_eq (env : Env) (a : Aggregator) (c1 c2 ts : Int) (x : AddArg) : add env a c1 c2 ts x = a.add env c1 c2 ts x := by
  unfold add Aggregator.add
  simp only [aggregate0_eq]

theorem push_eq (env : Env) (a : Aggregator) (c1 c2 ts : Int) (x : AddArg) (h : Bool) :
    push env a c1 c2 ts x h = a.push env c1 c2 ts x h := by
  unfold push Aggregator.push
  simp only [add_eq, finish_eq]

theorem separate_eq (env : Env) (a : Aggregator) (c ts : Int) (h f : Bool) : separate env a c ts h f = a.separate env c ts h f := by
  unfold separate Aggregator.separate
  simp only [aggregate0_eq]

theorem current_eq (env : Env) (a : Aggregator) : aggregateCurrent env a = a.aggregateCurrent env := by
  unfold aggregateCurrent Aggregator.aggregateCurrent
  simp only [finish_eq]
  cases a.sep.getCurrent env with
  | error e => rfl
  | ok o => cases o <;> rfl

/-- `force_pop` does what it does now, unless it finds nothing. -/
theorem forcePop_eq (env : Env) (a : Aggregator) :
    forcePop env a = match a.forcePop env with
      | .ok (some d, a') => .ok (some d, a')
      | .ok (none, _) => .error .ub
      | .error e => .error e := by
  unfold forcePop Aggregator.forcePop sepForcePop Separator.forcePop
  rw [finish_eq]
  cases hp : a.sep.pop with
  | mk o s =>
    cases o with
    | some d =>
      simp only [bind, Except.bind]
      cases Aggregator.finish env.nth a.outSize d <;> rfl
    | none =>
      simp only [bind, Except.bind]
      cases hd : s.reducer.detach env with
      | error e => rfl
      | ok x =>
        obtain ⟨o, r⟩ := x
        cases o with
        | none => rfl
        | some d =>
          simp only [Option.map_some]
          cases Aggregator.finish env.nth a.outSize { d with ts := s.next - s.step } <;> rfl

end Legacy

open Aggregator

/-! ### C145 -/

/-- The claim: the older aggregator answers every history as the current one does. -/
def C145_FullClaim : Prop :=
  ∀ (env : Env) (opt : AggregatorOpts) (a0 : Aggregator) (ops : List AOp), 0 < opt.step → Fresh env opt a0 →
    Legacy.execAll env { a := a0 } ops = execAll env { a := a0 } ops

/-- `force_pop` on an aggregator without events. -/
theorem C145_witness : Legacy.execAll exactEnv { a := exANew } [.forcePop] = .error .ub ∧
    (execAll exactEnv { a := exANew } [.forcePop]).toOption.isSome = true := by
  constructor
  · rfl
  · decide +kernel

theorem C145_refuted : ¬ C145_FullClaim := by
  intro h
  obtain ⟨h1, h2⟩ := C145_witness
  rw [← h exactEnv exAOpt exANew _ (by decide) (exANew_fresh _), h1] at h2
  cases h2

/-- The operation is a `force_pop` that finds nothing. -/
def FindsNothing (env : Env) (o : AObs) (op : AOp) : Prop :=
  op = .forcePop ∧ ∃ o', exec env o op = .ok o' ∧ o'.received = o.received

/-- Operation by operation: a `force_pop` that finds nothing is undefined; all else is as it is now, faults included. -/
theorem C145_step (env : Env) (o : AObs) (op : AOp) :
    (FindsNothing env o op → Legacy.exec env o op = .error .ub) ∧
    (¬ FindsNothing env o op → Legacy.exec env o op = exec env o op) := by
  have other : op ≠ .forcePop → Legacy.exec env o op = exec env o op := by
    intro h
    cases op with
    | add c1 c2 ts x => simp only [Legacy.exec, exec, Legacy.add_eq]
    | push c1 c2 ts x h => simp only [Legacy.exec, exec, Legacy.push_eq]
    | separate c ts h f => simp only [Legacy.exec, exec, Legacy.separate_eq]
    | pop => rfl
    | forcePop => exact absurd rfl h
    | look => simp only [Legacy.exec, exec, Legacy.current_eq]
    | enable v => rfl
  by_cases hop : op = .forcePop
  · subst hop
    unfold FindsNothing
    simp only [Legacy.exec, exec, Legacy.forcePop_eq]
    cases hf : o.a.forcePop env with
    | error e => exact ⟨fun h => (by obtain ⟨_, o', h, _⟩ := h; cases h), fun _ => rfl⟩
    | ok x =>
      obtain ⟨d, a⟩ := x
      cases d with
      | none => exact ⟨fun _ => rfl, fun h => absurd ⟨trivial, _, rfl, by simp⟩ h⟩
      | some d =>
        refine ⟨fun h => ?_, fun _ => rfl⟩
        obtain ⟨_, o', h, hr⟩ := h
        cases h
        simp at hr
  · exact ⟨fun h => absurd h.1 hop, fun _ => other hop⟩

/-- Whole histories, from any state: they run in the older sources iff they run now and no `force_pop` finds nothing, and then all that can
be observed is the same. -/
theorem C145_exact_partial (env : Env) (o0 : AObs) (ops : List AOp) (o : AObs) :
    Legacy.execAll env o0 ops = .ok o ↔
      execAll env o0 ops = .ok o ∧
      ∀ pre op post o1, ops = pre ++ op :: post → execAll env o0 pre = .ok o1 → ¬ FindsNothing env o1 op := by
  induction ops generalizing o0 with
  | nil =>
    refine ⟨fun h => ⟨h, fun pre op post o1 h => ?_⟩, fun h => h.1⟩
    cases pre <;> cases h
  | cons op ops ih =>
    obtain ⟨s1, s2⟩ := C145_step env o0 op
    constructor
    · intro h
      obtain ⟨o1, h1, h2⟩ := bind_inv h
      have hn : ¬ FindsNothing env o0 op := by
        intro hf
        rw [s1 hf] at h1
        cases h1
      rw [s2 hn] at h1
      obtain ⟨k1, k2⟩ := (ih o1).1 h2
      refine ⟨?_, ?_⟩
      · show (exec env o0 op >>= fun o1 => execAll env o1 ops) = .ok o
        rw [h1]
        exact k1
      · intro pre op' post o2 e h3
        cases pre with
        | nil =>
          cases e
          cases h3
          exact hn
        | cons op1 pre =>
          cases e
          obtain ⟨o1', h1', h3⟩ := bind_inv h3
          rw [h1] at h1'
          cases h1'
          exact k2 pre op' post o2 rfl h3
    · rintro ⟨h, hall⟩
      obtain ⟨o1, h1, h2⟩ := bind_inv h
      have hn : ¬ FindsNothing env o0 op := hall [] op ops o0 rfl rfl
      show (Legacy.exec env o0 op >>= fun o1 => Legacy.execAll env o1 ops) = .ok o
      rw [s2 hn, h1]
      refine (ih o1).2 ⟨h2, fun pre op' post o2 e h3 => hall (op :: pre) op' post o2 (by rw [e]; rfl) ?_⟩
      show (exec env o0 op >>= fun o1 => execAll env o1 pre) = .ok o2
      rw [h1]
      exact h3

/-- Without `force_pop` there is no difference at all. -/
theorem C145_polled_partial (env : Env) (o0 : AObs) (ops : List AOp) (h : ∀ op ∈ ops, op.forced = false) :
    Legacy.execAll env o0 ops = execAll env o0 ops := by
  induction ops generalizing o0 with
  | nil => rfl
  | cons op ops ih =>
    show (Legacy.exec env o0 op >>= fun o1 => Legacy.execAll env o1 ops) = (exec env o0 op >>= fun o1 => execAll env o1 ops)
    rw [(C145_step env o0 op).2 fun hf => by have := h op (.head _); rw [hf.1] at this; cases this]
    cases exec env o0 op with
    | error e => rfl
    | ok o1 => exact ih o1 fun op ho => h op (.tail _ ho)

/-- A history with windows, a pusher, a look and `force_pop`, run in both. -/
example : (Legacy.execAll exactEnv { a := exANew } (exAOps ++ [.forcePop])).toOption.map
    (fun o => (o.received.map fun d => (d.ts, d.count, d.data), o.accepted.length)) =
    (execAll exactEnv { a := exANew } (exAOps ++ [.forcePop])).toOption.map
    (fun o => (o.received.map fun d => (d.ts, d.count, d.data), o.accepted.length)) ∧
    (Legacy.execAll exactEnv { a := exANew } (exAOps ++ [.forcePop])).toOption.isSome = true ∧
    (Legacy.execAll exactEnv { a := exANew } (exAOps ++ [.forcePop, .forcePop])).toOption.isNone = true := by
  refine ⟨?_, ?_, ?_⟩ <;> decide +kernel

end Wrtstat
