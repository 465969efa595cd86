/-
C125: a history moved in time gives the same records, moved in time.
-/
import Verif.Lemmas.Shift
import Verif.Props.Aggregator

namespace Wrtstat

set_option autoImplicit false

open Aggregator

/-- The times of an operation are positive, now and `K` later. -/
def AfterZero (opt : AggregatorOpts) (K : Int) : AOp → Prop
  | .add c _ ts _ => 0 < meant opt.resolution c ts ∧ 0 < meant opt.resolution c ts + K
  | .push c _ ts _ _ => 0 < meant opt.resolution c ts ∧ 0 < meant opt.resolution c ts + K
  | .separate c ts _ _ => 0 < meant opt.resolution c ts ∧ 0 < meant opt.resolution c ts + K
  | _ => True

/-- The claim: whatever is done with an aggregator, done `K` later, a multiple of the step, gives the same, `K` later. -/
def C125_FullClaim : Prop :=
  ∀ (env : Env) (opt : AggregatorOpts) (a0 : Aggregator) (ops : List AOp) (K : Int), 0 < opt.step → opt.step ∣ K → Fresh env opt a0 →
    (∀ op ∈ ops, op.clockOk ∧ AfterZero opt K op) →
    execAll env (({ a := a0 } : AObs).later K) (ops.map (AOp.later opt.resolution K)) = (execAll env { a := a0 } ops).map (AObs.later K)

/-- An event of the first step after time 0 is lost (see C14); one step later it is not. -/
theorem C125_refuted : ¬ C125_FullClaim := by
  intro h
  have h0 : Fresh exactEnv { limit := 4, levels := 2, step := 10, outSize := 0 }
      { sep := { reducer := Reducer.new { limit := 4, levels := 2 }, step := 10, next := 10, resolution := .seconds }, outSize := 0 } :=
    .new (clk := 3) (rand := 0) (ts := 0) (by decide +kernel)
  have := congrArg (fun x => match x with | .ok o => o.accepted.length | .error _ => 0)
    (h exactEnv _ _ [.add 3 13 5 (.one 7 1)] 10 (by decide) (by decide) h0 (by simp [AOp.clockOk, AfterZero, meant]))
  revert this
  decide +kernel

/-- From one step after time 0 on it holds: the same events are recorded, the same records received, all `K` later; and a fault
occurs in the one history if it does in the other. -/
theorem C125_history_partial (env : Env) (opt : AggregatorOpts) (a0 : Aggregator) (ops : List AOp) (K : Int) (hs : 0 < opt.step)
    (hK : opt.step ∣ K) (h0 : Fresh env opt a0) (hc : ∀ op ∈ ops, op.clockOk) (ht : ∀ op ∈ ops, op.settled opt K) :
    execAll env (({ a := a0 } : AObs).later K) (ops.map (AOp.later opt.resolution K)) = (execAll env { a := a0 } ops).map (AObs.later K) := by
  have key : ∀ (ops : List AOp) (o : AObs), (∃ gR gA gS cur, PGood env opt (fun _ _ => True) o gR gA gS cur) → (∀ op ∈ ops, op.clockOk) →
      (∀ op ∈ ops, op.settled opt K) →
      execAll env (o.later K) (ops.map (AOp.later opt.resolution K)) = (execAll env o ops).map (AObs.later K) := by
    intro ops
    induction ops with
    | nil => intro o _ _ _; rfl
    | cons op ops ih =>
      intro o ⟨gR, gA, gS, cur, g⟩ h1 h2
      obtain ⟨e1, e2⟩ := g.sep.step
      have hop := exec_later (env := env) (o := o) hs hK e1 e2 (h2 op List.mem_cons_self)
      unfold execAll at ih ⊢
      rw [List.map_cons, List.foldlM_cons, List.foldlM_cons, hop, except_bind_map, except_map_bind]
      cases he : exec env o op with
      | error e => rfl
      | ok o' =>
        rw [bind_ok', bind_ok']
        exact ih o' (pgood_exec (fun _ _ _ => trivial) hs g op (h1 op List.mem_cons_self) (fun _ _ _ _ => trivial) he)
          (fun x hx => h1 x (List.mem_cons_of_mem _ hx)) (fun x hx => h2 x (List.mem_cons_of_mem _ hx))
  exact key ops _ ⟨_, _, _, _, pgood_fresh hs h0⟩ hc ht

/-- An aggregator made `K` later is the same, `K` later; so is one cleared. -/
theorem C125_start_partial (opt : AggregatorOpts) (clk rand ts K : Int) (hs : 0 < opt.step) (hK : opt.step ∣ K)
    (h : 0 < meant opt.resolution clk ts) (h' : 0 < meant opt.resolution clk ts + K) :
    Aggregator.new opt (clk + K) rand (laterTs opt.resolution K ts) = (Aggregator.new opt clk rand ts).map (later K) ∧
    ∀ a : Aggregator, a.sep.step = opt.step → a.sep.resolution = opt.resolution →
      (a.later K).clear (clk + K) (laterTs opt.resolution K ts) = (a.clear clk ts).map (later K) := by
  have hz : opt.resolution ≠ .none → ts ≠ 0 → ts + K ≠ 0 := by
    intro _ h0
    rw [meant, if_neg (by simp [h0])] at h'
    omega
  constructor
  · have e := Separator.getTs_later (K := K) (clk := clk) (ts := ts)
      (s := { reducer := Reducer.new opt.toReducerOpts, step := opt.step, next := 0, resolution := opt.resolution }) hs hK h.le h'.le hz
    have e : Separator.getTsWith opt.step opt.resolution (clk + K) (laterTs opt.resolution K ts) =
      (Separator.getTsWith opt.step opt.resolution clk ts).map (· + K) := e
    unfold Aggregator.new Separator.new
    rw [e]
    simp only [except_bind_map, except_map_bind, bind_assoc]
    congr 1
    funext t
    show Except.ok _ = Except.ok _
    simp only [later, Separator.later, List.map_nil]
    split_ifs
    · rw [show t + K - (Int.bmod (rand * rand) (2 ^ 64)).tmod opt.soiled + opt.step =
        t - (Int.bmod (rand * rand) (2 ^ 64)).tmod opt.soiled + opt.step + K by ring]
    · rw [show t + K + opt.step = t + opt.step + K by ring]
  · intro a e1 e2
    have e := Separator.getTs_later (K := K) (clk := clk) (ts := ts) (s := a.sep) (by omega) (by rw [e1]; exact hK)
      (by rw [e2]; exact h.le) (by rw [e2]; exact h'.le) (by rw [e2]; exact hz)
    rw [e2] at e
    have e : (a.later K).sep.getTs (clk + K) (laterTs opt.resolution K ts) = (a.sep.getTs clk ts).map (· + K) := e
    unfold clear Separator.clear
    rw [e]
    simp only [except_bind_map, except_map_bind, bind_assoc]
    congr 1
    funext t
    show Except.ok _ = Except.ok _
    simp only [later, Separator.later, List.map_nil]
    rw [show t + K + a.sep.step = t + a.sep.step + K by ring]

/-- The history of the examples of C22, two hours later. -/
example : (execAll exactEnv (({ a := exANew } : AObs).later 7200) (exAOps.map (AOp.later .seconds 7200))).toOption.map
    (fun o => o.received.map fun d => (d.ts, d.count, d.data, d.perc50)) = some [(8200, 4, [5, 7, 9], 7)] := by decide +kernel

example : ∀ op ∈ exAOps, op.settled exAOpt 7200 := by decide

end Wrtstat
