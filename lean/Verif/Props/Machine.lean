/-
Property C99: the counters of the machine.

The other theorems count in natural numbers; `size_t` has 64 bits.  A single call may stand for up to 2^64 - 1 events, so that two
calls are enough to wrap a counter.
-/
import Verif.Lemmas.Machine
import Verif.Lemmas.Separator
import Verif.Lemmas.Partition
import Verif.Lemmas.RegistryStep
import Verif.Props.Reducer
import Verif.Props.Aggregator

namespace Wrtstat
open Reducer

set_option autoImplicit false

/-! ### C99: the reducer -/

/-- The calls of a history, whatever became of them. -/
def givenCalls (ops : List ROp) : List AddArg := ops.filterMap fun op => match op with
  | .add x => some x
  | _ => none

/-- Every count fits into 64 bits, as it must to be passed at all. -/
def CallsFit (as : List AddArg) : Prop := ∀ a ∈ as, a.count < 2 ^ 64

instance (as : List AddArg) : Decidable (CallsFit as) := by unfold CallsFit; infer_instance

/-- What a client expects of a summary: it counts the events, and those lost and those kept make them up. -/
def C99_FullClaim : Prop :=
  ∀ (env : Env) (opt : ReducerOpts) (ops : List ROp) (r r' : Reducer) (d : AggData), CallsFit (givenCalls ops) →
    runW env (new opt) ops = .ok r → detachW env r = .ok (some d, r') →
    d.count = sumCount (pending ops) ∧ d.lossy + d.data.length = sumWeight (pending ops)

/-- Two calls, of 2^64 - 1 and of two events. -/
def exWrapOps : List ROp := [.add (.one 5 (2 ^ 64 - 1)), .add (.one 7 2)]

def exWrapData : AggData := { data := [5, 7], avg := 6, count := 1, lossy := 2 ^ 64 - 1, min := 5, max := 7 }

/-- The summary of the two calls says that there was one event. -/
theorem C99_refuted : ¬ C99_FullClaim := by
  intro h
  have hr : ∃ r, runW exactEnv (new exOpt) exWrapOps = .ok r ∧ detachW exactEnv r = .ok (some exWrapData, r.clear) := by
    refine ⟨_, rfl, ?_⟩
    decide +kernel
  obtain ⟨r, hr, hd⟩ := hr
  have := (h exactEnv exOpt exWrapOps r _ exWrapData (by decide) hr hd).1
  revert this
  decide

theorem nvals_eq (x : AddArg) : nvals x = x.values.length := by cases x <;> rfl

theorem opVals_sum (ops : List ROp) : (ops.map opVals).sum = (allValues (givenCalls ops)).length := by
  induction ops with
  | nil => rfl
  | cons op ops ih =>
    cases op with
    | add x =>
      rw [List.map_cons, List.sum_cons, ih]
      show nvals x + _ = (allValues (x :: givenCalls ops)).length
      rw [nvals_eq]
      simp only [allValues, List.flatMap_cons, List.length_append]
    | reduce => rw [List.map_cons, List.sum_cons, ih]; exact Nat.zero_add _
    | clear => rw [List.map_cons, List.sum_cons, ih]; exact Nat.zero_add _
    | detach => rw [List.map_cons, List.sum_cons, ih]; exact Nat.zero_add _
    | look => rw [List.map_cons, List.sum_cons, ih]; exact Nat.zero_add _

theorem new_wrap (opt : ReducerOpts) : (new opt).wrap = new opt := by
  unfold new
  split_ifs <;> rfl

theorem new_averageCount (opt : ReducerOpts) : (new opt).averageCount = 0 := by
  unfold new
  split_ifs <;> rfl

/-- With fewer than 2^64 values the machine does what the model does, with the two counters taken modulo 2^64: the samples, the
extremes, the average, the mode and the failures are the same. -/
theorem C99_run_partial (env : Env) (opt : ReducerOpts) (ops : List ROp) (hv : (allValues (givenCalls ops)).length < 2 ^ 64) :
    runW env (new opt) ops = (run env (new opt) ops).map fun r => { r with total := r.total % 2 ^ 64, lossy := r.lossy % 2 ^ 64 } := by
  have := runW_wrap (env := env) ops (n := 0) (r := new opt) (Nat.le_of_eq (new_averageCount opt)) (by rw [opVals_sum]; omega)
  rw [new_wrap] at this
  exact MRel.eq (this.mono fun a b h => h.1)

/-- The summary the machine gives is a faithful summary of the calls, with the two counters taken modulo 2^64. -/
theorem C99_summary_partial (env : Env) (opt : ReducerOpts) (ops : List ROp) (r r' : Reducer) (d : AggData)
    (hv : (allValues (givenCalls ops)).length < 2 ^ 64) (h : runW env (new opt) ops = .ok r) (hd : detachW env r = .ok (some d, r')) :
    ∃ d0 : AggData, Summary env opt.limit opt.levels (pending ops) d0 ∧ d = { d0 with count := d0.count % 2 ^ 64, lossy := d0.lossy % 2 ^ 64 } := by
  rw [C99_run_partial env opt ops hv] at h
  cases hr : run env (new opt) ops with
  | error e => rw [hr] at h; cases h
  | ok r0 =>
    rw [hr] at h
    cases h
    have hw := detachW_wrap (env := env) (r := r0) (Nat.le_refl _)
    have hd' : detachW env r0.wrap = .ok (some d, r') := hd
    rw [hd'] at hw
    cases he : detach env r0 with
    | error e => rw [he] at hw; exact hw.elim
    | ok x =>
      rw [he] at hw
      obtain ⟨o, r1⟩ := x
      have h1 : some d = o.map AggData.wrap := hw.1
      cases o with
      | none => cases h1
      | some d0 =>
        refine ⟨d0, summary_of_detach (goodA_run hr) he, ?_⟩
        exact Option.some.inj h1

/-- The count of a summary is right modulo 2^64; it is right exactly when the events are fewer than 2^64. -/
theorem C99_count_partial (env : Env) (opt : ReducerOpts) (ops : List ROp) (r r' : Reducer) (d : AggData)
    (hv : (allValues (givenCalls ops)).length < 2 ^ 64) (h : runW env (new opt) ops = .ok r) (hd : detachW env r = .ok (some d, r')) :
    d.count = sumCount (pending ops) % 2 ^ 64 ∧ (d.lossy + d.data.length) % 2 ^ 64 = sumWeight (pending ops) % 2 ^ 64 ∧
    (d.count = sumCount (pending ops) ↔ sumCount (pending ops) < 2 ^ 64) ∧
    (sumWeight (pending ops) < 2 ^ 64 → d.lossy + d.data.length = sumWeight (pending ops)) := by
  obtain ⟨d0, hs, rfl⟩ := C99_summary_partial env opt ops r r' d hv h hd
  have h1 := hs.count
  have h2 := hs.balance
  simp only
  rw [h1]
  refine ⟨rfl, ?_, ⟨fun e => ?_, fun e => Nat.mod_eq_of_lt e⟩, fun e => ?_⟩
  · rw [← h2, Nat.mod_add_mod]
  · rw [← e]
    exact Nat.mod_lt _ (by decide)
  · rw [← h2, Nat.mod_eq_of_lt (by omega)]

theorem pending_weight (ops : List ROp) : ∀ as : List AddArg, sumWeight (ops.foldl pendStep as) ≤ sumWeight as + sumWeight (givenCalls ops) := by
  induction ops with
  | nil => intro as; exact Nat.le_add_right _ _
  | cons op ops ih =>
    intro as
    rw [List.foldl_cons]
    refine Nat.le_trans (ih _) ?_
    cases op with
    | add x =>
      show sumWeight (as ++ [x]) + sumWeight (givenCalls ops) ≤ sumWeight as + sumWeight (x :: givenCalls ops)
      simp only [sumWeight, List.map_append, List.sum_append, List.map_cons, List.sum_cons, List.map_nil, List.sum_nil]
      omega
    | reduce => exact Nat.le_refl _
    | clear => exact Nat.add_le_add_right (Nat.zero_le _) _
    | detach => exact Nat.add_le_add_right (Nat.zero_le _) _
    | look => exact Nat.le_refl _

theorem sumCount_le_weight (as : List AddArg) : sumCount as ≤ sumWeight as := by
  unfold sumCount sumWeight
  induction as with
  | nil => exact Nat.le_refl _
  | cons a as ih =>
    simp only [List.map_cons, List.sum_cons]
    have : a.count ≤ a.weight := Nat.le_max_left _ _
    omega

theorem values_le_weight (as : List AddArg) : (allValues as).length ≤ sumWeight as := by
  unfold allValues sumWeight
  induction as with
  | nil => exact Nat.le_refl _
  | cons a as ih =>
    simp only [List.flatMap_cons, List.length_append, List.map_cons, List.sum_cons]
    have : a.values.length ≤ a.weight := Nat.le_max_right _ _
    omega

theorem goodA_wrap {env : Env} {opt : ReducerOpts} {r : Reducer} {as : List AddArg} (g : GoodA env opt r as) (hw : sumWeight as < 2 ^ 64) : r.wrap = r := by
  have h1 := g.good.total
  have h2 := g.good.bal
  have h3 := sumCount_le_weight as
  unfold wrap
  rw [w64_small (by omega), w64_small (by omega)]

/-- While the events are fewer than 2^64, nothing wraps: the machine does what the model does. -/
theorem C99_exact_partial (env : Env) (opt : ReducerOpts) (ops : List ROp) (hw : sumWeight (givenCalls ops) < 2 ^ 64) :
    runW env (new opt) ops = run env (new opt) ops := by
  rw [C99_run_partial env opt ops (Nat.lt_of_le_of_lt (values_le_weight _) hw)]
  cases hr : run env (new opt) ops with
  | error e => rfl
  | ok r =>
    have := pending_weight ops []
    refine congrArg Except.ok (goodA_wrap (goodA_run hr) (Nat.lt_of_le_of_lt this ?_))
    rw [show sumWeight [] = 0 from rfl, Nat.zero_add]
    exact hw

/-- The history of the examples of the reducer, on the machine. -/
example : runW exactEnv (new exOpt) exOps = .ok exState := (C99_exact_partial _ _ _ (by decide)).trans exRun

/-- The wrapped summary: one event counted of 2^64 + 1, both samples kept, the rest lost. -/
example : sumCount (pending exWrapOps) = 2 ^ 64 + 1 ∧ exWrapData.count = 1 ∧ exWrapData.lossy + exWrapData.data.length = 2 ^ 64 + 1 := by decide

/-! ### C99: the aggregator -/

namespace Aggregator

/-- The calls of a history of an aggregator, whatever became of them. -/
def opCalls (ops : List AOp) : List AddArg := ops.filterMap fun op => match op with
  | .add _ _ _ x => some x
  | .push _ _ _ x _ => some x
  | _ => none

theorem opVals_sum (ops : List AOp) : (ops.map Aggregator.opVals).sum = (allValues (opCalls ops)).length := by
  induction ops with
  | nil => rfl
  | cons op ops ih =>
    rw [List.map_cons, List.sum_cons, ih]
    cases op with
    | add _ _ _ x =>
      show nvals x + _ = (allValues (x :: opCalls ops)).length
      rw [nvals_eq]
      simp only [allValues, List.flatMap_cons, List.length_append]
    | push _ _ _ x _ =>
      show nvals x + _ = (allValues (x :: opCalls ops)).length
      rw [nvals_eq]
      simp only [allValues, List.flatMap_cons, List.length_append]
    | separate _ _ _ _ => exact Nat.zero_add _
    | pop => exact Nat.zero_add _
    | forcePop => exact Nat.zero_add _
    | look => exact Nat.zero_add _
    | enable _ => exact Nat.zero_add _

/-- A record, a list of records or a run with its counters modulo 2^64. -/
theorem data_wrap {d : AggData} (h1 : d.count < 2 ^ 64) (h2 : d.lossy < 2 ^ 64) : d.wrap = d := by
  unfold AggData.wrap
  rw [w64_small h1, w64_small h2]

/-- The counters of a record are those of its calls, or less. -/
def Bounded (as : List AddArg) (d : AggData) : Prop := d.count ≤ sumWeight as ∧ d.lossy ≤ sumWeight as

theorem bounded_summary {env : Env} {limit levels : Nat} {as : List AddArg} {d : AggData} (h : Summary env limit levels as d) : Bounded as d := by
  have h1 := h.count
  have h2 := h.balance
  have h3 := sumCount_le_weight as
  exact ⟨by omega, by omega⟩

theorem bounded_report {env : Env} {opt : AggregatorOpts} {as : List AddArg} {d : AggData} (h : Report env opt as d) : Bounded as d := by
  obtain ⟨raw, h1, h2⟩ := h
  have := bounded_summary h1
  exact ⟨by rw [h2.count]; exact this.1, by rw [h2.lossy]; exact this.2⟩

/-- Weight of a list of events. -/
def evWeight (l : List (Int × AddArg)) : Nat := sumWeight (l.map Prod.snd)

theorem evWeight_append (l l' : List (Int × AddArg)) : evWeight (l ++ l') = evWeight l + evWeight l' := by
  simp only [evWeight, sumWeight, List.map_append, List.sum_append]

theorem evWeight_perm {l l' : List (Int × AddArg)} (h : l.Perm l') : evWeight l = evWeight l' :=
  ((h.map Prod.snd).map AddArg.weight).sum_eq

theorem group_wrap {step : Int} {Q : List AddArg → AggData → Prop} (hQ : ∀ as d, Q as d → Bounded as d) {gs : List (List (Int × AddArg))} {l : List AggData}
    (h : List.Forall₂ (Group step Q) gs l) (hw : evWeight gs.flatten < 2 ^ 64) : l.map AggData.wrap = l := by
  induction h with
  | nil => rfl
  | @cons g d gs l h _ ih =>
    rw [List.flatten_cons, evWeight_append] at hw
    have hb := hQ _ _ h.1
    unfold Bounded at hb
    have e : evWeight g = sumWeight (g.map Prod.snd) := rfl
    rw [List.map_cons, ih (by omega), data_wrap (by omega) (by omega)]

theorem exec_weight {env : Env} {o o' : AObs} {op : AOp} (h : exec env o op = .ok o') :
    evWeight o'.accepted ≤ evWeight o.accepted + sumWeight (opCalls [op]) := by
  have hrec : ∀ ok clk ts (x : AddArg), evWeight (o.record ok clk ts x) ≤ evWeight o.accepted + sumWeight [x] := by
    intro ok clk ts x
    unfold AObs.record
    split_ifs
    · rw [evWeight_append]
      exact Nat.le_refl _
    · exact Nat.le_add_right _ _
  cases op with
  | add clk1 clk2 ts x =>
    obtain ⟨y, _, h⟩ := bind_inv h
    cases h
    exact hrec _ _ _ _
  | push clk1 clk2 ts x handler =>
    obtain ⟨y, _, h⟩ := bind_inv h
    cases h
    exact hrec _ _ _ _
  | separate clk ts handler force =>
    obtain ⟨y, _, h⟩ := bind_inv h
    cases h
    exact Nat.le_add_right _ _
  | pop =>
    cases h
    exact Nat.le_add_right _ _
  | forcePop =>
    obtain ⟨y, _, h⟩ := bind_inv h
    cases h
    exact Nat.le_add_right _ _
  | look =>
    obtain ⟨y, _, h⟩ := bind_inv h
    cases h
    exact Nat.le_add_right _ _
  | enable v =>
    cases h
    exact Nat.le_add_right _ _

theorem opCalls_cons (op : AOp) (ops : List AOp) : opCalls (op :: ops) = opCalls [op] ++ opCalls ops := by
  cases op <;> rfl

theorem execAll_weight {env : Env} (ops : List AOp) : ∀ {o o' : AObs}, execAll env o ops = .ok o' →
    evWeight o'.accepted ≤ evWeight o.accepted + sumWeight (opCalls ops) := by
  induction ops with
  | nil => intro o o' h; cases h; exact Nat.le_add_right _ _
  | cons op ops ih =>
    intro o o' h
    unfold execAll at h
    rw [List.foldlM_cons] at h
    obtain ⟨o1, h1, h2⟩ := bind_inv h
    have a1 := exec_weight h1
    have a2 := ih h2
    rw [opCalls_cons]
    have : sumWeight (opCalls [op] ++ opCalls ops) = sumWeight (opCalls [op]) + sumWeight (opCalls ops) := by
      simp only [sumWeight, List.map_append, List.sum_append]
    omega

/-- Nothing wraps in a run of fewer than 2^64 events. -/
theorem obs_wrap {env : Env} {opt : AggregatorOpts} {o : AObs} {gR gA gS : List (List (Int × AddArg))} {cur : List (Int × AddArg)}
    (g : PGood env opt Bounded o gR gA gS cur) (hw : evWeight o.accepted < 2 ^ 64) : AObs.wrap o = o := by
  have hp := evWeight_perm g.perm
  rw [evWeight_append, evWeight_append, evWeight_append] at hp
  have e1 := group_wrap (fun _ _ h => h) g.rec_ (by omega)
  have e2 := group_wrap (fun _ _ h => bounded_report h) g.wait (by omega)
  have e3 := group_wrap (fun _ _ h => bounded_summary h) g.sep.recs (by omega)
  have e4 := goodA_wrap g.sep.red (show evWeight cur < 2 ^ 64 by omega)
  simp only [AObs.wrap, wrap, Separator.wrap, e1, e2, e3, e4]

/-- With fewer than 2^64 values a run on the machine is the run of the model with the counters of the records, and of the reducer,
taken modulo 2^64: which records are handed over, when, for which window, with which samples and percentiles, is the same. -/
theorem C99_aggregator_partial (env : Env) (opt : AggregatorOpts) (a : Aggregator) (ops : List AOp) (hs : 0 < opt.step) (hf : Fresh env opt a)
    (hv : (allValues (opCalls ops)).length < 2 ^ 64) :
    execAllW env { a := a } ops = (execAll env { a := a } ops).map AObs.wrap := by
  have g := pgood_fresh (Q := Bounded) hs hf
  have hw : AObs.wrap { a := a } = { a := a } := obs_wrap g (show evWeight [] < 2 ^ 64 by decide)
  have h0 : a.sep.reducer.averageCount = 0 := g.sep.red.good.avgc
  have := execAllW_wrap (env := env) ops (n := 0) (o := { a := a }) (Nat.le_of_eq h0) (by rw [opVals_sum]; omega)
  rw [hw] at this
  exact MRel.eq this

/-- A run of fewer than 2^64 events on the machine is the run of the model. -/
theorem C99_aggregator_exact_partial (env : Env) (opt : AggregatorOpts) (a : Aggregator) (ops : List AOp) (hs : 0 < opt.step) (hf : Fresh env opt a)
    (hc : ∀ op ∈ ops, op.clockOk) (hw : sumWeight (opCalls ops) < 2 ^ 64) : execAllW env { a := a } ops = execAll env { a := a } ops := by
  rw [C99_aggregator_partial env opt a ops hs hf (Nat.lt_of_le_of_lt (values_le_weight _) hw)]
  cases he : execAll env { a := a } ops with
  | error e => rfl
  | ok o =>
    obtain ⟨gR, gA, gS, cur, g⟩ := pgood_execAll (Q := Bounded) (fun _ _ h => bounded_report h) hs ops (pgood_fresh hs hf) hc
      (fun _ _ _ _ _ h => bounded_summary h) he
    have := execAll_weight ops he
    refine congrArg Except.ok (obs_wrap g (Nat.lt_of_le_of_lt this ?_))
    rw [show evWeight (AObs.accepted { a := a }) = 0 from rfl, Nat.zero_add]
    exact hw

/-- On the machine, too, the counts received and those still held make up what was accepted, modulo 2^64. -/
theorem C99_received_partial (env : Env) (opt : AggregatorOpts) (a : Aggregator) (ops : List AOp) (o : AObs) (hs : 0 < opt.step) (hf : Fresh env opt a)
    (hc : ∀ op ∈ ops, op.clockOk) (hv : (allValues (opCalls ops)).length < 2 ^ 64) (h : execAllW env { a := a } ops = .ok o) :
    ((o.received.map (·.count)).sum + (o.a.agList.map (·.count)).sum + (o.a.sep.sepList.map (·.count)).sum + o.a.sep.reducer.total) % 2 ^ 64 =
      sumCount (o.accepted.map Prod.snd) % 2 ^ 64 := by
  rw [C99_aggregator_partial env opt a ops hs hf hv] at h
  cases he : execAll env { a := a } ops with
  | error e => rw [he] at h; cases h
  | ok o0 =>
    rw [he] at h
    cases h
    obtain ⟨gR, gA, gS, cur, g⟩ := pgood_execAll (Q := fun as d => d.count = sumCount as) (fun _ _ h => by
        obtain ⟨raw, h1, h2⟩ := h
        rw [h2.count, h1.count]) hs ops (pgood_fresh hs hf) hc (fun _ _ _ _ _ h => h.count) he
    have key : ∀ (Q : List AddArg → AggData → Prop) (gs : List (List (Int × AddArg))) (l : List AggData), (∀ as d, Q as d → d.count = sumCount as) →
        List.Forall₂ (Group opt.step Q) gs l → (l.map (·.count)).sum = sumCount (gs.flatten.map Prod.snd) := by
      intro Q gs l hQ hl
      induction hl with
      | nil => rfl
      | @cons g d gs l h _ ih =>
        rw [List.map_cons, List.sum_cons, ih, hQ _ _ h.1]
        simp only [sumCount, List.flatten_cons, List.map_append, List.sum_append]
    have k1 := key _ _ _ (fun _ _ h => h) g.rec_
    have k2 := key _ _ _ (fun _ _ h => by
        obtain ⟨raw, h1, h2⟩ := h
        rw [h2.count, h1.count]) g.wait
    have k3 := key _ _ _ (fun _ _ h => h.count) g.sep.recs
    have k4 := g.sep.red.good.total
    have hp := ((g.perm.map Prod.snd).map AddArg.count).sum_eq
    have wsum : ∀ l : List AggData, ((l.map AggData.wrap).map (·.count)).sum % 2 ^ 64 = (l.map (·.count)).sum % 2 ^ 64 := by
      intro l
      induction l with
      | nil => rfl
      | cons d l ih =>
        simp only [List.map_cons, List.sum_cons]
        rw [Nat.add_mod, ih, ← Nat.add_mod]
        exact Nat.mod_add_mod _ _ _
    show (((o0.received.map AggData.wrap).map (·.count)).sum + ((o0.a.agList.map AggData.wrap).map (·.count)).sum +
      ((o0.a.sep.sepList.map AggData.wrap).map (·.count)).sum + o0.a.sep.reducer.total % 2 ^ 64) % 2 ^ 64 = sumCount (o0.accepted.map Prod.snd) % 2 ^ 64
    have w1 := wsum o0.received
    have w2 := wsum o0.a.agList
    have w3 := wsum o0.a.sep.sepList
    simp only [sumCount, List.map_append, List.sum_append] at hp k1 k2 k3 k4 ⊢
    rw [k1] at w1
    rw [k2] at w2
    rw [k3] at w3
    rw [k4, ← hp]
    omega

/-! Examples: the history of the other examples, and one in which a count wraps. -/

example : execAllW exactEnv { a := exANew } exAOps = .ok exAObs :=
  (C99_aggregator_exact_partial _ exAOpt _ _ (by decide) (exANew_fresh _) exAClk (by decide)).trans exARun

/-- Two calls of 2^63 events and one of three in a window, a sample of each; a later event hands the record to the handler. -/
def exWrapAOps : List AOp :=
  [.add 0 0 1003 (.one 5 (2 ^ 63)), .add 0 0 1004 (.one 7 (2 ^ 63)), .add 0 0 1005 (.one 6 3), .push 0 0 1012 (.one 8 1) true]

example : (match execAllW exactEnv { a := exANew } exWrapAOps with
    | .ok o => o.received.map fun d => ([d.ts, d.avg, d.min, d.max], [d.count, d.lossy, d.data.length])
    | .error _ => []) = [([1000, 6, 5, 7], [3, 0, 3])] := by decide +kernel

example : (match execAll exactEnv { a := exANew } exWrapAOps with
    | .ok o => o.received.map fun d => (d.ts, d.count, d.lossy)
    | .error _ => []) = [(1000, 2 ^ 64 + 3, 2 ^ 64)] := by decide +kernel

end Aggregator

end Wrtstat
