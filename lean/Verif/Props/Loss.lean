/-
C120: the loss told by the records of an aggregator.
-/
import Verif.Props.Aggregator

namespace Wrtstat
open Aggregator

set_option autoImplicit false

/-- The events recorded split into groups, one for each record received or waiting, and the rest; each record stands to its group as
`Q` says, and reports its count. -/
def Accounted (o : AObs) (Q : List AddArg → AggData → Prop) : Prop :=
  ∃ (gR gA : List (List (Int × AddArg))) (rest : List (Int × AddArg)),
    (gR.flatten ++ gA.flatten ++ rest).Perm o.accepted ∧
    List.Forall₂ (fun g d => d.count = sumCount (g.map Prod.snd) ∧ Q (g.map Prod.snd) d) gR o.received ∧
    List.Forall₂ (fun g d => d.count = sumCount (g.map Prod.snd) ∧ Q (g.map Prod.snd) d) gA o.a.agList

/-- The claim: what a record tells as lost and the samples it carries are together the units of its events. -/
def C120_FullClaim : Prop :=
  ∀ (env : Env) (opt : AggregatorOpts) (a0 : Aggregator) (ops : List AOp) (o : AObs), 0 < opt.step → Fresh env opt a0 →
    (∀ op ∈ ops, op.clockOk) → execAll env { a := a0 } ops = .ok o →
    Accounted o fun as d => d.lossy + d.data.length = sumWeight as

/-- The samples the reducer keeps of a window. -/
def room (opt : AggregatorOpts) (as : List AddArg) : Nat :=
  if opt.levels = 0 then 0 else min opt.limit (allValues as).length

/-! ### The number of samples that remain -/

/-- Nothing is removed exactly if no size is set or it is not exceeded. -/
theorem C120_thinned (R n : Nat) : thinned R n = n ↔ R = 0 ∨ n ≤ R := by
  obtain ⟨k, e, _⟩ := reduce_total R (List.replicate n 0)
  have hk := reduce_length R _ k e
  rw [List.length_replicate] at hk
  by_cases h : R = 0 ∨ n ≤ R
  · simp [thinned, h]
  · refine iff_of_false ?_ h
    by_cases h2 : n < R * 2
    · obtain ⟨k', e', _, _, h3⟩ := reduce_remove R (List.replicate n 0) (by omega) (by simp; omega) (by simpa using h2)
      rw [e] at e'
      cases e'
      omega
    · obtain ⟨k', e', _, _, h3, _⟩ := reduce_pick R (List.replicate n 0) (by omega) (by simp; omega)
      rw [e] at e'
      cases e'
      omega

/-- What remains: at least one sample, and no more than `R` from fewer than `2R`, between `R` and `R + R/2` otherwise. -/
theorem C120_remains (R n : Nat) (hR : 0 < R) (hn : R < n) :
    1 ≤ thinned R n ∧ (n < 2 * R → thinned R n ≤ R) ∧ (2 * R ≤ n → R ≤ thinned R n ∧ thinned R n ≤ R + R / 2) := by
  obtain ⟨k, e, _⟩ := reduce_total R (List.replicate n 0)
  have hk := reduce_length R _ k e
  rw [List.length_replicate] at hk
  by_cases h2 : n < R * 2
  · obtain ⟨k', e', _, h4, h3⟩ := reduce_remove R (List.replicate n 0) hR (by simpa using hn) (by simpa using h2)
    rw [e] at e'
    cases e'
    omega
  · obtain ⟨k', e', _, h4, h3, _⟩ := reduce_pick R (List.replicate n 0) hR (by simp; omega)
    rw [e] at e'
    cases e'
    omega

/-! ### Records -/

theorem summary_loss {env : Env} {opt : AggregatorOpts} {as : List AddArg} {d : AggData} (h : Summary env opt.limit opt.levels as d) :
    d.lossy + room opt as = sumWeight as ∧ d.data.length = room opt as := by
  have h1 := h.balance
  have h2 : d.data.length = room opt as := h.size
  omega

theorem report_loss {env : Env} {opt : AggregatorOpts} {as : List AddArg} {d : AggData} (h : Report env opt as d) :
    d.lossy + room opt as = sumWeight as ∧ d.data.length = thinned opt.outSize (room opt as) := by
  obtain ⟨raw, hs, hd⟩ := h
  have h1 := summary_loss hs
  rw [hd.lossy, hd.size, h1.2]
  exact ⟨h1.1, rfl⟩

/-- What every record tells as lost are the units for which the reducer kept no sample; what the thinning on the way out removes is
not told.  A record handed over by `separate` is not thinned. -/
theorem C120_loss_partial (env : Env) (opt : AggregatorOpts) (a0 : Aggregator) (ops : List AOp) (o : AObs) (hs : 0 < opt.step)
    (h0 : Fresh env opt a0) (hc : ∀ op ∈ ops, op.clockOk) (h : execAll env { a := a0 } ops = .ok o) :
    Accounted o fun as d => d.lossy + room opt as = sumWeight as ∧
      (d.data.length = thinned opt.outSize (room opt as) ∨ ops.any AOp.sepHandler = true ∧ d.data.length = room opt as) := by
  obtain ⟨gR, gA, gS, cur, g⟩ := pgood_execAll (Q := fun as d => d.count = sumCount as ∧ d.lossy + room opt as = sumWeight as ∧
      (d.data.length = thinned opt.outSize (room opt as) ∨ ops.any AOp.sepHandler = true ∧ d.data.length = room opt as))
    (fun as d h => by
      obtain ⟨raw, hsum, hdel⟩ := id h
      exact ⟨by rw [hdel.count, hsum.count], (report_loss h).1, .inl (report_loss h).2⟩) hs ops (pgood_fresh hs h0) hc
    (fun op ho hsh as d h => ⟨h.count, (summary_loss h).1, .inr ⟨List.any_eq_true.2 ⟨op, ho, hsh⟩, (summary_loss h).2⟩⟩) h
  refine ⟨gR, gA, gS.flatten ++ cur, by simpa using g.perm, g.rec_.imp fun _ _ h => ⟨h.1.1, h.1.2⟩, g.wait.imp fun _ _ h => ?_⟩
  obtain ⟨raw, hsum, hdel⟩ := id h.1
  exact ⟨by rw [hdel.count, hsum.count], (report_loss h.1).1, .inl (report_loss h.1).2⟩

/-- So a record balances exactly if the reducer kept no more samples than `outgoing_reduced_size`; otherwise the samples removed on the
way out are missing, and they are more than none. -/
theorem C120_balance_partial (env : Env) (opt : AggregatorOpts) (a0 : Aggregator) (ops : List AOp) (o : AObs) (hs : 0 < opt.step)
    (h0 : Fresh env opt a0) (hc : ∀ op ∈ ops, op.clockOk) (hsh : ops.any AOp.sepHandler = false)
    (h : execAll env { a := a0 } ops = .ok o) :
    Accounted o fun as d => d.lossy + d.data.length + (room opt as - thinned opt.outSize (room opt as)) = sumWeight as ∧
      (d.lossy + d.data.length = sumWeight as ↔ opt.outSize = 0 ∨ room opt as ≤ opt.outSize) := by
  obtain ⟨gR, gA, rest, h1, h2, h3⟩ := C120_loss_partial env opt a0 ops o hs h0 hc h
  have key : ∀ {as : List AddArg} {d : AggData}, d.lossy + room opt as = sumWeight as →
      (d.data.length = thinned opt.outSize (room opt as) ∨ ops.any AOp.sepHandler = true ∧ d.data.length = room opt as) →
      d.lossy + d.data.length + (room opt as - thinned opt.outSize (room opt as)) = sumWeight as ∧
      (d.lossy + d.data.length = sumWeight as ↔ opt.outSize = 0 ∨ room opt as ≤ opt.outSize) := by
    intro as d ha hb
    rw [hsh] at hb
    have hb : d.data.length = thinned opt.outSize (room opt as) := by simpa using hb
    have hle : thinned opt.outSize (room opt as) ≤ room opt as := by
      obtain ⟨k, e, hsub, _⟩ := reduce_total opt.outSize (List.replicate (room opt as) 0)
      have := reduce_length _ _ k e
      have h5 := hsub.length_le
      simp only [List.length_replicate] at this h5
      omega
    rw [← C120_thinned]
    omega
  exact ⟨gR, gA, rest, h1, h2.imp fun _ _ h => ⟨h.1, key h.2.1 h.2.2⟩, h3.imp fun _ _ h => ⟨h.1, key h.2.1 h.2.2⟩⟩

/-- Without `outgoing_reduced_size` all records balance, whatever the delivery. -/
theorem C120_unthinned_partial (env : Env) (opt : AggregatorOpts) (a0 : Aggregator) (ops : List AOp) (o : AObs) (hs : 0 < opt.step)
    (h0 : Fresh env opt a0) (hc : ∀ op ∈ ops, op.clockOk) (hR : opt.outSize = 0 ∨ opt.limit ≤ opt.outSize)
    (h : execAll env { a := a0 } ops = .ok o) :
    Accounted o fun as d => d.lossy + d.data.length = sumWeight as := by
  obtain ⟨gR, gA, rest, h1, h2, h3⟩ := C120_loss_partial env opt a0 ops o hs h0 hc h
  have key : ∀ {as : List AddArg} {d : AggData}, d.lossy + room opt as = sumWeight as →
      (d.data.length = thinned opt.outSize (room opt as) ∨ ops.any AOp.sepHandler = true ∧ d.data.length = room opt as) →
      d.lossy + d.data.length = sumWeight as := by
    intro as d ha hb
    have hle : room opt as ≤ opt.limit := by unfold room; split_ifs <;> omega
    rw [(C120_thinned _ _).2 (by omega)] at hb
    omega
  exact ⟨gR, gA, rest, h1, h2.imp fun _ _ h => ⟨h.1, key h.2.1 h.2.2⟩, h3.imp fun _ _ h => ⟨h.1, key h.2.1 h.2.2⟩⟩

/-! ### A record that tells too little -/

/-- Four values in one window, `outgoing_reduced_size` 3. -/
def lossOps : List AOp := [.add 0 0 1003 (.many [5, 9, 2, 7] 4), .forcePop]

/-- Loss, number of samples, the events, and what is left, after `lossOps`. -/
def lossSeen : M (List (Nat × Nat) × List (Int × AddArg) × Nat) :=
  (execAll exactEnv { a := exANew } lossOps).map fun o =>
    (o.received.map (fun d => (d.lossy, d.data.length)), o.accepted, o.a.agList.length)

theorem lossSeen_eq : lossSeen = .ok ([(0, 3)], [(1000, .many [5, 9, 2, 7] 4)], 0) := by decide +kernel

/-- One record, three samples, no loss: four units. -/
theorem C120_refuted : ¬ C120_FullClaim := by
  intro hall
  have hs := lossSeen_eq
  unfold lossSeen at hs
  cases ho : execAll exactEnv { a := exANew } lossOps with
  | error e => rw [ho] at hs; cases hs
  | ok o =>
    rw [ho] at hs
    simp only [Except.map, Except.ok.injEq, Prod.mk.injEq] at hs
    obtain ⟨h1, h2, _⟩ := hs
    obtain ⟨gR, gA, rest, hp, hR, _⟩ := hall exactEnv exAOpt exANew lossOps o (by decide) (exANew_fresh _) (by decide) ho
    rw [h2] at hp
    obtain ⟨d, hd⟩ := List.length_eq_one_iff.1 (show o.received.length = 1 by simpa using congrArg List.length h1)
    rw [hd] at h1 hR
    simp only [List.map_cons, List.map_nil, List.cons.injEq, Prod.mk.injEq, and_true] at h1
    cases hR with
    | cons hg ht =>
      rename_i g gs
      cases ht
      obtain ⟨_, hw⟩ := hg
      rw [h1.1, h1.2] at hw
      have hlen := hp.length_eq
      simp only [List.flatten_cons, List.flatten_nil, List.append_nil, List.length_append, List.length_singleton] at hlen hp
      rcases Nat.lt_or_ge g.length 1 with hz | hz
      · rw [show g = [] from List.length_eq_zero_iff.1 (by omega)] at hw
        simp [sumWeight] at hw
      · have e1 : gA.flatten = [] := List.length_eq_zero_iff.1 (by omega)
        have e2 : rest = [] := List.length_eq_zero_iff.1 (by omega)
        rw [e1, e2, List.append_nil, List.append_nil] at hp
        rw [List.perm_singleton.1 hp] at hw
        revert hw
        decide

/-- The same history: the reducer kept four samples, three were delivered. -/
example : thinned 3 4 = 3 ∧ room exAOpt [.many [5, 9, 2, 7] 4] = 4 := by decide

/-- With more counted than there are values, one of them removed on the way out: 6 = 2 told, 3 delivered, 1 not told. -/
example : (execAll exactEnv { a := exANew } [.add 0 0 1003 (.many [5, 9, 2, 7] 6), .forcePop]).map
    (fun o => o.received.map fun d => (d.count, d.lossy, d.data)) = .ok [(6, 2, [5, 7, 9])] := by decide +kernel

example : (thinned 10 15, thinned 10 19, thinned 10 20, thinned 10 29, thinned 10 30) = (10, 9, 10, 15, 10) := by decide

end Wrtstat
