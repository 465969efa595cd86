/-
Property C117: from one multi aggregator through packer and JSON into another.

The records that a multi aggregator hands to its handlers are pushed into a packer, the batches are sent as JSON, and what the
other side reads is pushed into its multi aggregator.  Counts balance (`C117_counts_partial`), but the second multi aggregator may
refuse records although the first refused nothing: the packer reverses their order (`C117_refuted`).  A name of which the packer
never holds two records is safe (`C117_spaced_partial`).
-/
import Verif.Props.Aggregator
import Verif.Props.Multi
import Verif.Props.JsonPacker
import Verif.Props.PackerOrder
import Verif.Props.Laps

namespace Wrtstat

set_option autoImplicit false

open Packer Multi

/-! ### The books of one name -/

namespace Single

/-- Events brought by a step of a life. -/
def NOp.count : NOp → Nat
  | .push v _ _ _ _ _ => v.count
  | _ => 0

/-- Events in an aggregator, if it exists, that have not been delivered. -/
def held : Option Aggregator → Nat
  | none => 0
  | some a => logCount a.agList + logCount a.sep.sepList + a.sep.reducer.totalCount

/-- Events refused by a step: the push answers false. -/
def refusedBy (env : Env) (opt : AggregatorOpts) (o : NObs) : NOp → M Nat
  | .push v clk rand clk1 clk2 _ => do
    let ao ← born opt o.life clk rand v.ts
    let (ok, _, _) ← ao.a.push env clk1 clk2 v.ts (.reduced v) true
    .ok (if ok then 0 else v.count)
  | _ => .ok 0

/-- Events dropped by a step: those held by an aggregator that is deleted. -/
def droppedBy (o : NObs) : NOp → Nat
  | .del => held (o.life.map fun ao => ao.a)
  | _ => 0

/-- Events refused and events dropped in a life. -/
def tally (env : Env) (opt : AggregatorOpts) : NObs → List NOp → M (Nat × Nat)
  | _, [] => .ok (0, 0)
  | o, op :: ops => do
    let k ← refusedBy env opt o op
    let o' ← nexec env opt o op
    let (r, d) ← tally env opt o' ops
    .ok (k + r, droppedBy o op + d)

/-- What is known of a name in the middle of a life that brought `b` events, of which `x` were refused or dropped. -/
def Balance (env : Env) (opt : AggregatorOpts) (no : NObs) (b x : Nat) : Prop :=
  match no.life with
  | none => b = logCount no.delivered + x
  | some ao => ∃ B, logCount no.delivered = B + logCount ao.received ∧ b = B + sumCount (ao.accepted.map Prod.snd) + x ∧
      ∃ clk rand ts a0 aops, Aggregator.new opt clk rand ts = .ok a0 ∧
        Aggregator.execAll env { a := a0 } aops = .ok ao ∧ ∀ op ∈ aops, LifeOp op ∧ op.clockOk

theorem logCount_append (l l' : List AggData) : logCount (l ++ l') = logCount l + logCount l' := by
  simp [logCount]

theorem logCount_asReduced (l : List AggData) : logCount (l.map AggData.asReduced) = logCount l := by
  simp [logCount, Function.comp_def, AggData.asReduced]

theorem Balance.held {env : Env} {opt : AggregatorOpts} {no : NObs} {b x : Nat} (hs : 0 < opt.step) (h : Balance env opt no b x) :
    b = logCount no.delivered + held (no.life.map fun ao => ao.a) + x := by
  unfold Balance at h
  cases hl : no.life with
  | none => rw [hl] at h; simpa [Single.held] using h
  | some ao =>
    rw [hl] at h
    obtain ⟨B, h1, h2, clk, rand, ts, a0, aops, h3, h4, h5⟩ := h
    have := C15_aggregator env opt a0 aops ao hs (.new h3) (fun op ho => (h5 op ho).2) h4
    simp only [Option.map_some, Single.held]
    omega

theorem balance_step {env : Env} {opt : AggregatorOpts} {no no' : NObs} {op : NOp} {b x : Nat} (hs : 0 < opt.step)
    (hb : Balance env opt no b x) (hc : op.clockOk) (h : nexec env opt no op = .ok no') :
    ∃ k, refusedBy env opt no op = .ok k ∧ Balance env opt no' (b + op.count) (x + (k + droppedBy no op)) := by
  have one : ∀ {ao ao' : Aggregator.AObs} {y : Aggregator.AOp}, (∃ clk rand ts a0 aops, Aggregator.new opt clk rand ts = .ok a0 ∧
      Aggregator.execAll env { a := a0 } aops = .ok ao ∧ ∀ op ∈ aops, LifeOp op ∧ op.clockOk) →
      Aggregator.exec env ao y = .ok ao' → LifeOp y → y.clockOk → ∃ clk rand ts a0 aops, Aggregator.new opt clk rand ts = .ok a0 ∧
      Aggregator.execAll env { a := a0 } aops = .ok ao' ∧ ∀ op ∈ aops, LifeOp op ∧ op.clockOk := by
    rintro ao ao' y ⟨clk, rand, ts, a0, aops, e1, e2, e3⟩ hx hlx hcx
    refine ⟨clk, rand, ts, a0, aops ++ [y], e1, ?_, ?_⟩
    · unfold Aggregator.execAll at e2 ⊢
      rw [List.foldlM_append, e2]
      simp only [bind_ok', List.foldlM_cons, List.foldlM_nil, hx]
      rfl
    · intro op hop
      rcases List.mem_append.1 hop with h | h
      · exact e3 op h
      · rw [List.mem_singleton.1 h]
        exact ⟨hlx, hcx⟩
  cases op with
  | push v clk rand c1 c2 seen =>
    obtain ⟨ao, g1, h⟩ := bind_inv h
    obtain ⟨⟨ok, out, a2⟩, g2, h⟩ := bind_inv h
    obtain ⟨ao', g3, h⟩ := bind_inv h
    cases h
    have hr : refusedBy env opt no (.push v clk rand c1 c2 seen) = .ok (if ok then 0 else v.count) := by
      simp only [refusedBy, g1, bind_ok', g2]
    refine ⟨_, hr, ?_⟩
    have hbase : ∃ B, logCount no.delivered = B + logCount ao.received ∧ b = B + sumCount (ao.accepted.map Prod.snd) + x ∧
        ∃ clk rand ts a0 aops, Aggregator.new opt clk rand ts = .ok a0 ∧
        Aggregator.execAll env { a := a0 } aops = .ok ao ∧ ∀ op ∈ aops, LifeOp op ∧ op.clockOk := by
      unfold Balance at hb
      cases hl : no.life with
      | some ao0 =>
        rw [hl] at g1 hb
        cases g1
        exact hb
      | none =>
        rw [hl] at g1 hb
        obtain ⟨a0, k1, k2⟩ := Aggregator.map_ok g1
        subst k2
        refine ⟨logCount no.delivered, rfl, by simpa [sumCount] using hb, clk, rand, v.ts, a0, [], k1, rfl, by simp⟩
    obtain ⟨B, i1, i2, i3⟩ := hbase
    have hen : ao.a.enabled = true := by
      obtain ⟨clk', rand', ts', a0, aops, e1, e2, e3⟩ := i3
      exact (clean_execAll aops (clean_new env e1) (fun op ho => (e3 op ho).1) e2).2.2
    have g3' := g3
    simp only [Aggregator.exec, g2, bind_ok'] at g3
    cases g3
    refine ⟨B, ?_, ?_, one i3 g3' rfl hc⟩
    · rw [logCount_append, logCount_asReduced, logCount_append]
      omega
    · simp only [Aggregator.AObs.record, hen, and_true]
      cases ok with
      | true =>
        simp only [if_true, List.map_append, List.map_cons, List.map_nil, sumCount, List.sum_append, List.sum_cons, List.sum_nil, droppedBy, NOp.count]
        simp only [sumCount] at i2
        have : (AddArg.reduced v).count = v.count := rfl
        omega
      | false =>
        simp only [Bool.false_eq_true, if_false, droppedBy, NOp.count]
        omega
  | del =>
    cases h
    refine ⟨0, rfl, ?_⟩
    have := hb.held hs
    show b + 0 = logCount no.delivered + _
    simp only [droppedBy]
    omega
  | pop force =>
    refine ⟨0, rfl, ?_⟩
    simp only [nexec] at h
    cases hl : no.life with
    | none =>
      rw [hl] at h
      cases h
      exact hb
    | some ao =>
      rw [hl] at h
      simp only at h
      obtain ⟨ao', g, h⟩ := bind_inv h
      cases h
      unfold Balance at hb ⊢
      rw [hl] at hb
      obtain ⟨B, i1, i2, i3⟩ := hb
      have hacc : ∃ l, ao'.accepted = ao.accepted ∧ ao'.received = ao.received ++ l := by
        cases force with
        | false =>
          simp only [Bool.false_eq_true, if_false, Aggregator.exec] at g
          cases g
          exact ⟨_, rfl, rfl⟩
        | true =>
          simp only [if_true, Aggregator.exec] at g
          obtain ⟨⟨d, a'⟩, _, g⟩ := bind_inv g
          cases g
          exact ⟨_, rfl, rfl⟩
      obtain ⟨l, l1, l2⟩ := hacc
      refine ⟨B, ?_, ?_, one i3 g (by cases force <;> exact trivial) (by cases force <;> exact trivial)⟩
      · rw [l2, List.drop_left, logCount_append, logCount_append]
        omega
      · rw [l1]
        simp only [NOp.count, droppedBy]
        omega

theorem balance_all {env : Env} {opt : AggregatorOpts} (hs : 0 < opt.step) (ops : List NOp) : ∀ {no no' : NObs} {b x : Nat},
    Balance env opt no b x → (∀ op ∈ ops, op.clockOk) → nexecAll env opt no ops = .ok no' →
    ∃ r d, tally env opt no ops = .ok (r, d) ∧ Balance env opt no' (b + (ops.map NOp.count).sum) (x + (r + d)) := by
  induction ops with
  | nil => intro no no' b x hb _ h; cases h; exact ⟨0, 0, rfl, hb⟩
  | cons op ops ih =>
    intro no no' b x hb hc h
    unfold nexecAll at h
    rw [List.foldlM_cons] at h
    obtain ⟨no1, h1, h2⟩ := bind_inv h
    obtain ⟨k, k1, k2⟩ := balance_step hs hb (hc op (by simp)) h1
    obtain ⟨r, d, j1, j2⟩ := ih k2 (fun o ho => hc o (by simp [ho])) h2
    refine ⟨k + r, droppedBy no op + d, by simp only [tally, k1, h1, j1, bind_ok'], ?_⟩
    rw [List.map_cons, List.sum_cons]
    have e1 : b + (op.count + (ops.map NOp.count).sum) = b + op.count + (ops.map NOp.count).sum := by omega
    have e2 : x + (k + r + (droppedBy no op + d)) = x + (k + droppedBy no op) + (r + d) := by omega
    rw [e1, e2]
    exact j2

end Single

open Single

/-- The events a history brings for a name. -/
def broughtFor (name : Name) (ops : List MOp) : Nat := ((forName name ops).map NOp.count).sum

/-- For every name, whatever the history: the events brought are delivered, held, refused or dropped by `del`. -/
theorem C117_name_partial (env : Env) (hash : Name → Nat) (opt : MultiOpts) (ops : List MOp) (o : MObs) (hs : 0 < opt.step)
    (hz : 0 < opt.hashSize) (hc : ∀ op ∈ ops, op.clockOk) (h : mexecAll env { m := Multi.new hash opt } ops = .ok o) (name : Name) :
    ∃ refused dropped, tally env opt.toAggregatorOpts {} (forName name ops) = .ok (refused, dropped) ∧
      broughtFor name ops = logCount (about name o.delivered) + held (o.m.find name) + refused + dropped := by
  obtain ⟨no, e, e1, _, e3⟩ := C39_sharded env hash opt ops o hz h name
  obtain ⟨r, d, k1, k2⟩ := balance_all hs (forName name ops) (no := {}) (b := 0) (x := 0) rfl (forName_clock hc name) e
  refine ⟨r, d, k1, ?_⟩
  have := k2.held hs
  rw [e1, e3]
  unfold broughtFor
  omega

/-! ### Timestamps -/

theorem finish_ts {E : NthElement} {R : Nat} {d d' : AggData} (h : Aggregator.finish E R d = .ok d') : d'.ts = d.ts := by
  unfold Aggregator.finish at h
  obtain ⟨ag, h1, h⟩ := bind_inv h
  obtain ⟨data, _, h⟩ := bind_inv h
  cases h
  unfold Aggregator.calcPerc at h1
  simp only at h1
  split_ifs at h1
  · obtain ⟨_, _, h1⟩ := bind_inv h1
    obtain ⟨_, _, h1⟩ := bind_inv h1
    obtain ⟨_, _, h1⟩ := bind_inv h1
    obtain ⟨_, _, h1⟩ := bind_inv h1
    obtain ⟨_, _, h1⟩ := bind_inv h1
    cases h1
    rfl
  · cases h1
    rfl

theorem finishAll_ts {E : NthElement} {R : Nat} : ∀ {l l' : List AggData}, l.mapM (Aggregator.finish E R) = .ok l' →
    l'.map (fun d => d.ts) = l.map (fun d => d.ts) := by
  intro l
  induction l with
  | nil => intro l' h; cases h; rfl
  | cons d l ih =>
    intro l' h
    rw [List.mapM_cons] at h
    obtain ⟨d1, h1, h⟩ := bind_inv h
    obtain ⟨l1, h2, h⟩ := bind_inv h
    cases h
    simp [ih h2, finish_ts h1]

/-- What a push with a handler does to the window. -/
theorem push_window {env : Env} {a a' : Aggregator} {c1 c2 ts : Int} {x : AddArg} {ok : Bool} {out : List AggData}
    (hs : 0 < a.sep.step) (he : a.enabled = true) (h : a.push env c1 c2 ts x true = .ok (ok, out, a')) :
    a'.sep.step = a.sep.step ∧ a'.sep.resolution = a.sep.resolution ∧ a'.enabled = true ∧
      (a'.sep.currentTime = a.sep.currentTime ∨ a'.sep.currentTime ≤ a.wanted c2 (a.wanted c1 ts)) ∧
      a.sep.currentTime ≤ a'.sep.currentTime ∧
      (∀ d ∈ out, d.ts = a.sep.currentTime) ∧ out.length ≤ 1 ∧ (ok = false ↔ a.wanted c1 ts < a'.sep.currentTime) := by
  unfold Aggregator.push at h
  rw [if_neg (by simp [he]), if_neg (by simp)] at h
  obtain ⟨⟨ok1, out1, s1⟩, h1, h⟩ := bind_inv h
  obtain ⟨l, h2, h⟩ := bind_inv h
  cases h
  have hts := finishAll_ts h2
  have hlen : out.length = out1.length := by simpa using congrArg List.length hts
  have key : s1.step = a.sep.step ∧ s1.resolution = a.sep.resolution ∧
      (s1.currentTime = a.sep.currentTime ∨ s1.currentTime ≤ a.wanted c2 (a.wanted c1 ts)) ∧
      a.sep.currentTime ≤ s1.currentTime ∧
      (∀ d ∈ out1, d.ts = a.sep.currentTime) ∧ out1.length ≤ 1 ∧ (ok = false ↔ a.wanted c1 ts < s1.currentTime) := by
    unfold Separator.push at h1
    rw [Aggregator.getTs_align hs, bind_ok'] at h1
    obtain ⟨⟨b, out2, s2⟩, h3, h1⟩ := bind_inv h1
    have k : s2.step = a.sep.step ∧ s2.resolution = a.sep.resolution ∧
        (s2.next = a.sep.next ∨ s2.next - a.sep.step ≤ a.wanted c2 (a.wanted c1 ts)) ∧ a.sep.next ≤ s2.next ∧
        (∀ d ∈ out2, d.ts = a.sep.currentTime) ∧ out2.length ≤ 1 := by
      unfold Separator.separate at h3
      rw [Aggregator.getTs_align hs, bind_ok'] at h3
      split_ifs at h3 with h4 h5
      · cases h3
        exact ⟨rfl, rfl, Or.inl rfl, le_refl _, by simp, by simp⟩
      all_goals
        first
        | (exact absurd rfl h5)
        | (obtain ⟨⟨out3, next3, r3⟩, h6, h3⟩ := bind_inv h3
           cases h3
           rw [C115_shortcut_partial env _ _ _ _ hs] at h6
           split_ifs at h6 with h7
           · cases h6
             exact ⟨rfl, rfl, Or.inl rfl, le_refl _, by simp, by simp⟩
           · obtain ⟨⟨d, r4⟩, _, h6⟩ := bind_inv h6
             cases h6
             have hq : 0 ≤ (a.wanted c2 (a.wanted c1 ts) - a.sep.next) / a.sep.step :=
               Int.ediv_nonneg (by unfold Aggregator.wanted; omega) (by omega)
             have hm := Int.mul_ediv_add_emod (a.wanted c2 (a.wanted c1 ts) - a.sep.next) a.sep.step
             have hr := Int.emod_nonneg (a.wanted c2 (a.wanted c1 ts) - a.sep.next) (b := a.sep.step) (by omega)
             refine ⟨rfl, rfl, Or.inr ?_, ?_, ?_, by cases d <;> simp⟩
             · show a.sep.next + ((a.wanted c2 (a.wanted c1 ts) - a.sep.next) / a.sep.step + 1) * a.sep.step - a.sep.step ≤ _
               nlinarith
             · show a.sep.next ≤ a.sep.next + ((a.wanted c2 (a.wanted c1 ts) - a.sep.next) / a.sep.step + 1) * a.sep.step
               nlinarith
             · intro e he
               cases d with
               | none => simp at he
               | some d => simp at he; rw [he]; rfl)
    obtain ⟨k1, k2, k3, k4, k5, k6⟩ := k
    unfold Separator.currentTime at *
    simp only at h1
    split_ifs at h1 with h4
    · cases h1
      rw [k1] at h4 ⊢
      exact ⟨rfl, k2, by rcases k3 with k3 | k3 <;> [left; right] <;> omega, by omega, k5, k6, by simpa [Aggregator.wanted] using h4⟩
    · cases h1
      simp only [k1] at h4 ⊢
      exact ⟨trivial, k2, by rcases k3 with k3 | k3 <;> [left; right] <;> omega, by omega, k5, k6, by simpa [Aggregator.wanted] using h4⟩
  obtain ⟨k1, k2, k3, k4, k5, k6, k7⟩ := key
  refine ⟨k1, k2, he, k3, k4, ?_, by omega, k7⟩
  intro d hd
  have : d.ts ∈ out1.map (fun d => d.ts) := by rw [← hts]; exact List.mem_map_of_mem hd
  obtain ⟨e, e1, e2⟩ := List.mem_map.1 this
  rw [← e2]
  exact k5 e e1

/-- What a step of a life makes of the window: it does not go back, and what is delivered belongs to the window at its start. -/
theorem step_window {env : Env} {opt : AggregatorOpts} {ao ao' : Aggregator.AObs} {y : Aggregator.AOp} (hs : 0 < opt.step)
    (hc : Clean ao.a) (hst : ao.a.sep.step = opt.step) (hy : LifeOp y) (h : Aggregator.exec env ao y = .ok ao') :
    Clean ao'.a ∧ ao'.a.sep.step = opt.step ∧ ao.a.sep.currentTime ≤ ao'.a.sep.currentTime ∧
      (y.event = false → ao'.a.sep.currentTime = ao.a.sep.currentTime) ∧
      ∃ l, ao'.received = ao.received ++ l ∧ (∀ d ∈ l, d.ts = ao.a.sep.currentTime) := by
  refine ⟨clean_exec hc hy h, ?_⟩
  cases y with
  | push c1 c2 ts x hd =>
    have hy : hd = true := hy
    subst hy
    simp only [Aggregator.exec] at h
    obtain ⟨⟨ok, out, a'⟩, h1, h⟩ := bind_inv h
    cases h
    obtain ⟨k1, k2, k3, k4, k5, k6, _⟩ := push_window (by rw [hst]; exact hs) hc.2.2 h1
    exact ⟨k1.trans hst, k5, fun h => (by cases h), out, rfl, k6⟩
  | pop =>
    simp only [Aggregator.exec, Aggregator.pop, hc.1] at h
    cases h
    exact ⟨hst, le_refl _, fun _ => rfl, [], by simp, by simp⟩
  | forcePop =>
    simp only [Aggregator.exec] at h
    obtain ⟨⟨d, a'⟩, h1, h⟩ := bind_inv h
    cases h
    unfold Aggregator.forcePop at h1
    obtain ⟨⟨d1, s1⟩, h2, h1⟩ := bind_inv h1
    have k : s1.step = ao.a.sep.step ∧ s1.next = ao.a.sep.next ∧ ∀ e, d1 = some e → e.ts = ao.a.sep.currentTime := by
      unfold Separator.forcePop Separator.pop at h2
      rw [hc.2.1] at h2
      simp only at h2
      obtain ⟨⟨o, r⟩, _, h2⟩ := bind_inv h2
      cases h2
      refine ⟨rfl, rfl, fun e he => ?_⟩
      cases o with
      | none => cases he
      | some o => cases he; rfl
    obtain ⟨k1, k2, k3⟩ := k
    cases d1 with
    | none =>
      cases h1
      exact ⟨k1.trans hst, by unfold Separator.currentTime; rw [k1, k2], fun _ => by unfold Separator.currentTime; rw [k1, k2], [], by simp, by simp⟩
    | some e =>
      obtain ⟨ag, h3, h1⟩ := bind_inv h1
      cases h1
      refine ⟨k1.trans hst, by unfold Separator.currentTime; rw [k1, k2], fun _ => by unfold Separator.currentTime; rw [k1, k2], [ag], by simp, fun d hd => ?_⟩
      rw [List.mem_singleton.1 hd, finish_ts h3]
      exact k3 e rfl
  | add c1 c2 ts x => exact hy.elim
  | separate c ts hd f => exact hy.elim
  | look => exact hy.elim
  | enable v => exact hy.elim

theorem new_window {opt : AggregatorOpts} {clk rand ts : Int} {a : Aggregator} (hs : 0 < opt.step)
    (h : Aggregator.new opt clk rand ts = .ok a) :
    a.sep.step = opt.step ∧ a.sep.currentTime = align opt.step (meant opt.resolution clk ts) -
      (if opt.soiled ≠ 0 then (Int.bmod (rand * rand) (2 ^ 64)).tmod opt.soiled else 0) := by
  unfold Aggregator.new Separator.new at h
  rw [Separator.getTs_eq (by omega), bind_ok'] at h
  simp only [bind_ok'] at h
  cases h
  refine ⟨rfl, ?_⟩
  simp only [Separator.currentTime]
  split_ifs <;> omega

/-- The state of a life without `del`: nothing waits, what was delivered is in order and not later than the current window. -/
def InOrder (opt : AggregatorOpts) (no : NObs) : Prop :=
  match no.life with
  | none => no.delivered = []
  | some ao => Clean ao.a ∧ ao.a.sep.step = opt.step ∧ no.delivered.Pairwise (fun d d' => d.ts ≤ d'.ts) ∧
      ∀ d ∈ no.delivered, d.ts ≤ ao.a.sep.currentTime

theorem inOrder_more {l l' : List AggData} {t t' : Int} (h1 : l.Pairwise fun d d' => d.ts ≤ d'.ts) (h2 : ∀ d ∈ l, d.ts ≤ t)
    (h3 : ∀ d ∈ l', d.ts = t) (h4 : t ≤ t') :
    (l ++ l').Pairwise (fun d d' => d.ts ≤ d'.ts) ∧ ∀ d ∈ l ++ l', d.ts ≤ t' := by
  refine ⟨List.pairwise_append.2 ⟨h1, ?_, fun a ha b hb => ?_⟩, fun d hd => ?_⟩
  · exact List.Pairwise.imp_of_mem (fun {a b} ha hb _ => by rw [h3 a ha, h3 b hb]) (List.pairwise_of_forall (R := fun _ _ => True) fun _ _ => trivial)
  · have := h2 a ha
    rw [h3 b hb]
    exact this
  · rcases List.mem_append.1 hd with hd | hd
    · have := h2 d hd; omega
    · rw [h3 d hd]; exact h4

theorem inOrder_step {env : Env} {opt : AggregatorOpts} {no no' : NObs} {op : NOp} (hs : 0 < opt.step) (hi : InOrder opt no)
    (hd : op ≠ .del) (h : nexec env opt no op = .ok no') : InOrder opt no' := by
  cases op with
  | del => exact absurd rfl hd
  | push v clk rand c1 c2 seen =>
    obtain ⟨ao, g1, h⟩ := bind_inv h
    obtain ⟨⟨ok, out, a2⟩, g2, h⟩ := bind_inv h
    obtain ⟨ao', g3, h⟩ := bind_inv h
    cases h
    have hb : Clean ao.a ∧ ao.a.sep.step = opt.step ∧ no.delivered.Pairwise (fun d d' => d.ts ≤ d'.ts) ∧
        ∀ d ∈ no.delivered, d.ts ≤ ao.a.sep.currentTime := by
      unfold InOrder at hi
      cases hl : no.life with
      | some ao0 => rw [hl] at g1 hi; cases g1; exact hi
      | none =>
        rw [hl] at g1 hi
        obtain ⟨a0, k1, k2⟩ := Aggregator.map_ok g1
        subst k2
        simp only at hi
        rw [hi]
        exact ⟨clean_new env k1, (new_window hs k1).1, List.Pairwise.nil, by simp⟩
    obtain ⟨i1, i2, i3, i4⟩ := hb
    have g4 := g3
    simp only [Aggregator.exec, g2, bind_ok'] at g4
    cases g4
    obtain ⟨j1, j2, j3, j6, l, j4, j5⟩ := step_window (y := .push c1 c2 v.ts (.reduced v) true) hs i1 i2 rfl g3
    have : l = out := by simpa using j4.symm
    subst this
    obtain ⟨k1, k2⟩ := inOrder_more (l' := l.map AggData.asReduced) i3 i4 (by
      intro d hd
      obtain ⟨e, e1, rfl⟩ := List.mem_map.1 hd
      exact j5 e e1) j3
    exact ⟨j1, j2, k1, k2⟩
  | pop force =>
    simp only [nexec] at h
    cases hl : no.life with
    | none => rw [hl] at h; cases h; exact hi
    | some ao =>
      rw [hl] at h
      simp only at h
      obtain ⟨ao', g, h⟩ := bind_inv h
      cases h
      unfold InOrder at hi
      rw [hl] at hi
      obtain ⟨i1, i2, i3, i4⟩ := hi
      obtain ⟨j1, j2, j3, j6, l, j4, j5⟩ := step_window hs i1 i2 (by cases force <;> exact trivial) g
      rw [j4, List.drop_left]
      obtain ⟨k1, k2⟩ := inOrder_more i3 i4 j5 j3
      exact ⟨j1, j2, k1, k2⟩

theorem inOrder_all {env : Env} {opt : AggregatorOpts} (hs : 0 < opt.step) (ops : List NOp) : ∀ {no no' : NObs}, InOrder opt no →
    (∀ op ∈ ops, op ≠ .del) → nexecAll env opt no ops = .ok no' → InOrder opt no' := by
  induction ops with
  | nil => intro no no' hi _ h; cases h; exact hi
  | cons op ops ih =>
    intro no no' hi hd h
    unfold nexecAll at h
    rw [List.foldlM_cons] at h
    obtain ⟨no1, h1, h2⟩ := bind_inv h
    exact ih (inOrder_step hs hi (hd op (by simp)) h1) (fun o ho => hd o (by simp [ho])) h2

/-! ### Who comes in order is not refused -/

/-- The timestamps of the pushes of a life. -/
def stamps (ops : List NOp) : List Int :=
  ops.filterMap fun op => match op with
    | .push v _ _ _ _ _ => some v.ts
    | _ => none

/-- What `std::rand` returned. -/
def _root_.Wrtstat.Single.NOp.randOk : NOp → Prop
  | .push _ _ rand _ _ _ => 0 ≤ rand ∧ rand < 2 ^ 31
  | _ => True

theorem soil_nonneg {soiled rand : Int} (h0 : 0 ≤ rand) (h1 : rand < 2 ^ 31) :
    0 ≤ if soiled ≠ 0 then (Int.bmod (rand * rand) (2 ^ 64)).tmod soiled else 0 := by
  have h2 : rand * rand < 2 ^ 62 := by nlinarith
  have h3 : 0 ≤ rand * rand := by nlinarith
  have : Int.bmod (rand * rand) (2 ^ 64) = rand * rand := by
    rw [Int.bmod_def]
    norm_num at h2 ⊢
    rw [Int.emod_eq_of_lt h3 (by omega), if_pos (by omega)]
  rw [this]
  split_ifs
  · exact Int.tmod_nonneg _ h3
  · exact le_refl _

theorem wanted_twice {a : Aggregator} {c1 c2 t : Int} (hs : 0 < a.sep.step) (ht : a.sep.step ≤ t) :
    a.wanted c1 t = align a.sep.step t ∧ a.wanted c2 (a.wanted c1 t) = align a.sep.step t := by
  have h1 : a.wanted c1 t = align a.sep.step t := by
    unfold Aggregator.wanted meant
    rw [if_neg (by omega)]
  have h2 : a.sep.step ≤ align a.sep.step t := by
    have := align_mono hs ht
    unfold align at this ⊢
    rwa [Int.tdiv_self (by omega), one_mul] at this
  refine ⟨h1, ?_⟩
  rw [h1]
  unfold Aggregator.wanted meant
  rw [if_neg (by omega)]
  unfold align
  rw [Int.mul_tdiv_cancel _ (by omega)]

theorem none_refused {env : Env} {opt : AggregatorOpts} (hs : 0 < opt.step) (ops : List NOp) : ∀ {no no' : NObs},
    (∀ ao, no.life = some ao → Clean ao.a ∧ ao.a.sep.step = opt.step ∧
      ∀ t ∈ stamps ops, ao.a.sep.currentTime ≤ align opt.step t) →
    (stamps ops).Pairwise (· ≤ ·) → (∀ t ∈ stamps ops, opt.step ≤ t) → (∀ op ∈ ops, op.randOk) →
    nexecAll env opt no ops = .ok no' → ∃ d, tally env opt no ops = .ok (0, d) := by
  induction ops with
  | nil => intro no no' _ _ _ _ _; exact ⟨0, rfl⟩
  | cons op ops ih =>
    intro no no' hi hp ht hr h
    unfold nexecAll at h
    rw [List.foldlM_cons] at h
    obtain ⟨no1, h1, h2⟩ := bind_inv h
    have hr' : ∀ op ∈ ops, op.randOk := fun o ho => hr o (by simp [ho])
    cases op with
    | del =>
      obtain ⟨d, e⟩ := ih (no := no1) (by cases h1; intro ao hao; cases hao) hp ht hr' h2
      exact ⟨droppedBy no .del + d, by simp only [tally, refusedBy, h1, e, bind_ok', Nat.add_zero]⟩
    | pop force =>
      obtain ⟨d, e⟩ := ih (no := no1) (by
        intro ao' hao
        simp only [nexec] at h1
        cases hl : no.life with
        | none => rw [hl] at h1; cases h1; rw [hl] at hao; cases hao
        | some ao =>
          rw [hl] at h1
          simp only at h1
          obtain ⟨ao1, g, h1⟩ := bind_inv h1
          cases h1
          cases hao
          obtain ⟨i1, i2, i3⟩ := hi ao hl
          obtain ⟨j1, j2, j3, j6, l, j4, j5⟩ := step_window hs i1 i2 (by cases force <;> exact trivial) g
          refine ⟨j1, j2, fun t htt => ?_⟩
          rw [j6 (by cases force <;> rfl)]
          exact i3 t htt) hp ht hr' h2
      exact ⟨droppedBy no (.pop force) + d, by simp only [tally, refusedBy, h1, e, bind_ok', Nat.add_zero]⟩
    | push v clk rand c1 c2 seen =>
      have hst : stamps (.push v clk rand c1 c2 seen :: ops) = v.ts :: stamps ops := rfl
      rw [hst] at hi hp ht
      obtain ⟨hp1, hp2⟩ := List.pairwise_cons.1 hp
      have hv := ht v.ts (by simp)
      obtain ⟨ao, g1, h3⟩ := bind_inv h1
      obtain ⟨⟨ok, out, a2⟩, g2, h3⟩ := bind_inv h3
      obtain ⟨ao', g3, h3⟩ := bind_inv h3
      have hb : Clean ao.a ∧ ao.a.sep.step = opt.step ∧ ao.a.sep.currentTime ≤ align opt.step v.ts := by
        cases hl : no.life with
        | some ao0 =>
          rw [hl] at g1
          cases g1
          obtain ⟨i1, i2, i3⟩ := hi ao hl
          exact ⟨i1, i2, i3 _ (by simp)⟩
        | none =>
          rw [hl] at g1
          obtain ⟨a0, k1, k2⟩ := Aggregator.map_ok g1
          subst k2
          obtain ⟨w1, w2⟩ := new_window hs k1
          refine ⟨clean_new env k1, w1, ?_⟩
          have hr0 := hr _ (List.mem_cons_self ..)
          have := soil_nonneg (soiled := opt.soiled) hr0.1 hr0.2
          have hm : meant opt.resolution clk v.ts = v.ts := by unfold meant; rw [if_neg (by omega)]
          rw [hm] at w2
          show a0.sep.currentTime ≤ _
          omega
      obtain ⟨i1, i2, i3⟩ := hb
      obtain ⟨w1, w2, w3, w4, w5, _, _, w8⟩ := push_window (by rw [i2]; exact hs) i1.2.2 g2
      obtain ⟨x1, x2⟩ := wanted_twice (a := ao.a) (c1 := c1) (c2 := c2) (t := v.ts) (by rw [i2]; exact hs) (by rw [i2]; exact hv)
      rw [x2, i2] at w4
      rw [x1, i2] at w8
      have hcur : a2.sep.currentTime ≤ align opt.step v.ts := by rcases w4 with w4 | w4 <;> omega
      have hok : ok = true := by
        cases ok with
        | true => rfl
        | false => have := w8.1 rfl; omega
      subst hok
      have g4 := g3
      simp only [Aggregator.exec, g2, bind_ok'] at g4
      cases g4
      cases h3
      obtain ⟨j1, j2, _⟩ := step_window (y := .push c1 c2 v.ts (.reduced v) true) hs i1 i2 rfl g3
      obtain ⟨d, e⟩ := ih (no := _) (by
        intro ao1 hao
        cases hao
        refine ⟨j1, j2, fun t htt => ?_⟩
        have h5 := hp1 t htt
        have := align_mono hs h5
        show a2.sep.currentTime ≤ _
        omega) hp2 (fun t htt => ht t (by simp [htt])) hr' h2
      exact ⟨droppedBy no (.push v clk rand c1 c2 seen) + d, by
        simp only [tally, refusedBy, g1, g2, h1, e, bind_ok', if_true]⟩

/-! ### The relay -/

/-- The requests of an operation. -/
def fedOf : MOp → List (Name × ReducedData)
  | .push p _ => [(p.name, p.v)]
  | .multiPush ps _ => ps.map fun p => (p.name, p.v)
  | _ => []

/-- The requests of a history. -/
def fed (ops : List MOp) : List (Name × ReducedData) := ops.flatMap fedOf

theorem counts_fedOf (name : Name) (op : MOp) :
    ((op.forName name).map NOp.count).sum = ((about name (fedOf op)).map fun v => v.count).sum := by
  cases op with
  | push p h =>
    by_cases hn : p.name = name <;> simp [MOp.forName, fedOf, about, hn, NOp.count]
  | multiPush ps h =>
    simp only [MOp.forName, fedOf, about]
    induction ps with
    | nil => rfl
    | cons p ps ih => by_cases hn : p.name = name <;> simp_all [NOp.count]
  | del n => by_cases hn : n = name <;> simp [MOp.forName, fedOf, about, hn, NOp.count]
  | pushout f h o => simp [MOp.forName, fedOf, about, NOp.count]

theorem broughtFor_fed (name : Name) (ops : List MOp) :
    broughtFor name ops = ((about name (fed ops)).map fun v => v.count).sum := by
  unfold broughtFor
  induction ops with
  | nil => rfl
  | cons op ops ih =>
    have e : fed (op :: ops) = fedOf op ++ fed ops := rfl
    have e' : forName name (op :: ops) = op.forName name ++ forName name ops := rfl
    rw [e, e', about_append, List.map_append, List.map_append, List.sum_append, List.sum_append, ih, counts_fedOf]

theorem stamps_fedOf (name : Name) (op : MOp) : stamps (op.forName name) = (about name (fedOf op)).map fun v => v.ts := by
  cases op with
  | push p h =>
    by_cases hn : p.name = name <;> simp [MOp.forName, fedOf, about, hn, stamps]
  | multiPush ps h =>
    simp only [MOp.forName, fedOf, about, stamps]
    induction ps with
    | nil => rfl
    | cons p ps ih => by_cases hn : p.name = name <;> simp_all
  | del n => by_cases hn : n = name <;> simp [MOp.forName, fedOf, about, hn, stamps]
  | pushout f h o => simp [MOp.forName, fedOf, about, stamps]

theorem stamps_fed (name : Name) (ops : List MOp) :
    stamps (forName name ops) = (about name (fed ops)).map fun v => v.ts := by
  induction ops with
  | nil => rfl
  | cons op ops ih =>
    have e : fed (op :: ops) = fedOf op ++ fed ops := rfl
    have e' : forName name (op :: ops) = op.forName name ++ forName name ops := rfl
    rw [e, e', about_append, List.map_append, ← ih, ← stamps_fedOf]
    exact List.filterMap_append ..

/-- A record handed to a handler, as it is pushed into a packer. -/
def asRequest (r : PushReq) : PushRequest := { name := r.1, ag := r.2 }

/-- A request received, as it is pushed into a multi aggregator. -/
def asFed (p : PushRequest) : Name × ReducedData := (p.name, p.ag.toReducedData)

/-- Two multi aggregators, and the packer and the text between them. -/
structure Relay where
  env1 : Env
  env2 : Env
  T : JsonText
  J : Json
  W : Wjson
  hash1 : Name → Nat
  hash2 : Name → Nat
  opt1 : MultiOpts
  opt2 : MultiOpts
  popt : PackerOpts
  handler : Bool
  compact : Bool
  /-- What is called on the first multi aggregator. -/
  ops1 : List MOp
  /-- What is called on the packer. -/
  pops : List PackOp
  /-- What is called on the second multi aggregator. -/
  ops2 : List MOp

/-- A run: everything the first hands over is pushed into the packer, every batch of the packer is sent, and everything that is
received is pushed into the second. -/
structure Relay.Run (R : Relay) (o1 o2 : MObs) (p : PObs) (datas : List (List PushRequest)) : Prop where
  step1 : 0 < R.opt1.step
  step2 : 0 < R.opt2.step
  shards1 : 0 < R.opt1.hashSize
  shards2 : 0 < R.opt2.hashSize
  clock1 : ∀ op ∈ R.ops1, op.clockOk
  clock2 : ∀ op ∈ R.ops2, op.clockOk
  first : mexecAll R.env1 { m := Multi.new R.hash1 R.opt1 } R.ops1 = .ok o1
  packer : pexecAll R.J { pk := Packer.new R.popt R.handler } R.pops = .ok p
  batched : ∀ op ∈ R.pops, PackOp.batched op
  legends : ∀ b ∈ p.batches, b.legend.length ≤ 2 ^ 64
  range : ∀ q ∈ p.pushed, q.InRange
  packed : p.pushed = o1.delivered.map asRequest
  sent : p.batches.map (fun b => receive R.T R.W R.compact (sendText R.T R.compact b)) = datas.map some
  received : fed R.ops2 = datas.flatten.map asFed
  second : mexecAll R.env2 { m := Multi.new R.hash2 R.opt2 } R.ops2 = .ok o2

/-- If the first multi aggregator takes every event of a name, none is lost on the way. -/
def C117_FullClaim : Prop :=
  ∀ (R : Relay) (o1 o2 : MObs) (p : PObs) (datas : List (List PushRequest)), R.Run o1 o2 p datas → ∀ name : Name,
    MOp.del name ∉ R.ops1 → MOp.del name ∉ R.ops2 →
    tally R.env1 R.opt1.toAggregatorOpts {} (forName name R.ops1) = .ok (0, 0) →
    broughtFor name R.ops1 = logCount (about name o2.delivered) + held (o2.m.find name) +
      logCount ((ofName name p.pk.contents).map fun q => q.ag) + held (o1.m.find name)

theorem popped_nil {J : Json} (ops : List PackOp) : ∀ {o o' : PObs}, (∀ op ∈ ops, PackOp.batched op) → pexecAll J o ops = .ok o' →
    o'.popped = o.popped := by
  induction ops with
  | nil => intro o o' _ h; cases h; rfl
  | cons op ops ih =>
    intro o o' hb h
    obtain ⟨o1, h1, h2⟩ := bind_inv h
    rw [ih (fun x hx => hb x (by simp [hx])) h2]
    have := hb op (by simp)
    cases op with
    | popSize n => exact this.elim
    | push req => obtain ⟨_, _, h1⟩ := bind_inv h1; cases h1; rfl
    | multiPush m => obtain ⟨_, _, h1⟩ := bind_inv h1; cases h1; rfl
    | multiPop => obtain ⟨_, _, h1⟩ := bind_inv h1; cases h1; rfl
    | pushout => obtain ⟨_, _, h1⟩ := bind_inv h1; cases h1; rfl

theorem Relay.Run.delivers {R : Relay} {o1 o2 : MObs} {p : PObs} {datas : List (List PushRequest)} (r : R.Run o1 o2 p datas) :
    List.Forall₂ (Restores R.W) p.batches datas ∧ (datas.flatten ++ p.pk.contents).Perm p.pushed := by
  obtain ⟨ds, h1, h2⟩ := C43_conserved R.J R.W R.popt R.handler R.pops p r.packer r.legends
  have hm : ∀ l ∈ ds, ∀ q ∈ l, q.InRange := fun l hl q hq =>
    r.range q (h2.subset (by simp only [List.mem_append, List.mem_flatten]; exact .inl (.inl ⟨l, hl, hq⟩)))
  have e : p.batches.map (fun b => receive R.T R.W R.compact (sendText R.T R.compact b)) = ds.map some := by
    have hbs : ∀ (bs : List MultiPush) (ds : List (List PushRequest)), List.Forall₂ (Restores R.W) bs ds →
        (∀ l ∈ ds, ∀ q ∈ l, q.InRange) →
        bs.map (fun b => receive R.T R.W R.compact (sendText R.T R.compact b)) = ds.map some := by
      intro bs ds h
      induction h with
      | nil => exact fun _ => rfl
      | cons h1 _ ih =>
        intro hm
        rw [List.map_cons, List.map_cons, receive_sent R.T R.W R.compact h1 (hm _ (by simp)), ih fun l hl => hm l (by simp [hl])]
    exact hbs _ _ h1 hm
  rw [r.sent] at e
  have : datas = ds := (List.map_injective_iff.2 (Option.some_injective _)) e
  subst this
  rw [popped_nil _ r.batched r.packer, List.append_nil] at h2
  exact ⟨h1, h2⟩

theorem about_asFed (name : Name) (l : List PushRequest) :
    about name (l.map asFed) = (ofName name l).map fun q => q.ag.toReducedData := by
  unfold about ofName
  rw [List.filter_map, List.map_map]
  rfl

theorem ofName_asRequest (name : Name) (l : List PushReq) :
    (ofName name (l.map asRequest)).map (fun q => q.ag) = about name l := by
  unfold about ofName
  rw [List.filter_map, List.map_map]
  rfl

/-- The books of the relay: every event of a name brought to the first multi aggregator is delivered, held, refused or dropped by
the second, in the packer, or held, refused or dropped by the first. -/
theorem C117_counts_partial (R : Relay) (o1 o2 : MObs) (p : PObs) (datas : List (List PushRequest)) (r : R.Run o1 o2 p datas)
    (name : Name) :
    ∃ refused1 dropped1 refused2 dropped2,
      tally R.env1 R.opt1.toAggregatorOpts {} (forName name R.ops1) = .ok (refused1, dropped1) ∧
      tally R.env2 R.opt2.toAggregatorOpts {} (forName name R.ops2) = .ok (refused2, dropped2) ∧
      broughtFor name R.ops1 = logCount (about name o2.delivered) + held (o2.m.find name) + refused2 + dropped2 +
        logCount ((ofName name p.pk.contents).map fun q => q.ag) + held (o1.m.find name) + refused1 + dropped1 := by
  obtain ⟨r1, d1, e1, e2⟩ := C117_name_partial R.env1 R.hash1 R.opt1 R.ops1 o1 r.step1 r.shards1 r.clock1 r.first name
  obtain ⟨r2, d2, e3, e4⟩ := C117_name_partial R.env2 R.hash2 R.opt2 R.ops2 o2 r.step2 r.shards2 r.clock2 r.second name
  refine ⟨r1, d1, r2, d2, e1, e3, ?_⟩
  rw [broughtFor_fed name R.ops2, r.received, about_asFed] at e4
  have h2 := (r.delivers.2.filter fun q => decide (q.name = name)).map fun q => q.ag
  rw [List.filter_append, List.map_append, r.packed] at h2
  have h3 : List.Perm ((ofName name datas.flatten).map (fun q => q.ag) ++ (ofName name p.pk.contents).map (fun q => q.ag))
      ((ofName name (o1.delivered.map asRequest)).map (fun q => q.ag)) := h2
  rw [ofName_asRequest] at h3
  have h4 := (h3.map fun d => d.count).sum_eq
  rw [List.map_append, List.sum_append] at h4
  have h5 : ((ofName name datas.flatten).map fun q => q.ag.toReducedData).map (fun v => v.count) =
      ((ofName name datas.flatten).map fun q => q.ag).map fun d => d.count := by
    rw [List.map_map, List.map_map]
    rfl
  rw [h5] at e4
  unfold logCount at *
  omega

/-- The claim holds for a name exactly if the second refuses nothing. -/
theorem C117_exact_partial (R : Relay) (o1 o2 : MObs) (p : PObs) (datas : List (List PushRequest)) (r : R.Run o1 o2 p datas)
    (name : Name) (dropped2 refused2 : Nat)
    (h1 : tally R.env1 R.opt1.toAggregatorOpts {} (forName name R.ops1) = .ok (0, 0))
    (h2 : tally R.env2 R.opt2.toAggregatorOpts {} (forName name R.ops2) = .ok (refused2, dropped2)) :
    broughtFor name R.ops1 = logCount (about name o2.delivered) + held (o2.m.find name) +
      logCount ((ofName name p.pk.contents).map fun q => q.ag) + held (o1.m.find name) ↔ refused2 = 0 ∧ dropped2 = 0 := by
  obtain ⟨r1, d1, r2, d2, e1, e2, e3⟩ := C117_counts_partial R o1 o2 p datas r name
  rw [h1] at e1
  rw [h2] at e2
  cases e1
  cases e2
  omega

/-- A name that is not deleted is reported in order. -/
theorem delivered_inOrder {env : Env} {hash : Name → Nat} {opt : MultiOpts} {ops : List MOp} {o : MObs} (hs : 0 < opt.step)
    (hz : 0 < opt.hashSize) (h : mexecAll env { m := Multi.new hash opt } ops = .ok o) {name : Name} (hd : MOp.del name ∉ ops) :
    (about name o.delivered).Pairwise fun d d' => d.ts ≤ d'.ts := by
  obtain ⟨no, e, e1, _, _⟩ := C39_sharded env hash opt ops o hz h name
  have hi := inOrder_all hs (forName name ops) (no := {}) (by rfl) (by
    intro op hop
    obtain ⟨mop, m1, m2⟩ := List.mem_flatMap.1 hop
    rintro rfl
    cases mop with
    | push q h => by_cases hn : q.name = name <;> simp [MOp.forName, hn] at m2
    | multiPush ps h => simp [MOp.forName] at m2
    | del n =>
      by_cases hn : n = name
      · subst hn; exact hd m1
      · simp [MOp.forName, hn] at m2
    | pushout f h o => simp [MOp.forName] at m2) e
  rw [e1]
  unfold InOrder at hi
  cases hl : no.life with
  | none => rw [hl] at hi; simp only at hi; rw [hi]; exact List.Pairwise.nil
  | some ao => rw [hl] at hi; exact hi.2.2.1

/-- `std::rand` in the second multi aggregator. -/
def MOp.randOk : MOp → Prop
  | .push p _ => 0 ≤ p.rand ∧ p.rand < 2 ^ 31
  | .multiPush ps _ => ∀ p ∈ ps, 0 ≤ p.rand ∧ p.rand < 2 ^ 31
  | _ => True

/-- Of a name of which the packer never holds two records the second multi aggregator refuses none. -/
theorem C117_spaced_partial (R : Relay) (o1 o2 : MObs) (p : PObs) (datas : List (List PushRequest)) (r : R.Run o1 o2 p datas)
    (name : Name) (hd : MOp.del name ∉ R.ops1) (hr : ∀ op ∈ R.ops2, MOp.randOk op)
    (ht : ∀ d ∈ about name o1.delivered, R.opt2.step ≤ d.ts)
    (hn : ∀ k o', pexecAll R.J { pk := Packer.new R.popt R.handler } (R.pops.take k) = .ok o' →
      (ofName name o'.pk.contents).length ≤ 1) :
    ∃ dropped2, tally R.env2 R.opt2.toAggregatorOpts {} (forName name R.ops2) = .ok (0, dropped2) := by
  obtain ⟨no, e, _, _, _⟩ := C39_sharded R.env2 R.hash2 R.opt2 R.ops2 o2 r.shards2 r.second name
  have h1 := C116_spaced_partial R.J R.W R.popt R.handler R.pops p datas name r.batched r.packer r.delivers.1 r.legends hn
  have h2 := delivered_inOrder r.step1 r.shards1 r.first hd
  have h3 : about name (fed R.ops2) = (ofName name datas.flatten).map fun q => q.ag.toReducedData := by
    rw [r.received, about_asFed]
  have h4 : (ofName name datas.flatten).map (fun q => q.ag) ++ (ofName name p.pk.contents).map (fun q => q.ag) = about name o1.delivered := by
    rw [← List.map_append, h1, r.packed, ofName_asRequest]
  have h5 : stamps (forName name R.ops2) = ((ofName name datas.flatten).map fun q => q.ag).map fun d => d.ts := by
    rw [stamps_fed, h3, List.map_map, List.map_map]
    rfl
  refine none_refused r.step2 (forName name R.ops2) (by intro ao h; cases h) ?_ ?_ ?_ e
  · rw [h5, List.pairwise_map]
    rw [← h4] at h2
    exact (List.pairwise_append.1 h2).1
  · intro t htt
    rw [h5] at htt
    obtain ⟨d, d1, rfl⟩ := List.mem_map.1 htt
    exact ht d (by rw [← h4]; exact List.mem_append_left _ d1)
  · intro op hop
    obtain ⟨mop, m1, m2⟩ := List.mem_flatMap.1 hop
    have hm := hr mop m1
    cases mop with
    | push q h =>
      by_cases hn : q.name = name
      · simp only [MOp.forName, hn, if_true, List.mem_singleton] at m2
        rw [m2]
        exact hm
      · simp [MOp.forName, hn] at m2
    | multiPush ps h =>
      simp only [MOp.forName, List.mem_map, List.mem_filter] at m2
      obtain ⟨q, ⟨q1, _⟩, rfl⟩ := m2
      exact hm q q1
    | del n =>
      by_cases hn : n = name
      · simp only [MOp.forName, hn, if_true, List.mem_singleton] at m2
        rw [m2]
        exact trivial
      · simp [MOp.forName, hn] at m2
    | pushout f h o =>
      simp only [MOp.forName, List.mem_singleton] at m2
      rw [m2]
      exact trivial

/-! ### A record overtaken -/

namespace ExRelay

open ExMulti (na opt red arg)

/-- Three windows: one event, two events, one event. -/
def ops1 : List MOp := [.push (arg na 1003 [5]) true, .push (arg na 1012 [6, 7]) true, .push (arg na 1023 [8]) true]

/-- The records of the first two windows. -/
def d1 : AggData := { data := [5], avg := 5, count := 1, lossy := 0, min := 5, max := 5, ts := 1000 }
def d2 : AggData := { data := [6, 7], avg := 6, count := 2, lossy := 0, min := 6, max := 7, ts := 1010 }

/-- `one` takes both records before it sends, otherwise every record is sent at once. -/
def relay (one : Bool) : Relay :=
  { env1 := exactEnv, env2 := exactEnv, T := exText, J := exJson, W := exWjson
    hash1 := fun _ => 0, hash2 := fun _ => 1, opt1 := opt, opt2 := opt, popt := {}, handler := true, compact := false
    ops1 := ops1
    pops := if one then [.push (asRequest (na, d1)), .push (asRequest (na, d2)), .multiPop]
      else [.push (asRequest (na, d1)), .multiPop, .push (asRequest (na, d2)), .multiPop]
    ops2 := if one then [.multiPush [{ name := na, v := d2.toReducedData }, { name := na, v := d1.toReducedData }] true]
      else [.multiPush [{ name := na, v := d1.toReducedData }] true, .multiPush [{ name := na, v := d2.toReducedData }] true] }

def datas (one : Bool) : List (List PushRequest) :=
  if one then [[asRequest (na, d2), asRequest (na, d1)]] else [[asRequest (na, d1)], [asRequest (na, d2)]]

theorem runs (one : Bool) : (match (do
      let o1 ← mexecAll exactEnv { m := Multi.new (relay one).hash1 opt } (relay one).ops1
      let p ← pexecAll exJson { pk := Packer.new {} true } (relay one).pops
      let o2 ← mexecAll exactEnv { m := Multi.new (relay one).hash2 opt } (relay one).ops2
      .ok (o1, p, o2) : M (MObs × PObs × MObs)) with
    | .ok (o1, p, o2) => decide (o1.delivered = [(na, d1), (na, d2)] ∧ p.pushed = [asRequest (na, d1), asRequest (na, d2)] ∧
        p.batches.map (fun b => b.legend) = p.batches.map (fun _ => []) ∧ p.pk.contents = [] ∧
        p.batches.map (fun b => receive exText exWjson false (sendText exText false b)) = (datas one).map some ∧
        logCount (about na o2.delivered) = (if one then 0 else 1) ∧ held (o2.m.find na) = 2 ∧ held (o1.m.find na) = 1)
    | .error _ => false) = true := by
  cases one <;> decide +kernel

theorem run (one : Bool) : ∃ o1 o2 p, (relay one).Run o1 o2 p (datas one) ∧ p.pk.contents = [] ∧
    logCount (about na o2.delivered) = (if one then 0 else 1) ∧ held (o2.m.find na) = 2 ∧ held (o1.m.find na) = 1 := by
  have hw := runs one
  split at hw
  · rename_i o1 p o2 hrun
    simp only [decide_eq_true_eq] at hw
    obtain ⟨w1, w2, w3, w4, w5, w6, w7, w8⟩ := hw
    obtain ⟨o1', r1, hrun⟩ := bind_inv hrun
    obtain ⟨p', r2, hrun⟩ := bind_inv hrun
    obtain ⟨o2', r3, hrun⟩ := bind_inv hrun
    cases hrun
    refine ⟨o1, o2, p, ?_, w4, w6, w7, w8⟩
    refine { step1 := (by show (0 : Int) < opt.step; decide), step2 := (by show (0 : Int) < opt.step; decide),
             shards1 := (by show 0 < opt.hashSize; decide), shards2 := (by show 0 < opt.hashSize; decide),
             clock1 := ?_, clock2 := ?_, first := r1, packer := r2, batched := ?_, legends := ?_, range := ?_,
             packed := ?_, sent := w5, received := ?_, second := r3 }
    · intro op hop
      simp only [relay, ops1, List.mem_cons, List.not_mem_nil, or_false] at hop
      rcases hop with rfl | rfl | rfl <;> exact ⟨by decide, by decide⟩
    · intro op hop
      cases one
      · simp only [relay, Bool.false_eq_true, if_false, List.mem_cons, List.not_mem_nil, or_false] at hop
        rcases hop with rfl | rfl <;> simp [MOp.clockOk]
      · simp only [relay, if_true, List.mem_cons, List.not_mem_nil, or_false] at hop
        subst hop
        simp [MOp.clockOk]
    · intro op hop
      cases one
      · simp only [relay, Bool.false_eq_true, if_false, List.mem_cons, List.not_mem_nil, or_false] at hop
        rcases hop with rfl | rfl | rfl | rfl <;> exact trivial
      · simp only [relay, if_true, List.mem_cons, List.not_mem_nil, or_false] at hop
        rcases hop with rfl | rfl | rfl <;> exact trivial
    · intro b hb
      have := List.map_inj_left.1 w3 b hb
      rw [this]
      decide
    · intro q hq
      rw [w2] at hq
      simp only [List.mem_cons, List.not_mem_nil, or_false] at hq
      rcases hq with rfl | rfl <;> constructor <;> decide
    · rw [w2, w1]
      rfl
    · cases one <;> rfl
  · cases hw

end ExRelay

theorem C117_refuted : ¬ C117_FullClaim := by
  intro H
  obtain ⟨o1, o2, p, r, h1, h2, h3, h4⟩ := ExRelay.run true
  have := H (ExRelay.relay true) o1 o2 p _ r ExMulti.na (by simp [ExRelay.relay, ExRelay.ops1]) (by simp [ExRelay.relay])
    (by decide +kernel)
  rw [h1, h2, h3, h4] at this
  revert this
  decide +kernel

/-- Records sent one by one: nothing is refused. -/
example : ∃ o1 o2 p, (ExRelay.relay false).Run o1 o2 p (ExRelay.datas false) ∧
    (∃ d, tally exactEnv ExMulti.opt.toAggregatorOpts {} (forName ExMulti.na (ExRelay.relay false).ops2) = .ok (0, d)) ∧
    broughtFor ExMulti.na ExRelay.ops1 = 4 ∧ logCount (about ExMulti.na o2.delivered) = 1 ∧ held (o2.m.find ExMulti.na) = 2 ∧
      held (o1.m.find ExMulti.na) = 1 := by
  obtain ⟨o1, o2, p, r, h1, h2, h3, h4⟩ := ExRelay.run false
  exact ⟨o1, o2, p, r, ⟨0, by decide +kernel⟩, by decide +kernel, h2, h3, h4⟩

end Wrtstat
