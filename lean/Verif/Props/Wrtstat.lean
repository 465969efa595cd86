/-
Properties of the wrtstat object (C35, C36, C38, C61, C62).
-/
import Verif.Lemmas.Wrtstat
import Verif.Model.Instances

namespace Wrtstat
namespace Wrt

open Registry (RegOp RObs rexecAll Room RInv forRef)
open Aggregator (AOp AObs Trans)

variable {env : Env} {opt : WOpts} {ops ops' : List WOp} {o o' : WObs} {n : Nat} {w1 : Wrt}

/-! ### C35 -/

/-- For every history of an object with a handler, destroyed at clock readings `clk`, and every live
name whose aggregator satisfies `P`: everything the aggregator accepted since it was built has been
delivered, that is, splits into groups, one for each record received during the history or handed
over by the destructor, which reports it. -/
def DestructionReports (env : Env) (P : WOpts → Int → Cell → Prop) : Prop :=
  ∀ (opt : WOpts) (ops : List WOp) (o : WObs) (ro : RObs) (clk : Nat → Int) (l : List (Name × AggData)),
    opt.handler = true → 0 < opt.step → Room opt.toRegistryOpts (regHist ops).length →
    (∀ op ∈ regHist ops, op.idOk opt.toRegistryOpts) → wexecAll env { w := Wrt.new opt } ops = .ok o →
    rexecAll env { r := Registry.new opt.toRegistryOpts } (regHist ops) = .ok ro →
    (∀ x ∈ ro.asked, x.2.clockOk ∧ x.2.sepHandler = false) → (∀ id, 0 ≤ clk id) →
    o.w.destroy env clk = .ok l →
    ∀ (name : Name) (id : Nat) (c : Cell) (k rand now : Int) (a0 : Aggregator) (ao : AObs), name ≠ [] →
      o.w.reg.getName id = name → o.w.reg.cellOf name = some c → P opt (clk id) c →
      Aggregator.new opt.toAggregatorOpts k rand now = .ok a0 →
      Aggregator.execAll env { a := a0 } (forRef c.ref ro.asked) = .ok ao → ao.a = c.agg →
      ao.received = forRef c.ref ro.received →
      ∃ gs : List (List (Int × AddArg)), gs.flatten.Perm ao.accepted ∧
        List.Forall₂ (fun g d => Report env opt.toAggregatorOpts (g.map Prod.snd) d ∧
          ∀ e ∈ g, d.ts ≤ e.1 ∧ e.1 < d.ts + opt.step) gs
          (ao.received ++ (l.filter fun p => p.1 = name).map Prod.snd)

def exWOpt : WOpts :=
  { limit := 4, levels := 1, step := 10, resolution := .seconds, outSize := 4, handler := true }

/-- An event recorded, its window ends, the object is destroyed: `separate` moves the window to the
queue and `force_pop` does not look there.  The event is lost. -/
theorem C35_refuted : ¬ DestructionReports exactEnv (fun _ _ _ => True) := by
  intro h
  let ops : List WOp := [.meterName {} ['a'] 1003, .reg (.addId 1 0 0 1003 5 1)]
  have hw : (match wexecAll exactEnv { w := Wrt.new exWOpt } ops, rexecAll exactEnv { r := Registry.new exWOpt.toRegistryOpts } (regHist ops) with
      | .ok o, .ok ro =>
        (match o.w.destroy exactEnv (fun _ => 1012), o.w.reg.cellOf ['a'], Aggregator.new exWOpt.toAggregatorOpts 0 0 1003 with
        | .ok l, some c, .ok a0 =>
          (match Aggregator.execAll exactEnv { a := a0 } (forRef c.ref ro.asked) with
          | .ok ao => decide (l = [] ∧ o.w.reg.getName 1 = ['a'] ∧ ao.a = c.agg ∧ ao.received = [] ∧
              forRef c.ref ro.received = [] ∧ ao.accepted.length = 1 ∧
              ∀ x ∈ ro.asked, x.2.clockOk ∧ x.2.sepHandler = false)
          | .error _ => false)
        | _, _, _ => false)
      | _, _ => false) = true := by decide +kernel
  split at hw
  · rename_i o ro e1 e2
    split at hw
    · rename_i l c a0 e3 e4 e5
      split at hw
      · rename_i ao e6
        obtain ⟨h1, h2, h3, h4, h5, h6, h7⟩ := of_decide_eq_true hw
        obtain ⟨gs, hp, hf⟩ := h exWOpt ops o ro (fun _ => 1012) l rfl (by decide) (by decide +kernel)
          (by decide +kernel) e1 e2 h7 (by simp) e3 ['a'] 1 c 0 0 1003 a0 ao (by decide) h2 e4 trivial e5 e6 h3 (by rw [h4, h5])
        rw [h4, h1] at hf
        cases hf
        have := hp.length_eq
        simp [h6] at this
      · cases hw
    · cases hw
  · cases hw

/-- Everything is delivered by the destructor if, in each aggregator, no completed window is waiting
and the current window is not over. -/
theorem C35_destruction_partial (env : Env) : DestructionReports env (fun opt now c =>
    c.agg.agList = [] ∧ c.agg.sep.sepList = [] ∧
      align opt.step (meant opt.resolution now 0) < c.agg.sep.nextTime) := by
  intro opt ops o ro clk l hh hs hr hid hw hro hask hclk hdes name id c k rand now a0 ao hn0 hname hcell
    ⟨hP1, hP2, hP3⟩ ha0 hao hao1 hao2
  have hi := winv hr hw
  have hm := (Registry.getName_live hi hn0).1 hname
  obtain ⟨⟨num, l', w'⟩, h1, h2⟩ := bind_inv hdes
  cases h2
  obtain ⟨⟨l1, r1⟩, h3, h4⟩ := bind_inv h1
  have hl1 : l1 = l := by
    simp only at h4
    by_cases hc : l1 ≠ [] ∧ o.w.handler = false
    · rw [if_pos hc] at h4; cases h4
    · rw [if_neg hc] at h4; cases h4; rfl
  subst hl1
  obtain ⟨c', g1, g2, t⟩ := Registry.popAll_name hi hr h3 hm hcell
  obtain ⟨o1, t1, t2, t3⟩ := t
  -- the operations of the destructor on this aggregator
  rw [← hao1] at t1 hP1 hP2 hP3
  have hall := Aggregator.execAll_frame env ao.a ao.received ao.accepted (Registry.popOps true clk id)
  rw [t1] at hall
  simp only [Except.map] at hall
  have hask' : ∀ op ∈ forRef c.ref ro.asked, op.clockOk ∧ op.sepHandler = false := by
    intro x hx
    unfold forRef at hx
    obtain ⟨y, hy, rfl⟩ := List.mem_map.1 hx
    exact hask y (List.mem_filter.1 hy).1
  obtain ⟨gR, gA, gS, cur, g⟩ := Aggregator.pgood_execAll (Q := Report env opt.toAggregatorOpts)
    (fun _ _ h => h) hs _ (Aggregator.pgood_fresh hs (.new ha0)) (fun op ho => (hask' op ho).1)
    (fun op ho hsh => by rw [(hask' op ho).2] at hsh; cases hsh) hao
  obtain ⟨gR', gA', gS', cur', g'⟩ := Aggregator.pgood_execAll (Q := Report env opt.toAggregatorOpts)
    (fun _ _ h => h) hs (Registry.popOps true clk id) (o := ao) g
    (Registry.popOps_ok true clk id hclk 0 0).1
    (by intro op ho hsh; simp [Registry.popOps] at ho; rcases ho with rfl | rfl <;> cases hsh) hall
  -- nothing is left
  have hfin : Reducer.GoodA env opt.toReducerOpts o1.a.sep.reducer [] ∧ o1.a.sep.sepList = [] ∧ o1.a.agList = [] ∧
      o1.accepted = [] := by
    unfold Registry.popOps Aggregator.execAll at t1
    simp only [List.foldlM_cons, List.foldlM_nil, if_true] at t1
    obtain ⟨x1, t4, t5⟩ := bind_inv t1
    obtain ⟨x2, t6, t7⟩ := bind_inv t5
    cases t7
    have hT : ao.a.sep.getTs (clk id) 0 = .ok (align opt.step (meant opt.resolution (clk id) 0)) := by
      unfold Separator.getTs Separator.getTsWith
      rw [g.sep.step.1, g.sep.step.2, if_neg (by omega)]
      unfold align meant
      by_cases hres : opt.resolution = .none <;> simp [hres]
    obtain ⟨b, e⟩ := Aggregator.separate_open (env := env) (force := true) hP2 hT hP3
    simp only [Aggregator.exec, e, bind_ok', List.append_nil] at t4
    cases t4
    obtain ⟨⟨d, a2⟩, t8, t9⟩ := bind_inv t6
    cases t9
    obtain ⟨k1, k2, k3⟩ := Aggregator.forcePop_drain hP2 g.sep.red t8
    exact ⟨k1, k2, by rw [k3]; exact hP1, rfl⟩
  obtain ⟨f1, f2, f3, f4⟩ := hfin
  have hcur : cur' = [] := List.map_eq_nil_iff.1 (Aggregator.goodA_nil g'.sep.red f1)
  have hgA : gA' = [] := by
    have := g'.wait
    simp only [f3] at this
    cases this
    rfl
  have hgS : gS' = [] := by
    have := g'.sep.recs
    simp only [f2] at this
    cases this
    rfl
  subst hcur hgA hgS
  have hrecv : ao.received ++ o1.received = ao.received ++ (l1.filter fun p => p.1 = name).map Prod.snd := by
    rw [t3]
  refine ⟨gR', by simpa [f4] using g'.perm, ?_⟩
  rw [← hrecv]
  exact g'.rec_

/-- The orderly shutdown: once `pushout` returns 0, and as long as no window ends between that call and
destruction, the condition of `C35_destruction_partial` holds for every live name. -/
theorem C35_polled_partial (ro : RObs) (clk : Nat → Int) (w1 : Wrt) (l : List (Name × AggData)) (hs : 0 < opt.step)
    (hr : Room opt.toRegistryOpts (regHist ops).length) (hid : ∀ op ∈ regHist ops, op.idOk opt.toRegistryOpts)
    (hw : wexecAll env { w := Wrt.new opt } ops = .ok o)
    (hro : rexecAll env { r := Registry.new opt.toRegistryOpts } (regHist ops) = .ok ro)
    (hask : ∀ x ∈ ro.asked, x.2.clockOk) (hp : o.w.pushout env false clk = .ok (0, l, w1))
    (name : Name) (id : Nat) (c : Cell) (hn0 : name ≠ []) (hname : w1.reg.getName id = name)
    (hcell : w1.reg.cellOf name = some c) :
    c.agg.agList = [] ∧ c.agg.sep.sepList = [] ∧
      align opt.step (meant opt.resolution (clk id) 0) < c.agg.sep.nextTime := by
  have hi := winv hr hw
  obtain ⟨_, ro', e1, e2⟩ := wsim ops (ro := { r := Registry.new opt.toRegistryOpts }) hw rfl
  rw [hro] at e1
  cases e1
  obtain ⟨⟨l1, r1⟩, h3, h4⟩ := bind_inv hp
  simp only at h4
  by_cases hc : l1 ≠ [] ∧ o.w.handler = false
  · rw [if_pos hc] at h4; cases h4
  rw [if_neg hc] at h4
  simp only [Except.ok.injEq, Prod.mk.injEq] at h4
  obtain ⟨h5, rfl, rfl⟩ := h4
  have hl : l1 = [] := List.length_eq_zero_iff.1 h5
  subst hl
  obtain ⟨hseff, _⟩ := Registry.seff_popAll hi hr h3
  have hi' := hseff.inv hi
  have hm := (Registry.getName_live hi' hn0).1 hname
  simp only at hm hcell
  rw [hseff.dict] at hm
  obtain ⟨c0, k1, k2, k3, k4⟩ := hi.cellOf_live hr hm
  obtain ⟨c', g1, g2, t⟩ := Registry.popAll_name hi hr h3 hm k1
  rw [hcell] at g1
  cases g1
  have s := Registry.sim_execAll _ (Registry.sim_new env opt.toRegistryOpts) (hr.mono (by omega)) hid hro
  rw [Nat.zero_add, ] at s
  obtain ⟨ck, rand, now, a0, ha, oo, tt, tt1, tt2⟩ := s.cell name id c0 (by rw [e2]; exact hm) (by rw [e2]; exact k4)
  obtain ⟨gR, gA, gS, cur, g⟩ := Aggregator.pgood_execAll (Q := fun _ _ => True)
    (fun _ _ _ => trivial) hs _ (Aggregator.pgood_fresh hs (.new ha)) (fun op ho => by
      unfold forRef at ho
      obtain ⟨y, hy, rfl⟩ := List.mem_map.1 ho
      exact hask y (List.mem_filter.1 hy).1)
    (fun op ho hsh _ _ _ => trivial) tt
  rw [← tt1] at t
  obtain ⟨o1, t1, t2, t3⟩ := t
  unfold Registry.popOps Aggregator.execAll at t1
  simp only [List.foldlM_cons, List.foldlM_nil, Bool.false_eq_true, if_false] at t1
  obtain ⟨x1, t4, t5⟩ := bind_inv t1
  obtain ⟨x2, t6, t7⟩ := bind_inv t5
  cases t7
  obtain ⟨⟨b, out, a1⟩, t8, t9⟩ := bind_inv t4
  cases t9
  obtain ⟨⟨b2, out2, s2⟩, q1, q2⟩ := bind_inv t8
  obtain ⟨a3, q3, q4⟩ := bind_inv q2
  cases q4
  obtain ⟨lst, q5, _⟩ := Aggregator.aggregate0_spec env.nth { oo.a with sep := s2 }
  rw [q5] at q3
  cases q3
  obtain ⟨pub, as', eff, _⟩ := Separator.separate_effect (by rw [g.sep.step.1]; exact hs) g.sep.red q1
  have hT : align opt.step (meant opt.resolution (clk id) 0) < s2.next := by
    have := eff.cases
    rw [g.sep.step.1, g.sep.step.2] at this
    rcases this with ⟨c1, _, c3, _⟩ | ⟨_, c2, _⟩
    · rw [c3]; exact c1
    · exact c2
  simp only [Aggregator.exec, Aggregator.pop] at t6
  cases hag : oo.a.agList ++ lst with
  | nil =>
    rw [hag] at t6
    cases t6
    rw [← t2]
    exact ⟨rfl, rfl, hT⟩
  | cons d rest =>
    rw [hag] at t6
    cases t6
    simp at t3

/-- Two names, one event each, one in a window that ends: after `pushout` delivers it and returns 1,
`pushout` returns 0, and destruction delivers the other one. -/
example : (match (do
    let o ← wexecAll exactEnv { w := Wrt.new exWOpt } [.meterName {} ['a'] 1003, .meterName {} ['b'] 1003,
      .reg (.addId 1 0 0 1003 5 1), .reg (.addId 2 0 0 1013 7 1), .pushout false (fun _ => 1014)]
    let (n, l, w) ← o.w.pushout exactEnv false (fun _ => 1014)
    let l' ← w.destroy exactEnv (fun _ => 1015)
    .ok (o.handed, n, l, l') : M (List (Name × AggData) × Nat × List (Name × AggData) × List (Name × AggData))) with
    | .ok (h, n, l, l') => decide (h.map (fun p => (p.1, p.2.data)) = [(['a'], [5])] ∧ n = 0 ∧ l = [] ∧
        l'.map (fun p => (p.1, p.2.data)) = [(['b'], [7])])
    | .error _ => false) = true := by decide +kernel

/-! ### C36 -/

/-- `pushout`, `force_pushout` and destruction do not fault, for objects with or without handler as
given, on platforms `env` and values in `[m, M]` where the average is a machine integer. -/
def NeverFaults (env : Env) (handler : Bool) (P : Wrt → Bool → (Nat → Int) → Prop) : Prop :=
  ∀ (opt : WOpts) (ops : List WOp) (o : WObs) (ro : RObs) (m M : Int) (force : Bool) (clk : Nat → Int),
    opt.handler = handler → 0 < opt.step → Room opt.toRegistryOpts (regHist ops).length →
    (∀ op ∈ regHist ops, op.idOk opt.toRegistryOpts) → Reducer.Bounds env m M →
    wexecAll env { w := Wrt.new opt } ops = .ok o →
    rexecAll env { r := Registry.new opt.toRegistryOpts } (regHist ops) = .ok ro →
    (∀ x ∈ ro.asked, x.2.clockOk ∧ ∀ v ∈ x.2.vals, m ≤ v ∧ v ≤ M) → (∀ id, 0 ≤ clk id) →
    P o.w force clk →
    (∃ x, o.w.pushout env force clk = .ok x) ∧ (force = true → ∃ l, o.w.destroy env clk = .ok l)

theorem pushout_total (env : Env) (handler : Bool) (P : Wrt → Bool → (Nat → Int) → Prop)
    (hP : ∀ w force clk l r, P w force clk → w.handler = handler → w.reg.popAll env force clk = .ok (l, r) →
      l = [] ∨ handler = true) : NeverFaults env handler P := by
  intro opt ops o ro m M force clk hh hs hr hid B hw hro hask hclk hPw
  obtain ⟨g1, ro', e1, e2⟩ := wsim ops (ro := { r := Registry.new opt.toRegistryOpts }) hw rfl
  rw [hro] at e1
  cases e1
  have ht := Registry.tame_execAll hs B hr hid hro (fun x hx => (hask x hx).1) (fun x hx => (hask x hx).2)
  rw [e2] at ht
  obtain ⟨l, r', e⟩ := Registry.popAll_total hs B force hclk hr (winv hr hw) ht
  have hwh : o.w.handler = handler := by rw [g1]; exact hh
  have key : ∃ x, o.w.pushout env force clk = .ok x := by
    unfold pushout
    rw [e]
    simp only [bind_ok']
    rw [if_neg]
    · exact ⟨_, rfl⟩
    · rintro ⟨h1, h2⟩
      rcases hP _ _ _ _ _ hPw hwh e with h | h
      · exact h1 h
      · rw [hwh, h] at h2; cases h2
  refine ⟨key, ?_⟩
  rintro rfl
  obtain ⟨⟨n, l1, w1⟩, hx⟩ := key
  unfold destroy
  rw [hx]
  exact ⟨_, rfl⟩

/-- With a handler they never fault. -/
theorem C36_handler (env : Env) : NeverFaults env true (fun _ _ _ => True) :=
  pushout_total env true _ (fun _ _ _ _ _ _ _ _ => .inr rfl)

/-- Without handler they do not fault when there is nothing to report. -/
theorem C36_no_handler_partial (env : Env) :
    NeverFaults env false (fun w force clk => ∀ l r, w.reg.popAll env force clk = .ok (l, r) → l = []) :=
  pushout_total env false _ (fun _ _ _ l r h _ e => .inl (h l r e))

/-- Without handler, one event recorded: `force_pushout` and the destructor call the null handler. -/
theorem C36_refuted : ¬ NeverFaults exactEnv false (fun _ _ _ => True) := by
  intro h
  let opt : WOpts := { exWOpt with handler := false }
  let ops : List WOp := [.meterName {} ['a'] 1003, .reg (.addId 1 0 0 1003 5 1)]
  have hw : (match wexecAll exactEnv { w := Wrt.new opt } ops, rexecAll exactEnv { r := Registry.new opt.toRegistryOpts } (regHist ops) with
      | .ok o, .ok ro =>
        (match o.w.pushout exactEnv true (fun _ => 1005) with
        | .ok _ => false
        | .error e => decide (e = .badFunctionCall ∧ ∀ x ∈ ro.asked, x.2.clockOk ∧ ∀ v ∈ x.2.vals, (5 : Int) ≤ v ∧ v ≤ 5))
      | _, _ => false) = true := by decide +kernel
  split at hw
  · rename_i o ro e1 e2
    split at hw
    · cases hw
    · rename_i e e3
      obtain ⟨h1, h2⟩ := of_decide_eq_true hw
      obtain ⟨⟨x, hx⟩, _⟩ := h opt ops o ro 5 5 true (fun _ => 1005) rfl (by decide) (by decide +kernel)
        (by decide +kernel) ⟨FPLaws.id, by decide, by decide, rfl, rfl⟩ e1 e2 h2 (by simp) trivial
      rw [e3] at hx
      cases hx
  · cases hw

/-! ### C38 -/

theorem feeds_later (hi : RInv opt.toRegistryOpts n w1.reg) (hr : Room opt.toRegistryOpts (n + (regHist ops').length))
    (hw : wexecAll env { w := w1 } ops' = .ok o') {nm : Name} {h : Hnd} {p : Option WPusher}
    (hf : Feeds opt.toRegistryOpts w1.reg nm h p) (hd : .del nm ∉ regHist ops') :
    Feeds opt.toRegistryOpts o'.w.reg nm h p := by
  obtain ⟨_, ro, e1, e2⟩ := wsim ops' (ro := { r := w1.reg }) hw rfl
  refine hf.mono fun id k hl => ?_
  rw [← e2]
  exact Registry.live_execAll (regHist ops') (o := { r := w1.reg }) hi hr e1 hd hl

theorem inv_later (hi : RInv opt.toRegistryOpts n w1.reg) (hr : Room opt.toRegistryOpts (n + (regHist ops').length))
    (hw : wexecAll env { w := w1 } ops' = .ok o') :
    RInv opt.toRegistryOpts (n + (regHist ops').length) o'.w.reg ∧ o'.w.handler = w1.handler := by
  obtain ⟨e0, ro, e1, e2⟩ := wsim ops' (ro := { r := w1.reg }) hw rfl
  have := Registry.inv_execAll (env := env) (regHist ops') (o := { r := w1.reg }) hi hr e1
  rw [e2] at this
  exact ⟨this, e0⟩

theorem handler_hist (hw : wexecAll env { w := Wrt.new opt } ops = .ok o) : o.w.handler = opt.handler :=
  (wsim ops (ro := { r := Registry.new opt.toRegistryOpts }) hw rfl).1

/-- A composite point built in any state of the object and finished in any later state in which its
names have not been removed asks for exactly: the span under the time name, the read size under the
read name and the written size under the write name, with the counts claimed.  (`recordUnder` is one
push into the aggregator of the name.)  A name that is not empty has an aggregator, the empty name has
none. -/
theorem C38_composite {ord : Order} {qt qr qw : Ask} {nt nr nw : Name} {now : Int} {summary : Bool} {p : CPusher}
    {w1 w2 : Wrt} {kt kr kw : Clks} {ts span rd wr : Int} {count : Nat} {l : List (Name × AggData)}
    (hr : Room opt.toRegistryOpts ((regHist ops).length + 3 + (regHist ops').length + 3))
    (hw : wexecAll env { w := Wrt.new opt } ops = .ok o)
    (hc : o.w.compositeName env ord qt qr qw nt nr nw now summary = .ok (some p, w1))
    (hw' : wexecAll env { w := w1 } ops' = .ok o')
    (hd : ∀ nm ∈ [nt, nr, nw], .del nm ∉ regHist ops')
    (hcall : o'.w.callC env p kt kr kw ts span count rd wr = .ok (l, w2)) :
    (∃ ro, rexecAll env { r := o'.w.reg } (WOp.callC p kt kr kw ts span count rd wr).regOps = .ok ro ∧
      ro.r = w2.reg ∧
      ro.asked = recordUnder o'.w.reg nt kt ts span count opt.handler ++
        recordUnder o'.w.reg nr kr ts rd (if summary then toSize rd else count) opt.handler ++
        recordUnder o'.w.reg nw kw ts wr (if summary then toSize wr else count) opt.handler) ∧
    ∀ nm ∈ [nt, nr, nw], (o'.w.reg.cellOf nm = none ↔ nm = []) := by
  have hi := winv (hr.mono (by omega)) hw
  obtain ⟨hi1, hh1, _, hf⟩ := composite_feeds hi (hr.mono (by omega)) hc
  obtain ⟨hs, f1, f2, f3⟩ := hf p rfl
  obtain ⟨hi2, hh2⟩ := inv_later hi1 (hr.mono (by omega)) hw'
  have hdec : ∀ nm, decide (o.w.makeHandlerName nm ≠ .none) = opt.handler := by
    intro nm
    unfold makeHandlerName
    rw [handler_hist hw]
    cases opt.handler <;> simp
  replace f1 := feeds_later hi1 (hr.mono (by omega)) hw' f1 (hd _ (by simp))
  replace f2 := feeds_later hi1 (hr.mono (by omega)) hw' f2 (hd _ (by simp))
  replace f3 := feeds_later hi1 (hr.mono (by omega)) hw' f3 (hd _ (by simp))
  refine ⟨?_, ?_⟩
  · obtain ⟨⟨l1, v1⟩, g1, h⟩ := bind_inv hcall
    obtain ⟨⟨l2, v2⟩, g2, h⟩ := bind_inv h
    obtain ⟨⟨l3, v3⟩, g3, h⟩ := bind_inv h
    cases h
    obtain ⟨r1, a1, b1, c1, d1, e1⟩ := record_callOpt (ro := { r := o'.w.reg }) hi2 (hr.mono (by omega)) f1 g1 rfl
    have f2' := f2.mono (e1 _)
    have f3' := f3.mono (e1 _)
    obtain ⟨r2, a2, b2, c2, d2, e2⟩ := record_callOpt d1 (hr.mono (by omega)) f2' g2 b1
    have f3'' := f3'.mono (e2 _)
    obtain ⟨r3, a3, b3, c3, d3, e3⟩ := record_callOpt d2 (hr.mono (by omega)) f3'' g3 b2
    refine ⟨r3, rexec_seq (rexec_seq a1 a2) a3, b3, ?_⟩
    rw [c3, c2, c1, List.nil_append]
    simp only [hdec, hs]
    rw [record_live d1 (hr.mono (by omega)) hi2 (hr.mono (by omega)) f2' f2,
      record_live d2 (hr.mono (by omega)) hi2 (hr.mono (by omega)) f3'' f3]
  · have key : ∀ {nm : Name} {h : Hnd} {p : Option WPusher}, Feeds opt.toRegistryOpts o'.w.reg nm h p →
        (o'.w.reg.cellOf nm = none ↔ nm = []) := by
      intro nm h p f
      rcases f with ⟨rfl, rfl⟩ | ⟨id, k, h0, hl, rfl⟩
      · simp only [iff_true]
        cases hx : o'.w.reg.cellOf [] with
        | none => rfl
        | some c =>
          exfalso
          obtain ⟨id, hm, _⟩ := hi2.cellOf_some (hr.mono (by omega)) hx
          exact hi2.nonempty _ hm rfl
      · obtain ⟨c, hc, _⟩ := Registry.live_cell hi2 (hr.mono (by omega)) hl
        simp [h0, hc]
    intro nm hnm
    simp only [List.mem_cons, List.not_mem_nil, or_false] at hnm
    rcases hnm with rfl | rfl | rfl
    · exact key f1
    · exact key f2
    · exact key f3

/-- No composite function is made exactly when the three names are empty. -/
theorem C38_none {ord : Order} {qt qr qw : Ask} {nt nr nw : Name} {now : Int} {summary : Bool} {po : Option CPusher}
    {w1 : Wrt} (hr : Room opt.toRegistryOpts ((regHist ops).length + 3))
    (hw : wexecAll env { w := Wrt.new opt } ops = .ok o)
    (hc : o.w.compositeName env ord qt qr qw nt nr nw now summary = .ok (po, w1)) :
    po = none ↔ nt = [] ∧ nr = [] ∧ nw = [] :=
  (composite_feeds (winv (hr.mono (by omega)) hw) hr hc).2.2.1

/-- The count of a size: the size itself if it is not negative, else the size modulo 2^64. -/
theorem C38_sizes (v : Int) (h : InI64 v) : (toSize v : Int) = if 0 ≤ v then v else 2 ^ 64 + v := by
  have h1 := h.1
  have h2 := h.2
  unfold I64min I64max at *
  unfold toSize
  split_ifs <;> omega

example : toSize 100 = 100 ∧ toSize (-1) = 18446744073709551615 := by decide

/-- A composite multi meter is one composite meter per prefix, made in order, with the prefix put
before the names that are not empty. -/
theorem C38_multi (w : Wrt) (nt nr nw : Name) (summary : Bool) (pre : Name) (ord : Order) (qt qr qw : Ask) (now : Int)
    (rest : List (Name × Order × Ask × Ask × Ask × Int)) (ps : List (Option CPusher)) (w' : Wrt)
    (h : w.compositeMulti env nt nr nw summary ((pre, ord, qt, qr, qw, now) :: rest) = .ok (ps, w')) :
    ∃ p ps' w1, ps = p :: ps' ∧ w1.compositeMulti env nt nr nw summary rest = .ok (ps', w') ∧
      w.compositeName env ord qt qr qw (if nt = [] then [] else pre ++ nt) (if nr = [] then [] else pre ++ nr)
        (if nw = [] then [] else pre ++ nw) now summary = .ok (p, w1) := by
  obtain ⟨⟨p, w1⟩, h1, h⟩ := bind_inv h
  obtain ⟨⟨ps', w2⟩, h2, h⟩ := bind_inv h
  cases h
  exact ⟨p, ps', w1, rfl, h2, h1⟩

/-- A time, size or value multi meter is one meter per prefix, made in order, with the prefix put before the name. -/
theorem C38_multi_simple (w : Wrt) (name : Name) (pre : Name) (q : Ask) (now : Int) (rest : List (Name × Ask × Int))
    (ps : List (Option WPusher)) (w' : Wrt) (h : w.multiMeter env name ((pre, q, now) :: rest) = .ok (ps, w')) :
    ∃ p ps' w1, ps = p :: ps' ∧ w1.multiMeter env name rest = .ok (ps', w') ∧
      w.meterName env q (pre ++ name) now = .ok (p, w1) := by
  obtain ⟨⟨p, w1⟩, h1, h⟩ := bind_inv h
  obtain ⟨⟨ps', w2⟩, h2, h⟩ := bind_inv h
  cases h
  exact ⟨p, ps', w1, rfl, h2, h1⟩

/-- Two prefixes. -/
example : (match (Wrt.new exWOpt).multiMeter exactEnv ['t'] [(['a'], {}, 1003), (['b'], {}, 1003)] with
    | .ok (ps, w) => decide (ps.length = 2 ∧ w.reg.getName 1 = ['a', 't'] ∧ w.reg.getName 2 = ['b', 't'])
    | .error _ => false) = true := by decide +kernel

/-- A composite meter with an empty write name, counting bytes, called twice around the end of the
window: one record for the time and one for the read name. -/
example : (match (do
    let (p, w) ← (Wrt.new exWOpt).compositeName exactEnv .wtr {} {} {} ['t'] ['r'] [] 1003 true
    match p with
    | none => .error .ub
    | some p => do
      let (l1, w) ← w.callC exactEnv p (0, 0) (0, 0) (0, 0) 1004 50 1 100 200
      let (l2, _) ← w.callC exactEnv p (0, 0) (0, 0) (0, 0) 1014 60 1 300 200
      .ok (p.write, l1, l2) : M (Option WPusher × List (Name × AggData) × List (Name × AggData))) with
    | .ok (pw, l1, l2) => decide (pw = none ∧ l1 = [] ∧
        l2.map (fun x => (x.1, x.2.data, x.2.count)) = [(['t'], [50], 1), (['r'], [100], 100)])
    | .error _ => false) = true := by decide +kernel

/-! ### C61 -/

theorem meter_named {nm : Name} {id : Nat} {c1 c2 ts v : Int} {count : Nat} {p : WPusher} {w2 : Wrt}
    {l : List (Name × AggData)} (hi : RInv opt.toRegistryOpts n w1.reg)
    (hr : Room opt.toRegistryOpts (n + (regHist ops').length))
    (hid : (nm = [] ∧ id = badId) ∨ (nm, id) ∈ w1.reg.dict.dict) (hm : w1.meterId id = .ok (some p))
    (hw' : wexecAll env { w := w1 } ops' = .ok o') (hcall : o'.w.call env p c1 c2 ts v count = .ok (l, w2)) :
    ∃ out r', o'.w.reg.call env p.rp c1 c2 ts (.one v count) = .ok (out, r') ∧ l = out.map (fun d => (nm, d)) ∧
      (out ≠ [] → ∃ c, o'.w.reg.cellOf nm = some c ∧ c.ref = p.rp.ref) := by
  obtain ⟨hi2, hh2⟩ := inv_later hi hr hw'
  obtain ⟨p', e, f⟩ := part_feeds hi (hr.mono (by omega)) hid (w1.makeHandlerId id)
  have : w1.part id (w1.makeHandlerId id) = w1.meterId id := rfl
  rw [this, hm] at e
  cases e
  rcases f with ⟨_, h⟩ | ⟨id', k, h0, hl, h⟩
  · cases h
  cases h
  have hid' : (nm, id) ∈ w1.reg.dict.dict := hid.resolve_left (fun h => h0 h.1)
  have := hi.name_eq hid' hl.1
  subst this
  obtain ⟨_, ro, e1, e2⟩ := wsim ops' (ro := { r := w1.reg }) hw' rfl
  have ht : Registry.Tag opt.toRegistryOpts o'.w.reg nm id k := by
    rw [← e2]
    exact Registry.tag_execAll (regHist ops') (o := { r := w1.reg }) hi hr e1 (.inl hl)
  have hh : w1.makeHandlerId id = .none ∨ w1.makeHandlerId id = .byName nm ∨ w1.makeHandlerId id = .byId id := by
    unfold makeHandlerId
    by_cases hc : id = badId ∨ w1.handler = false
    · rw [if_pos hc]; exact .inl rfl
    · rw [if_neg hc]; exact .inr (.inr rfl)
  obtain ⟨out, r', g1, g2, _, g4⟩ := named_call hi2 hr h0 ht hh hcall
  exact ⟨out, r', g1, g2, g4⟩

/-- What a meter function of a name hands over, whatever happens between its creation and the call,
goes to the handler under that name, and comes from the aggregator that has the name at that moment. -/
theorem C61_named_by_name {q : Ask} {nm : Name} {now c1 c2 ts v : Int} {count : Nat} {p : WPusher} {w1 w2 : Wrt}
    {l : List (Name × AggData)} (hr : Room opt.toRegistryOpts ((regHist ops).length + 1 + (regHist ops').length))
    (hw : wexecAll env { w := Wrt.new opt } ops = .ok o) (hm : o.w.meterName env q nm now = .ok (some p, w1))
    (hw' : wexecAll env { w := w1 } ops' = .ok o') (hcall : o'.w.call env p c1 c2 ts v count = .ok (l, w2)) :
    ∃ out r', o'.w.reg.call env p.rp c1 c2 ts (.one v count) = .ok (out, r') ∧ l = out.map (fun d => (nm, d)) ∧
      (out ≠ [] → ∃ c, o'.w.reg.cellOf nm = some c ∧ c.ref = p.rp.ref) := by
  have hi := winv (hr.mono (by omega)) hw
  obtain ⟨⟨id, r⟩, h1, h⟩ := bind_inv hm
  obtain ⟨p', h2, h⟩ := bind_inv h
  cases h
  obtain ⟨hi1, hcr, _⟩ := create_keep hi (hr.mono (by omega)) h1
  exact meter_named (w1 := { o.w with reg := r }) hi1 hr hcr h2 hw' hcall

/-- What was handed over before does not influence a history. -/
theorem wexecAll_frame (ops : List WOp) : ∀ {o o' o1 : WObs}, wexecAll env o ops = .ok o' → o1.w = o.w →
    ∃ o2, wexecAll env o1 ops = .ok o2 ∧ o2.w = o'.w := by
  induction ops with
  | nil => intro o o' o1 h e; cases h; exact ⟨o1, rfl, e⟩
  | cons op ops ih =>
    intro o o' o1 h e
    obtain ⟨o3, h1, h2⟩ := wexecAll_cons h
    obtain ⟨⟨resp, l, w⟩, h3, h4⟩ := bind_inv h1
    cases h4
    obtain ⟨o4, g1, g2⟩ := ih h2 (o1 := { w := w, handed := o1.handed ++ l }) rfl
    refine ⟨o4, ?_, g2⟩
    unfold wexecAll at g1 ⊢
    simp only [List.foldlM_cons, wexec, e, h3, bind_ok']
    exact g1

/-- The same for a meter function made from an id, under the name the id has when it is made. -/
theorem C61_named_by_id {id : Nat} {c1 c2 ts v : Int} {count : Nat} {p : WPusher} {w2 : Wrt}
    {l : List (Name × AggData)} (hr : Room opt.toRegistryOpts ((regHist ops).length + (regHist ops').length))
    (hw : wexecAll env { w := Wrt.new opt } ops = .ok o) (hid : o.w.reg.getName id ≠ [])
    (hm : o.w.meterId id = .ok (some p))
    (hw' : wexecAll env o ops' = .ok o') (hcall : o'.w.call env p c1 c2 ts v count = .ok (l, w2)) :
    ∃ out r', o'.w.reg.call env p.rp c1 c2 ts (.one v count) = .ok (out, r') ∧
      l = out.map (fun d => (o.w.reg.getName id, d)) ∧
      (out ≠ [] → ∃ c, o'.w.reg.cellOf (o.w.reg.getName id) = some c ∧ c.ref = p.rp.ref) := by
  have hi := winv (hr.mono (by omega)) hw
  have hmem := (Registry.getName_live hi hid).1 rfl
  obtain ⟨o2, e1, e2⟩ := wexecAll_frame ops' (o1 := { w := o.w }) hw' rfl
  rw [← e2] at hcall ⊢
  exact meter_named (w1 := o.w) hi hr (.inr hmem) hm e1 hcall

/-- A record handed over by a composite meter carries one of its three names, not the empty one, and that name is
live. -/
theorem C61_named_composite {ord : Order} {qt qr qw : Ask} {nt nr nw : Name} {now : Int} {summary : Bool} {p : CPusher}
    {w1 w2 : Wrt} {kt kr kw : Clks} {ts span rd wr : Int} {count : Nat} {l : List (Name × AggData)}
    (hr : Room opt.toRegistryOpts ((regHist ops).length + 3 + (regHist ops').length + 3))
    (hw : wexecAll env { w := Wrt.new opt } ops = .ok o)
    (hc : o.w.compositeName env ord qt qr qw nt nr nw now summary = .ok (some p, w1))
    (hw' : wexecAll env { w := w1 } ops' = .ok o')
    (hcall : o'.w.callC env p kt kr kw ts span count rd wr = .ok (l, w2)) :
    ∃ lt lr lw, l = lt ++ lr ++ lw ∧ (∀ x ∈ lt, x.1 = nt) ∧ (∀ x ∈ lr, x.1 = nr) ∧ (∀ x ∈ lw, x.1 = nw) ∧
      ∀ x ∈ l, x.1 ≠ [] ∧ ∃ id, o'.w.reg.getName id = x.1 := by
  have hi := winv (hr.mono (by omega)) hw
  obtain ⟨hi1, hh1, _, hf⟩ := composite_feeds hi (hr.mono (by omega)) hc
  obtain ⟨hs, f1, f2, f3⟩ := hf p rfl
  obtain ⟨hi2, hh2⟩ := inv_later hi1 (hr.mono (by omega)) hw'
  obtain ⟨_, ro, e1, e2⟩ := wsim ops' (ro := { r := w1.reg }) hw' rfl
  have ht : ∀ nm id k, Registry.Tag opt.toRegistryOpts w1.reg nm id k → Registry.Tag opt.toRegistryOpts o'.w.reg nm id k := by
    intro nm id k h
    rw [← e2]
    exact Registry.tag_execAll (regHist ops') (o := { r := w1.reg }) hi1 (hr.mono (by omega)) e1 h
  have hh : ∀ nm, o.w.makeHandlerName nm = .none ∨ o.w.makeHandlerName nm = .byName nm := by
    intro nm
    unfold makeHandlerName
    by_cases hc : o.w.handler = true
    · rw [if_pos hc]; exact .inr rfl
    · rw [if_neg hc]; exact .inl rfl
  obtain ⟨⟨l1, v1⟩, g1, h⟩ := bind_inv hcall
  obtain ⟨⟨l2, v2⟩, g2, h⟩ := bind_inv h
  obtain ⟨⟨l3, v3⟩, g3, h⟩ := bind_inv h
  cases h
  obtain ⟨a1, b1, c1, d1⟩ := named_callOpt hi2 (hr.mono (by omega)) f1 (ht nt) (hh _) g1
  obtain ⟨a2, b2, c2, d2⟩ := named_callOpt b1 (hr.mono (by omega)) f2 (fun _ _ h => d1 _ _ _ (ht _ _ _ h)) (hh _) g2
  obtain ⟨a3, b3, c3, d3⟩ := named_callOpt b2 (hr.mono (by omega)) f3 (fun _ _ h => d2 _ _ _ (d1 _ _ _ (ht _ _ _ h))) (hh _) g3
  have key : ∀ {n : Nat} {r : Registry}, RInv opt.toRegistryOpts n r → Room opt.toRegistryOpts n → r.dict = o'.w.reg.dict →
      ∀ {nm : Name} {c : Cell}, r.cellOf nm = some c → nm ≠ [] ∧ ∃ id, o'.w.reg.getName id = nm := by
    intro n r hi hr hd nm c hc
    obtain ⟨id, hm, _⟩ := hi.cellOf_some hr hc
    refine ⟨hi.nonempty _ hm, id, (Registry.getName_live hi2 (hi.nonempty _ hm)).2 ?_⟩
    rw [← hd]
    exact hm
  refine ⟨l1, l2, l3, rfl, fun x h => (a1 x h).1, fun x h => (a2 x h).1, fun x h => (a3 x h).1, ?_⟩
  intro x hx
  simp only [List.mem_append] at hx
  rcases hx with (hx | hx) | hx
  · obtain ⟨e, c, hc⟩ := a1 x hx
    rw [e]
    exact key hi2 (hr.mono (by omega)) rfl hc
  · obtain ⟨e, c, hc⟩ := a2 x hx
    rw [e]
    exact key b1 (hr.mono (by omega)) c1 hc
  · obtain ⟨e, c, hc⟩ := a3 x hx
    rw [e]
    exact key b2 (hr.mono (by omega)) (c2.trans c1) hc

/-- A meter made for an id, the name deleted and the id given to another name: the old meter hands
over nothing, although its handler would now say `b`. -/
example : (match (do
    let o ← wexecAll exactEnv { w := Wrt.new exWOpt } [.meterName {} ['a'] 1003]
    match (← o.w.meterId 1) with
    | none => .error .ub
    | some p => do
      let (l0, _) ← (do
        let (_, w) ← o.w.call exactEnv p 0 0 1004 7 1
        w.call exactEnv p 0 0 1014 8 1 : M _)
      let o' ← wexecAll exactEnv o [.reg (.del ['a']), .meterName {} ['b'] 1003]
      let (_, w) ← o'.w.call exactEnv p 0 0 1004 7 1
      let (l, _) ← w.call exactEnv p 0 0 1014 8 1
      .ok (l0, o'.w.reg.getName 1, l) : M (List (Name × AggData) × Name × List (Name × AggData))) with
    | .ok (l0, nm, l) => decide (l0.map (fun x => (x.1, x.2.data)) = [(['a'], [7])] ∧ nm = ['b'] ∧ l = [])
    | .error _ => false) = true := by decide +kernel

/-! ### C82 -/

/-- The claim: whatever a call of a meter function completes reaches the handler. -/
def C82_FullClaim (P : RegistryOpts → Prop) : Prop :=
  ∀ (env : Env) (opt : WOpts) (ops ops' : List WOp) (o o' : WObs) (id : Nat) (p : WPusher) (c1 c2 ts v : Int) (count : Nat)
    (l : List (Name × AggData)) (w2 : Wrt) (out : List AggData) (r' : Registry), P opt.toRegistryOpts → opt.handler = true →
    Room opt.toRegistryOpts ((regHist ops).length + (regHist ops').length) →
    wexecAll env { w := Wrt.new opt } ops = .ok o → o.w.meterId id = .ok (some p) → wexecAll env o ops' = .ok o' →
    o'.w.call env p c1 c2 ts v count = .ok (l, w2) → o'.w.reg.call env p.rp c1 c2 ts (.one v count) = .ok (out, r') →
    l.map Prod.snd = out

/-- With `id_step` 2 the ids are 2, 4, 6, ...; the meter of the id 1, which was never given out, records in the aggregator
of 2, and the record it completes is dropped because 1 has no name. -/
theorem C82_refuted : ¬ C82_FullClaim (fun _ => True) := by
  intro h
  let opt : WOpts := { exWOpt with idStep := 2 }
  have hw : (match (do
      let o ← wexecAll exactEnv { w := Wrt.new opt } [.meterName {} ['a'] 1003, .reg (.addId 2 0 0 1004 7 1)]
      match (← o.w.meterId 1) with
      | none => .error .ub
      | some p => do
        let (l, w2) ← o.w.call exactEnv p 0 0 1014 8 1
        let (out, r') ← o.w.reg.call exactEnv p.rp 0 0 1014 (.one 8 1)
        .ok (o, p, l, w2, out, r') : M (WObs × WPusher × List (Name × AggData) × Wrt × List AggData × Registry)) with
      | .ok (_, _, l, _, out, _) => decide (l = [] ∧ out.map (·.data) = [[7]])
      | .error _ => false) = true := by decide +kernel
  split at hw
  · rename_i o p l w2 out r' hx
    obtain ⟨o1, e1, hx⟩ := bind_inv hx
    obtain ⟨po, e2, hx⟩ := bind_inv hx
    cases po with
    | none => cases hx
    | some p1 =>
      obtain ⟨⟨l1, w1⟩, e3, hx⟩ := bind_inv hx
      obtain ⟨⟨out1, r1⟩, e4, hx⟩ := bind_inv hx
      cases hx
      obtain ⟨h1, h2⟩ := of_decide_eq_true hw
      have := h exactEnv opt _ [] o o 1 p 0 0 1014 8 1 l w2 out r' trivial rfl (by decide +kernel) e1 e2 rfl e3 e4
      subst h1
      rw [← this] at h2
      simp at h2
  · cases hw

/-- The part that holds: nothing reaches the handler under an empty name, what reaches it was completed by the call, and
everything completed reaches it if the id had a name when the meter was made.  Missing: ids without a name. -/
theorem C82_partial {id : Nat} {c1 c2 ts v : Int} {count : Nat} {p : WPusher} {w2 : Wrt}
    {l : List (Name × AggData)} {out : List AggData} {r' : Registry}
    (hr : Room opt.toRegistryOpts ((regHist ops).length + (regHist ops').length))
    (hw : wexecAll env { w := Wrt.new opt } ops = .ok o)
    (hm : o.w.meterId id = .ok (some p)) (hw' : wexecAll env o ops' = .ok o')
    (hcall : o'.w.call env p c1 c2 ts v count = .ok (l, w2))
    (hreg : o'.w.reg.call env p.rp c1 c2 ts (.one v count) = .ok (out, r')) :
    (∀ x ∈ l, x.1 ≠ [] ∧ x.2 ∈ out) ∧ (o.w.reg.getName id ≠ [] → l.map Prod.snd = out) := by
  refine ⟨?_, fun hid => ?_⟩
  · have hh : p.h = .none ∨ ∃ i, p.h = .byId i := by
      obtain ⟨p', h1, h2⟩ := bind_inv hm
      cases p' with
      | none => cases h2
      | some p' =>
        cases h2
        show o.w.makeHandlerId id = .none ∨ _
        unfold makeHandlerId
        by_cases hc : id = badId ∨ o.w.handler = false
        · rw [if_pos hc]; exact .inl rfl
        · rw [if_neg hc]; exact .inr ⟨id, rfl⟩
    obtain ⟨⟨out', r1⟩, h1, h2⟩ := bind_inv hcall
    rw [hreg] at h1
    cases h1
    cases h2
    intro x hx
    obtain ⟨d, hd, hx⟩ := List.mem_flatMap.1 hx
    unfold deliver at hx
    rcases hh with h | ⟨i, h⟩ <;> rw [h] at hx <;> simp only at hx
    · cases hx
    · split at hx
      · cases hx
      · rename_i hne
        rw [List.mem_singleton] at hx
        subst hx
        exact ⟨hne, hd⟩
  · obtain ⟨out', r1, h1, h2, -⟩ := C61_named_by_id hr hw hid hm hw' hcall
    rw [hreg] at h1
    cases h1
    rw [h2, List.map_map]
    exact List.map_id out

/-! ### C62 -/

/-- `pushout` returns the number of records handed over; there is at most one for each name, all names
are live, and the record of a name is what its aggregator answers to `separate` followed by `pop`
(or `force_pop`). -/
theorem C62_pushout {force : Bool} {clk : Nat → Int} {num : Nat} {l : List (Name × AggData)} {w' : Wrt}
    (hr : Room opt.toRegistryOpts (regHist ops).length) (hw : wexecAll env { w := Wrt.new opt } ops = .ok o)
    (h : o.w.pushout env force clk = .ok (num, l, w')) :
    num = l.length ∧ (l.map Prod.fst).Nodup ∧ (∀ x ∈ l, x.1 ≠ [] ∧ ∃ id, o.w.reg.getName id = x.1) ∧
    ∀ (name : Name) (id : Nat), name ≠ [] → o.w.reg.getName id = name →
      ∃ c c' b a d a', o.w.reg.cellOf name = some c ∧ w'.reg.cellOf name = some c' ∧
        c.agg.separate env (clk id) 0 false force = .ok (b, [], a) ∧
        (if force then a.forcePop env else .ok a.pop) = .ok (d, a') ∧
        c' = { c with agg := a' } ∧ (l.filter fun x => x.1 = name).map Prod.snd = d.toList := by
  have hi := winv hr hw
  obtain ⟨⟨l1, r1⟩, h3, h4⟩ := bind_inv h
  have hl1 : num = l1.length ∧ l = l1 ∧ w' = { o.w with reg := r1 } := by
    simp only at h4
    by_cases hc : l1 ≠ [] ∧ o.w.handler = false
    · rw [if_pos hc] at h4; cases h4
    · rw [if_neg hc] at h4
      simp only [Except.ok.injEq, Prod.mk.injEq] at h4
      exact ⟨h4.1.symm, h4.2.1.symm, h4.2.2.symm⟩
  obtain ⟨rfl, rfl, rfl⟩ := hl1
  obtain ⟨hseff, hlive⟩ := Registry.seff_popAll hi hr h3
  have names : ∀ x ∈ l, x.1 ≠ [] ∧ ∃ id, o.w.reg.getName id = x.1 := by
    intro x hx
    obtain ⟨⟨nm, id⟩, hp, e⟩ := List.mem_map.1 (hlive x hx)
    simp only at e
    subst e
    have h0 := hi.nonempty _ hp
    exact ⟨h0, id, (Registry.getName_live hi h0).2 hp⟩
  have main : ∀ (name : Name) (id : Nat), name ≠ [] → o.w.reg.getName id = name →
      ∃ c c' b a d a', o.w.reg.cellOf name = some c ∧ r1.cellOf name = some c' ∧
        c.agg.separate env (clk id) 0 false force = .ok (b, [], a) ∧
        (if force then a.forcePop env else .ok a.pop) = .ok (d, a') ∧
        c' = { c with agg := a' } ∧ (l.filter fun x => x.1 = name).map Prod.snd = d.toList := by
    intro name id h0 hn
    have hm := (Registry.getName_live hi h0).1 hn
    obtain ⟨c, k1, _⟩ := hi.cellOf_live hr hm
    obtain ⟨c', g1, g2, o1, t1, t2, t3⟩ := Registry.popAll_name hi hr h3 hm k1
    unfold Registry.popOps Aggregator.execAll at t1
    simp only [List.foldlM_cons, List.foldlM_nil] at t1
    obtain ⟨x1, t4, t5⟩ := bind_inv t1
    obtain ⟨x2, t6, t7⟩ := bind_inv t5
    cases t7
    obtain ⟨⟨b, out, a⟩, t8, t9⟩ := bind_inv t4
    cases t9
    have hout : out = [] := by
      obtain ⟨⟨b2, out2, s2⟩, q1, q2⟩ := bind_inv t8
      obtain ⟨a3, q3, q4⟩ := bind_inv q2
      cases q4
      exact Aggregator.sep_out_nil' q1
    subst hout
    cases force with
    | true =>
      simp only [if_true] at t6
      obtain ⟨⟨d, a'⟩, q1, q2⟩ := bind_inv t6
      cases q2
      refine ⟨c, c', b, a, d, a', k1, g1, t8, q1, ?_, ?_⟩
      · cases c'; cases c; simp only at g2 t2; simp [g2, t2]
      · rw [← t3]; simp
    | false =>
      simp only [Bool.false_eq_true, if_false] at t6
      cases t6
      refine ⟨c, c', b, a, a.pop.1, a.pop.2, k1, g1, t8, rfl, ?_, ?_⟩
      · cases c'; cases c; simp only at g2; exact congrArg₂ Cell.mk g2 t2.symm
      · rw [← t3]; rfl
  refine ⟨rfl, ?_, names, main⟩
  rw [List.nodup_iff_count_le_one]
  intro nm
  by_cases hx : nm ∈ l.map Prod.fst
  · obtain ⟨x, hx', rfl⟩ := List.mem_map.1 hx
    obtain ⟨h0, id, hid⟩ := names x hx'
    obtain ⟨c, c', b, a, d, a', _, _, _, _, _, e⟩ := main x.1 id h0 hid
    have := congrArg List.length e
    rw [List.length_map] at this
    have hle : d.toList.length ≤ 1 := by cases d <;> simp
    rw [List.count, List.countP_map, List.countP_eq_length_filter]
    rw [← this] at hle
    refine le_trans (le_of_eq ?_) hle
    congr 2
    funext y
    simp [Function.comp, beq_eq_decide]
  · rw [List.count_eq_zero_of_not_mem hx]; omega

/-- Three names, two of which have a completed window: `pushout` returns 2. -/
example : (match (do
    let o ← wexecAll exactEnv { w := Wrt.new exWOpt } [.meterName {} ['a'] 1003, .meterName {} ['b'] 1003, .meterName {} ['c'] 1003,
      .reg (.addId 1 0 0 1003 5 1), .reg (.addId 2 0 0 1013 7 1), .reg (.addId 3 0 0 1003 9 1)]
    o.w.pushout exactEnv false (fun _ => 1014) : M (Nat × List (Name × AggData) × Wrt)) with
    | .ok (n, l, _) => decide (n = 2 ∧ l.map (fun p => (p.1, p.2.data)) = [(['a'], [5]), (['c'], [9])])
    | .error _ => false) = true := by decide +kernel

end Wrt
end Wrtstat
