/-
C147: shutting down in order loses nothing, whatever the clock says.
-/
import Verif.Props.Wrtstat

namespace Wrtstat

set_option autoImplicit false

namespace Registry

open Aggregator (AOp AObs Trans)

variable {env : Env} {ropt : ReducerOpts} {a a' : Aggregator} {clk : Nat → Int} {id : Nat} {out : List AggData} {as : List AddArg}

/-- What `separate` and one of the two `pop` do to an aggregator whose separator holds no records. -/
theorem popOps_inv {force : Bool} (hs : 0 < a.sep.step) (hl : a.sep.sepList = []) (hg : Reducer.GoodA env ropt a.sep.reducer as)
    (h : Trans env a (popOps force clk id) a' out) :
    ∃ (a1 : Aggregator) (as' : List AddArg) (d : Option AggData), (if force then a1.forcePop env else .ok a1.pop) = .ok (d, a') ∧ out = d.toList ∧
      a1.sep.step = a.sep.step ∧ a1.sep.sepList = [] ∧ Reducer.GoodA env ropt a1.sep.reducer as' ∧
      ((as' = as ∧ a1.agList = a.agList) ∨ (as' = [] ∧ as ≠ [] ∧ ∃ x, a1.agList = a.agList ++ [x])) := by
  obtain ⟨o1, t1, t2, t3⟩ := h
  unfold popOps Aggregator.execAll at t1
  simp only [List.foldlM_cons, List.foldlM_nil] at t1
  obtain ⟨x1, t4, t5⟩ := bind_inv t1
  obtain ⟨x2, t6, t7⟩ := bind_inv t5
  cases t7
  obtain ⟨⟨b, out', a1⟩, t8, t9⟩ := bind_inv t4
  cases t9
  obtain ⟨⟨b2, out2, s2⟩, q1, q2⟩ := bind_inv t8
  obtain ⟨a3, q3, q4⟩ := bind_inv q2
  cases q4
  obtain ⟨lst, q5, q6⟩ := Aggregator.aggregate0_spec env.nth { a with sep := s2 }
  rw [q5] at q3
  cases q3
  obtain ⟨pub, as', eff, _⟩ := Separator.separate_effect hs hg q1
  have hout : out' = [] := by simpa using eff.lists.1
  subst hout
  have hsl : s2.sepList = pub := by simpa [hl] using eff.lists.2
  simp only [hsl] at q6
  refine ⟨{ a with sep := { s2 with sepList := [] }, agList := a.agList ++ lst }, as', ?_⟩
  have key : ((as' = as ∧ a.agList ++ lst = a.agList) ∨ (as' = [] ∧ as ≠ [] ∧ ∃ x, a.agList ++ lst = a.agList ++ [x])) := by
    rcases eff.cases with ⟨_, rfl, _, rfl⟩ | ⟨_, _, _, _, rfl, ⟨rfl, rfl⟩ | ⟨hne, d, rfl, _⟩⟩
    · cases q6
      exact Or.inl ⟨rfl, by simp⟩
    · cases q6
      exact Or.inl ⟨rfl, by simp⟩
    · cases q6 with
      | cons h1 h2 =>
        cases h2
        exact Or.inr ⟨rfl, hne, _, rfl⟩
  cases force with
  | true =>
    simp only [if_true] at t6 ⊢
    obtain ⟨⟨d, a2⟩, e1, e2⟩ := bind_inv t6
    cases e2
    subst t2
    exact ⟨d, e1, by rw [← t3]; simp, eff.frame.1, trivial, eff.good, key⟩
  | false =>
    simp only [Bool.false_eq_true, if_false] at t6 ⊢
    cases t6
    subst t2
    exact ⟨_, rfl, by rw [← t3]; simp, eff.frame.1, trivial, eff.good, key⟩

theorem forcePop_none {d : Option AggData} (h : a.forcePop env = .ok (d, a')) :
    a'.sep.step = a.sep.step ∧ (a.sep.sepList = [] → Reducer.GoodA env ropt a.sep.reducer [] → d = none) := by
  unfold Aggregator.forcePop at h
  obtain ⟨⟨o, s⟩, h1, h⟩ := bind_inv h
  have hstep : s.step = a.sep.step := by
    unfold Separator.forcePop Separator.pop at h1
    cases hl : a.sep.sepList with
    | cons d l => rw [hl] at h1; cases h1; rfl
    | nil =>
      rw [hl] at h1
      obtain ⟨⟨o, r⟩, _, h1⟩ := bind_inv h1
      cases h1
      rfl
  refine ⟨?_, fun hl hg => ?_⟩
  · cases o with
    | none => cases h; exact hstep
    | some x =>
      obtain ⟨y, _, h⟩ := bind_inv h
      cases h
      exact hstep
  · unfold Separator.forcePop Separator.pop at h1
    rw [hl] at h1
    simp only at h1
    rcases Reducer.detach_spec hg with ⟨_, e', _⟩ | ⟨hne, _⟩
    · rw [e'] at h1
      cases h1
      cases h
      rfl
    · exact absurd rfl hne

/-- `force_pop_all` on an aggregator with nothing waiting leaves at most one record, completed just now. -/
theorem drain_force (hs : 0 < a.sep.step) (hl : a.sep.sepList = []) (ha : a.agList = []) (hg : Reducer.GoodA env ropt a.sep.reducer as)
    (h : Trans env a (popOps true clk id) a' out) :
    a'.sep.step = a.sep.step ∧ a'.sep.sepList = [] ∧ Reducer.GoodA env ropt a'.sep.reducer [] ∧ a'.agList.length ≤ 1 ∧
      (as = [] → out = [] ∧ a'.agList = []) := by
  obtain ⟨a1, as', d, e1, rfl, k1, k2, k3, k4⟩ := popOps_inv hs hl hg h
  simp only [if_true] at e1
  obtain ⟨f1, f2, f3⟩ := Aggregator.forcePop_drain k2 k3 e1
  refine ⟨(forcePop_none (ropt := ropt) e1).1.trans k1, f2, f1, ?_, ?_⟩
  · rw [f3]
    rcases k4 with ⟨_, e⟩ | ⟨_, _, x, e⟩ <;> rw [e, ha] <;> simp
  · rintro rfl
    rcases k4 with ⟨rfl, e⟩ | ⟨_, h0, _⟩
    · rw [(forcePop_none e1).2 k2 k3, f3, e, ha]
      exact ⟨rfl, rfl⟩
    · exact absurd rfl h0

/-- `pop_all` after that leaves nothing. -/
theorem drain_rest (hs : 0 < a.sep.step) (hl : a.sep.sepList = []) (ha : a.agList.length ≤ 1) (hg : Reducer.GoodA env ropt a.sep.reducer [])
    (h : Trans env a (popOps false clk id) a' out) :
    a'.sep.step = a.sep.step ∧ a'.sep.sepList = [] ∧ Reducer.GoodA env ropt a'.sep.reducer [] ∧ a'.agList = [] := by
  obtain ⟨a1, as', d, e1, rfl, k1, k2, k3, k4⟩ := popOps_inv hs hl hg h
  rcases k4 with ⟨rfl, e⟩ | ⟨_, h0, _⟩
  · simp only [Bool.false_eq_true, if_false, Except.ok.injEq] at e1
    unfold Aggregator.pop at e1
    rw [← e] at ha
    cases hag : a1.agList with
    | nil =>
      rw [hag] at e1
      cases e1
      exact ⟨k1, k2, k3, hag⟩
    | cons x l =>
      rw [hag] at e1 ha
      cases e1
      simp only [List.length_cons] at ha
      exact ⟨k1, k2, k3, List.length_eq_zero_iff.1 (by simp only; omega)⟩
  · exact absurd rfl h0

end Registry

namespace Wrt

open Registry (RegOp RObs rexecAll Room RInv forRef popOps)
open Aggregator (AOp AObs Trans)

variable {env : Env} {opt : WOpts}

/-- `pushout` as an operation on the registry. -/
theorem pushout_inv {w w' : Wrt} {force : Bool} {clk : Nat → Int} {n : Nat} {l : List (Name × AggData)}
    (h : w.pushout env force clk = .ok (n, l, w')) : w.reg.popAll env force clk = .ok (l, w'.reg) := by
  obtain ⟨⟨l1, r1⟩, h1, h2⟩ := bind_inv h
  simp only at h2
  by_cases hc : l1 ≠ [] ∧ w.handler = false
  · rw [if_pos hc] at h2; cases h2
  · rw [if_neg hc] at h2; cases h2; exact h1

/-- `pushout` until it returns 0, then `force_pushout`, then `pushout` once more: after that no aggregator keeps anything, all that it
accepted has been received in records that report it, and destruction has nothing to report.  The clock may say anything at each of the
calls and for each aggregator. -/
theorem C147_orderly (opt : WOpts) (ops : List WOp) (o : WObs) (ro : RObs) (clk0 clk1 clk2 clk3 : Nat → Int)
    (l0 l1 l2 l3 : List (Name × AggData)) (n1 n2 : Nat) (w1 w2 w3 : Wrt) (hs : 0 < opt.step)
    (hr : Room opt.toRegistryOpts ((regHist ops).length + 3)) (hid : ∀ op ∈ regHist ops, op.idOk opt.toRegistryOpts)
    (hw : wexecAll env { w := Wrt.new opt } ops = .ok o)
    (hro : rexecAll env { r := Registry.new opt.toRegistryOpts }
      (regHist ops ++ [.popAll false clk0, .popAll true clk1, .popAll false clk2]) = .ok ro)
    (hask : ∀ x ∈ ro.asked, x.2.clockOk ∧ x.2.sepHandler = false)
    (h0 : o.w.pushout env false clk0 = .ok (0, l0, w1)) (h1 : w1.pushout env true clk1 = .ok (n1, l1, w2))
    (h2 : w2.pushout env false clk2 = .ok (n2, l2, w3)) :
    (∀ name c, w3.reg.cellOf name = some c →
      c.agg.agList = [] ∧ c.agg.sep.sepList = [] ∧ c.agg.sep.reducer.totalCount = 0 ∧
      ∃ k rand now a0 ao, Aggregator.new opt.toAggregatorOpts k rand now = .ok a0 ∧
        Aggregator.execAll env { a := a0 } (forRef c.ref ro.asked) = .ok ao ∧ ao.a = c.agg ∧
        ao.received = forRef c.ref ro.received ∧
        ∃ gs : List (List (Int × AddArg)), gs.flatten.Perm ao.accepted ∧
          List.Forall₂ (fun g d => Report env opt.toAggregatorOpts (g.map Prod.snd) d ∧
            ∀ e ∈ g, d.ts ≤ e.1 ∧ e.1 < d.ts + opt.step) gs ao.received) ∧
    (w3.destroy env clk3 = .ok l3 → l3 = []) := by
  have hi := winv (hr.mono (by omega)) hw
  have hr0 : Room opt.toRegistryOpts (regHist ops).length := hr.mono (by omega)
  have p0 := pushout_inv h0
  have p1 := pushout_inv h1
  have p2 := pushout_inv h2
  obtain ⟨s0, _⟩ := Registry.seff_popAll hi hr0 p0
  have hi1 := s0.inv hi
  obtain ⟨s1, _⟩ := Registry.seff_popAll hi1 hr0 p1
  have hi2 := s1.inv hi1
  obtain ⟨s2, _⟩ := Registry.seff_popAll hi2 hr0 p2
  have hi3 := s2.inv hi2
  -- the history of the registry, step by step
  obtain ⟨_, ro0, e0, k0⟩ := wsim ops (ro := { r := Registry.new opt.toRegistryOpts }) hw rfl
  have hpop : ∀ (x : RObs) (force : Bool) (clk : Nat → Int) (l : List (Name × AggData)) (r' : Registry),
      x.r.popAll env force clk = .ok (l, r') → ∃ x', Registry.rexec env x (.popAll force clk) = .ok x' ∧ x'.r = r' ∧
        ∃ t, x'.asked = x.asked ++ t := by
    intro x force clk l r' h
    refine ⟨⟨r', x.asked ++ x.r.asked (.popAll force clk), x.received ++ x.r.delivered (.popAll force clk) (.records l)⟩, ?_, rfl, _, rfl⟩
    have : Registry.step env x.r (.popAll force clk) = .ok (.records l, r') := by
      show (x.r.popAll env force clk >>= fun p => Except.ok (Registry.Resp.records p.1, p.2)) = _
      rw [h]
      rfl
    unfold Registry.rexec
    rw [this]
    rfl
  obtain ⟨ro1, e1, k1, t1, a1⟩ := hpop ro0 false clk0 l0 w1.reg (by rw [k0]; exact p0)
  obtain ⟨ro2, e2, k2, t2, a2⟩ := hpop ro1 true clk1 l1 w2.reg (by rw [k1]; exact p1)
  obtain ⟨ro3, e3, k3, t3, a3⟩ := hpop ro2 false clk2 l2 w3.reg (by rw [k2]; exact p2)
  have hro3 : ro3 = ro := by
    rw [Registry.rexecAll_append, e0] at hro
    have : rexecAll env ro0 [.popAll false clk0, .popAll true clk1, .popAll false clk2] = .ok ro3 := by
      unfold rexecAll
      simp only [List.foldlM_cons, List.foldlM_nil, e1, e2, e3, bind_ok']
      rfl
    have h := hro
    simp only [bind_ok'] at h
    rw [this] at h
    cases h
    rfl
  subst hro3
  have hro1 : rexecAll env { r := Registry.new opt.toRegistryOpts } (regHist ops ++ [.popAll false clk0]) = .ok ro1 := by
    rw [Registry.rexecAll_append, e0]
    unfold rexecAll
    simp only [List.foldlM_cons, List.foldlM_nil, e1, bind_ok']
    rfl
  have hask1 : ∀ x ∈ ro1.asked, x.2.clockOk ∧ x.2.sepHandler = false := by
    intro x hx
    refine hask x ?_
    rw [a3, a2]
    simp [hx]
  have sim1 := Registry.sim_execAll _ (Registry.sim_new env opt.toRegistryOpts) (hr.mono (by simp)) (by
    intro op ho
    rcases List.mem_append.1 ho with ho | ho
    · exact hid op ho
    · simp only [List.mem_singleton] at ho
      subst ho
      intro id h
      cases h) hro1
  have sim3 := Registry.sim_execAll _ (Registry.sim_new env opt.toRegistryOpts) (hr.mono (by simp)) (by
    intro op ho
    rcases List.mem_append.1 ho with ho | ho
    · exact hid op ho
    · simp only [List.mem_cons, List.not_mem_nil, or_false] at ho
      rcases ho with rfl | rfl | rfl <;> (intro id h; cases h)) hro
  have key : ∀ name c, w3.reg.cellOf name = some c →
      ∃ id, (name, id) ∈ w3.reg.dict.dict ∧ 0 < c.agg.sep.step ∧ c.agg.agList = [] ∧ c.agg.sep.sepList = [] ∧
        Reducer.GoodA env opt.toReducerOpts c.agg.sep.reducer [] := by
    intro name c hc
    obtain ⟨id, hm3, _, _⟩ := hi3.cellOf_some hr0 hc
    have hm2 : (name, id) ∈ w2.reg.dict.dict := by rw [← s2.dict]; exact hm3
    have hm1 : (name, id) ∈ w1.reg.dict.dict := by rw [← s1.dict]; exact hm2
    have hn0 : name ≠ [] := hi3.nonempty _ hm3
    obtain ⟨c1, q1, _, _, q4⟩ := hi1.cellOf_live hr0 hm1
    obtain ⟨z1, z2, _⟩ := C35_polled_partial ro0 clk0 w1 l0 hs hr0 hid hw e0 (fun x hx => (hask1 x (by rw [a1]; simp [hx])).1) h0 name id c1
      hn0 ((Registry.getName_live hi1 hn0).2 hm1) q1
    obtain ⟨ck, rand, now, a0, ha, oo, tt, tt1, tt2⟩ := sim1.cell name id c1 (by rw [k1]; exact hm1) (by rw [k1]; exact q4)
    obtain ⟨gR, gA, gS, cur, g⟩ := Aggregator.pgood_execAll (Q := fun _ _ => True)
      (fun _ _ _ => trivial) hs _ (Aggregator.pgood_fresh hs (.new ha)) (fun op ho => by
        unfold forRef at ho
        obtain ⟨y, hy, rfl⟩ := List.mem_map.1 ho
        exact (hask1 y (List.mem_filter.1 hy).1).1)
      (fun op ho hsh _ _ _ => trivial) tt
    have hstep : 0 < c1.agg.sep.step := by
      rw [← tt1, g.sep.step.1]
      exact hs
    obtain ⟨c2, u1, _, u3⟩ := Registry.popAll_name hi1 hr0 p1 hm1 q1
    obtain ⟨v1, v2, v3, v4, _⟩ := Registry.drain_force hstep z2 z1 (by rw [← tt1]; exact g.sep.red) u3
    obtain ⟨c3, x1, _, x3⟩ := Registry.popAll_name hi2 hr0 p2 hm2 u1
    obtain ⟨y1, y2, y3, y4⟩ := Registry.drain_rest (by rw [v1]; exact hstep) v2 v4 v3 x3
    rw [hc] at x1
    cases x1
    exact ⟨id, hm3, by rw [y1, v1]; exact hstep, y4, y2, y3⟩
  refine ⟨?_, ?_⟩
  · intro name c hc
    obtain ⟨id, hm, hstep, f3, f2, f1⟩ := key name c hc
    refine ⟨f3, f2, f1.good.total, ?_⟩
    obtain ⟨c3, q1, _, _, q4⟩ := hi3.cellOf_live hr0 hm
    rw [hc] at q1
    cases q1
    obtain ⟨ck, rand, now, a0, ha, oo, tt, tt1, tt2⟩ := sim3.cell name id c (by rw [k3]; exact hm) (by rw [k3]; exact q4)
    have hask' : ∀ op ∈ forRef c.ref ro3.asked, op.clockOk ∧ op.sepHandler = false := by
      intro x hx
      unfold forRef at hx
      obtain ⟨y, hy, rfl⟩ := List.mem_map.1 hx
      exact hask y (List.mem_filter.1 hy).1
    obtain ⟨gR, gA, gS, cur, g⟩ := Aggregator.pgood_execAll (Q := Report env opt.toAggregatorOpts)
      (fun _ _ h => h) hs _ (Aggregator.pgood_fresh hs (.new ha)) (fun op ho => (hask' op ho).1)
      (fun op ho hsh => by rw [(hask' op ho).2] at hsh; cases hsh) tt
    rw [← tt1] at f1 f2 f3
    have hcur : cur = [] := List.map_eq_nil_iff.1 (Aggregator.goodA_nil g.sep.red f1)
    have hgA : gA = [] := by
      have := g.wait
      rw [f3] at this
      cases this
      rfl
    have hgS : gS = [] := by
      have := g.sep.recs
      rw [f2] at this
      cases this
      rfl
    subst hcur hgA hgS
    exact ⟨ck, rand, now, a0, oo, ha, tt, tt1, tt2, gR, by simpa using g.perm, g.rec_⟩
  · intro hd
    obtain ⟨⟨n3, l3', w4⟩, d1, d2⟩ := bind_inv hd
    cases d2
    have p3 := pushout_inv d1
    obtain ⟨_, hl⟩ := Registry.seff_popAll hi3 hr0 p3
    by_contra hne
    obtain ⟨⟨name, d⟩, hx⟩ := List.exists_mem_of_ne_nil _ hne
    obtain ⟨⟨name', id⟩, hm, e⟩ := List.mem_map.1 (hl _ hx)
    cases e
    obtain ⟨c, q1, _⟩ := hi3.cellOf_live hr0 hm
    obtain ⟨id', hm', hstep, f3, f2, f1⟩ := key _ c q1
    obtain ⟨c4, _, _, u3⟩ := Registry.popAll_name hi3 hr0 p3 hm q1
    have hn := ((Registry.drain_force hstep f2 f3 f1 u3).2.2.2.2 rfl).1
    have : d ∈ (l3.filter fun p => p.1 = name).map Prod.snd := by
      refine List.mem_map.2 ⟨(name, d), List.mem_filter.2 ⟨hx, by simp⟩, rfl⟩
    rw [hn] at this
    cases this

/-- Two names; the window of the first has ended when `force_pushout` is called, the window of the second has not.  The forced call
reports the second, the call after it reports the first, and destruction reports nothing. -/
theorem exShutdown : (match (do
    let o ← wexecAll exactEnv { w := Wrt.new exWOpt }
      [.meterName {} ['a'] 1003, .reg (.addId 1 0 0 1003 5 1), .meterName {} ['b'] 1003, .reg (.addId 2 0 0 1003 7 2)]
    let (n0, l0, w1) ← o.w.pushout exactEnv false fun _ => 1004
    let (n1, l1, w2) ← w1.pushout exactEnv true fun id => if id = 1 then 1020 else 1006
    let (n2, l2, w3) ← w2.pushout exactEnv false fun _ => 1021
    let l3 ← w3.destroy exactEnv fun _ => 1022
    .ok ([n0, n1, n2], l0 ++ l1, l2, l3) : M (List Nat × List (Name × AggData) × List (Name × AggData) × List (Name × AggData))) with
    | .ok (ns, l1, l2, l3) => decide (ns = [0, 1, 1] ∧ l1.map (fun r => (r.1, r.2.data, r.2.count)) = [(['b'], [7], 2)] ∧
        l2.map (fun r => (r.1, r.2.data, r.2.count)) = [(['a'], [5], 1)] ∧ l3 = [])
    | .error _ => false) = true := by decide +kernel

/-- Each call is needed.  Without the last `pushout`, the value of the first name is still there when the object is destroyed, and
destruction does not report it. -/
example : (match (do
    let o ← wexecAll exactEnv { w := Wrt.new exWOpt } [.meterName {} ['a'] 1003, .reg (.addId 1 0 0 1003 5 1)]
    let (n0, _, w1) ← o.w.pushout exactEnv false fun _ => 1004
    let (n1, _, w2) ← w1.pushout exactEnv true fun _ => 1020
    let l3 ← w2.destroy exactEnv fun _ => 1022
    let (n2, _, _) ← w2.pushout exactEnv false fun _ => 1022
    .ok ([n0, n1, n2], l3) : M (List Nat × List (Name × AggData))) with
    | .ok (ns, l3) => decide (ns = [0, 0, 1] ∧ l3 = [])
    | .error _ => false) = true := by decide +kernel

/-- Without polling to 0 at first, two windows are waiting, and one `pushout` takes one of them. -/
example : (match (do
    let o ← wexecAll exactEnv { w := Wrt.new exWOpt }
      [.meterName {} ['a'] 1003, .reg (.addId 1 0 0 1003 5 1), .reg (.addId 1 0 0 1014 6 1), .reg (.addId 1 0 0 1025 7 1)]
    let (n1, _, w2) ← o.w.pushout exactEnv true fun _ => 1040
    let (n2, _, w3) ← w2.pushout exactEnv false fun _ => 1041
    let l3 ← w3.destroy exactEnv fun _ => 1042
    let (n3, _, w4) ← w3.pushout exactEnv false fun _ => 1042
    let (n4, _, _) ← w4.pushout exactEnv false fun _ => 1043
    .ok ([n1, n2, n3, n4], l3) : M (List Nat × List (Name × AggData))) with
    | .ok (ns, l3) => decide (ns = [0, 1, 1, 1] ∧ l3 = [])
    | .error _ => false) = true := by decide +kernel

end Wrt
end Wrtstat
