/-
C148: every pushout takes what it hands over from a fixed number of records, so polling ends.
-/
import Verif.Props.Shutdown

namespace Wrtstat

set_option autoImplicit false

/-- The records an aggregator still owes: those waiting in its two queues and one for the current window if something was added. -/
def Aggregator.owed (a : Aggregator) : Nat :=
  a.agList.length + a.sep.sepList.length + if a.sep.reducer.empty then 0 else 1

/-- The records owed under all names. -/
def Registry.owed (r : Registry) : Nat :=
  (r.dict.dict.map fun p => match r.cellOf p.1 with
    | some c => c.agg.owed
    | none => 0).sum

namespace Registry

open Aggregator (AOp AObs Trans)

variable {env : Env} {ropt : ReducerOpts} {a a' : Aggregator} {clk : Nat → Int} {id : Nat} {out : List AggData} {as : List AddArg}

theorem flag_nil {r : Reducer} (h : Reducer.GoodA env ropt r []) : (if r.empty then 0 else 1) = 0 := by
  rw [h.emp]
  rfl

theorem flag_ne {r : Reducer} (h : Reducer.GoodA env ropt r as) (hne : as ≠ []) : (if r.empty then 0 else 1) = 1 := by
  rw [h.emp]
  cases as with
  | nil => exact absurd rfl hne
  | cons x l => rfl

theorem pop_owed (a : Aggregator) : a.pop.2.sep = a.sep ∧ a.pop.1.toList.length + a.pop.2.owed = a.owed := by
  unfold Aggregator.pop Aggregator.owed
  cases h : a.agList with
  | nil => exact ⟨rfl, by simp [h]⟩
  | cons x l => exact ⟨rfl, by simp; omega⟩

/-- `forcePop` on an aggregator whose separator holds no records. -/
theorem forcePop_owed {d : Option AggData} (hl : a.sep.sepList = []) (hg : Reducer.GoodA env ropt a.sep.reducer as)
    (h : a.forcePop env = .ok (d, a')) : d.toList.length + a'.owed = a.owed := by
  obtain ⟨k1, k2, k3⟩ := Aggregator.forcePop_drain hl hg h
  unfold Aggregator.owed
  rw [flag_nil k1, k2, k3, hl]
  by_cases hne : as = []
  · subst hne
    rw [flag_nil hg, (forcePop_none (ropt := ropt) h).2 hl hg]
    simp
  · rw [flag_ne hg hne]
    rcases Reducer.detach_spec hg with ⟨e, _⟩ | ⟨_, r1, er, g1, _, _, _, _, ⟨y, _, e⟩ | ⟨_, e⟩⟩
    · exact absurd e hne
    · unfold Aggregator.forcePop Separator.forcePop Separator.pop at h
      rw [hl] at h
      simp only at h
      rw [e] at h
      simp only [bind_ok', Option.map_some] at h
      obtain ⟨x, _, hx⟩ := bind_inv h
      cases hx
      simp
      omega
    · unfold Aggregator.forcePop Separator.forcePop Separator.pop at h
      rw [hl] at h
      simp only at h
      rw [e] at h
      cases h

/-- What is handed over is taken from what is owed. -/
theorem popOps_owed {force : Bool} (hs : 0 < a.sep.step) (hg : Reducer.GoodA env ropt a.sep.reducer as)
    (h : Trans env a (popOps force clk id) a' out) :
    a'.sep.step = a.sep.step ∧ (∃ as', Reducer.GoodA env ropt a'.sep.reducer as') ∧ out.length + a'.owed = a.owed := by
  obtain ⟨o1, t1, t2, t3⟩ := h
  unfold popOps Aggregator.execAll at t1
  simp only [List.foldlM_cons, List.foldlM_nil] at t1
  obtain ⟨x1, t4, t5⟩ := bind_inv t1
  obtain ⟨x2, t6, t7⟩ := bind_inv t5
  cases t7
  obtain ⟨⟨b, out', a1⟩, t8, t9⟩ := bind_inv t4
  cases t9
  obtain ⟨⟨b2, out2, s2⟩, q1, q2⟩ := bind_inv t8
  obtain ⟨a3, q3, q4⟩ := bind_inv q2
  cases q4
  obtain ⟨lst, q5, q6⟩ := Aggregator.aggregate0_spec env.nth { a with sep := s2 }
  rw [q5] at q3
  cases q3
  obtain ⟨pub, as', eff, _⟩ := Separator.separate_effect hs hg q1
  have hout : out' = [] := by simpa using eff.lists.1
  subst hout
  have hlen : lst.length = a.sep.sepList.length + pub.length := by
    rw [← q6.length_eq, eff.lists.2]
    simp
  have hpub : pub.length + (if s2.reducer.empty then 0 else 1) = if a.sep.reducer.empty then 0 else 1 := by
    rcases eff.cases with ⟨_, rfl, rfl, _⟩ | ⟨_, _, _, _, rfl, ⟨rfl, rfl⟩ | ⟨hne, d, rfl, _⟩⟩
    · simp
    · rw [flag_nil eff.good, flag_nil hg]; rfl
    · rw [flag_nil eff.good, flag_ne hg hne]; rfl
  have hmid : ({ a with sep := { s2 with sepList := [] }, agList := a.agList ++ lst } : Aggregator).owed = a.owed := by
    unfold Aggregator.owed
    simp only [List.length_append, List.length_nil, hlen]
    omega
  cases force with
  | true =>
    simp only [if_true] at t6
    obtain ⟨⟨d, a2⟩, e1, e2⟩ := bind_inv t6
    cases e2
    subst t2
    obtain ⟨k1, _, _⟩ := Aggregator.forcePop_drain rfl (by exact eff.good) e1
    refine ⟨(forcePop_none (ropt := ropt) e1).1.trans eff.frame.1, ⟨[], k1⟩, ?_⟩
    have := forcePop_owed rfl (by exact eff.good) e1
    rw [← t3, ← hmid, ← this]
    simp
  | false =>
    simp only [Bool.false_eq_true, if_false] at t6
    cases t6
    subst t2
    obtain ⟨k1, k2⟩ := pop_owed { a with sep := { s2 with sepList := [] }, agList := a.agList ++ lst }
    rw [← t3, ← hmid, ← k2]
    refine ⟨?_, ⟨as', ?_⟩, rfl⟩
    · show (Aggregator.pop _).2.sep.step = _
      rw [k1]
      exact eff.frame.1
    · show Reducer.GoodA env ropt (Aggregator.pop _).2.sep.reducer as'
      rw [k1]
      exact eff.good

/-- The aggregators of a registry are in order. -/
def Ready (env : Env) (ropt : ReducerOpts) (r : Registry) : Prop :=
  ∀ name c, r.cellOf name = some c → 0 < c.agg.sep.step ∧ ∃ as, Reducer.GoodA env ropt c.agg.sep.reducer as

theorem length_by_name {β : Type} (ns : List Name) (hn : ns.Nodup) : ∀ (l : List (Name × β)), (∀ p ∈ l, p.1 ∈ ns) →
    l.length = (ns.map fun n => (l.filter fun p => p.1 = n).length).sum := by
  intro l
  induction l with
  | nil => intro _; simp
  | cons x l ih =>
    intro h
    have h1 : (ns.map fun n => ((x :: l).filter fun p => p.1 = n).length).sum =
        (ns.map fun n => (l.filter fun p => p.1 = n).length).sum + (ns.map fun n => if x.1 = n then 1 else 0).sum := by
      rw [← List.sum_map_add]
      congr 1
      refine List.map_congr_left fun n _ => ?_
      by_cases hx : x.1 = n <;> simp [hx]
    have h2 : (ns.map fun n => if x.1 = n then 1 else 0).sum = 1 := by
      have hx := h x (by simp)
      clear h1 h ih
      induction ns with
      | nil => cases hx
      | cons y ns ih =>
        rw [List.nodup_cons] at hn
        simp only [List.map_cons, List.sum_cons]
        by_cases hy : x.1 = y
        · subst hy
          rw [if_pos rfl]
          have : (ns.map fun n => if x.1 = n then 1 else 0).sum = 0 := by
            refine List.sum_eq_zero fun k hk => ?_
            obtain ⟨n, hm, rfl⟩ := List.mem_map.1 hk
            rw [if_neg]
            rintro rfl
            exact hn.1 hm
          rw [this]
        · rw [if_neg hy, ih hn.2 (by
            rcases List.mem_cons.1 hx with e | e
            · exact absurd e hy
            · exact e)]
    rw [h1, h2, ← ih fun p hp => h p (by simp [hp])]
    simp

theorem popAll_owed {opt : RegistryOpts} {n : Nat} {r r' : Registry} (hi : RInv opt n r) (hr : Room opt n) (hg : Ready env ropt r)
    {force : Bool} {l : List (Name × AggData)} (h : r.popAll env force clk = .ok (l, r')) :
    RInv opt n r' ∧ Ready env ropt r' ∧ l.length + r'.owed = r.owed := by
  obtain ⟨s, hl⟩ := seff_popAll hi hr h
  have hi' := s.inv hi
  have cellw : ∀ nm id, (nm, id) ∈ r.dict.dict → ∃ c c', r.cellOf nm = some c ∧ r'.cellOf nm = some c' ∧
      0 < c'.agg.sep.step ∧ (∃ as, Reducer.GoodA env ropt c'.agg.sep.reducer as) ∧
      (l.filter fun p => p.1 = nm).length + c'.agg.owed = c.agg.owed := by
    intro nm id hm
    obtain ⟨c, q1, _⟩ := hi.cellOf_live hr hm
    obtain ⟨c', u1, _, u3⟩ := popAll_name hi hr h hm q1
    obtain ⟨g1, as, g2⟩ := hg nm c q1
    obtain ⟨k1, k2, k3⟩ := popOps_owed g1 g2 u3
    exact ⟨c, c', q1, u1, by omega, k2, by simpa using k3⟩
  refine ⟨hi', ?_, ?_⟩
  · intro name c hc
    obtain ⟨id, hm, _, _⟩ := hi'.cellOf_some hr hc
    obtain ⟨c0, c1, _, e1, e2, e3, _⟩ := cellw name id (by rw [← s.dict]; exact hm)
    rw [hc] at e1
    cases e1
    exact ⟨e2, e3⟩
  · rw [length_by_name _ hi.names l hl]
    unfold owed
    rw [s.dict, List.map_map, ← List.sum_map_add]
    congr 1
    refine List.map_congr_left fun p hp => ?_
    obtain ⟨c0, c1, e0, e1, _, _, e⟩ := cellw p.1 p.2 hp
    simp only [Function.comp_apply, e0, e1]
    exact e

end Registry

namespace Wrt

open Registry (RegOp RObs rexecAll Room RInv forRef popOps)
open Aggregator (AOp AObs Trans)

variable {env : Env}

/-- Calls of `pushout` and `force_pushout` one after the other; the numbers they return. -/
def polls (env : Env) (w : Wrt) : List (Bool × (Nat → Int)) → M (List Nat × Wrt)
  | [] => .ok ([], w)
  | (force, clk) :: cs => do
    let (n, _, w) ← w.pushout env force clk
    let (ns, w) ← polls env w cs
    .ok (n :: ns, w)

theorem pushout_count {w w' : Wrt} {force : Bool} {clk : Nat → Int} {n : Nat} {l : List (Name × AggData)}
    (h : w.pushout env force clk = .ok (n, l, w')) : n = l.length := by
  obtain ⟨⟨l1, r1⟩, h1, h2⟩ := bind_inv h
  simp only at h2
  by_cases hc : l1 ≠ [] ∧ w.handler = false
  · rw [if_pos hc] at h2; cases h2
  · rw [if_neg hc] at h2; cases h2; rfl

theorem polls_owed {ropt : ReducerOpts} {opt : RegistryOpts} {m : Nat} (hr : Room opt m) : ∀ (cs : List (Bool × (Nat → Int))) (w w' : Wrt) (ns : List Nat),
    RInv opt m w.reg → Registry.Ready env ropt w.reg → w.polls env cs = .ok (ns, w') → ns.length = cs.length ∧ ns.sum + w'.reg.owed = w.reg.owed
  | [], w, w', ns, _, _, h => by cases h; exact ⟨rfl, by simp⟩
  | (force, clk) :: cs, w, w', ns, hi, hg, h => by
    obtain ⟨⟨n, l, w1⟩, h1, h2⟩ := bind_inv h
    obtain ⟨⟨ns', w2⟩, h3, h4⟩ := bind_inv h2
    cases h4
    obtain ⟨k1, k2, k3⟩ := Registry.popAll_owed hi hr hg (pushout_inv h1)
    obtain ⟨j1, j2⟩ := polls_owed hr cs w1 _ ns' k1 k2 h3
    have := pushout_count h1
    refine ⟨by simp [j1], ?_⟩
    rw [List.sum_cons]
    omega

/-- Whatever was done with the object and whatever the clock says: the records handed over by any calls of `pushout` and
`force_pushout` and those still owed after them are as many as were owed before.  So of more calls than records owed, one returns 0. -/
theorem C148_polling (opt : WOpts) (ops : List WOp) (o : WObs) (ro : RObs) (cs : List (Bool × (Nat → Int))) (ns : List Nat) (w' : Wrt)
    (hs : 0 < opt.step) (hr : Room opt.toRegistryOpts (regHist ops).length) (hid : ∀ op ∈ regHist ops, op.idOk opt.toRegistryOpts)
    (hw : wexecAll env { w := Wrt.new opt } ops = .ok o)
    (hro : rexecAll env { r := Registry.new opt.toRegistryOpts } (regHist ops) = .ok ro) (hask : ∀ x ∈ ro.asked, x.2.clockOk)
    (h : o.w.polls env cs = .ok (ns, w')) :
    ns.length = cs.length ∧ ns.sum + w'.reg.owed = o.w.reg.owed ∧ (o.w.reg.owed < cs.length → 0 ∈ ns) := by
  have hi := winv hr hw
  obtain ⟨_, ro', e1, e2⟩ := wsim ops (ro := { r := Registry.new opt.toRegistryOpts }) hw rfl
  rw [hro] at e1
  cases e1
  have sim := Registry.sim_execAll _ (Registry.sim_new env opt.toRegistryOpts) (hr.mono (by omega)) hid hro
  have hg : Registry.Ready env opt.toReducerOpts o.w.reg := by
    intro name c hc
    obtain ⟨id, hm, _, _⟩ := hi.cellOf_some hr hc
    obtain ⟨c1, q1, _, _, q4⟩ := hi.cellOf_live hr hm
    rw [hc] at q1
    cases q1
    obtain ⟨ck, rand, now, a0, ha, oo, tt, tt1, _⟩ := sim.cell name id c (by rw [e2]; exact hm) (by rw [e2]; exact q4)
    obtain ⟨gR, gA, gS, cur, g⟩ := Aggregator.pgood_execAll (Q := fun _ _ => True)
      (fun _ _ _ => trivial) hs _ (Aggregator.pgood_fresh hs (.new ha)) (fun op ho => by
        unfold forRef at ho
        obtain ⟨y, hy, rfl⟩ := List.mem_map.1 ho
        exact hask y (List.mem_filter.1 hy).1)
      (fun op ho hsh _ _ _ => trivial) tt
    rw [← tt1]
    exact ⟨by rw [g.sep.step.1]; exact hs, _, g.sep.red⟩
  obtain ⟨k1, k2⟩ := polls_owed hr cs o.w w' ns hi hg h
  refine ⟨k1, k2, fun hlt => ?_⟩
  by_contra h0
  have : ns.length ≤ ns.sum := by
    clear h k1 k2
    induction ns with
    | nil => simp
    | cons x l ih =>
      simp only [List.mem_cons, not_or] at h0
      have := ih h0.2
      simp only [List.length_cons, List.sum_cons]
      omega
  omega

/-- Three windows and two names: five records owed at first, one of them for a window that is still open at the sixth call. -/
example : (match (do
    let o ← wexecAll exactEnv { w := Wrt.new exWOpt }
      [.meterName {} ['a'] 1003, .reg (.addId 1 0 0 1003 5 1), .reg (.addId 1 0 0 1014 6 1), .reg (.addId 1 0 0 1025 7 1),
       .meterName {} ['b'] 1003, .reg (.addId 2 0 0 1003 5 1), .reg (.addId 2 0 0 1034 6 1)]
    let (ns, w) ← o.w.polls exactEnv (List.replicate 6 (false, fun _ => 1031))
    let (ms, v) ← w.polls exactEnv [(true, fun _ => 1031), (false, fun _ => 1031)]
    .ok (o.w.reg.owed, ns, w.reg.owed, ms, v.reg.owed) : M (Nat × List Nat × Nat × List Nat × Nat)) with
    | .ok r => decide (r = (5, [2, 1, 1, 0, 0, 0], 1, [1, 0], 0))
    | .error _ => false) = true := by decide +kernel

end Wrt
end Wrtstat
