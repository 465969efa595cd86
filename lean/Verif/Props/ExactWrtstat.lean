/-
When exactly the claims on the wrtstat object hold that the code violates: C35, C36.
-/
import Verif.Props.Wrtstat

namespace Wrtstat
namespace Wrt

set_option autoImplicit false

open Registry (RegOp RObs rexecAll Room RInv forRef)
open Aggregator (AOp AObs Trans)

/-! ### C35 -/

/-- All that an aggregator accepted is reported: it splits into groups, one for each record received or handed over at destruction. -/
def AllReported (env : Env) (opt : WOpts) (name : Name) (ao : AObs) (l : List (Name × AggData)) : Prop :=
  ∃ gs : List (List (Int × AddArg)), gs.flatten.Perm ao.accepted ∧
    List.Forall₂ (fun g d => Report env opt.toAggregatorOpts (g.map Prod.snd) d ∧ ∀ e ∈ g, d.ts ≤ e.1 ∧ e.1 < d.ts + opt.step) gs
      (ao.received ++ (l.filter fun p => p.1 = name).map Prod.snd)

/-- The counts of records that report groups. -/
theorem group_counts {step : Int} {Q : List AddArg → AggData → Prop} (hQ : ∀ as d, Q as d → d.count = sumCount as) {gs : List (List (Int × AddArg))}
    {l : List AggData} (h : List.Forall₂ (Aggregator.Group step Q) gs l) : (l.map (·.count)).sum = sumCount (gs.flatten.map Prod.snd) := by
  induction h with
  | nil => rfl
  | cons h _ ih =>
    rw [List.map_cons, List.sum_cons, ih, hQ _ _ h.1]
    simp only [sumCount, List.flatten_cons, List.map_append, List.sum_append]

theorem sumCount_zero {as : List AddArg} (hp : ∀ a ∈ as, 0 < a.count) (h : sumCount as = 0) : as = [] := by
  cases as with
  | nil => rfl
  | cons a as =>
    have := hp a List.mem_cons_self
    simp only [sumCount, List.map_cons, List.sum_cons] at h
    omega

theorem groups_zero {step : Int} {Q : List AddArg → AggData → Prop} (hQ : ∀ as d, Q as d → as ≠ []) {gs : List (List (Int × AddArg))}
    {l : List AggData} (h : List.Forall₂ (Aggregator.Group step Q) gs l) (h0 : gs.flatten = []) : l = [] := by
  cases h with
  | nil => rfl
  | @cons g d gs l h _ =>
    rw [List.flatten_cons, List.append_eq_nil_iff] at h0
    rw [h0.1] at h
    exact absurd rfl (hQ _ _ h.1)

/-- At destruction everything an aggregator accepted is reported exactly if no completed window is waiting and the current window is
empty or not over. -/
theorem C35_exact_partial (env : Env) (opt : WOpts) (ops : List WOp) (o : WObs) (ro : RObs) (clk : Nat → Int) (l : List (Name × AggData))
    (hs : 0 < opt.step) (hr : Room opt.toRegistryOpts (regHist ops).length)
    (hw : wexecAll env { w := Wrt.new opt } ops = .ok o)
    (_hro : rexecAll env { r := Registry.new opt.toRegistryOpts } (regHist ops) = .ok ro)
    (hask : ∀ x ∈ ro.asked, x.2.clockOk ∧ x.2.sepHandler = false) (hclk : ∀ id, 0 ≤ clk id) (hdes : o.w.destroy env clk = .ok l)
    (name : Name) (id : Nat) (c : Cell) (k rand now : Int) (a0 : Aggregator) (ao : AObs) (hn0 : name ≠ [])
    (hname : o.w.reg.getName id = name) (hcell : o.w.reg.cellOf name = some c)
    (ha0 : Aggregator.new opt.toAggregatorOpts k rand now = .ok a0)
    (hao : Aggregator.execAll env { a := a0 } (forRef c.ref ro.asked) = .ok ao) (hao1 : ao.a = c.agg)
    (hcnt : ∀ e ∈ ao.accepted, 0 < e.2.count) :
    AllReported env opt name ao l ↔ c.agg.agList = [] ∧ c.agg.sep.sepList = [] ∧
      (c.agg.sep.reducer.totalCount = 0 ∨ align opt.step (meant opt.resolution (clk id) 0) < c.agg.sep.nextTime) := by
  have hi := winv hr hw
  have hm := (Registry.getName_live hi hn0).1 hname
  obtain ⟨⟨num, l', w'⟩, h1, h2⟩ := bind_inv hdes
  cases h2
  obtain ⟨⟨l1, r1⟩, h3, h4⟩ := bind_inv h1
  have hl1 : l1 = l := by
    simp only at h4
    by_cases hc : l1 ≠ [] ∧ o.w.handler = false
    · rw [if_pos hc] at h4; cases h4
    · rw [if_neg hc] at h4; cases h4; rfl
  subst hl1
  obtain ⟨c', g1, g2, t⟩ := Registry.popAll_name hi hr h3 hm hcell
  obtain ⟨o1, t1, t2, t3⟩ := t
  rw [← hao1] at t1 ⊢
  have hall := Aggregator.execAll_frame env ao.a ao.received ao.accepted (Registry.popOps true clk id)
  rw [t1] at hall
  simp only [Except.map] at hall
  have hask' : ∀ op ∈ forRef c.ref ro.asked, op.clockOk ∧ op.sepHandler = false := by
    intro x hx
    unfold forRef at hx
    obtain ⟨y, hy, rfl⟩ := List.mem_map.1 hx
    exact hask y (List.mem_filter.1 hy).1
  obtain ⟨gR, gA, gS, cur, g⟩ := Aggregator.pgood_execAll (Q := Report env opt.toAggregatorOpts)
    (fun _ _ h => h) hs _ (Aggregator.pgood_fresh hs (.new ha0)) (fun op ho => (hask' op ho).1)
    (fun op ho hsh => by rw [(hask' op ho).2] at hsh; cases hsh) hao
  obtain ⟨gR', gA', gS', cur', g'⟩ := Aggregator.pgood_execAll (Q := Report env opt.toAggregatorOpts)
    (fun _ _ h => h) hs (Registry.popOps true clk id) (o := ao) g
    (Registry.popOps_ok true clk id hclk 0 0).1
    (by intro op ho hsh; simp [Registry.popOps] at ho; rcases ho with rfl | rfl <;> cases hsh) hall
  have hcur0 : ao.a.sep.reducer.totalCount = 0 ↔ cur = [] := by
    have ht : ao.a.sep.reducer.total = sumCount (cur.map Prod.snd) := g.sep.red.good.total
    unfold Reducer.totalCount
    rw [ht]
    constructor
    · intro h0
      refine List.map_eq_nil_iff.1 (sumCount_zero ?_ h0)
      intro a ha
      obtain ⟨e, he, rfl⟩ := List.mem_map.1 ha
      exact hcnt e (g.perm.subset (List.mem_append_right _ he))
    · rintro rfl
      rfl
  -- what the destructor leaves behind
  have hfin : Reducer.GoodA env opt.toReducerOpts o1.a.sep.reducer [] ∧ o1.a.sep.sepList = [] ∧ o1.accepted = [] ∧
      (o1.a.agList = [] ↔ ao.a.agList = [] ∧ ao.a.sep.sepList = [] ∧
        (cur = [] ∨ align opt.step (meant opt.resolution (clk id) 0) < ao.a.sep.next)) := by
    unfold Registry.popOps Aggregator.execAll at t1
    simp only [List.foldlM_cons, List.foldlM_nil, if_true] at t1
    obtain ⟨x1, t4, t5⟩ := bind_inv t1
    obtain ⟨x2, t6, t7⟩ := bind_inv t5
    cases t7
    obtain ⟨⟨b, out, a1⟩, t8, t9⟩ := bind_inv t4
    cases t9
    obtain ⟨⟨b', out', s1⟩, u1, u2⟩ := bind_inv t8
    obtain ⟨a2, u3, u4⟩ := bind_inv u2
    cases u4
    have hst : ao.a.sep.step = opt.step := g.sep.step.1
    have hres : ao.a.sep.resolution = opt.resolution := g.sep.step.2
    obtain ⟨pub, as', eff, _⟩ := Separator.separate_effect (by rw [hst]; exact hs) g.sep.red u1
    rw [hst, hres] at eff
    obtain ⟨rec, v1, v2⟩ := Aggregator.aggregate0_spec env.nth { ao.a with sep := s1 }
    rw [v1] at u3
    cases u3
    obtain ⟨⟨d, a3⟩, t10, t11⟩ := bind_inv t6
    cases t11
    obtain ⟨k1, k2, k3⟩ := Aggregator.forcePop_drain (as := as') rfl eff.good t10
    refine ⟨k1, k2, rfl, ?_⟩
    simp only at k3 ⊢
    rw [k3, List.append_eq_nil_iff]
    have hrec : rec = [] ↔ s1.sepList = [] := by
      have := v2.length_eq
      rw [← List.length_eq_zero_iff, ← List.length_eq_zero_iff]
      simp only at this
      omega
    rw [hrec]
    have hls := eff.lists.2
    simp only [Bool.false_eq_true, if_false] at hls
    rw [hls, List.append_eq_nil_iff]
    have hpub : pub = [] ↔ (cur = [] ∨ align opt.step (meant opt.resolution (clk id) 0) < ao.a.sep.next) := by
      rcases eff.cases with ⟨c1, c2, _, _⟩ | ⟨c1, _, _, _, _, ⟨c2, c3⟩ | ⟨c2, d, c3, _⟩⟩
      · exact ⟨fun _ => .inr c1, fun _ => c2⟩
      · exact ⟨fun _ => .inl (List.map_eq_nil_iff.1 c2), fun _ => c3⟩
      · rw [c3]
        refine ⟨fun h => (by cases h), ?_⟩
        rintro (h | h)
        · rw [h] at c2
          exact absurd rfl c2
        · omega
    rw [hpub]
  obtain ⟨f1, f2, f3, f4⟩ := hfin
  unfold Separator.nextTime
  rw [hcur0, ← f4]
  have hcur : cur' = [] := List.map_eq_nil_iff.1 (Aggregator.goodA_nil g'.sep.red f1)
  have hgS : gS' = [] := by
    have := g'.sep.recs
    simp only [f2] at this
    cases this
    rfl
  subst hcur hgS
  have hrecv : ao.received ++ o1.received = ao.received ++ (l1.filter fun p => p.1 = name).map Prod.snd := by
    rw [t3]
  have hacc : ao.accepted ++ o1.accepted = ao.accepted := by rw [f3, List.append_nil]
  have hperm := g'.perm
  simp only [List.flatten_nil, List.append_nil, hacc] at hperm
  have hwait := g'.wait
  have hrec' := g'.rec_
  simp only at hwait hrec'
  rw [hrecv] at hrec'
  have hQ : ∀ as d, Report env opt.toAggregatorOpts as d → d.count = sumCount as := by
    rintro as d ⟨raw, r1, r2⟩
    rw [r2.count, r1.count]
  constructor
  · rintro ⟨gs, p1, p2⟩
    have c1 := group_counts hQ p2
    have c2 := group_counts hQ hrec'
    have c3 := ((hperm.map Prod.snd).map AddArg.count).sum_eq
    have c4 := ((p1.map Prod.snd).map AddArg.count).sum_eq
    simp only [sumCount, List.map_append, List.sum_append] at c1 c2 c3 c4
    have hz : sumCount (gA'.flatten.map Prod.snd) = 0 := by
      unfold sumCount
      omega
    have he : gA'.flatten = [] := by
      refine List.map_eq_nil_iff.1 (sumCount_zero ?_ hz)
      intro a ha
      obtain ⟨e, he, rfl⟩ := List.mem_map.1 ha
      exact hcnt e (hperm.subset (List.mem_append_right _ he))
    exact groups_zero (fun _ _ h => by obtain ⟨raw, r1, _⟩ := h; exact r1.nonempty) hwait he
  · intro f5
    rw [f5] at hwait
    cases hwait
    refine ⟨gR', by simpa using hperm, hrec'⟩

/-! ### C36 -/

/-- Without handler `pushout`, `force_pushout` and destruction do not fault exactly if the same object with a handler would have nothing to
hand over. -/
theorem C36_exact_partial (env : Env) (w w1 : Wrt) (force : Bool) (clk : Nat → Int) (n : Nat) (l : List (Name × AggData)) (hh : w.handler = false)
    (hx : { w with handler := true }.pushout env force clk = .ok (n, l, w1)) :
    ((∃ x, w.pushout env force clk = .ok x) ↔ l = []) ∧
    (l ≠ [] → w.pushout env force clk = .error .badFunctionCall ∧ (force = true → w.destroy env clk = .error .badFunctionCall)) := by
  unfold pushout at hx
  obtain ⟨⟨l1, r1⟩, h3, h4⟩ := bind_inv hx
  have h3 : w.reg.popAll env force clk = .ok (l1, r1) := h3
  simp only [Bool.true_eq_false, and_false, if_false] at h4
  cases h4
  have key : w.pushout env force clk = if l ≠ [] then .error .badFunctionCall else .ok (l.length, l, { w with reg := r1 }) := by
    unfold pushout
    rw [h3, bind_ok']
    by_cases h : l = []
    · simp [h]
    · simp [h, hh]
  refine ⟨?_, fun h => ?_⟩
  · rw [key]
    by_cases h : l = []
    · rw [if_neg (by simp [h])]
      exact ⟨fun _ => h, fun _ => ⟨_, rfl⟩⟩
    · rw [if_pos h]
      exact ⟨fun ⟨x, hx⟩ => (by cases hx), fun h' => absurd h' h⟩
  · rw [if_pos h] at key
    refine ⟨key, ?_⟩
    rintro rfl
    unfold destroy
    rw [key]
    rfl

/-- One value in the first window.  Destroyed within the window everything is reported; destroyed when the window is over a record is left
behind; a second value after the window leaves the first record behind. -/
example : (match (do
    let o ← wexecAll exactEnv { w := Wrt.new exWOpt } [.meterName {} ['a'] 1003, .reg (.addId 1 0 0 1003 5 1)]
    let l1 ← o.w.destroy exactEnv (fun _ => 1004)
    let l2 ← o.w.destroy exactEnv (fun _ => 1014)
    let o ← wexecAll exactEnv o [.reg (.addId 1 0 0 1014 7 1)]
    let l3 ← o.w.destroy exactEnv (fun _ => 1015)
    .ok [l1, l2, l3] : M (List (List (Name × AggData)))) with
    | .ok l => decide (l.map (fun x => x.map (·.2.data)) = [[[5]], [], [[7]]])
    | .error _ => false) = true := by decide +kernel

/-- Without handler: nothing to hand over within the window, a fault after it. -/
example : (match (do
    let o ← wexecAll exactEnv { w := Wrt.new { exWOpt with handler := false } } [.meterName {} ['a'] 1003, .reg (.addId 1 0 0 1003 5 1)]
    .ok [(o.w.pushout exactEnv false (fun _ => 1004)).isOk, (o.w.pushout exactEnv false (fun _ => 1014)).isOk,
      (o.w.pushout exactEnv true (fun _ => 1004)).isOk, (o.w.destroy exactEnv (fun _ => 1004)).isOk] : M (List Bool)) with
    | .ok l => decide (l = [true, false, false, false])
    | .error _ => false) = true := by decide +kernel

/-! ### C82 -/

/-- The records completed through a meter of an id are delivered exactly if there are none or the id had a name when the meter was made;
otherwise none of them is. -/
theorem C82_exact_partial (env : Env) (opt : WOpts) (ops ops' : List WOp) (o o' : WObs) (id : Nat) (c1 c2 ts v : Int) (count : Nat)
    (p : WPusher) (w2 : Wrt) (l : List (Name × AggData)) (out : List AggData) (r' : Registry)
    (hr : Room opt.toRegistryOpts ((regHist ops).length + (regHist ops').length))
    (hw : wexecAll env { w := Wrt.new opt } ops = .ok o)
    (hm : o.w.meterId id = .ok (some p)) (hw' : wexecAll env o ops' = .ok o')
    (hcall : o'.w.call env p c1 c2 ts v count = .ok (l, w2))
    (hreg : o'.w.reg.call env p.rp c1 c2 ts (.one v count) = .ok (out, r')) :
    (l.map Prod.snd = out ↔ out = [] ∨ o.w.reg.getName id ≠ []) ∧ (o.w.reg.getName id = [] → l = []) := by
  have hl : o.w.reg.getName id = [] → l = [] := by
    intro hid
    have hi := winv (hr.mono (by omega)) hw
    obtain ⟨o2, g1, g2⟩ := wexecAll_frame ops' hw' (o1 := { w := o.w }) rfl
    have hi2 := (inv_later hi hr g1).1
    rw [g2] at hi2
    obtain ⟨p', h1, h2⟩ := bind_inv hm
    have hbad : ¬ Registry.IdOk opt.toRegistryOpts id := by
      intro hok
      have hg := hi.get_dead (hr.mono (by omega)) hok ((Registry.getName_dead hi).1 hid)
      unfold Registry.pusherId at h1
      rw [hg, bind_ok'] at h1
      cases h1
      cases h2
    have hno : o'.w.reg.getName id = [] := by
      by_contra hne
      obtain ⟨f1, f2⟩ := hi2.id_form ((Registry.getName_live hi2 hne).1 rfl)
      have := hi2.bound hr
      exact hbad (.inr ⟨f1, by omega⟩)
    have hh : p.h = .none ∨ p.h = .byId id := by
      cases p' with
      | none => cases h2
      | some p' =>
        cases h2
        show o.w.makeHandlerId id = .none ∨ o.w.makeHandlerId id = .byId id
        unfold makeHandlerId
        split_ifs
        · exact .inl rfl
        · exact .inr rfl
    obtain ⟨⟨out', r1⟩, k1, k2⟩ := bind_inv hcall
    cases k2
    have hd : r1.dict = o'.w.reg.dict := by
      unfold Registry.call at k1
      split at k1
      · cases k1; rfl
      · obtain ⟨⟨x, a⟩, _, k3⟩ := bind_inv k1
        cases k3
        rfl
    have hn1 : r1.getName id = [] := by
      unfold Registry.getName at hno ⊢
      rw [hd]
      exact hno
    refine List.flatMap_eq_nil_iff.2 fun d _ => ?_
    unfold deliver
    rcases hh with h | h <;> rw [h]
    simp only
    rw [if_pos hn1]
  refine ⟨⟨fun h => ?_, ?_⟩, hl⟩
  · by_cases hid : o.w.reg.getName id = []
    · rw [hl hid] at h
      exact .inl h.symm
    · exact .inr hid
  · rintro (rfl | hid)
    · have := (C82_partial hr hw hm hw' hcall hreg).1
      cases l with
      | nil => rfl
      | cons x l => exact absurd (this x List.mem_cons_self).2 (by simp)
    · exact (C82_partial hr hw hm hw' hcall hreg).2 hid

end Wrt
end Wrtstat
