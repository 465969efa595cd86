/-
The wrtstat object seen through its registry.
-/
import Verif.Lemmas.RegistryMore
import Verif.Lemmas.AggregatorTotal
import Verif.Spec.WrtstatSpec

namespace Wrtstat
namespace Aggregator
open Reducer (GoodA)

/-- `separate` in an open window with nothing waiting inside the separator does nothing. -/
theorem separate_open {env : Env} {a : Aggregator} {clk ts T : Int} {force : Bool} (hl : a.sep.sepList = [])
    (hg : a.sep.getTs clk ts = .ok T) (ht : T < a.sep.next) :
    ∃ b, a.separate env clk ts false force = .ok (b, [], a) := by
  have h0 : aggregate0_ env.nth a = .ok a := by
    unfold aggregate0_
    rw [hl]
    simp only [List.mapM_nil, pure, Except.pure, bind_ok', List.append_nil]
    rw [← hl]
  have : ∃ b, a.sep.separate env clk ts false force = .ok (b, [], a.sep) := by
    unfold Separator.separate
    rw [hg]
    simp only [bind_ok']
    by_cases hc : force = false ∧ T < a.sep.next
    · rw [if_pos hc]; exact ⟨_, rfl⟩
    · rw [if_neg hc]
      unfold Separator.sepLoop
      rw [dif_neg (by omega)]
      simp only [bind_ok', Bool.false_eq_true, if_false, List.append_nil]
      exact ⟨_, rfl⟩
  obtain ⟨b, e⟩ := this
  unfold separate
  rw [e]
  simp only [bind_ok', h0]
  exact ⟨b, rfl⟩

theorem goodA_nil {env : Env} {ropt : ReducerOpts} {r : Reducer} {as : List AddArg} (h : GoodA env ropt r as)
    (h0 : GoodA env ropt r []) : as = [] := by
  rcases Reducer.detach_spec h0 with ⟨_, e', _⟩ | ⟨hne, _⟩
  · rcases Reducer.detach_spec h with ⟨e, _⟩ | ⟨hne, r1, er, g1, _, _, _, _, ⟨a, _, e⟩ | ⟨_, e⟩⟩
    · exact e
    · rw [e'] at e; cases e
    · rw [e'] at e; cases e
  · exact absurd rfl hne

/-- `force_pop` with nothing waiting inside the separator empties the reducer. -/
theorem forcePop_drain {env : Env} {ropt : ReducerOpts} {a a' : Aggregator} {as : List AddArg} {x : Option AggData}
    (hl : a.sep.sepList = []) (hg : GoodA env ropt a.sep.reducer as) (h : a.forcePop env = .ok (x, a')) :
    GoodA env ropt a'.sep.reducer [] ∧ a'.sep.sepList = [] ∧ a'.agList = a.agList := by
  unfold forcePop Separator.forcePop Separator.pop at h
  rw [hl] at h
  simp only at h
  rcases Reducer.detach_spec hg with ⟨e, e', _⟩ | ⟨hne, r1, er, g1, _, _, _, _, ⟨y, _, e⟩ | ⟨_, e⟩⟩
  · rw [e'] at h
    cases h
    refine ⟨?_, hl, rfl⟩
    rw [← e]
    exact hg
  · rw [e] at h
    simp only [bind_ok', Option.map_some] at h
    obtain ⟨d', ed, hdel⟩ := finish_spec env.nth a.outSize
      { Reducer.resultOf a.sep.reducer (r1.data.headD []) y with ts := a.sep.next - a.sep.step }
    simp only at ed
    rw [ed] at h
    cases h
    exact ⟨Reducer.goodA_clear g1, hl, rfl⟩
  · rw [e] at h; cases h

end Aggregator

namespace Registry

open Aggregator (AOp AObs Trans)

variable {env : Env} {opt : RegistryOpts} {n : Nat} {r r' r'' : Registry}

/-- The aggregator with identity `k` exists under the given name and id. -/
def Live (opt : RegistryOpts) (r : Registry) (nm : Name) (id k : Nat) : Prop :=
  (nm, id) ∈ r.dict.dict ∧
    ∃ c, r.agarr[posOf opt.idStep (opt.idInit % opt.idStep) id]? = some (some c) ∧ c.ref = k

/-- The aggregator with identity `k` has the given name and id, or is gone. -/
def Tag (opt : RegistryOpts) (r : Registry) (nm : Name) (id k : Nat) : Prop :=
  Live opt r nm id k ∨ Dead r k

theorem live_step (hi : RInv opt n r) (hr : Room opt n) {op : RegOp} {resp : Resp} {nm : Name} {id k : Nat}
    (ht : Live opt r nm id k) (hg : op ≠ .del nm) (h : r.step env op = .ok (resp, r')) : Live opt r' nm id k := by
  obtain ⟨hm, c, hc, hk⟩ := ht
  obtain ⟨hi', ask, del, he, _⟩ := eff_any hi hr h
  obtain ⟨c', h1, h2, _⟩ := he.cell nm id c hm hg hc
  exact ⟨he.dict nm id hm hg, c', h1, h2.trans hk⟩

theorem live_execAll (ops : List RegOp) : ∀ {n : Nat} {o o' : RObs}, RInv opt n o.r → Room opt (n + ops.length) →
    rexecAll env o ops = .ok o' → ∀ {nm : Name} {id k : Nat}, .del nm ∉ ops → Live opt o.r nm id k →
    Live opt o'.r nm id k := by
  induction ops with
  | nil => intro n o o' _ _ h nm id k _ hd; cases h; exact hd
  | cons op ops ih =>
    intro n o o' hi hr h nm id k hg hd
    obtain ⟨o1, h1, h2⟩ := rexecAll_cons h
    obtain ⟨resp, h3, _⟩ := rexec_inv h1
    have hi1 := (eff_any hi (hr.mono (by omega)) h3).1
    refine ih (n := n + 1) hi1 (hr.mono (by simp; omega)) h2 (fun hx => hg (by simp [hx])) (live_step hi (hr.mono (by omega)) hd ?_ h3)
    rintro rfl
    simp at hg

theorem live_cell (hi : RInv opt n r) (hr : Room opt n) {nm : Name} {id k : Nat} (ht : Live opt r nm id k) :
    ∃ c, r.cellOf nm = some c ∧ c.ref = k ∧ (r.find k).isSome = true := by
  obtain ⟨hm, c, hc, hk⟩ := ht
  obtain ⟨c', h1, h2, h3, h4⟩ := hi.cellOf_live hr hm
  rw [hc] at h4
  cases h4
  refine ⟨c, h1, hk, ?_⟩
  rw [hi.find_eq.2 ⟨_, c, hc, hk, rfl⟩]
  rfl

theorem tag_step (hi : RInv opt n r) (hr : Room opt n) {op : RegOp} {resp : Resp} {nm : Name} {id k : Nat}
    (ht : Tag opt r nm id k) (h : r.step env op = .ok (resp, r')) : Tag opt r' nm id k := by
  rcases ht with ⟨hm, c, hc, hk⟩ | hd
  · obtain ⟨hi', ask, del, he, _⟩ := eff_any hi hr h
    by_cases hg : op.removes nm
    · right
      refine ⟨lt_of_lt_of_le (by rw [← hk]; exact hi.refLt _ _ hc) he.next, ?_⟩
      intro p c' hc' hk'
      obtain ⟨nm', id', hm', hp⟩ := hi'.occ p c' hc'
      subst hp
      rcases he.back nm' id' c' hm' hc' with ⟨hm0, hng, c0, k0, e0, _⟩ | ⟨_, e, _⟩
      · have hpos := hi.refs _ _ _ _ k0 hc (by rw [← e0, hk', hk])
        have := posOf_inj (hi.id_form hm0).1 (hi.id_form hm).1 hpos
        subst this
        have := hi.id_eq hm0 hm
        subst this
        exact hng hg
      · have := hi.refLt _ _ hc
        omega
    · left
      obtain ⟨c', h1, h2, _⟩ := he.cell nm id c hm hg hc
      exact ⟨he.dict nm id hm hg, c', h1, h2.trans hk⟩
  · exact .inr (dead_step hi hr hd h)

theorem tag_execAll (ops : List RegOp) : ∀ {n : Nat} {o o' : RObs}, RInv opt n o.r → Room opt (n + ops.length) →
    rexecAll env o ops = .ok o' → ∀ {nm : Name} {id k : Nat}, Tag opt o.r nm id k → Tag opt o'.r nm id k := by
  induction ops with
  | nil => intro n o o' _ _ h nm id k hd; cases h; exact hd
  | cons op ops ih =>
    intro n o o' hi hr h nm id k hd
    obtain ⟨o1, h1, h2⟩ := rexecAll_cons h
    obtain ⟨resp, h3, _⟩ := rexec_inv h1
    have hi1 := (eff_any hi (hr.mono (by omega)) h3).1
    exact ih (n := n + 1) hi1 (hr.mono (by simp; omega)) h2 (tag_step hi (hr.mono (by omega)) hd h3)

/-- When the aggregator still exists, it is the one of the name. -/
theorem tag_find (hi : RInv opt n r) (hr : Room opt n) {nm : Name} {id k : Nat} {a : Aggregator}
    (ht : Tag opt r nm id k) (hf : r.find k = some a) :
    (nm, id) ∈ r.dict.dict ∧ ∃ c, r.cellOf nm = some c ∧ c.ref = k ∧ c.agg = a := by
  rcases ht with ⟨hm, c, hc, hk⟩ | hd
  · refine ⟨hm, c, ?_, hk, ?_⟩
    · obtain ⟨c', h1, _, _, h4⟩ := hi.cellOf_live hr hm
      rw [hc] at h4
      cases h4
      exact h1
    · obtain ⟨p, c', h1, h2, h3⟩ := hi.find_eq.1 hf
      have := hi.refs _ _ _ _ h1 hc (h2.trans hk.symm)
      subst this
      rw [hc] at h1
      cases h1
      exact h3
  · rw [dead_find hi hd] at hf
    cases hf

/-- The aggregator is what some history with values in `[m, M]` leaves. -/
def Tame (env : Env) (opt : AggregatorOpts) (m M : Int) (a : Aggregator) : Prop :=
  ∃ (o : AObs) (gR gA gS : List (List (Int × AddArg))) (cur : List (Int × AddArg)),
    Aggregator.PGood env opt (fun _ _ => True) o gR gA gS cur ∧ o.a = a ∧
      ∀ e ∈ o.accepted, ∀ v ∈ e.2.values, m ≤ v ∧ v ≤ M

theorem tame_ops {aopt : AggregatorOpts} {m M : Int} (hs : 0 < aopt.step) (B : Reducer.Bounds env m M)
    (ops : List AOp) : ∀ {a : Aggregator}, Tame env aopt m M a → (∀ op ∈ ops, op.clockOk) →
    (∀ op ∈ ops, ∀ v ∈ op.vals, m ≤ v ∧ v ≤ M) → ∃ a' out, Trans env a ops a' out ∧ Tame env aopt m M a' := by
  induction ops with
  | nil => intro a h _ _; exact ⟨a, [], Aggregator.trans_nil env a, h⟩
  | cons op ops ih =>
    intro a h hc hv
    obtain ⟨o, gR, gA, gS, cur, g, rfl, ha⟩ := h
    obtain ⟨o1, e, ha1⟩ := Aggregator.exec_total hs B g ha op (hv op (by simp))
    obtain ⟨_, _, _, _, g1⟩ := Aggregator.pgood_exec (fun _ _ _ => trivial) hs g op (hc op (by simp))
      (fun _ _ _ _ => trivial) e
    obtain ⟨a', out, t, h'⟩ := ih (a := o1.a) ⟨o1, _, _, _, _, g1, rfl, ha1⟩ (fun x hx => hc x (by simp [hx]))
      (fun x hx => hv x (by simp [hx]))
    have e1 : ∃ o2, Aggregator.exec env { a := o.a } op = .ok o2 ∧ o2.a = o1.a := by
      have := Aggregator.exec_frame env o.a o.received o.accepted op
      rw [show (⟨o.a, o.received, o.accepted⟩ : AObs) = o from rfl, e] at this
      cases hx : Aggregator.exec env { a := o.a } op with
      | error e' => rw [hx] at this; cases this
      | ok o2 =>
        rw [hx] at this
        cases this
        exact ⟨o2, rfl, rfl⟩
    obtain ⟨o2, e2, k2⟩ := e1
    have t2 := Aggregator.trans_one e2
    rw [k2] at t2
    exact ⟨a', _, Aggregator.trans_append t2 t, h'⟩

/-- Newly built aggregators are tame. -/
theorem tame_new {aopt : AggregatorOpts} {m M clk rand ts : Int} {a : Aggregator} (hs : 0 < aopt.step)
    (h : Aggregator.new aopt clk rand ts = .ok a) : Tame env aopt m M a :=
  ⟨{ a := a }, _, _, _, _, Aggregator.pgood_fresh (env := env) hs (.new h), rfl, by simp⟩

/-- All aggregators are tame. -/
def TameAll (env : Env) (opt : AggregatorOpts) (m M : Int) (r : Registry) : Prop :=
  ∀ (p : Nat) (c : Cell), r.agarr[p]? = some (some c) → Tame env opt m M c.agg

theorem tame_trans {aopt : AggregatorOpts} {m M : Int} (hs : 0 < aopt.step) (B : Reducer.Bounds env m M)
    {ops : List AOp} {a a' : Aggregator} {out : List AggData} (h : Tame env aopt m M a)
    (hc : ∀ op ∈ ops, op.clockOk) (hv : ∀ op ∈ ops, ∀ v ∈ op.vals, m ≤ v ∧ v ≤ M)
    (t : Trans env a ops a' out) : Tame env aopt m M a' := by
  obtain ⟨a1, out1, ⟨o, t1, t2, _⟩, h1⟩ := tame_ops hs B ops h hc hv
  obtain ⟨o', t1', t2', _⟩ := t
  rw [t1] at t1'
  cases t1'
  rw [← t2', t2]
  exact h1

theorem popOps_ok (force : Bool) (clk : Nat → Int) (id : Nat) (hk : ∀ id, 0 ≤ clk id) (m M : Int) :
    (∀ op ∈ popOps force clk id, op.clockOk) ∧ ∀ op ∈ popOps force clk id, ∀ v ∈ op.vals, m ≤ v ∧ v ≤ M := by
  unfold popOps
  cases force <;> simp [Aggregator.AOp.clockOk, Aggregator.AOp.vals, hk id]

theorem popLoop_total {m M : Int} (hs : 0 < opt.step) (B : Reducer.Bounds env m M) {force : Bool}
    {clk : Nat → Int} (hk : ∀ id, 0 ≤ clk id) (hr : Room opt n) (is : List Nat) :
    ∀ {r : Registry} {l : List (Name × AggData)}, RInv opt n r → TameAll env opt.toAggregatorOpts m M r →
      (∀ i ∈ is, i < r.agarr.length) →
      ∃ r' l', is.foldlM (popStep env force clk) (r, l) = .ok (r', l') := by
  induction is with
  | nil => intro r l _ _ _; exact ⟨r, l, rfl⟩
  | cons i is ih =>
    intro r l hi ht hl
    have h1 : ∃ q, popStep env force clk (r, l) i = .ok q := by
      obtain ⟨e1, e2, e3⟩ := hi.pos2id hr (hl i (by simp))
      unfold popStep
      simp only [e1, bind_ok']
      generalize i * opt.idStep + opt.idInit % opt.idStep = id at *
      rw [hi.get_eq hr (.inr ⟨e2, e3⟩)]
      simp only [bind_ok']
      cases hc : r.cellAt id with
      | none => exact ⟨_, rfl⟩
      | some c =>
        obtain ⟨nm, hm, k1, k2⟩ := hi.cellAt_some hr hc
        obtain ⟨o1, o2⟩ := popOps_ok force clk id hk m M
        obtain ⟨a', out, ⟨o, t, _⟩, _⟩ := tame_ops hs B (popOps force clk id) (ht _ c k2) o1 o2
        unfold popOps Aggregator.execAll at t
        simp only [List.foldlM_cons, List.foldlM_nil] at t
        obtain ⟨x1, t1, t⟩ := bind_inv t
        obtain ⟨x2, t2, t⟩ := bind_inv t
        obtain ⟨⟨b, out1, a1⟩, t3, t4⟩ := bind_inv t1
        cases t4
        simp only [t3, bind_ok']
        cases force with
        | true =>
          simp only [if_true] at t2 ⊢
          obtain ⟨⟨d, a2⟩, t5, _⟩ := bind_inv t2
          simp only at t5
          simp only [t5, bind_ok']
          exact ⟨_, rfl⟩
        | false =>
          simp only [Bool.false_eq_true, if_false, bind_ok']
          exact ⟨_, rfl⟩
    obtain ⟨⟨r1, l1⟩, h1⟩ := h1
    obtain ⟨t, _, _, he⟩ := seff_popStep hi hr (hl i (by simp)) h1
    have ht1 : TameAll env opt.toAggregatorOpts m M r1 := by
      intro p c' hc'
      obtain ⟨c, k1, k2, k3⟩ := he.back hc'
      have hmem : ∀ x ∈ forRef c.ref (r.toId (i * opt.idStep + opt.idInit % opt.idStep)
          (popOps force clk (i * opt.idStep + opt.idInit % opt.idStep))),
          x ∈ popOps force clk (i * opt.idStep + opt.idInit % opt.idStep) := by
        intro x hx
        unfold forRef at hx
        obtain ⟨y, hy, rfl⟩ := List.mem_map.1 hx
        exact toId_mem (List.mem_filter.1 hy).1
      obtain ⟨o1, o2⟩ := popOps_ok force clk (i * opt.idStep + opt.idInit % opt.idStep) hk m M
      exact tame_trans hs B (ht p c k1) (fun x hx => o1 x (hmem x hx)) (fun x hx => o2 x (hmem x hx)) k3
    simp only [List.foldlM_cons, h1, bind_ok']
    exact ih (he.inv hi) ht1 (fun j hj => by rw [he.len]; exact hl j (by simp [hj]))

theorem popAll_total {m M : Int} (hs : 0 < opt.step) (B : Reducer.Bounds env m M) (force : Bool)
    {clk : Nat → Int} (hk : ∀ id, 0 ≤ clk id) (hr : Room opt n) (hi : RInv opt n r)
    (ht : TameAll env opt.toAggregatorOpts m M r) : ∃ l r', r.popAll env force clk = .ok (l, r') := by
  obtain ⟨r', l', e⟩ := popLoop_total hs B (force := force) hk hr
    (List.range r.agarr.length) (l := []) hi ht (fun i h => List.mem_range.1 h)
  unfold popAll
  rw [e]
  exact ⟨_, _, rfl⟩

theorem tame_execAll {m M : Int} {ops : List RegOp} {o : RObs} (hs : 0 < opt.step) (B : Reducer.Bounds env m M)
    (hr : Room opt ops.length) (hid : ∀ op ∈ ops, op.idOk opt)
    (h : rexecAll env { r := Registry.new opt } ops = .ok o)
    (hc : ∀ x ∈ o.asked, x.2.clockOk) (hv : ∀ x ∈ o.asked, ∀ v ∈ x.2.vals, m ≤ v ∧ v ≤ M) :
    TameAll env opt.toAggregatorOpts m M o.r := by
  have s := sim_execAll ops (sim_new env opt) (hr.mono (by omega)) hid h
  rw [Nat.zero_add] at s
  intro p c hp
  obtain ⟨nm, id, hm, rfl⟩ := s.inv.occ p c hp
  obtain ⟨clk, rand, now, a0, ha, t⟩ := s.cell nm id c hm hp
  have hmem : ∀ x ∈ forRef c.ref o.asked, ∃ y ∈ o.asked, y.2 = x := by
    intro x hx
    unfold forRef at hx
    obtain ⟨y, hy, rfl⟩ := List.mem_map.1 hx
    exact ⟨y, (List.mem_filter.1 hy).1, rfl⟩
  refine tame_trans hs B (tame_new hs ha) ?_ ?_ t
  · intro x hx
    obtain ⟨y, hy, rfl⟩ := hmem x hx
    exact hc y hy
  · intro x hx
    obtain ⟨y, hy, rfl⟩ := hmem x hx
    exact hv y hy

end Registry

namespace Wrt

open Registry (RegOp RObs rexec rexecAll rexecAll_append Room RInv)
open Aggregator (AOp AObs Trans)

variable {env : Env} {w w' : Wrt}

theorem rexec_one {r r' : Registry} {op : RegOp} {resp : Registry.Resp} (h : r.step env op = .ok (resp, r')) {ro : RObs}
    (hr : ro.r = r) : ∃ ro', rexecAll env ro [op] = .ok ro' ∧ ro'.r = r' := by
  unfold rexecAll
  simp only [List.foldlM_cons, List.foldlM_nil]
  unfold rexec
  rw [hr, h]
  exact ⟨_, rfl, rfl⟩

theorem create_sim {q : Ask} {name : Name} {now : Int} {id : Nat} {r r' : Registry}
    (h : r.createAggregator env q name now = .ok (id, r')) {ro : RObs} (hr : ro.r = r) :
    ∃ ro', rexecAll env ro [.create q name now] = .ok ro' ∧ ro'.r = r' :=
  rexec_one (op := .create q name now) (resp := .id id) (by simp only [Registry.step, h, bind_ok']) hr

theorem rexec_seq {ro ro1 ro2 : RObs} {ops ops' : List RegOp} (h1 : rexecAll env ro ops = .ok ro1)
    (h2 : rexecAll env ro1 ops' = .ok ro2) : rexecAll env ro (ops ++ ops') = .ok ro2 := by
  rw [rexecAll_append, h1]
  exact h2

theorem createThree_sim {ord : Order} {qt qr qw : Ask} {nt nr nw : Name} {now : Int} {ids : Nat × Nat × Nat}
    (h : w.createThree env ord qt qr qw nt nr nw now = .ok (ids, w')) {ro : RObs} (hr : ro.r = w.reg) :
    w'.handler = w.handler ∧
    ∃ ro', rexecAll env ro (createOps ord qt qr qw nt nr nw now) = .ok ro' ∧ ro'.r = w'.reg := by
  have three : ∀ {q1 q2 q3 : Ask} {n1 n2 n3 : Name} {i1 i2 i3 : Nat} {r1 r2 r3 : Registry},
      w.reg.createAggregator env q1 n1 now = .ok (i1, r1) → r1.createAggregator env q2 n2 now = .ok (i2, r2) →
      r2.createAggregator env q3 n3 now = .ok (i3, r3) →
      ∃ ro', rexecAll env ro [.create q1 n1 now, .create q2 n2 now, .create q3 n3 now] = .ok ro' ∧ ro'.r = r3 := by
    intro q1 q2 q3 n1 n2 n3 i1 i2 i3 r1 r2 r3 h1 h2 h3
    obtain ⟨o1, e1, k1⟩ := create_sim h1 hr
    obtain ⟨o2, e2, k2⟩ := create_sim h2 k1
    obtain ⟨o3, e3, k3⟩ := create_sim h3 k2
    exact ⟨o3, rexec_seq e1 (rexec_seq e2 e3), k3⟩
  unfold createThree at h
  cases ord <;> (
    obtain ⟨⟨i1, w1⟩, h1, h⟩ := bind_inv h
    obtain ⟨⟨i2, w2⟩, h2, h⟩ := bind_inv h
    obtain ⟨⟨i3, w3⟩, h3, h⟩ := bind_inv h
    obtain ⟨⟨j1, r1⟩, g1, k1⟩ := bind_inv h1
    obtain ⟨⟨j2, r2⟩, g2, k2⟩ := bind_inv h2
    obtain ⟨⟨j3, r3⟩, g3, k3⟩ := bind_inv h3
    cases k1; cases k2; cases k3; cases h
    exact ⟨rfl, three g1 g2 g3⟩)

theorem call_sim {p : WPusher} {c1 c2 ts v : Int} {count : Nat} {l : List (Name × AggData)}
    (h : w.call env p c1 c2 ts v count = .ok (l, w')) {ro : RObs} (hr : ro.r = w.reg) :
    w'.handler = w.handler ∧
    ∃ ro', rexecAll env ro [.call p.rp c1 c2 ts (.one v count)] = .ok ro' ∧ ro'.r = w'.reg := by
  obtain ⟨⟨out, r1⟩, h1, h2⟩ := bind_inv h
  cases h2
  exact ⟨rfl, rexec_one (op := .call p.rp c1 c2 ts (.one v count)) (resp := .handed out)
    (by simp only [Registry.step, h1, bind_ok']) hr⟩

theorem callOpt_sim {p : Option WPusher} {k : Clks} {ts v : Int} {count : Nat} {l : List (Name × AggData)}
    (h : w.callOpt env p k.1 k.2 ts v count = .ok (l, w')) {ro : RObs} (hr : ro.r = w.reg) :
    w'.handler = w.handler ∧ ∃ ro', rexecAll env ro (callOp p k ts v count) = .ok ro' ∧ ro'.r = w'.reg := by
  cases p with
  | none => cases h; exact ⟨rfl, ro, rfl, hr⟩
  | some p => exact call_sim h hr

/-- An operation acts on the registry as the registry operations it stands for. -/
theorem step_sim {op : WOp} {resp : WResp} {l : List (Name × AggData)} (h : w.step env op = .ok (resp, l, w'))
    {ro : RObs} (hr : ro.r = w.reg) :
    w'.handler = w.handler ∧ ∃ ro', rexecAll env ro op.regOps = .ok ro' ∧ ro'.r = w'.reg := by
  cases op with
  | reg op =>
    obtain ⟨⟨x, r1⟩, h1, h2⟩ := bind_inv h
    cases h2
    exact ⟨rfl, rexec_one h1 hr⟩
  | meterId id =>
    obtain ⟨p, h1, h2⟩ := bind_inv h
    cases h2
    exact ⟨rfl, ro, rfl, hr⟩
  | meterName q name now =>
    obtain ⟨⟨p, w1⟩, h1, h2⟩ := bind_inv h
    cases h2
    obtain ⟨⟨id, r1⟩, h3, h4⟩ := bind_inv h1
    obtain ⟨p', h5, h6⟩ := bind_inv h4
    cases h6
    exact ⟨rfl, create_sim h3 hr⟩
  | compositeId t r x s =>
    obtain ⟨p, h1, h2⟩ := bind_inv h
    cases h2
    exact ⟨rfl, ro, rfl, hr⟩
  | compositeName ord qt qr qw nt nr nw now s =>
    obtain ⟨⟨p, w1⟩, h1, h2⟩ := bind_inv h
    cases h2
    obtain ⟨⟨⟨t, r, x⟩, w2⟩, h3, h4⟩ := bind_inv h1
    obtain ⟨p', h5, h6⟩ := bind_inv h4
    cases h6
    exact createThree_sim h3 hr
  | call p c1 c2 ts v count =>
    obtain ⟨⟨out, w1⟩, h1, h2⟩ := bind_inv h
    cases h2
    exact call_sim h1 hr
  | callC p kt kr kw ts span count rd wr =>
    obtain ⟨⟨out, w1⟩, h0, h⟩ := bind_inv h
    cases h
    obtain ⟨⟨l1, w1⟩, h1, h⟩ := bind_inv h0
    obtain ⟨⟨l2, w2⟩, h2, h⟩ := bind_inv h
    obtain ⟨⟨l3, w3⟩, h3, h⟩ := bind_inv h
    cases h
    obtain ⟨g1, o1, e1, k1⟩ := callOpt_sim h1 hr
    obtain ⟨g2, o2, e2, k2⟩ := callOpt_sim h2 k1
    obtain ⟨g3, o3, e3, k3⟩ := callOpt_sim h3 k2
    exact ⟨by rw [g3, g2, g1], o3, rexec_seq (rexec_seq e1 e2) e3, k3⟩
  | pushout force clk =>
    obtain ⟨⟨n, out, w1⟩, h1, h2⟩ := bind_inv h
    cases h2
    obtain ⟨⟨l1, r1⟩, h3, h4⟩ := bind_inv h1
    simp only at h4
    by_cases hc : l1 ≠ [] ∧ w.handler = false
    · rw [if_pos hc] at h4; cases h4
    · rw [if_neg hc] at h4
      cases h4
      exact ⟨rfl, rexec_one (op := .popAll force clk) (resp := .records l)
        (by simp only [Registry.step, h3, bind_ok']) hr⟩

theorem wexec_inv {o o' : WObs} {op : WOp} (h : wexec env o op = .ok o') :
    ∃ resp l, o.w.step env op = .ok (resp, l, o'.w) ∧ o'.handed = o.handed ++ l := by
  obtain ⟨⟨resp, l, w1⟩, h1, h2⟩ := bind_inv h
  cases h2
  exact ⟨resp, l, h1, rfl⟩

theorem wexecAll_cons {o o' : WObs} {op : WOp} {ops : List WOp} (h : wexecAll env o (op :: ops) = .ok o') :
    ∃ o1, wexec env o op = .ok o1 ∧ wexecAll env o1 ops = .ok o' := by
  unfold wexecAll at *
  simp only [List.foldlM_cons] at h
  exact bind_inv h

/-- A history acts on the registry as the registry history it stands for. -/
theorem wsim (ops : List WOp) : ∀ {o o' : WObs} {ro : RObs}, wexecAll env o ops = .ok o' → ro.r = o.w.reg →
    o'.w.handler = o.w.handler ∧ ∃ ro', rexecAll env ro (regHist ops) = .ok ro' ∧ ro'.r = o'.w.reg := by
  induction ops with
  | nil => intro o o' ro h hr; cases h; exact ⟨rfl, ro, rfl, hr⟩
  | cons op ops ih =>
    intro o o' ro h hr
    obtain ⟨o1, h1, h2⟩ := wexecAll_cons h
    obtain ⟨resp, l, h3, _⟩ := wexec_inv h1
    obtain ⟨g1, ro1, e1, k1⟩ := step_sim h3 hr
    obtain ⟨g2, ro2, e2, k2⟩ := ih h2 k1
    refine ⟨g2.trans g1, ro2, ?_, k2⟩
    have : regHist (op :: ops) = op.regOps ++ regHist ops := by simp [regHist]
    rw [this]
    exact rexec_seq e1 e2

theorem wexecAll_append {o : WObs} {ops ops' : List WOp} :
    wexecAll env o (ops ++ ops') = wexecAll env o ops >>= fun o1 => wexecAll env o1 ops' := by
  unfold wexecAll
  rw [List.foldlM_append]

/-- The invariant of the registry after a history. -/
theorem winv {opt : WOpts} {ops : List WOp} {o : WObs} (hr : Room opt.toRegistryOpts (regHist ops).length)
    (h : wexecAll env { w := Wrt.new opt } ops = .ok o) : RInv opt.toRegistryOpts (regHist ops).length o.w.reg := by
  obtain ⟨_, ro, h1, h2⟩ := wsim ops (ro := { r := Registry.new opt.toRegistryOpts }) h rfl
  have := Registry.inv_execAll (env := env) (regHist ops) (o := { r := Registry.new opt.toRegistryOpts })
    (Registry.rinv_new _) (hr.mono (by omega)) h1
  rw [Nat.zero_add, h2] at this
  exact this

variable {opt : RegistryOpts} {n : Nat}

theorem create_keep {r r' : Registry} (hi : RInv opt n r) (hr : Room opt n) {q : Ask} {name : Name} {now : Int} {id : Nat}
    (h : r.createAggregator env q name now = .ok (id, r')) :
    RInv opt (n + 1) r' ∧ ((name = [] ∧ id = badId) ∨ (name, id) ∈ r'.dict.dict) ∧
      ∀ p ∈ r.dict.dict, p ∈ r'.dict.dict := by
  rcases Registry.create_cases hi hr h with ⟨h1, h2, rfl⟩ | ⟨h1, rfl⟩ | ⟨h1, h2, h3, h4⟩
  · exact ⟨hi.mono (by omega), .inl ⟨h1, h2⟩, fun _ h => h⟩
  · exact ⟨hi.mono (by omega), .inr h1, fun _ h => h⟩
  · refine ⟨h4, .inr (by rw [h3.dict]; simp), fun p hp => ?_⟩
    rw [h3.dict]
    exact List.mem_cons_of_mem _ hp

/-- The three ids of a composite meter are those of the three names. -/
theorem createThree_ids {ord : Order} {qt qr qw : Ask} {nt nr nw : Name} {now : Int} {t r x : Nat}
    (hi : RInv opt n w.reg) (hr : Room opt (n + 3))
    (h : w.createThree env ord qt qr qw nt nr nw now = .ok ((t, r, x), w')) :
    RInv opt (n + 3) w'.reg ∧ ((nt = [] ∧ t = badId) ∨ (nt, t) ∈ w'.reg.dict.dict) ∧
      ((nr = [] ∧ r = badId) ∨ (nr, r) ∈ w'.reg.dict.dict) ∧ ((nw = [] ∧ x = badId) ∨ (nw, x) ∈ w'.reg.dict.dict) := by
  have three : ∀ {q1 q2 q3 : Ask} {n1 n2 n3 : Name} {i1 i2 i3 : Nat} {r1 r2 r3 : Registry},
      w.reg.createAggregator env q1 n1 now = .ok (i1, r1) → r1.createAggregator env q2 n2 now = .ok (i2, r2) →
      r2.createAggregator env q3 n3 now = .ok (i3, r3) →
      RInv opt (n + 3) r3 ∧ ((n1 = [] ∧ i1 = badId) ∨ (n1, i1) ∈ r3.dict.dict) ∧
        ((n2 = [] ∧ i2 = badId) ∨ (n2, i2) ∈ r3.dict.dict) ∧ ((n3 = [] ∧ i3 = badId) ∨ (n3, i3) ∈ r3.dict.dict) := by
    intro q1 q2 q3 n1 n2 n3 i1 i2 i3 r1 r2 r3 h1 h2 h3
    obtain ⟨hi1, a1, _⟩ := create_keep hi (hr.mono (by omega)) h1
    obtain ⟨hi2, a2, b2⟩ := create_keep hi1 (hr.mono (by omega)) h2
    obtain ⟨hi3, a3, b3⟩ := create_keep hi2 (hr.mono (by omega)) h3
    refine ⟨hi3, ?_, ?_, a3⟩
    · rcases a1 with a1 | a1
      · exact .inl a1
      · exact .inr (b3 _ (b2 _ a1))
    · rcases a2 with a2 | a2
      · exact .inl a2
      · exact .inr (b3 _ a2)
  unfold createThree at h
  cases ord <;> (
    obtain ⟨⟨i1, w1⟩, h1, h⟩ := bind_inv h
    obtain ⟨⟨i2, w2⟩, h2, h⟩ := bind_inv h
    obtain ⟨⟨i3, w3⟩, h3, h⟩ := bind_inv h
    obtain ⟨⟨j1, r1⟩, g1, k1⟩ := bind_inv h1
    obtain ⟨⟨j2, r2⟩, g2, k2⟩ := bind_inv h2
    obtain ⟨⟨j3, r3⟩, g3, k3⟩ := bind_inv h3
    cases k1; cases k2; cases k3; cases h
    have := three g1 g2 g3
    tauto)

/-- The meter function for a live name. -/
theorem part_live (hi : RInv opt n w.reg) (hr : Room opt n) {nm : Name} {id : Nat} (hm : (nm, id) ∈ w.reg.dict.dict)
    (h : Hnd) : ∃ c, w.reg.cellOf nm = some c ∧
      w.reg.agarr[Registry.posOf opt.idStep (opt.idInit % opt.idStep) id]? = some (some c) ∧
      w.part id h = .ok (some { rp := { ref := c.ref, p := { token := true, handler := decide (h ≠ .none) } }, h := h }) := by
  obtain ⟨c, h1, h2, h3, h4⟩ := hi.cellOf_live hr hm
  refine ⟨c, h1, h4, ?_⟩
  unfold part Registry.pusherId
  rw [h3]
  simp only [bind_ok', Option.map_some, Aggregator.createPusher, hi.alive _ c h4]

theorem part_bad (h : Hnd) : w.part badId h = .ok none := by
  simp [part, Registry.pusherId, Registry.getAggregator, bind_ok']

/-- What a meter function made for a name is: nothing for the empty name, else a pusher into the
aggregator of the name. -/
def Feeds (opt : RegistryOpts) (r : Registry) (nm : Name) (h : Hnd) (p : Option WPusher) : Prop :=
  (nm = [] ∧ p = none) ∨ ∃ id k, nm ≠ [] ∧ Registry.Live opt r nm id k ∧
    p = some { rp := { ref := k, p := { token := true, handler := decide (h ≠ .none) } }, h := h }

theorem part_feeds (hi : RInv opt n w.reg) (hr : Room opt n) {nm : Name} {id : Nat}
    (hm : (nm = [] ∧ id = badId) ∨ (nm, id) ∈ w.reg.dict.dict) (h : Hnd) :
    ∃ p, w.part id h = .ok p ∧ Feeds opt w.reg nm h p := by
  rcases hm with ⟨rfl, rfl⟩ | hm
  · exact ⟨none, part_bad h, .inl ⟨rfl, rfl⟩⟩
  · obtain ⟨c, h1, h2, h3⟩ := part_live hi hr hm h
    exact ⟨_, h3, .inr ⟨id, c.ref, hi.nonempty _ hm, ⟨hm, c, h2, rfl⟩, rfl⟩⟩

theorem composite_feeds {ord : Order} {qt qr qw : Ask} {nt nr nw : Name} {now : Int} {summary : Bool} {po : Option CPusher}
    (hi : RInv opt n w.reg) (hr : Room opt (n + 3))
    (h : w.compositeName env ord qt qr qw nt nr nw now summary = .ok (po, w')) :
    RInv opt (n + 3) w'.reg ∧ w'.handler = w.handler ∧ (po = none ↔ nt = [] ∧ nr = [] ∧ nw = []) ∧
    ∀ p, po = some p → p.summary = summary ∧ Feeds opt w'.reg nt (w.makeHandlerName nt) p.time ∧
      Feeds opt w'.reg nr (w.makeHandlerName nr) p.read ∧ Feeds opt w'.reg nw (w.makeHandlerName nw) p.write := by
  obtain ⟨⟨⟨t, r, x⟩, w1⟩, h1, h2⟩ := bind_inv h
  obtain ⟨p, h3, h4⟩ := bind_inv h2
  cases h4
  obtain ⟨hi', a1, a2, a3⟩ := createThree_ids hi hr h1
  obtain ⟨hh, _⟩ := createThree_sim h1 (ro := { r := w.reg }) rfl
  have ehn : ∀ nm, w'.makeHandlerName nm = w.makeHandlerName nm := by intro nm; simp only [makeHandlerName, hh]
  simp only [ehn] at h3
  obtain ⟨p1, e1, f1⟩ := part_feeds hi' hr a1 (w.makeHandlerName nt)
  obtain ⟨p2, e2, f2⟩ := part_feeds hi' hr a2 (w.makeHandlerName nr)
  obtain ⟨p3, e3, f3⟩ := part_feeds hi' hr a3 (w.makeHandlerName nw)
  unfold compositePusher at h3
  simp only [e1, e2, e3, bind_ok'] at h3
  have key : ∀ {nm : Name} {h : Hnd} {p : Option WPusher}, Feeds opt w'.reg nm h p → (p = none ↔ nm = []) := by
    intro nm h p f
    rcases f with ⟨rfl, rfl⟩ | ⟨_, _, h0, _, rfl⟩
    · simp
    · simp [h0]
  refine ⟨hi', hh, ?_, ?_⟩
  · rw [← key f1, ← key f2, ← key f3]
    by_cases hc : p1 = none ∧ p2 = none ∧ p3 = none
    · rw [if_pos hc] at h3; cases h3; simp [hc]
    · rw [if_neg hc] at h3; cases h3; simp only [reduceCtorEq, false_iff]; exact hc
  · rintro q rfl
    by_cases hc : p1 = none ∧ p2 = none ∧ p3 = none
    · rw [if_pos hc] at h3; cases h3
    · rw [if_neg hc] at h3; cases h3; exact ⟨rfl, f1, f2, f3⟩

/-- A call of a pusher with a dead or live target. -/
theorem call_find {r r' : Registry} {p : RPusher} {c1 c2 ts : Int} {x : AddArg} {out : List AggData}
    (h : r.call env p c1 c2 ts x = .ok (out, r')) (h0 : out ≠ []) : ∃ a, r.find p.ref = some a := by
  unfold Registry.call at h
  cases hf : r.find p.ref with
  | none => rw [hf] at h; cases h; exact absurd rfl h0
  | some a => exact ⟨a, rfl⟩

theorem push_no_handler {a a' : Aggregator} {c1 c2 ts : Int} {x : AddArg} {b : Bool} {out : List AggData}
    (h : a.push env c1 c2 ts x false = .ok (b, out, a')) : out = [] := by
  unfold Aggregator.push at h
  by_cases he : a.enabled = false
  · rw [if_pos he] at h; cases h; rfl
  · rw [if_neg he] at h
    simp only [if_true] at h
    obtain ⟨⟨b', a1⟩, _, h2⟩ := bind_inv h
    cases h2
    rfl

theorem call_no_handler {r r' : Registry} {p : RPusher} {c1 c2 ts : Int} {x : AddArg} {out : List AggData}
    (hp : p.p.handler = false) (h : r.call env p c1 c2 ts x = .ok (out, r')) : out = [] := by
  unfold Registry.call at h
  cases hf : r.find p.ref with
  | none => rw [hf] at h; cases h; rfl
  | some a =>
    rw [hf] at h
    obtain ⟨⟨out1, a1⟩, h1, h2⟩ := bind_inv h
    cases h2
    unfold Aggregator.Pusher.call at h1
    by_cases hc : p.p.token = true ∧ a.alive = true
    · rw [if_pos hc] at h1
      obtain ⟨⟨ok, out2, a2⟩, h3, h4⟩ := bind_inv h1
      cases h4
      rw [hp] at h3
      exact push_no_handler h3
    · rw [if_neg hc] at h1; cases h1; rfl

theorem call_dict {r r' : Registry} {p : RPusher} {c1 c2 ts : Int} {x : AddArg} {out : List AggData}
    (h : r.call env p c1 c2 ts x = .ok (out, r')) : r'.dict = r.dict := by
  unfold Registry.call at h
  cases hf : r.find p.ref with
  | none => rw [hf] at h; cases h; rfl
  | some a =>
    rw [hf] at h
    obtain ⟨⟨out1, a1⟩, h1, h2⟩ := bind_inv h
    cases h2
    rfl

/-- A record handed over by a meter function carries the name of the aggregator it feeds. -/
theorem named_call (hi : RInv opt n w.reg) (hr : Room opt n) {nm : Name} {id k : Nat} {h : Hnd} {c1 c2 ts v : Int}
    {count : Nat} {l : List (Name × AggData)} (h0 : nm ≠ []) (ht : Registry.Tag opt w.reg nm id k)
    (hh : h = .none ∨ h = .byName nm ∨ h = .byId id)
    (hc : w.call env { rp := { ref := k, p := { token := true, handler := decide (h ≠ .none) } }, h := h }
      c1 c2 ts v count = .ok (l, w')) :
    ∃ out r', w.reg.call env { ref := k, p := { token := true, handler := decide (h ≠ .none) } } c1 c2 ts (.one v count) =
        .ok (out, r') ∧ l = out.map (fun d => (nm, d)) ∧ w' = { w with reg := r' } ∧
      (out ≠ [] → ∃ c, w.reg.cellOf nm = some c ∧ c.ref = k) := by
  obtain ⟨⟨out, r'⟩, h1, h2⟩ := bind_inv hc
  simp only [Except.ok.injEq, Prod.mk.injEq] at h2
  obtain ⟨rfl, rfl⟩ := h2
  refine ⟨out, r', h1, ?_, rfl, ?_⟩
  · by_cases ho : out = []
    · subst ho; rfl
    obtain ⟨a, hf⟩ := call_find h1 ho
    obtain ⟨hm, c, k1, k2, k3⟩ := Registry.tag_find hi hr ht hf
    rcases hh with rfl | rfl | rfl
    · exact absurd (call_no_handler (by simp) h1) ho
    · exact List.map_eq_flatMap.symm
    · have hn : r'.getName id = nm := by
        have := (Registry.getName_live hi h0).2 hm
        unfold Registry.getName at this ⊢
        rw [call_dict h1]
        exact this
      have hd : deliver { w with reg := r' } (.byId id) = fun d => [(nm, d)] := by
        funext d
        simp only [deliver, hn, if_neg h0]
      change out.flatMap (deliver { w with reg := r' } (.byId id)) = _
      rw [hd]
      exact List.map_eq_flatMap.symm
  · intro ho
    obtain ⟨a, hf⟩ := call_find h1 ho
    obtain ⟨hm, c, k1, k2, k3⟩ := Registry.tag_find hi hr ht hf
    exact ⟨c, k1, k2⟩

/-- The same for a part of a composite meter. -/
theorem named_callOpt {nm : Name} {h : Hnd} {p : Option WPusher} {k : Clks} {ts v : Int} {r0 : Registry}
    {count : Nat} {l : List (Name × AggData)} (hi : RInv opt n w.reg) (hr : Room opt n)
    (hf : Feeds opt r0 nm h p) (ht : ∀ id k, Registry.Tag opt r0 nm id k → Registry.Tag opt w.reg nm id k)
    (hh : h = .none ∨ h = .byName nm) (hc : w.callOpt env p k.1 k.2 ts v count = .ok (l, w')) :
    (∀ x ∈ l, x.1 = nm ∧ ∃ c, w.reg.cellOf nm = some c) ∧ RInv opt (n + 1) w'.reg ∧ w'.reg.dict = w.reg.dict ∧
      (∀ nm id k, Registry.Tag opt w.reg nm id k → Registry.Tag opt w'.reg nm id k) := by
  rcases hf with ⟨rfl, rfl⟩ | ⟨id, kk, h0, hT, rfl⟩
  · cases hc
    exact ⟨by simp, hi.mono (by omega), rfl, fun _ _ _ h => h⟩
  · obtain ⟨out, r', h1, h2, h3, h4⟩ := named_call hi hr h0 (ht _ _ (.inl hT)) (hh.imp_right .inl) hc
    subst h3
    have hst : w.reg.step env (.call { ref := kk, p := { token := true, handler := decide (h ≠ .none) } } k.1 k.2 ts (.one v count)) =
        .ok (.handed out, r') := by simp only [Registry.step, h1, bind_ok']
    refine ⟨?_, (Registry.eff_any hi hr hst).1, call_dict h1, fun nm id k t => Registry.tag_step hi hr t hst⟩
    intro x hx
    rw [h2] at hx
    obtain ⟨d, hd, rfl⟩ := List.mem_map.1 hx
    obtain ⟨c, hc, _⟩ := h4 (List.ne_nil_of_mem hd)
    exact ⟨rfl, c, hc⟩

/-- What a call of a part asks of the registry, when its name has not been removed. -/
theorem record_callOpt {nm : Name} {h : Hnd} {p : Option WPusher} {k : Clks} {ts v : Int} {ro : RObs}
    {count : Nat} {l : List (Name × AggData)} (hi : RInv opt n w.reg) (hr : Room opt n)
    (hf : Feeds opt w.reg nm h p) (hc : w.callOpt env p k.1 k.2 ts v count = .ok (l, w')) (he : ro.r = w.reg) :
    ∃ ro', rexecAll env ro (callOp p k ts v count) = .ok ro' ∧ ro'.r = w'.reg ∧
      ro'.asked = ro.asked ++ recordUnder w.reg nm k ts v count (decide (h ≠ .none)) ∧ RInv opt (n + 1) w'.reg ∧
      (∀ nm id k, Registry.Live opt w.reg nm id k → Registry.Live opt w'.reg nm id k) := by
  rcases hf with ⟨rfl, rfl⟩ | ⟨id, kk, h0, hT, rfl⟩
  · cases hc
    refine ⟨ro, rfl, he, ?_, hi.mono (by omega), fun _ _ _ h => h⟩
    have : w.reg.cellOf [] = none := by
      cases hx : w.reg.cellOf [] with
      | none => rfl
      | some c =>
        exfalso
        obtain ⟨id, hm, _⟩ := hi.cellOf_some hr hx
        exact hi.nonempty _ hm rfl
    simp [recordUnder, this]
  · obtain ⟨⟨out, r'⟩, h1, h2⟩ := bind_inv hc
    cases h2
    have hst : w.reg.step env (.call { ref := kk, p := { token := true, handler := decide (h ≠ .none) } } k.1 k.2 ts (.one v count)) =
        .ok (.handed out, r') := by simp only [Registry.step, h1, bind_ok']
    obtain ⟨c, k1, k2, k3⟩ := Registry.live_cell hi hr hT
    refine ⟨{ r := r', asked := ro.asked ++ w.reg.asked (.call { ref := kk, p := { token := true, handler := decide (h ≠ .none) } } k.1 k.2 ts (.one v count)), received := ro.received ++ ro.r.delivered (.call { ref := kk, p := { token := true, handler := decide (h ≠ .none) } } k.1 k.2 ts (.one v count)) (.handed out) }, ?_, rfl, ?_, (Registry.eff_any hi hr hst).1,
      fun nm id k t => Registry.live_step hi hr t (by simp) hst⟩
    · simp only [callOp, Option.toList_some, List.map_cons, List.map_nil, rexecAll, List.foldlM_cons, List.foldlM_nil, Registry.rexec, he, hst, bind_ok']
      rfl
    · simp only [Registry.asked, k3, recordUnder, k1, Option.toList_some, List.map_cons, List.map_nil, k2]
      simp

/-- The identities of the aggregators fed by the records of a name do not change. -/
theorem record_live {r1 r2 : Registry} {n1 n2 : Nat} (h1 : RInv opt n1 r1) (hr1 : Room opt n1) (h2 : RInv opt n2 r2) (hr2 : Room opt n2)
    {nm : Name} {h : Hnd} {p : Option WPusher} (f1 : Feeds opt r1 nm h p) (f2 : Feeds opt r2 nm h p) (k : Clks) (ts v : Int) (count : Nat) (b : Bool) :
    recordUnder r1 nm k ts v count b = recordUnder r2 nm k ts v count b := by
  have e : ∀ {n : Nat} {r : Registry}, RInv opt n r → Room opt n → r.cellOf [] = none := by
    intro n r hi hr
    cases hx : r.cellOf [] with
    | none => rfl
    | some c =>
      exfalso
      obtain ⟨id, hm, _⟩ := hi.cellOf_some hr hx
      exact hi.nonempty _ hm rfl
  rcases f1 with ⟨rfl, rfl⟩ | ⟨id, kk, h0, hT, rfl⟩
  · simp [recordUnder, e h1 hr1, e h2 hr2]
  · rcases f2 with ⟨rfl, hx⟩ | ⟨id2, kk2, _, hT2, hx⟩
    · exact absurd rfl h0
    · obtain ⟨c1, a1, a2, _⟩ := Registry.live_cell h1 hr1 hT
      obtain ⟨c2, b1, b2, _⟩ := Registry.live_cell h2 hr2 hT2
      simp only [Option.some.injEq, WPusher.mk.injEq, RPusher.mk.injEq, and_true] at hx
      simp [recordUnder, a1, b1, a2, b2, hx]

theorem Feeds.mono {r1 r2 : Registry} {nm : Name} {h : Hnd} {p : Option WPusher} (f : Feeds opt r1 nm h p)
    (hl : ∀ id k, Registry.Live opt r1 nm id k → Registry.Live opt r2 nm id k) : Feeds opt r2 nm h p := by
  rcases f with f | ⟨id, k, h0, hT, e⟩
  · exact .inl f
  · exact .inr ⟨id, k, h0, hl id k hT, e⟩

end Wrt
end Wrtstat
