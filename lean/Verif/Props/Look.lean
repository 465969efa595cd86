/-
Property C85: a look at the current window shows what reporting it would show.
-/
import Verif.Props.Aggregator
import Verif.Lemmas.RegistryStep

set_option autoImplicit false

namespace Wrtstat
open Aggregator
open Reducer (GoodA)

/-- The number of samples kept by the thinning depends on their number only. -/
theorem keepIdx_length (keep : Nat → Bool) : ∀ (i : Nat) (l l' : List Int), l.length = l'.length →
    (keepIdx keep i l).length = (keepIdx keep i l').length
  | _, [], [], _ => rfl
  | _, [], _ :: _, h => by simp at h
  | _, _ :: _, [], h => by simp at h
  | i, x :: l, y :: l', h => by
    have ih := keepIdx_length keep (i + 1) l l' (by simpa using h)
    simp only [keepIdx]
    split <;> simp [ih]

theorem reduce_length {R : Nat} {d d' k k' : List Int} (hl : d.length = d'.length) (h : reduce_ R d = .ok k)
    (h' : reduce_ R d' = .ok k') : k.length = k'.length := by
  unfold reduce_ at h h'
  rw [hl] at h
  split at h
  · rename_i hc
    rw [if_pos hc] at h'
    cases h; cases h'; exact hl
  · rename_i hc
    rw [if_neg hc] at h'
    simp only at h h'
    split at h
    · rename_i h2
      rw [if_pos h2] at h'
      split_ifs at h h'
      cases h; cases h'
      exact keepIdx_length _ _ _ _ hl
    · rename_i h2
      rw [if_neg h2] at h'
      split_ifs at h h'
      cases h; cases h'
      exact keepIdx_length _ _ _ _ hl

theorem calcPerc_length {E : NthElement} {d d' : AggData} (h : calcPerc E d = .ok d') :
    d'.data.length = d.data.length ∧ d'.toReducedInfo = d.toReducedInfo := by
  obtain ⟨d1, e, hp, hi, _⟩ := C19_calc_perc E d
  rw [h] at e; cases e
  exact ⟨hp.length_eq, hi⟩

/-- The parts of a record that do not depend on which samples were kept. -/
theorem finish_length {E : NthElement} {R : Nat} {d1 d2 r1 r2 : AggData} (hl : d1.data.length = d2.data.length)
    (hi : d1.toReducedInfo = d2.toReducedInfo) (h1 : finish E R d1 = .ok r1) (h2 : finish E R d2 = .ok r2) :
    r1.toReducedInfo = r2.toReducedInfo ∧ r1.data.length = r2.data.length := by
  obtain ⟨a1, e1, h1⟩ := bind_inv h1
  obtain ⟨k1, f1, h1⟩ := bind_inv h1
  obtain ⟨a2, e2, h2⟩ := bind_inv h2
  obtain ⟨k2, f2, h2⟩ := bind_inv h2
  cases h1; cases h2
  obtain ⟨g1, i1⟩ := calcPerc_length e1
  obtain ⟨g2, i2⟩ := calcPerc_length e2
  exact ⟨i1.trans (hi.trans i2.symm), reduce_length (g1.trans (hl.trans g2.symm)) f1 f2⟩

/-! ### C85 -/

/-- The full claim: while no completed window waits inside the separator, `aggregate_current()` returns
the record `force_pop()` would return. -/
def LookShowsReport (env : Env) : Prop :=
  ∀ (opt : AggregatorOpts) (a0 a' : Aggregator) (ops : List AOp) (o : AObs) (x : Option AggData),
    0 < opt.step → Fresh env opt a0 → (∀ op ∈ ops, op.clockOk) → Aggregator.execAll env { a := a0 } ops = .ok o →
    o.a.sep.sepList = [] → o.a.forcePop env = .ok (x, a') → o.a.aggregateCurrent env = .ok x

/-- Looking at a reducer and emptying it, side by side. -/
theorem look_detach {env : Env} {opt : ReducerOpts} {r : Reducer} {as : List AddArg} (g : GoodA env opt r as) :
    ((∃ r', r.detach env = .ok (none, r')) ∧ r.getReduced env = .ok none) ∨
    (∃ d d' r', r.detach env = .ok (some d, r') ∧ r.getReduced env = .ok (some d') ∧
      d'.toReducedInfo = d.toReducedInfo ∧ d'.toPerc = d.toPerc ∧ d'.data.length = d.data.length ∧
      Summary env opt.limit opt.levels as d ∧ Summary env opt.limit opt.levels as d' ∧
      (opt.mode ≠ .adapt ∨ opt.levels = 0 ∨ opt.limit / opt.levels > Reducer.magic → d' = d)) ∨
    (r.detach env = .error .ub ∧ r.getReduced env = .error .ub) := by
  have gc := Reducer.goodA_clone g
  have hlc : r.clone.lossyCount = r.lossyCount :=
    Reducer.lossyCount_congr rfl (gc.opt_eq.trans g.opt_eq.symm) rfl
  rcases Reducer.detach_spec g with ⟨hp, e, _⟩ | ⟨hne, r1, er, g1, hl, hlo, hk, ha, hd⟩
  · rcases Reducer.detach_spec gc with ⟨_, e2, _⟩ | ⟨hne, _⟩
    · exact .inl ⟨⟨r, e⟩, by simp [Reducer.getReduced, e2, bind_ok']⟩
    · exact absurd hp hne
  · rcases Reducer.detach_spec gc with ⟨hp, _, _⟩ | ⟨_, r2, er2, g2, hl2, hlo2, hk2, ha2, hd2⟩
    · exact absurd hp hne
    have hca : r.clone.average = r.average := rfl
    rw [hca] at hd2
    rcases hd with ⟨a, hc, e⟩ | ⟨hc, e⟩ <;> rcases hd2 with ⟨a2, hc2, e2⟩ | ⟨hc2, e2⟩
    · rw [hc] at hc2; cases hc2
      refine .inr (.inl ⟨_, Reducer.resultOf r.clone (r2.data.headD []) a, _, e, by simp only [Reducer.getReduced, e2, bind_ok'], ?_, rfl, ?_,
        summary_of_detach g e, summary_of_detach gc e2, ?_⟩)
      · simp only [Reducer.resultOf, hlc]
        simp [Reducer.clone]
      · simp only [Reducer.resultOf]
        rw [hk2, hk]; rfl
      · intro hm
        have := Reducer.clone_eq g hm
        rw [this] at er2
        rw [er2] at er
        cases er
        rw [this]
    · rw [hc] at hc2; cases hc2
    · rw [hc] at hc2; cases hc2
    · exact .inr (.inr ⟨e, by simp only [Reducer.getReduced, e2]; rfl⟩)

/-- Looking at an aggregator and forcing a report, side by side. -/
theorem look_force {env : Env} {opt : AggregatorOpts} {a : Aggregator} {as : List AddArg}
    (g : GoodA env opt.toReducerOpts a.sep.reducer as) (hout : a.outSize = opt.outSize) (hl : a.sep.sepList = []) :
    ((∃ a', a.forcePop env = .ok (none, a')) ∧ a.aggregateCurrent env = .ok none) ∨
    (∃ raw raw' d d' a', a.forcePop env = .ok (some d, a') ∧ a.aggregateCurrent env = .ok (some d') ∧
      d'.toReducedInfo = d.toReducedInfo ∧ d'.data.length = d.data.length ∧ raw'.toPerc = raw.toPerc ∧
      Summary env opt.limit opt.levels as raw ∧ Delivered opt.outSize raw d ∧
      Summary env opt.limit opt.levels as raw' ∧ Delivered opt.outSize raw' d' ∧
      (opt.mode ≠ .adapt ∨ opt.levels = 0 ∨ opt.limit / opt.levels > Reducer.magic → d' = d)) ∨
    (a.forcePop env = .error .ub ∧ a.aggregateCurrent env = .error .ub) := by
  unfold Aggregator.forcePop Separator.forcePop Separator.pop Aggregator.aggregateCurrent Separator.getCurrent
  rw [hl]
  rcases look_detach g with ⟨⟨r', e⟩, e'⟩ | ⟨d, d', r', e, e', hi, hpc, hlen, hS, hS', hm⟩ | ⟨e, e'⟩
  · refine .inl ⟨⟨_, by simp only [e, bind_ok', Option.map_none]; rfl⟩, by rw [e']; rfl⟩
  · right; left
    obtain ⟨f, ef, hf⟩ := finish_spec env.nth a.outSize { d with ts := a.sep.next - a.sep.step }
    obtain ⟨f', ef', hf'⟩ := finish_spec env.nth a.outSize { d' with ts := a.sep.next - a.sep.step }
    have hL := finish_length (E := env.nth) (R := a.outSize) (d1 := { d' with ts := a.sep.next - a.sep.step })
      (d2 := { d with ts := a.sep.next - a.sep.step }) hlen
      (by simp only [hi]) ef' ef
    rw [hout] at hf hf'
    refine ⟨{ d with ts := a.sep.next - a.sep.step }, { d' with ts := a.sep.next - a.sep.step }, f, f', _, by simp only [e, bind_ok', Option.map_some, ef]; rfl,
      by simp only [e', bind_ok', Option.map_some, ef'], hL.1, hL.2, hpc, summary_ts hS, hf, summary_ts hS', hf', ?_⟩
    intro h
    rw [hm h, ef] at ef'
    cases ef'; rfl
  · refine .inr (.inr ⟨by simp only [e]; rfl, by rw [e']; rfl⟩)

theorem look_history {env : Env} {opt : AggregatorOpts} {a0 : Aggregator} {ops : List AOp} {o : AObs}
    (hs : 0 < opt.step) (h0 : Fresh env opt a0) (hc : ∀ op ∈ ops, op.clockOk)
    (h : Aggregator.execAll env { a := a0 } ops = .ok o) :
    (∃ as, GoodA env opt.toReducerOpts o.a.sep.reducer as) ∧ o.a.outSize = opt.outSize := by
  obtain ⟨gR, gA, gS, cur, g⟩ := pgood_execAll (Q := fun _ _ => True) (fun _ _ _ => trivial) hs ops
    (pgood_fresh hs h0) hc (fun _ _ _ _ _ _ => trivial) h
  exact ⟨⟨_, g.sep.red⟩, g.out⟩

/-- Outside `adapt` mode the look shows exactly the record of the report. -/
theorem C85_fixed_mode_partial (env : Env) (opt : AggregatorOpts) (a0 a' : Aggregator) (ops : List AOp) (o : AObs)
    (x : Option AggData) (hm : opt.mode ≠ .adapt ∨ opt.levels = 0 ∨ opt.limit / opt.levels > 16)
    (hs : 0 < opt.step) (h0 : Fresh env opt a0) (hc : ∀ op ∈ ops, op.clockOk)
    (h : Aggregator.execAll env { a := a0 } ops = .ok o) (hl : o.a.sep.sepList = [])
    (hx : o.a.forcePop env = .ok (x, a')) : o.a.aggregateCurrent env = .ok x := by
  obtain ⟨⟨as, g⟩, hout⟩ := look_history hs h0 hc h
  rcases look_force g hout hl with ⟨⟨_, e⟩, e'⟩ | ⟨_, _, d, d', _, e, e', _, _, _, _, _, _, _, hd⟩ | ⟨e, _⟩
  · rw [e] at hx; cases hx; exact e'
  · rw [e] at hx; cases hx; rw [e', hd hm]
  · rw [e] at hx; cases hx

/-- In every mode the two agree on the time, the count, the loss, the extremes, the average and the number
of samples; and on everything that can go wrong. -/
theorem C85_info_partial (env : Env) (opt : AggregatorOpts) (a0 : Aggregator) (ops : List AOp) (o : AObs)
    (hs : 0 < opt.step) (h0 : Fresh env opt a0) (hc : ∀ op ∈ ops, op.clockOk)
    (h : Aggregator.execAll env { a := a0 } ops = .ok o) (hl : o.a.sep.sepList = []) :
    (∀ a', o.a.forcePop env = .ok (none, a') → o.a.aggregateCurrent env = .ok none) ∧
    (∀ d a', o.a.forcePop env = .ok (some d, a') → ∃ d', o.a.aggregateCurrent env = .ok (some d') ∧
      d'.toReducedInfo = d.toReducedInfo ∧ d'.data.length = d.data.length) ∧
    (∀ e, o.a.forcePop env = .error e → o.a.aggregateCurrent env = .error e) := by
  obtain ⟨⟨as, g⟩, hout⟩ := look_history hs h0 hc h
  rcases look_force g hout hl with ⟨⟨_, e⟩, e'⟩ | ⟨_, _, d, d', _, e, e', hi, hn, _⟩ | ⟨e, e'⟩
  · refine ⟨fun _ _ => e', fun _ _ h => ?_, fun _ h => ?_⟩ <;> (rw [e] at h; cases h)
  · refine ⟨fun _ h => ?_, fun _ _ h => ?_, fun _ h => ?_⟩
    · rw [e] at h; cases h
    · rw [e] at h; cases h; exact ⟨d', e', hi, hn⟩
    · rw [e] at h; cases h
  · refine ⟨fun _ h => ?_, fun _ _ h => ?_, fun _ h => ?_⟩
    · rw [e] at h; cases h
    · rw [e] at h; cases h
    · rw [e] at h; cases h; exact e'

/-- In every mode, if the window holds no more samples than the limit, the two agree on the
percentiles 50, 80, 95 and 99. -/
theorem C85_small_partial (env : Env) (opt : AggregatorOpts) (a0 a' : Aggregator) (ops : List AOp) (o : AObs)
    (d d' : AggData) (hs : 0 < opt.step) (h0 : Fresh env opt a0) (hc : ∀ op ∈ ops, op.clockOk)
    (hf : ∀ op ∈ ops, op.forced = false) (hlv : 1 ≤ opt.levels)
    (h : Aggregator.execAll env { a := a0 } ops = .ok o) (hl : o.a.sep.sepList = [])
    (hn : (allValues (eventsIn o.accepted o.a.sep.currentTime o.a.sep.nextTime)).length ≤ opt.limit)
    (hx : o.a.forcePop env = .ok (some d, a')) (hy : o.a.aggregateCurrent env = .ok (some d')) :
    d'.perc50 = d.perc50 ∧ d'.perc80 = d.perc80 ∧ d'.perc95 = d.perc95 ∧ d'.perc99 = d.perc99 := by
  obtain ⟨log, hout, rraw, araw, gs, h1, h2, h3⟩ := agood_execAll (Q := fun _ _ => True) (ord := false)
    (fun _ _ _ => trivial) hs ops (agood_fresh hs h0) hc hf (by simp) (fun _ _ _ _ => trivial) h
  have hst : o.a.sep.step = opt.step := gs.step.1
  unfold Separator.currentTime Separator.nextTime at hn
  rw [hst] at hn
  rcases look_force (opt := opt) gs.red hout hl with ⟨⟨_, e⟩, _⟩ | ⟨raw, raw', d1, d1', _, e, e', _, _, hpc, hS, hD, hS', hD', _⟩ | ⟨e, _⟩
  · rw [e] at hx; cases hx
  rotate_left
  · rw [e] at hx; cases hx
  rw [e] at hx; cases hx
  rw [e'] at hy; cases hy
  have hp := hS.complete hlv hn
  have hp' := hS'.complete hlv hn
  have hpp : raw'.data.Perm raw.data := hp'.trans hp.symm
  by_cases he : raw.data = []
  · have he' : raw'.data = [] := by rw [he] at hpp; exact hpp.eq_nil
    have hq : d'.toPerc = d.toPerc := by rw [hD'.noperc he', hD.noperc he, hpc]
    exact ⟨congrArg Perc.perc50 hq, congrArg Perc.perc80 hq, congrArg Perc.perc95 hq, congrArg Perc.perc99 hq⟩
  · have he' : raw'.data ≠ [] := fun h0 => he (by rw [h0] at hpp; exact hpp.symm.eq_nil)
    have P := hD.perc he
    have P' := hD'.perc he'
    have key : ∀ k v v', IsOrderStat raw.data k v → IsOrderStat raw'.data k v' → v' = v := by
      intro k v v' hv hv'
      have hv2 : IsOrderStat raw.data k v' :=
        ⟨hpp.mem_iff.1 hv'.1, by rw [← hpp.countP_eq]; exact hv'.2.1, by rw [← hpp.countP_eq]; exact hv'.2.2⟩
      exact le_antisymm (C19_rank_mono _ _ _ _ _ le_rfl hv2 hv) (C19_rank_mono _ _ _ _ _ le_rfl hv hv2)
    have hlen := hpp.length_eq
    refine ⟨key _ _ _ P.p50 ?_, key _ _ _ P.p80 ?_, key _ _ _ P.p95 ?_, key _ _ _ P.p99 ?_⟩
    · rw [← hlen]; exact P'.p50
    · rw [← hlen]; exact P'.p80
    · rw [← hlen]; exact P'.p95
    · rw [← hlen]; exact P'.p99

/-! #### The witness

A reducer of 3 levels of 34 samples in `adapt` mode starts with `nth`.  A window of 35 events makes it
switch to sorting (34 / 2 > 16).  In the next window the reducer sorts, but its clone starts with `nth`
again, and a conforming `nth_element` leads to other samples. -/

namespace ExLook

def env : Env := { nth := .descending, rnd := id }

def opt : AggregatorOpts :=
  { limit := 34, levels := 3, mode := .adapt, initialMode := .adapt, step := 10, resolution := .seconds, outSize := 0 }

def values (n : Nat) : List Int := (List.range n).map fun i => Int.ofNat (i * 21 % 68)

def a0 : Aggregator :=
  { sep := { reducer := Reducer.new opt.toReducerOpts, step := 10, next := 1010, resolution := .seconds }
    outSize := 0 }

def ops : List AOp := [.add 0 0 1003 (.many (values 35) 35), .add 0 0 1013 (.many (values 68) 68)]

theorem fresh : Fresh env opt a0 := .new (clk := 0) (rand := 0) (ts := 1000) (by decide +kernel)

/-- The median shown by the look and by the report, and the number of records waiting in the separator. -/
def medians : Option (Int × Int × Nat) := do
  let o ← (Aggregator.execAll env { a := a0 } ops).toOption
  let (x, _) ← (o.a.forcePop env).toOption
  let y ← (o.a.aggregateCurrent env).toOption
  let x ← x
  let y ← y
  return (y.perc50, x.perc50, o.a.sep.sepList.length)

theorem medians_eq : medians = some (22, 35, 0) := by decide +kernel

end ExLook

/-- In `adapt` mode the look may show another median than the report. -/
theorem C85_refuted : ¬ ∀ env, LookShowsReport env := by
  intro H
  have h := ExLook.medians_eq
  unfold ExLook.medians at h
  cases e : Aggregator.execAll ExLook.env { a := ExLook.a0 } ExLook.ops with
  | error x => rw [e] at h; cases h
  | ok o =>
    rw [e] at h
    replace h : (do
      let (x, _) ← (o.a.forcePop ExLook.env).toOption
      let y ← (o.a.aggregateCurrent ExLook.env).toOption
      let x ← x
      let y ← y
      return (y.perc50, x.perc50, o.a.sep.sepList.length) : Option (Int × Int × Nat)) = some (22, 35, 0) := h
    cases e1 : o.a.forcePop ExLook.env with
    | error x => rw [e1] at h; cases h
    | ok p =>
      obtain ⟨x, a'⟩ := p
      rw [e1] at h
      replace h : (do
        let y ← (o.a.aggregateCurrent ExLook.env).toOption
        let x ← x
        let y ← y
        return (y.perc50, x.perc50, o.a.sep.sepList.length) : Option (Int × Int × Nat)) = some (22, 35, 0) := h
      cases x with
      | none =>
        cases e2 : (o.a.aggregateCurrent ExLook.env).toOption <;> rw [e2] at h <;> cases h
      | some x =>
        cases e2 : o.a.aggregateCurrent ExLook.env with
        | error y => rw [e2] at h; cases h
        | ok y =>
          rw [e2] at h
          cases y with
          | none => cases h
          | some y =>
            simp only [Except.toOption, Option.bind_eq_bind, Option.bind_some, Option.pure_def,
              Option.some.injEq, Prod.mk.injEq] at h
            have e3 := H ExLook.env ExLook.opt ExLook.a0 a' ExLook.ops o (some x) (by decide) ExLook.fresh
              (by decide) e (List.length_eq_zero_iff.1 h.2.2) e1
            rw [e2] at e3
            cases e3
            omega

/-! #### An example for the positive claims: the same events with the mode fixed -/

namespace ExLook

def optN : AggregatorOpts := { opt with mode := .nth }

def aN : Aggregator := { a0 with sep := { a0.sep with reducer := Reducer.new optN.toReducerOpts } }

def oN : AObs :=
  match Aggregator.execAll env { a := aN } ops with
  | .ok o => o
  | .error _ => { a := aN }

theorem runN : Aggregator.execAll env { a := aN } ops = .ok oN := by
  have h : (match Aggregator.execAll env { a := aN } ops with
    | .ok _ => true | .error _ => false) = true := by decide +kernel
  unfold oN
  split at h
  · rename_i o e; rw [e]
  · cases h

example : ∀ x a', oN.a.forcePop env = .ok (x, a') → oN.a.aggregateCurrent env = .ok x :=
  fun x a' h => C85_fixed_mode_partial env optN aN a' ops oN x (.inl (by decide)) (by decide)
    (.new (clk := 0) (rand := 0) (ts := 1000) (by decide +kernel)) (by decide) runN (by decide +kernel) h

example : (oN.a.forcePop env).toOption.map (fun p => p.1.map (·.perc50)) = some (some 22) := by decide +kernel

end ExLook
end Wrtstat
