/-
C159: a multi aggregator keeps, for every name, the books a client could keep by hand.
-/
import Verif.Props.MultiLate

namespace Wrtstat

set_option autoImplicit false

open Multi Single
open Aggregator

namespace Multi

/-- Pushes that are handed over together. -/
structure Entry where
  /-- the time they are of -/
  time : Int
  pushes : List ReducedData
  /-- handed over by `force_pushout`, and so with percentiles -/
  whole : Bool
deriving DecidableEq

/-- The books of one name, kept by hand: the time of the page that is open (if any), the pushes on it, and the entries made so far. -/
structure Ledger where
  page : Option Int := none
  on : List ReducedData := []
  made : List Entry := []
deriving DecidableEq

/-- Close the page at time `t`: an empty page makes no entry. -/
def Ledger.close (L : Ledger) (t : Int) (whole : Bool) : List Entry :=
  L.made ++ if L.on = [] then [] else [⟨t, L.on, whole⟩]

/-- A push of time `T`: it opens a page, is refused if late, is noted on the page of its time, or turns the page. -/
def Ledger.push (L : Ledger) (T : Int) (v : ReducedData) : Ledger :=
  match L.page with
  | none => { L with page := some T, on := [v] }
  | some t =>
    if T < t then L
    else if T = t then { L with on := L.on ++ [v] }
    else { page := some T, on := [v], made := L.close t false }

/-- The name is deleted: the page is thrown away. -/
def Ledger.del (L : Ledger) : Ledger := { L with page := none, on := [] }

/-- `force_pushout` hands over the open page and leaves it empty, `pushout` does nothing. -/
def Ledger.out (L : Ledger) (force : Bool) : Ledger :=
  match L.page with
  | none => L
  | some t => if force then { L with on := [], made := L.close t true } else L

def MOp.write (opt : AggregatorOpts) (name : Name) (L : Ledger) : MOp → Ledger
  | .push p _ => if p.name = name then L.push (p.time opt) p.v else L
  | .multiPush ps _ => (ps.filter fun p => p.name = name).foldl (fun L p => L.push (p.time opt) p.v) L
  | .del n => if n = name then L.del else L
  | .pushout force _ _ => L.out force

/-- The books of a name after a history. -/
def ledger (opt : AggregatorOpts) (name : Name) (ops : List MOp) : Ledger := ops.foldl (MOp.write opt name) {}

/-- The record handed over is of the time of the entry and reports its pushes, all of them and nothing else; the percentiles
are left behind by a push. -/
def Entry.Says (env : Env) (opt : AggregatorOpts) (e : Entry) (d : AggData) : Prop :=
  ∃ r, Report env opt (e.pushes.map AddArg.reduced) r ∧ r.ts = e.time ∧ d = if e.whole then r else r.asReduced

end Multi

namespace Single

def NOp.write (opt : AggregatorOpts) (L : Ledger) : NOp → Ledger
  | .push v _ _ clk1 _ _ => L.push (align opt.step (meant opt.resolution clk1 v.ts)) v
  | .del => L.del
  | .pop force => L.out force

/-- The pushes on the open page, as the aggregator sees them. -/
def paged (t : Int) (vs : List ReducedData) : List (Int × AddArg) := vs.map fun v => (t, .reduced v)

theorem paged_snd (t : Int) (vs : List ReducedData) : (paged t vs).map Prod.snd = vs.map AddArg.reduced := by
  simp [paged, Function.comp_def]

/-- The aggregator holds what is on the open page. -/
def Holds (env : Env) (opt : AggregatorOpts) (a : Aggregator) (t : Int) (vs : List ReducedData) : Prop :=
  a.sep.currentTime = t ∧ opt.step ∣ t ∧ Books env opt { a := a, accepted := paged t vs } [] (paged t vs)

/-- The books kept by hand agree with the life of a name. -/
def Kept (env : Env) (opt : AggregatorOpts) (L : Ledger) (no : NObs) : Prop :=
  List.Forall₂ (Entry.Says env opt) L.made no.delivered ∧
  match no.life with
  | none => L.page = none ∧ L.on = []
  | some ao => ∃ t, L.page = some t ∧ Holds env opt ao.a t L.on

theorem holds_of {env : Env} {opt : AggregatorOpts} {a : Aggregator} {t : Int} {vs : List ReducedData} (hs : 0 < opt.step)
    (hc : Clean a) (ho : a.outSize = opt.outSize) (hst : a.sep.step = opt.step) (hres : a.sep.resolution = opt.resolution)
    (hg : Reducer.GoodA env opt.toReducerOpts a.sep.reducer (vs.map AddArg.reduced)) (ht : a.sep.currentTime = t) (hd : opt.step ∣ t) :
    Holds env opt a t vs := by
  refine ⟨ht, hd, hc, ho, ⟨⟨hst, hres⟩, by rw [paged_snd]; exact hg, ?_, ?_⟩, .nil, ?_, ?_⟩
  · intro e he
    obtain ⟨v, _, rfl⟩ := List.mem_map.1 he
    subst ht
    simp only [Separator.currentTime, hst]
    omega
  · rw [hc.2.1]; exact .nil
  · rw [hc.1]; exact .nil
  · simp

/-- A push, in terms of the open page. -/
theorem holds_push {env : Env} {opt : AggregatorOpts} {a a' : Aggregator} {t : Int} {vs : List ReducedData} (hs : 0 < opt.step)
    (H : Holds env opt a t vs) {v : ReducedData} {clk1 clk2 : Int} {b : Bool} {out : List AggData}
    (ht : opt.resolution = .none ∨ align opt.step (meant opt.resolution clk1 v.ts) ≠ 0)
    (h : a.push env clk1 clk2 v.ts (.reduced v) true = .ok (b, out, a')) :
    let T := align opt.step (meant opt.resolution clk1 v.ts)
    (T < t ∧ out = [] ∧ Holds env opt a' t vs) ∨
    (T = t ∧ out = [] ∧ Holds env opt a' t (vs ++ [v])) ∨
    (t < T ∧ Holds env opt a' T [v] ∧
      List.Forall₂ (Entry.Says env opt) (if vs = [] then [] else [⟨t, vs, false⟩]) (out.map AggData.asReduced)) := by
  intro T
  obtain ⟨hct, hdv, hcl, g⟩ := H
  replace hcl : Clean a := hcl
  have ho : a.outSize = opt.outSize := g.out
  have hst : a.sep.step = opt.step := g.sep.step.1
  have hres : a.sep.resolution = opt.resolution := g.sep.step.2
  have hred := g.sep.red
  rw [paged_snd] at hred
  have hcl' : Clean a' := by
    refine clean_exec (env := env) (op := .push clk1 clk2 v.ts (.reduced v) true) (ao := { a := a })
      (ao' := { a := a', received := [] ++ out, accepted := AObs.record { a := a } b clk1 v.ts (.reduced v) }) hcl rfl ?_
    simp only [Aggregator.exec, h, bind_ok']
  unfold Aggregator.push at h
  rw [if_neg (by simp [hcl.2.2]), if_neg (by simp)] at h
  obtain ⟨⟨ok, out1, s'⟩, hp, h1⟩ := bind_inv h
  obtain ⟨l, el, h2⟩ := bind_inv h1
  clear h h1
  simp only [Except.ok.injEq, Prod.mk.injEq] at h2
  obtain ⟨hok, hout, ha'⟩ := h2
  subst hok hout ha'
  obtain ⟨l', el', hl⟩ := mapM_finish env.nth a.outSize out1
  rw [el'] at el
  cases el
  obtain ⟨s1, pub, as', eff, hb, hs'⟩ := Separator.push_effect (by rw [hst]; exact hs) hred hp
  rw [hst, hres] at eff hb
  have hT2 : align opt.step (meant opt.resolution clk2 T) = T := by
    unfold meant
    rw [if_neg (by tauto)]
    exact Separator.align_idem (Int.ne_of_gt hs) _
  rw [show align opt.step (meant opt.resolution clk1 v.ts) = T from rfl, hT2] at eff
  have hdT : opt.step ∣ T := step_dvd_align _
  have hf1 : s1.step = opt.step := eff.frame.1.trans hst
  have hf2 : s1.resolution = opt.resolution := eff.frame.2.trans hres
  have hnx : a.sep.next = t + opt.step := by rw [← hct, Separator.currentTime, hst]; omega
  obtain ⟨lo, -⟩ := eff.lists
  simp only [if_true] at lo
  subst lo
  -- nothing new on the page, or one push more
  have fin : ∀ (T' : Int) (ws : List ReducedData), opt.step ∣ T' → s1.next = T' + opt.step → as' = ws.map AddArg.reduced →
      (ok = true → Holds env opt { a with sep := s' } T' (ws ++ [v])) ∧ (ok = false → Holds env opt { a with sep := s' } T' ws) := by
    intro T' ws hd' hn ha
    have hgood := eff.good
    rw [ha] at hgood
    constructor
    · rintro rfl
      simp only [if_true] at hs'
      subst hs'
      refine holds_of hs hcl' ho hf1 hf2 ?_ ?_ hd'
      · rw [List.map_append]
        exact Reducer.goodA_add hgood (.reduced v)
      · simp only [Separator.currentTime, hn, hf1]; omega
    · rintro rfl
      simp only [Bool.false_eq_true, if_false] at hs'
      subst hs'
      refine holds_of hs hcl' ho hf1 hf2 hgood ?_ hd'
      simp only [Separator.currentTime, hn, hf1]; omega
  rcases eff.cases with ⟨c1, c2, c3, c4⟩ | ⟨c1, c2, c3, ⟨k, c4, -⟩, c5, c6⟩
  · subst c2
    cases hl
    have hn : s1.next = t + opt.step := by rw [c3]; exact hnx
    obtain ⟨f1, f2⟩ := fin t vs hdv hn c4
    have hbb : ok = true ↔ t ≤ T := by
      rw [hb, hn, hf1]
      show t + opt.step - opt.step ≤ T ↔ _
      omega
    rcases lt_trichotomy T t with hlt | heq | hgt
    · refine .inl ⟨hlt, rfl, f2 ?_⟩
      rw [Bool.eq_false_iff, ne_eq, hbb]
      omega
    · exact .inr (.inl ⟨heq, rfl, f1 (hbb.2 heq.ge)⟩)
    · exfalso
      obtain ⟨q, hq⟩ := Int.dvd_sub hdT hdv
      rw [hnx] at c1
      have : 0 < q := by nlinarith
      nlinarith
  · rw [hst] at c3
    have hn : s1.next = T + opt.step := by
      obtain ⟨q, hq⟩ := hdT
      obtain ⟨p, hp'⟩ := hdv
      rw [hnx, hst] at c4
      have e : s1.next = opt.step * (p + 1 + k) := by rw [c4, hp']; ring
      rw [e, hq] at c2 c3 ⊢
      have h1 : q < p + 1 + k := by nlinarith
      have h2 : p + 1 + k ≤ q + 1 := by nlinarith
      have : p + 1 + k = q + 1 := by omega
      rw [this]; ring
    have hok : ok = true := by
      rw [hb, hn, hf1]
      show T + opt.step - opt.step ≤ T
      omega
    refine .inr (.inr ⟨by rw [hnx] at c1; omega, (fin T [] hdT hn (by simpa using c5)).1 hok, ?_⟩)
    rcases c6 with ⟨e1, e2⟩ | ⟨e1, d, e2, e3, e4⟩
    · subst e2
      cases hl
      rw [if_pos (by simpa using e1)]
      exact .nil
    · subst e2
      cases hl with
      | cons h1 h2 =>
        cases h2
        rw [if_neg (by simpa using e1)]
        refine .cons ⟨_, ⟨d, e4, by rw [← ho]; exact h1⟩, ?_, rfl⟩ .nil
        rw [h1.ts, e3, ← hct]
        rfl

theorem nexec_kept {env : Env} {opt : AggregatorOpts} {L : Ledger} {no no' : NObs} (hs : 0 < opt.step) (h0 : opt.soiled = 0)
    (K : Kept env opt L no) (op : NOp) (ht : op.timely opt) (h : nexec env opt no op = .ok no') :
    Kept env opt (op.write opt L) no' := by
  obtain ⟨hm, K⟩ := K
  cases op with
  | push v clk rand clk1 clk2 seen =>
    simp only [nexec] at h
    obtain ⟨ao, hb, h⟩ := bind_inv h
    obtain ⟨⟨b, out, a'⟩, hp, h⟩ := bind_inv h
    obtain ⟨ao', hx, h⟩ := bind_inv h
    cases h
    have hao : ao'.a = a' := by
      simp only [Aggregator.exec, hp, bind_ok'] at hx
      cases hx
      rfl
    obtain ⟨c1, c2, cc, ct⟩ := ht
    cases hl : no.life with
    | some ao0 =>
      rw [hl] at K hb
      cases hb
      obtain ⟨t, e1, H⟩ := K
      simp only [NOp.write, Ledger.push, e1]
      rcases holds_push hs H ct hp with ⟨k1, k2, k3⟩ | ⟨k1, k2, k3⟩ | ⟨k1, k2, k3⟩
      · rw [if_pos k1]
        subst k2
        exact ⟨by simpa using hm, t, e1, hao ▸ k3⟩
      · rw [if_neg (by omega), if_pos k1]
        subst k2
        exact ⟨by simpa using hm, t, rfl, hao ▸ k3⟩
      · rw [if_neg (by omega), if_neg (by omega)]
        exact ⟨List.rel_append hm k3, _, rfl, hao ▸ k2⟩
    | none =>
      rw [hl] at K hb
      obtain ⟨e1, e2⟩ := K
      simp only [born] at hb
      cases hn : Aggregator.new opt clk rand v.ts with
      | error e => rw [hn] at hb; cases hb
      | ok a0 =>
        rw [hn] at hb
        cases hb
        have g := pgood_fresh (Q := Report env opt) hs (Fresh.new (env := env) hn)
        have e : a0.sep.currentTime = align opt.step (meant opt.resolution clk v.ts) := by
          unfold Aggregator.new Separator.new Separator.getTsWith at hn
          rw [if_neg (by omega)] at hn
          simp only [h0, ne_eq, not_true_eq_false, if_false] at hn
          cases hn
          simp only [Separator.currentTime, align, meant]
          by_cases hz : v.ts = 0 ∧ opt.resolution ≠ .none
          · rw [if_pos hz, if_neg (by tauto)]; omega
          · rw [if_neg hz, if_pos (by tauto)]; omega
        have H : Holds env opt a0 (align opt.step (meant opt.resolution clk v.ts)) [] :=
          ⟨e, step_dvd_align _, clean_new env hn, g⟩
        have hle : align opt.step (meant opt.resolution clk v.ts) ≤ align opt.step (meant opt.resolution clk1 v.ts) := by
          apply align_mono hs
          unfold meant
          split <;> omega
        simp only [NOp.write, Ledger.push, e1]
        rcases holds_push hs H ct hp with ⟨k1, k2, k3⟩ | ⟨k1, k2, k3⟩ | ⟨k1, k2, k3⟩
        · omega
        · subst k2
          exact ⟨by simpa using hm, _, rfl, hao ▸ k1 ▸ k3⟩
        · simp only [if_true] at k3
          cases hout : out with
          | cons x xs => rw [hout] at k3; cases k3
          | nil => exact ⟨by simpa using hm, _, rfl, hao ▸ k2⟩
  | del =>
    cases h
    exact ⟨hm, rfl, rfl⟩
  | pop force =>
    simp only [nexec] at h
    cases hl : no.life with
    | none =>
      rw [hl] at h K
      cases h
      obtain ⟨e1, e2⟩ := K
      simp only [NOp.write, Ledger.out, e1]
      exact ⟨hm, by rw [hl]; exact ⟨e1, e2⟩⟩
    | some ao =>
      rw [hl] at h K
      obtain ⟨ao', hx, h⟩ := bind_inv h
      cases h
      obtain ⟨t, e1, e2, e3, B⟩ := K
      simp only [NOp.write, Ledger.out, e1]
      cases force with
      | false =>
        have hpop : ao.a.pop = (none, ao.a) := by
          have : ao.a.agList = [] := B.clean.1
          simp only [Aggregator.pop, this]
        simp only [Bool.false_eq_true, if_false, Aggregator.exec, hpop] at hx ⊢
        cases hx
        exact ⟨by simpa using hm, t, e1, e2, e3, B⟩
      | true =>
        simp only [if_true, Aggregator.exec] at hx ⊢
        obtain ⟨⟨x, a'⟩, hf, hx⟩ := bind_inv hx
        cases hx
        obtain ⟨k1, k2, -, B'⟩ := books_force B hf
        have g' := B'.good
        refine ⟨?_, t, rfl, holds_of hs B'.clean g'.out g'.sep.step.1 g'.sep.step.2 g'.sep.red ?_ e3⟩
        · simp only [List.drop_left]
          refine List.rel_append hm ?_
          by_cases hon : L.on = []
          · have : x = none := k1.2 (by simp [paged, hon])
            rw [if_pos hon, this]
            exact .nil
          · rw [if_neg hon]
            cases x with
            | none => exact absurd (by simpa [paged] using k1.1 rfl) hon
            | some d =>
              obtain ⟨j1, j2⟩ := k2 d rfl
              rw [paged_snd] at j2
              exact .cons ⟨d, j2, j1.trans e2, rfl⟩ .nil
        · have hh := horizon_exec hs B.good .forcePop trivial (o' := { a := a', received := [] ++ x.toList, accepted := paged t L.on })
            (by simp only [Aggregator.exec, hf, bind_ok'])
          have : a'.sep.currentTime = ao.a.sep.currentTime := congrArg Horizon.cur hh
          rw [this]; exact e2

theorem nexecAll_kept {env : Env} {opt : AggregatorOpts} (hs : 0 < opt.step) (h0 : opt.soiled = 0) (ops : List NOp) :
    ∀ {L : Ledger} {no no' : NObs}, Kept env opt L no → (∀ op ∈ ops, op.timely opt) → nexecAll env opt no ops = .ok no' →
      Kept env opt (ops.foldl (NOp.write opt) L) no' := by
  induction ops with
  | nil => intro l no no' f _ h; cases h; exact f
  | cons op ops ih =>
    intro l no no' f ht h
    unfold nexecAll at h
    rw [List.foldlM_cons] at h
    obtain ⟨n1, hx, h⟩ := bind_inv h
    exact ih (nexec_kept hs h0 f op (ht op (by simp)) hx) (fun o ho => ht o (by simp [ho])) h

end Single

theorem Multi.ledger_forName (opt : AggregatorOpts) (name : Name) (ops : List MOp) :
    Multi.ledger opt name ops = (forName name ops).foldl (NOp.write opt) {} := by
  unfold Multi.ledger
  generalize ({} : Ledger) = l
  induction ops generalizing l with
  | nil => rfl
  | cons op ops ih =>
    rw [List.foldl_cons, ih]
    simp only [forName, List.flatMap_cons, List.foldl_append]
    congr 1
    cases op with
    | push p h =>
      simp only [MOp.forName, MOp.write]
      split <;> rfl
    | multiPush ps h =>
      simp only [MOp.forName, MOp.write, List.foldl_map]
      rfl
    | del n =>
      simp only [MOp.forName, MOp.write]
      split <;> rfl
    | pushout _ _ _ => rfl

/-! ### C159 -/

/-- The requests handed over for a name are, one by one and in order, the entries of the books kept by hand. -/
theorem C159_ledger (env : Env) (hash : Name → Nat) (opt : MultiOpts) (ops : List MOp) (o : MObs)
    (hs : 0 < opt.step) (hz : 0 < opt.hashSize) (h0 : opt.soiled = 0) (ht : ∀ op ∈ ops, op.timely opt.toAggregatorOpts)
    (h : mexecAll env { m := Multi.new hash opt } ops = .ok o) (name : Name) :
    List.Forall₂ (Entry.Says env opt.toAggregatorOpts) (ledger opt.toAggregatorOpts name ops).made (about name o.delivered) := by
  obtain ⟨no, e1, a1, -, -⟩ := C39_sharded env hash opt ops o hz h name
  rw [Multi.ledger_forName, a1]
  exact (Single.nexecAll_kept (L := {}) (no := {}) hs h0 _ ⟨.nil, rfl, rfl⟩ (forName_timely ht name) e1).1

open ExMulti in
/-- `a` at 1003 and 1005 (one page), at 1012, late at 990; all is handed over; then 1018 (the same page once more), 1031, and `a` is
deleted. The books of `a` and what was handed over. -/
example : let ops : List MOp := [.push (arg na 1003 [5]) true, .push (arg nb 1004 [8, 6]) true, .multiPush [arg na 1005 [7, 2], arg nb 1021 [1]] true,
      .push (arg na 1012 [9]) true, .push (arg na 990 [4]) true, .pushout true true rev, .push (arg na 1018 [3]) true,
      .pushout false true ord, .push (arg na 1031 [1]) true, .del na, .push (arg na 1002 [6]) true]
    ledger opt.toAggregatorOpts na ops = { page := some 1000, on := [red 1002 [6]], made :=
      [⟨1000, [red 1003 [5], red 1005 [7, 2]], false⟩, ⟨1010, [red 1012 [9]], true⟩, ⟨1010, [red 1018 [3]], false⟩] } ∧
    Passes (mexecAll exactEnv { m := Multi.new (fun n => n.length) opt } ops) (fun o =>
      decide ((about na o.delivered).map (fun d => (d.ts, d.count, d.avg)) = [(1000, 3, 4), (1010, 1, 9), (1010, 1, 3)]) &&
      decide ((about nb o.delivered).map (fun d => (d.ts, d.count, d.avg)) = [(1000, 2, 7), (1020, 1, 1)])) = true := by
  decide +kernel

open ExMulti in
example (hash : Name → Nat) (o : MObs)
    (h : mexecAll exactEnv { m := Multi.new hash opt } [.push (arg na 1003 [5]) true, .push (arg nb 1004 [8, 6]) true,
      .push (arg na 1012 [9]) true] = .ok o) : (about na o.delivered).length = 1 ∧ about nb o.delivered = [] := by
  have ha := C159_ledger exactEnv hash opt _ o (by decide) (by decide) (by decide) (by decide) h na
  have hb := C159_ledger exactEnv hash opt _ o (by decide) (by decide) (by decide) (by decide) h nb
  refine ⟨?_, ?_⟩
  · rw [← ha.length_eq]; decide +kernel
  · have := hb.length_eq
    exact List.eq_nil_of_length_eq_zero (this.symm.trans (by decide +kernel))

end Wrtstat
