/-
Every history, `force_pop` included, splits the recorded events into groups: one for each record
received or waiting, and the events of the current window not yet reported.
-/
import Verif.Lemmas.Percentile
import Verif.Lemmas.SeparatorTotal
import Verif.Spec.AggregatorSpec

namespace Wrtstat

theorem mapM_finish (E : NthElement) (R : Nat) (l : List AggData) :
    ∃ l', l.mapM (Aggregator.finish E R) = .ok l' ∧ List.Forall₂ (Delivered R) l l' := by
  induction l with
  | nil => exact ⟨[], rfl, .nil⟩
  | cons d l ih =>
    obtain ⟨l', e, h⟩ := ih
    obtain ⟨d', e', h'⟩ := Aggregator.finish_spec E R d
    exact ⟨d' :: l', by rw [List.mapM_cons, e', bind_ok', e]; rfl, .cons h' h⟩

namespace Aggregator
open Reducer (GoodA)

/-- A group of events with its record. -/
def Group (step : Int) (Q : List AddArg → AggData → Prop) (g : List (Int × AddArg)) (d : AggData) : Prop :=
  Q (g.map Prod.snd) d ∧ ∀ e ∈ g, d.ts ≤ e.1 ∧ e.1 < d.ts + step

theorem Group.imp {step : Int} {Q Q' : List AddArg → AggData → Prop} {g : List (Int × AddArg)} {d : AggData}
    (h : Group step Q g d) (hq : ∀ as d, Q as d → Q' as d) : Group step Q' g d :=
  ⟨hq _ _ h.1, h.2⟩

/-- Invariant of the separator: groups `gS` for the records inside, `cur` for the current window. -/
structure SPart (env : Env) (opt : SeparatorOpts) (s : Separator) (gS : List (List (Int × AddArg)))
    (cur : List (Int × AddArg)) : Prop where
  step : s.step = opt.step ∧ s.resolution = opt.resolution
  red : GoodA env opt.toReducerOpts s.reducer (cur.map Prod.snd)
  win : ∀ e ∈ cur, s.next - opt.step ≤ e.1 ∧ e.1 < s.next
  recs : List.Forall₂ (Group opt.step (Summary env opt.limit opt.levels)) gS s.sepList

theorem spart_effect {env : Env} {opt : SeparatorOpts} {s s' : Separator} {gS : List (List (Int × AddArg))}
    {cur : List (Int × AddArg)} {as' : List AddArg} {T : Int} {handler : Bool} {pub out : List AggData}
    (g : SPart env opt s gS cur)
    (eff : Separator.SepEffect env opt.toReducerOpts s s' (cur.map Prod.snd) as' T handler pub out) :
    ∃ gP cur', (gP.flatten ++ cur').Perm cur ∧
      List.Forall₂ (Group opt.step (Summary env opt.limit opt.levels)) gP pub ∧
      SPart env opt s' (if handler then gS else gS ++ gP) cur' ∧ as' = cur'.map Prod.snd := by
  obtain ⟨⟨hst, hres⟩, hred, hwin, hrecs⟩ := g
  obtain ⟨⟨f1, f2⟩, ⟨l1, l2⟩, hg, hc⟩ := eff
  have key : ∀ (gP : List (List (Int × AddArg))) (cur' : List (Int × AddArg)),
      List.Forall₂ (Group opt.step (Summary env opt.limit opt.levels)) gP pub → as' = cur'.map Prod.snd →
      (∀ e ∈ cur', s'.next - opt.step ≤ e.1 ∧ e.1 < s'.next) →
      SPart env opt s' (if handler then gS else gS ++ gP) cur' := by
    intro gP cur' h1 h2 h3
    refine ⟨⟨f1.trans hst, f2.trans hres⟩, by rw [← h2]; exact hg, h3, ?_⟩
    rw [l2]
    cases handler
    · exact List.rel_append hrecs h1
    · exact hrecs
  rcases hc with ⟨h1, h2, h3, h4⟩ | ⟨h1, h2, h3, ⟨k, h4, h5⟩, h6, h7⟩
  · subst h3
    exact ⟨[], cur, List.Perm.refl _, by rw [h2]; exact .nil, key [] cur (by rw [h2]; exact .nil) h4 hwin, h4⟩
  · rcases h7 with ⟨h7, h8⟩ | ⟨h7, d, h8, h9, h10⟩
    · have hcur : cur = [] := List.map_eq_nil_iff.1 h7
      subst hcur
      exact ⟨[], [], List.Perm.refl _, by rw [h8]; exact .nil, key [] [] (by rw [h8]; exact .nil) h6 (by simp), h6⟩
    · have hG : Group opt.step (Summary env opt.limit opt.levels) cur d := by
        refine ⟨h10, fun e he => ?_⟩
        have := hwin e he
        rw [h9, hst]
        omega
      exact ⟨[cur], [], by simp, by rw [h8]; exact .cons hG .nil,
        key [cur] [] (by rw [h8]; exact .cons hG .nil) h6 (by simp), h6⟩

theorem spart_push {env : Env} {opt : SeparatorOpts} {s s' : Separator} {gS : List (List (Int × AddArg))}
    {cur : List (Int × AddArg)} {clk1 clk2 ts : Int} {x : AddArg} {handler b : Bool} {out : List AggData}
    (hs : 0 < opt.step) (hc : 0 ≤ clk1 ∧ 0 ≤ clk2) (g : SPart env opt s gS cur)
    (h : s.push env clk1 clk2 ts x handler = .ok (b, out, s')) :
    ∃ gP cur' pub, out = (if handler then pub else []) ∧
      (gP.flatten ++ cur').Perm
        (cur ++ if b then [(align opt.step (meant opt.resolution clk1 ts), x)] else []) ∧
      List.Forall₂ (Group opt.step (Summary env opt.limit opt.levels)) gP pub ∧
      SPart env opt s' (if handler then gS else gS ++ gP) cur' := by
  obtain ⟨hst, hres⟩ := g.step
  obtain ⟨s1, pub, as', eff, hb, hs'⟩ := Separator.push_effect (by rw [hst]; exact hs) g.red h
  rw [hst, hres] at eff hb
  obtain ⟨gP, cur', hp, hg, g1, has⟩ := spart_effect g eff
  cases b with
  | false =>
    simp only [Bool.false_eq_true, if_false] at hs'
    subst hs'
    exact ⟨gP, cur', pub, eff.lists.1, by simpa using hp, hg, g1⟩
  | true =>
    simp only [if_true] at hs'
    subst hs'
    have hs1 : s1.step = opt.step := g1.step.1
    set T := align opt.step (meant opt.resolution clk1 ts) with hT
    have hlo : s1.next - opt.step ≤ T := by
      have := hb.1 rfl
      rw [hs1] at this
      exact this
    have hT2 : align opt.step (meant opt.resolution clk2 T) < s1.next := by
      rcases eff.cases with ⟨c1, _, c3, _⟩ | ⟨_, c2, _⟩
      · rw [c3]; exact c1
      · exact c2
    have hhi : T < s1.next := by
      by_cases h0 : T = 0 ∧ opt.resolution ≠ .none
      · rw [meant, if_pos h0] at hT2
        have : 0 ≤ align opt.step clk2 := by
          unfold align
          exact Int.mul_nonneg (Int.tdiv_nonneg hc.2 hs.le) hs.le
        omega
      · rw [meant, if_neg h0] at hT2
        rwa [hT, Separator.align_idem (by omega), ← hT] at hT2
    refine ⟨gP, cur' ++ [(T, x)], pub, eff.lists.1, ?_, hg, ?_⟩
    · rw [← List.append_assoc]
      exact hp.append_right _
    · refine ⟨g1.step, ?_, ?_, g1.recs⟩
      · rw [List.map_append]
        exact Reducer.goodA_add g1.red x
      · intro e he
        rcases List.mem_append.1 he with he | he
        · exact g1.win e he
        · simp only [List.mem_singleton] at he
          subst he
          exact ⟨hlo, hhi⟩

/-- Invariant of a run: groups for the records received, waiting, inside the separator, and the
current window. -/
structure PGood (env : Env) (opt : AggregatorOpts) (Q : List AddArg → AggData → Prop) (o : AObs)
    (gR gA gS : List (List (Int × AddArg))) (cur : List (Int × AddArg)) : Prop where
  out : o.a.outSize = opt.outSize
  sep : SPart env opt.toSeparatorOpts o.a.sep gS cur
  rec_ : List.Forall₂ (Group opt.step Q) gR o.received
  wait : List.Forall₂ (Group opt.step (Report env opt)) gA o.a.agList
  perm : (gR.flatten ++ gA.flatten ++ gS.flatten ++ cur).Perm o.accepted

theorem forall2_finish {env : Env} {opt : AggregatorOpts} {gs : List (List (Int × AddArg))} {l l' : List AggData}
    (h : List.Forall₂ (Group opt.step (Summary env opt.limit opt.levels)) gs l)
    (h' : List.Forall₂ (Delivered opt.outSize) l l') :
    List.Forall₂ (Group opt.step (Report env opt)) gs l' := by
  induction h generalizing l' with
  | nil => cases h'; exact .nil
  | cons h _ ih =>
    cases h' with
    | cons hd ht =>
      refine .cons ⟨⟨_, h.1, hd⟩, ?_⟩ (ih ht)
      rw [hd.ts]
      exact h.2

theorem aggregate0_spec (E : NthElement) (a : Aggregator) :
    ∃ l, aggregate0_ E a = .ok { a with sep := { a.sep with sepList := [] }, agList := a.agList ++ l } ∧
      List.Forall₂ (Delivered a.outSize) a.sep.sepList l := by
  obtain ⟨l, e, h⟩ := mapM_finish E a.outSize a.sep.sepList
  exact ⟨l, by unfold aggregate0_; rw [e]; rfl, h⟩

theorem pgood_aggregate0 {env : Env} {opt : AggregatorOpts} {Q : List AddArg → AggData → Prop} {o : AObs}
    {gR gA gS : List (List (Int × AddArg))} {cur : List (Int × AddArg)} {a' : Aggregator}
    (g : PGood env opt Q o gR gA gS cur) (h : aggregate0_ env.nth o.a = .ok a') :
    PGood env opt Q { o with a := a' } gR (gA ++ gS) [] cur := by
  obtain ⟨hout, hsep, hrec, hwait, hperm⟩ := g
  obtain ⟨l, e, hl⟩ := aggregate0_spec env.nth o.a
  rw [e] at h
  cases h
  rw [hout] at hl
  refine ⟨hout, ⟨hsep.step, hsep.red, hsep.win, .nil⟩, hrec,
    List.rel_append hwait (forall2_finish hsep.recs hl), ?_⟩
  simpa using hperm

theorem pgood_add {env : Env} {opt : AggregatorOpts} {Q : List AddArg → AggData → Prop} {o : AObs}
    {gR gA gS : List (List (Int × AddArg))} {cur : List (Int × AddArg)} (hs : 0 < opt.step)
    (g : PGood env opt Q o gR gA gS cur) {clk1 clk2 ts : Int} {x : AddArg} (hc : 0 ≤ clk1 ∧ 0 ≤ clk2) {b : Bool}
    {a' : Aggregator} (h : o.a.add env clk1 clk2 ts x = .ok (b, a')) :
    ∃ gA gS cur, PGood env opt Q ⟨a', o.received, o.record b clk1 ts x⟩ gR gA gS cur := by
  by_cases he : o.a.enabled = true
  · unfold add Separator.add at h
    rw [if_neg (by simp [he])] at h
    cases hp : o.a.sep.push env clk1 clk2 ts x false with
    | error e => rw [hp] at h; cases h
    | ok p =>
      obtain ⟨ok, out, s'⟩ := p
      obtain ⟨hst, hres⟩ := g.sep.step
      obtain ⟨gP, cur', pub, _, hperm, _, g1⟩ := spart_push hs hc g.sep hp
      rw [hp] at h
      simp only [bind_ok'] at h
      have g2 : PGood env opt Q ⟨{ o.a with sep := s' }, o.received, o.record ok clk1 ts x⟩ gR gA
          (gS ++ gP) cur' := by
        refine ⟨g.out, g1, g.rec_, g.wait, ?_⟩
        have : o.record ok clk1 ts x =
            o.accepted ++ if ok then [(align opt.step (meant opt.resolution clk1 ts), x)] else [] := by
          unfold AObs.record
          rw [hst, hres]
          cases ok <;> simp [he]
        rw [this]
        refine List.Perm.trans ?_ (g.perm.append_right _)
        simp only [List.append_assoc, List.flatten_append]
        exact ((hperm.append_left _).append_left _).append_left _
      cases ok with
      | false => cases h; exact ⟨_, _, _, g2⟩
      | true =>
        simp only [Bool.true_eq_false, if_false] at h
        cases ha : aggregate0_ env.nth { o.a with sep := s' } with
        | error e => rw [ha] at h; cases h
        | ok a1 =>
          rw [ha] at h
          cases h
          exact ⟨_, _, _, pgood_aggregate0 g2 ha⟩
  · unfold add at h
    rw [if_pos (by simpa using he)] at h
    cases h
    refine ⟨gA, gS, cur, ?_⟩
    simp only [AObs.record, he]
    exact g

theorem perm_ins {α : Type} (a b c d e : List α) : (a ++ e ++ b ++ c ++ d).Perm (a ++ b ++ c ++ (e ++ d)) := by
  have h1 : (e ++ (b ++ c)).Perm ((b ++ c) ++ e) := List.perm_append_comm
  have := (h1.append_left a).append_right d
  simpa only [List.append_assoc] using this

/-- Every operation keeps the invariant. -/
theorem pgood_exec {env : Env} {opt : AggregatorOpts} {Q : List AddArg → AggData → Prop}
    (hQ : ∀ as d, Report env opt as d → Q as d) {o o' : AObs} {gR gA gS : List (List (Int × AddArg))}
    {cur : List (Int × AddArg)} (hs : 0 < opt.step) (g : PGood env opt Q o gR gA gS cur) (op : AOp)
    (hc : op.clockOk)
    (hsh : op.sepHandler = true → ∀ as d, Summary env opt.limit opt.levels as d → Q as d)
    (h : exec env o op = .ok o') : ∃ gR gA gS cur, PGood env opt Q o' gR gA gS cur := by
  obtain ⟨hst, hres⟩ := g.sep.step
  cases op with
  | add clk1 clk2 ts x =>
    simp only [exec] at h
    cases ha : o.a.add env clk1 clk2 ts x with
    | error e => rw [ha] at h; cases h
    | ok p =>
      obtain ⟨b, a'⟩ := p
      rw [ha] at h
      cases h
      exact ⟨gR, pgood_add hs g hc ha⟩
  | push clk1 clk2 ts x handler =>
    simp only [exec] at h
    cases ha : o.a.push env clk1 clk2 ts x handler with
    | error e => rw [ha] at h; cases h
    | ok p =>
      obtain ⟨b, out, a'⟩ := p
      rw [ha] at h
      simp only [bind_ok'] at h
      cases h
      unfold push at ha
      by_cases he : o.a.enabled = true
      · rw [if_neg (by simp [he])] at ha
        cases handler with
        | false =>
          simp only [if_true] at ha
          cases hb : o.a.add env clk1 clk2 ts x with
          | error e => rw [hb] at ha; cases ha
          | ok p =>
            rw [hb] at ha
            cases ha
            rw [List.append_nil]
            exact ⟨gR, pgood_add hs g hc hb⟩
        | true =>
          simp only [Bool.true_eq_false, if_false] at ha
          cases hp : o.a.sep.push env clk1 clk2 ts x true with
          | error e => rw [hp] at ha; cases ha
          | ok p =>
            obtain ⟨ok, out1, s'⟩ := p
            rw [hp] at ha
            obtain ⟨l, el, hl⟩ := mapM_finish env.nth o.a.outSize out1
            simp only [bind_ok', el] at ha
            cases ha
            obtain ⟨gP, cur', pub, ho, hperm, hG, g1⟩ := spart_push hs hc g.sep hp
            simp only [if_true] at ho g1
            subst ho
            rw [g.out] at hl
            refine ⟨gR ++ gP, gA, gS, cur', g.out, g1,
              List.rel_append g.rec_ ((forall2_finish hG hl).imp fun _ _ h => h.imp hQ), g.wait, ?_⟩
            have : o.record b clk1 ts x =
                o.accepted ++ if b then [(align opt.step (meant opt.resolution clk1 ts), x)] else [] := by
              unfold AObs.record
              rw [hst, hres]
              cases b <;> simp [he]
            show List.Perm _ (o.record b clk1 ts x)
            rw [this, List.flatten_append]
            refine (perm_ins _ _ _ _ _).trans ?_
            refine List.Perm.trans ?_ (g.perm.append_right _)
            rw [List.append_assoc _ cur]
            exact hperm.append_left _
      · rw [if_pos (by simpa using he)] at ha
        cases ha
        refine ⟨gR, gA, gS, cur, ?_⟩
        simp only [AObs.record, he, List.append_nil]
        exact g
  | separate clk ts handler force =>
    simp only [exec] at h
    unfold separate at h
    cases hp : o.a.sep.separate env clk ts handler force with
    | error e => rw [hp] at h; cases h
    | ok p =>
      obtain ⟨res, out, s'⟩ := p
      rw [hp] at h
      simp only [bind_ok'] at h
      cases ha : aggregate0_ env.nth { o.a with sep := s' } with
      | error e => rw [ha] at h; cases h
      | ok a1 =>
        rw [ha] at h
        cases h
        obtain ⟨pub, as', eff, _⟩ := Separator.separate_effect (by rw [hst]; exact hs) g.sep.red hp
        obtain ⟨gP, cur', hperm, hG, g1, _⟩ := spart_effect g.sep eff
        cases handler with
        | false =>
          have ho : out = [] := eff.lists.1
          subst ho
          have g2 : PGood env opt Q ⟨{ o.a with sep := s' }, o.received, o.accepted⟩ gR gA (gS ++ gP) cur' := by
            refine ⟨g.out, g1, g.rec_, g.wait, ?_⟩
            refine List.Perm.trans ?_ g.perm
            simp only [List.flatten_append, List.append_assoc]
            exact ((hperm.append_left _).append_left _).append_left _
          rw [List.append_nil]
          exact ⟨gR, _, _, _, pgood_aggregate0 (o := ⟨{ o.a with sep := s' }, o.received, o.accepted⟩) g2 ha⟩
        | true =>
          have ho : out = pub := eff.lists.1
          subst ho
          have g2 : PGood env opt Q ⟨{ o.a with sep := s' }, o.received ++ out, o.accepted⟩ (gR ++ gP) gA gS cur' := by
            refine ⟨g.out, g1, List.rel_append g.rec_ (hG.imp fun _ _ h => h.imp (hsh rfl)), g.wait, ?_⟩
            refine List.Perm.trans ?_ g.perm
            rw [List.flatten_append]
            refine (perm_ins _ _ _ _ _).trans ?_
            exact hperm.append_left _
          exact ⟨_, _, _, _, pgood_aggregate0 (o := ⟨{ o.a with sep := s' }, o.received ++ out, o.accepted⟩) g2 ha⟩
  | pop =>
    simp only [exec, pop] at h
    cases hl : o.a.agList with
    | nil => rw [hl] at h; cases h; exact ⟨gR, gA, gS, cur, by simpa using g⟩
    | cons d l =>
      rw [hl] at h
      cases h
      obtain ⟨hout, hsep, hrec, hwait, hperm⟩ := g
      rw [hl] at hwait
      cases hwait with
      | @cons ga _ gA' _ h1 h2 =>
        refine ⟨gR ++ [ga], gA', gS, cur, hout, hsep, List.rel_append hrec (.cons (h1.imp hQ) .nil), h2, ?_⟩
        simpa using hperm
  | forcePop =>
    simp only [exec] at h
    cases hx : o.a.forcePop env with
    | error e => rw [hx] at h; cases h
    | ok p =>
      obtain ⟨x, a'⟩ := p
      rw [hx] at h
      cases h
      obtain ⟨hout, ⟨hstep, hred, hwin, hrecs⟩, hrec, hwait, hperm⟩ := g
      unfold forcePop Separator.forcePop Separator.pop at hx
      cases hl : o.a.sep.sepList with
      | cons r l =>
        rw [hl] at hx hrecs
        simp only [bind_ok'] at hx
        obtain ⟨d', ed, hdel⟩ := finish_spec env.nth o.a.outSize r
        rw [ed] at hx
        cases hx
        cases hrecs with
        | @cons gs _ gS' _ h1 h2 =>
          rw [hout] at hdel
          refine ⟨gR ++ [gs], gA, gS', cur, hout, ⟨hstep, hred, hwin, h2⟩, List.rel_append hrec (.cons ?_ .nil), hwait, ?_⟩
          · refine ⟨hQ _ _ ⟨_, h1.1, hdel⟩, ?_⟩
            rw [hdel.ts]
            exact h1.2
          · refine List.Perm.trans ?_ hperm
            simp only [List.flatten_append, List.flatten_cons, List.flatten_nil, List.append_nil, List.append_assoc]
            have : (gs ++ gA.flatten).Perm (gA.flatten ++ gs) := List.perm_append_comm
            have := (this.append_right (gS'.flatten ++ cur)).append_left gR.flatten
            simpa only [List.append_assoc] using this
      | nil =>
        rw [hl] at hx hrecs
        cases hrecs
        simp only at hx
        rcases Reducer.detach_spec hred with ⟨e, e', _⟩ | ⟨hne, r1, er, g1, _, _, _, _, ⟨a, _, e⟩ | ⟨_, e⟩⟩
        · rw [e'] at hx
          cases hx
          refine ⟨gR, gA, [], cur, hout, ⟨hstep, hred, hwin, ?_⟩, by simpa using hrec, hwait, hperm⟩
          show List.Forall₂ _ _ o.a.sep.sepList
          rw [hl]; exact .nil
        · have hsum := summary_of_detach hred e
          have hg' := Reducer.goodA_clear g1
          rw [e] at hx
          simp only [bind_ok', Option.map_some] at hx
          obtain ⟨d', ed, hdel⟩ := finish_spec env.nth o.a.outSize
            { Reducer.resultOf o.a.sep.reducer (r1.data.headD []) a with ts := o.a.sep.next - o.a.sep.step }
          simp only at ed
          rw [ed] at hx
          cases hx
          rw [hout] at hdel
          refine ⟨gR ++ [cur], gA, [], [], hout, ⟨hstep, hg', by simp, ?_⟩,
            List.rel_append hrec (.cons ⟨hQ _ _ ⟨_, summary_ts hsum, hdel⟩, ?_⟩ .nil), hwait, ?_⟩
          · show List.Forall₂ _ _ o.a.sep.sepList
            rw [hl]; exact .nil
          · intro e he
            have := hwin e he
            rw [hdel.ts, hst]
            simp only
            omega
          · refine List.Perm.trans ?_ hperm
            simp only [List.flatten_append, List.flatten_cons, List.flatten_nil, List.append_nil, List.append_assoc]
            exact List.perm_append_comm.append_left _
        · rw [e] at hx; cases hx
  | look =>
    simp only [exec] at h
    cases hx : o.a.aggregateCurrent env with
    | error e => rw [hx] at h; cases h
    | ok p => rw [hx] at h; cases h; exact ⟨gR, gA, gS, cur, g⟩
  | enable v => cases h; exact ⟨gR, gA, gS, cur, g.out, g.sep, g.rec_, g.wait, g.perm⟩

theorem pgood_execAll {env : Env} {opt : AggregatorOpts} {Q : List AddArg → AggData → Prop}
    (hQ : ∀ as d, Report env opt as d → Q as d) (hs : 0 < opt.step) (ops : List AOp) :
    ∀ {o o' : AObs} {gR gA gS : List (List (Int × AddArg))} {cur : List (Int × AddArg)},
      PGood env opt Q o gR gA gS cur → (∀ op ∈ ops, op.clockOk) →
      (∀ op ∈ ops, op.sepHandler = true → ∀ as d, Summary env opt.limit opt.levels as d → Q as d) →
      execAll env o ops = .ok o' → ∃ gR gA gS cur, PGood env opt Q o' gR gA gS cur := by
  induction ops with
  | nil => intro o o' gR gA gS cur g _ _ h; cases h; exact ⟨_, _, _, _, g⟩
  | cons op ops ih =>
    intro o o' gR gA gS cur g h1 h3 h
    unfold execAll at h
    rw [List.foldlM_cons] at h
    cases hx : exec env o op with
    | error e => rw [hx] at h; cases h
    | ok o1 =>
      rw [hx] at h
      obtain ⟨_, _, _, _, g1⟩ := pgood_exec hQ hs g op (h1 op (by simp)) (h3 op (by simp)) hx
      exact ih g1 (fun op' h' => h1 op' (by simp [h'])) (fun op' h' => h3 op' (by simp [h'])) h

theorem pgood_fresh {env : Env} {opt : AggregatorOpts} {Q : List AddArg → AggData → Prop} (hs : 0 < opt.step)
    {a : Aggregator} (h : Fresh env opt a) : PGood env opt Q { a := a } [] [] [] [] := by
  induction h generalizing Q with
  | @new clk rand ts a h =>
    unfold Aggregator.new at h
    cases hx : Separator.new opt.toSeparatorOpts clk rand ts with
    | error e => rw [hx] at h; cases h
    | ok s =>
      rw [hx] at h
      cases h
      have g := Separator.sgood_new (env := env) hx
      have hl := g.perm
      simp only [List.nil_append] at hl
      have hl := hl.symm.eq_nil
      refine ⟨rfl, ⟨g.step, ?_, by simp, ?_⟩, .nil, .nil, List.Perm.refl _⟩
      · have := g.red
        simpa [eventsIn] using this
      · show List.Forall₂ _ _ s.sepList
        rw [hl]; exact .nil
  | @clear a0 a ops o clk ts _ hc hx hcl ih =>
    obtain ⟨gR, gA, gS, cur, g⟩ := pgood_execAll (Q := fun _ _ => True) (fun _ _ _ => trivial) hs ops
      ih hc (fun _ _ _ _ _ _ => trivial) hx
    obtain ⟨hst, hres⟩ := g.sep.step
    unfold clear Separator.clear Separator.getTs at hcl
    rw [Separator.getTs_eq (by omega)] at hcl
    cases hcl
    exact ⟨g.out, ⟨⟨hst, hres⟩, Reducer.goodA_clear g.sep.red, by simp, .nil⟩, .nil, .nil, List.Perm.refl _⟩

end Aggregator
end Wrtstat
