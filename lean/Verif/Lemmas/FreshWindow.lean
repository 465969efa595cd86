/-
Every window is summarised as by a reducer that has seen nothing else, and the events are reported in the order in which they were
accepted.
-/
import Verif.Lemmas.Partition

namespace Wrtstat

set_option autoImplicit false

/-- Options under which the mode of a reducer never changes: `adapt` is not asked for or decided once and for all, there are never two
levels to merge, or merging any number of levels leads to the mode it starts with. -/
def Steady (opt : ReducerOpts) : Prop :=
  opt.mode ≠ .adapt ∨ opt.levels ≤ 1 ∨ opt.limit / opt.levels > 16 ∨ opt.initialMode = .adapt ∧ opt.limit / 2 ≤ 16

/-- A reducer that has seen nothing, with current mode `m`. -/
def unused (opt : ReducerOpts) (m : Mode) : Reducer := { Reducer.new opt with curMode := m }

/-- `d` is, but for its timestamp, what an unused reducer with current mode `m` returns for the calls `as`. -/
def OfUnused (env : Env) (opt : ReducerOpts) (m : Mode) (as : List AddArg) (d : AggData) : Prop :=
  ∃ (d0 : AggData) (r' : Reducer), Reducer.detach env (as.foldl (Reducer.add env) (unused opt m)) = .ok (some d0, r') ∧
    d = { d0 with ts := d.ts }

/-- The same with the mode left open, unless it cannot change. -/
def OfWindow (env : Env) (opt : ReducerOpts) (as : List AddArg) (d : AggData) : Prop :=
  ∃ m, (Steady opt → m = (Reducer.new opt).curMode) ∧ OfUnused env opt m as d

/-- What an aggregator delivers for it. -/
def OfRecord (env : Env) (opt : AggregatorOpts) (as : List AddArg) (d : AggData) : Prop :=
  ∃ raw, OfWindow env opt.toReducerOpts as raw ∧ Aggregator.finish env.nth opt.outSize raw = .ok d

namespace Aggregator
open Reducer (GoodA)

/-- The reducer is one that has seen `as` and nothing else. -/
def Seen (env : Env) (opt : ReducerOpts) (r : Reducer) (as : List AddArg) : Prop :=
  ∃ m, (Steady opt → m = (Reducer.new opt).curMode) ∧ r = as.foldl (Reducer.add env) (unused opt m)

theorem adds_frame (env : Env) (as : List AddArg) (r : Reducer) :
    (as.foldl (Reducer.add env) r).opt = r.opt ∧ (as.foldl (Reducer.add env) r).curMode = r.curMode := by
  induction as generalizing r with
  | nil => exact ⟨rfl, rfl⟩
  | cons a as ih =>
    obtain ⟨h2, h3⟩ := ih (Reducer.add env r a)
    obtain ⟨h4, h5⟩ := Reducer.add_opt env r a
    exact ⟨h2.trans h4, h3.trans h5⟩

/-- The mode after `reduce`. -/
theorem reduce_mode {env : Env} {r r' : Reducer} (h : Reducer.reduce env r = .ok r') :
    r'.curMode = r.curMode ∨ 2 ≤ r.data.length ∧
      r'.curMode = if r.opt.mode = .adapt then (if r.opt.limit / r.data.length > Reducer.magic then Mode.sorting else Mode.nth)
        else r.curMode := by
  unfold Reducer.reduce at h
  by_cases h0 : r.data = []
  · rw [if_pos h0] at h; cases h; exact .inl rfl
  rw [if_neg h0] at h
  simp only at h
  set r1 : Reducer := if r.curMode = .sorting then { r with data := onBack sortInts r.data } else r with hr1
  have e1 : r1.opt = r.opt := by rw [hr1]; split_ifs <;> rfl
  have e2 : r1.curMode = r.curMode := by rw [hr1]; split_ifs <;> rfl
  have e3 : r1.data.length = r.data.length := by
    rw [hr1]
    split_ifs
    · obtain ⟨ini, last, e⟩ : ∃ ini last, r.data = ini ++ [last] := ⟨_, _, (List.dropLast_append_getLast h0).symm⟩
      simp [e]
    · rfl
  have h4 : 0 < r.data.length := List.length_pos_iff.2 h0
  by_cases h1 : r1.data.length = 1
  · rw [if_pos h1] at h; injection h with h; exact .inl (by rw [← h, e2])
  rw [if_neg h1] at h
  cases hx : Reducer.reduceLoop env.nth r1.curMode r1.data.length r1.opt.limit 0 r1.data.length r1.data with
  | error e => rw [hx] at h; cases h
  | ok d => ?_
  rw [hx] at h
  injection h with h
  rw [← h]
  right
  refine ⟨by omega, ?_⟩
  simp only [e1, e2, e3]

theorem shape_levels {limit levels : Nat} {data : List (List Int)} (h : Reducer.Shape limit levels data) :
    data.length ≤ levels := by
  rcases h with h | ⟨ini, last, h, _, _, _, h1⟩
  · simp [h]
  · simp [h]; omega

theorem unused_eq {env : Env} {opt : ReducerOpts} {r : Reducer} {as : List AddArg} (g : GoodA env opt r as) :
    r.clear = unused opt r.curMode := by
  have h := Reducer.new_fresh opt
  unfold Reducer.Fresh at h
  have ho := g.opt_eq
  show r.clear = { Reducer.new opt with curMode := r.curMode }
  rw [h]
  unfold Reducer.clear
  rw [ho]

theorem seen_mode {env : Env} {opt : ReducerOpts} {r : Reducer} {as : List AddArg} (h : Seen env opt r as) (hs : Steady opt) :
    r.curMode = (Reducer.new opt).curMode := by
  obtain ⟨m, hm, rfl⟩ := h
  rw [(adds_frame env as _).2]
  exact hm hs

theorem seen_clear {env : Env} {opt : ReducerOpts} {r : Reducer} {as : List AddArg} (g : GoodA env opt r as)
    (h : Seen env opt r as) : Seen env opt r.clear [] :=
  ⟨r.curMode, seen_mode h, unused_eq g⟩

/-- With steady options `reduce` leaves the mode alone. -/
theorem reduce_steady {env : Env} {opt : ReducerOpts} {r r1 : Reducer} {as : List AddArg} (g : GoodA env opt r as)
    (h : Seen env opt r as) (hs : Steady opt) (hr : Reducer.reduce env r = .ok r1) : r1.curMode = (Reducer.new opt).curMode := by
  have hm := seen_mode h hs
  by_cases ha : r.opt.mode = .adapt
  · rcases reduce_mode hr with e | ⟨h2, e⟩
    · rw [e, hm]
    have hl := shape_levels g.good.wf
    rw [e]
    obtain ⟨lim, lev⟩ := new_limits opt
    rw [g.opt_eq] at ha hl ⊢
    rw [lim]
    rw [lev] at hl
    rw [if_pos ha]
    unfold Reducer.new Reducer.magic at ha ⊢
    rcases hs with h | h | h | ⟨h3, h4⟩
    · split_ifs at ha <;> simp_all
    · omega
    · split_ifs at ha <;> simp_all
    · have hle : opt.limit / r.data.length ≤ 16 := le_trans (Nat.div_le_div_left h2 (by omega)) h4
      rw [if_neg (by omega)]
      split_ifs at ha ⊢ <;> simp_all
  · rw [Reducer.reduce_cur hr ha, hm]

theorem seen_detach {env : Env} {opt : ReducerOpts} {r r' : Reducer} {as : List AddArg} {d : AggData} (g : GoodA env opt r as)
    (h : Seen env opt r as) (hd : Reducer.detach env r = .ok (some d, r')) (t : Int) :
    OfWindow env opt as { d with ts := t } ∧ Seen env opt r' [] := by
  obtain ⟨_, r1, er, g1, _, _, _, _, e', _⟩ := Reducer.detach_some g hd
  have hst := fun hs => reduce_steady g h hs er
  obtain ⟨m, hm, e⟩ := h
  refine ⟨⟨m, hm, d, r', by rw [← e]; exact hd, rfl⟩, ?_⟩
  rw [e']
  exact ⟨r1.curMode, hst, unused_eq g1⟩

/-- Invariant of the separator. -/
structure OPart (env : Env) (opt : SeparatorOpts) (s : Separator) (gS : List (List (Int × AddArg)))
    (cur : List (Int × AddArg)) : Prop where
  base : SPart env opt s gS cur
  seen : Seen env opt.toReducerOpts s.reducer (cur.map Prod.snd)
  ofs : List.Forall₂ (Group opt.step (OfWindow env opt.toReducerOpts)) gS s.sepList

theorem opart_effect {env : Env} {opt : SeparatorOpts} {s s' : Separator} {gS : List (List (Int × AddArg))}
    {cur : List (Int × AddArg)} {as' : List AddArg} {T : Int} {handler : Bool} {pub out : List AggData}
    (g : OPart env opt s gS cur)
    (eff : Separator.SepEffect env opt.toReducerOpts s s' (cur.map Prod.snd) as' T handler pub out) :
    ∃ gP cur', gP.flatten ++ cur' = cur ∧
      List.Forall₂ (Group opt.step (OfWindow env opt.toReducerOpts)) gP pub ∧
      OPart env opt s' (if handler then gS else gS ++ gP) cur' := by
  obtain ⟨⟨hst, hres⟩, hred, hwin, hrecs⟩ := g.base
  obtain ⟨⟨f1, f2⟩, ⟨l1, l2⟩, hg, hc, htook⟩ := eff
  have key : ∀ (gP : List (List (Int × AddArg))) (cur' : List (Int × AddArg)),
      List.Forall₂ (Group opt.step (Summary env opt.limit opt.levels)) gP pub → as' = cur'.map Prod.snd →
      (∀ e ∈ cur', s'.next - opt.step ≤ e.1 ∧ e.1 < s'.next) → Seen env opt.toReducerOpts s'.reducer as' →
      List.Forall₂ (Group opt.step (OfWindow env opt.toReducerOpts)) gP pub →
      OPart env opt s' (if handler then gS else gS ++ gP) cur' := by
    intro gP cur' h1 h2 h3 h4 h5
    refine ⟨⟨⟨f1.trans hst, f2.trans hres⟩, by rw [← h2]; exact hg, h3, ?_⟩, by rw [← h2]; exact h4, ?_⟩
    all_goals
      rw [l2]
      cases handler
    · exact List.rel_append hrecs h1
    · exact hrecs
    · exact List.rel_append g.ofs h5
    · exact g.ofs
  rcases hc with ⟨h1, h2, h3, h4⟩ | ⟨h1, h2, h3, ⟨k, h4, h5⟩, h6, h7⟩
  · subst h3
    refine ⟨[], cur, by simp, by rw [h2]; exact .nil, key [] cur (by rw [h2]; exact .nil) h4 hwin ?_ (by rw [h2]; exact .nil)⟩
    rw [h4]
    exact g.seen
  · rcases h7 with ⟨h7, h8⟩ | ⟨h7, d, h8, h9, h10⟩
    · have hcur : cur = [] := List.map_eq_nil_iff.1 h7
      subst hcur
      refine ⟨[], [], by simp, by rw [h8]; exact .nil, key [] [] (by rw [h8]; exact .nil) h6 (by simp) ?_ (by rw [h8]; exact .nil)⟩
      rcases htook with ⟨_, e⟩ | ⟨_, e, _⟩
      · rw [e, h6]; exact g.seen
      · rw [h8] at e; cases e
    · rcases htook with ⟨e, _⟩ | ⟨d0, e, hd⟩
      · rw [h8] at e; cases e
      rw [h8] at e
      cases e
      obtain ⟨hw, hs'⟩ := seen_detach hred g.seen hd (s.next - s.step)
      have ht : ∀ e ∈ cur, (s.next - s.step) ≤ e.1 ∧ e.1 < (s.next - s.step) + opt.step := by
        intro e he
        have := hwin e he
        rw [hst]
        omega
      have hG : List.Forall₂ (Group opt.step (OfWindow env opt.toReducerOpts)) [cur] pub := by
        rw [h8]
        exact .cons ⟨hw, ht⟩ .nil
      refine ⟨[cur], [], by simp, hG, key [cur] [] ?_ h6 (by simp) (by rw [h6]; exact hs') hG⟩
      rw [h8]
      exact .cons ⟨h10, ht⟩ .nil

theorem opart_push {env : Env} {opt : SeparatorOpts} {s s' : Separator} {gS : List (List (Int × AddArg))}
    {cur : List (Int × AddArg)} {clk1 clk2 ts : Int} {x : AddArg} {handler b : Bool} {out : List AggData}
    (hs : 0 < opt.step) (hc : 0 ≤ clk1 ∧ 0 ≤ clk2) (g : OPart env opt s gS cur)
    (h : s.push env clk1 clk2 ts x handler = .ok (b, out, s')) :
    ∃ gP cur' pub, out = (if handler then pub else []) ∧
      gP.flatten ++ cur' = cur ++ (if b then [(align opt.step (meant opt.resolution clk1 ts), x)] else []) ∧
      List.Forall₂ (Group opt.step (OfWindow env opt.toReducerOpts)) gP pub ∧
      OPart env opt s' (if handler then gS else gS ++ gP) cur' := by
  obtain ⟨hst, hres⟩ := g.base.step
  obtain ⟨s1, pub, as', eff, hb, hs'⟩ := Separator.push_effect (by rw [hst]; exact hs) g.base.red h
  rw [hst, hres] at eff hb
  obtain ⟨gP, cur', hp, hg, g1⟩ := opart_effect g eff
  cases b with
  | false =>
    simp only [Bool.false_eq_true, if_false] at hs'
    subst hs'
    exact ⟨gP, cur', pub, eff.lists.1, by simpa using hp, hg, g1⟩
  | true =>
    simp only [if_true] at hs'
    subst hs'
    have hs1 : s1.step = opt.step := g1.base.step.1
    set T := align opt.step (meant opt.resolution clk1 ts) with hT
    have hlo : s1.next - opt.step ≤ T := by
      have := hb.1 rfl
      rw [hs1] at this
      exact this
    have hT2 : align opt.step (meant opt.resolution clk2 T) < s1.next := by
      rcases eff.cases with ⟨c1, _, c3, _⟩ | ⟨_, c2, _⟩
      · rw [c3]; exact c1
      · exact c2
    have hhi : T < s1.next := by
      by_cases h0 : T = 0 ∧ opt.resolution ≠ .none
      · rw [meant, if_pos h0] at hT2
        have : 0 ≤ align opt.step clk2 := by
          unfold align
          exact Int.mul_nonneg (Int.tdiv_nonneg hc.2 hs.le) hs.le
        omega
      · rw [meant, if_neg h0] at hT2
        rwa [hT, Separator.align_idem (by omega), ← hT] at hT2
    refine ⟨gP, cur' ++ [(T, x)], pub, eff.lists.1, ?_, hg, ?_⟩
    · rw [← List.append_assoc, hp]
      rfl
    · refine ⟨⟨g1.base.step, ?_, ?_, g1.base.recs⟩, ?_, g1.ofs⟩
      · rw [List.map_append]
        exact Reducer.goodA_add g1.base.red x
      · intro e he
        rcases List.mem_append.1 he with he | he
        · exact g1.base.win e he
        · simp only [List.mem_singleton] at he
          subst he
          exact ⟨hlo, hhi⟩
      · obtain ⟨m, hm, e⟩ := g1.seen
        refine ⟨m, hm, ?_⟩
        rw [List.map_append, List.foldl_append, ← e]
        rfl

/-- Invariant of a run: the events accepted are, in order, those of the windows closed and those of the current one. -/
structure OGood (env : Env) (opt : AggregatorOpts) (raw : Bool) (o : AObs)
    (gR gA gS segs : List (List (Int × AddArg))) (cur : List (Int × AddArg)) : Prop where
  out : o.a.outSize = opt.outSize
  sep : OPart env opt.toSeparatorOpts o.a.sep gS cur
  rec_ : List.Forall₂ (Group opt.step fun as d => OfRecord env opt as d ∨ raw = true ∧ OfWindow env opt.toReducerOpts as d)
    gR o.received
  wait : List.Forall₂ (Group opt.step (OfRecord env opt)) gA o.a.agList
  whole : (gR ++ gA ++ gS).Perm segs
  order : o.accepted = segs.flatten ++ cur

theorem mapM_record {env : Env} {opt : AggregatorOpts} {gs : List (List (Int × AddArg))} {l l' : List AggData}
    (h : List.Forall₂ (Group opt.step (OfWindow env opt.toReducerOpts)) gs l)
    (h' : l.mapM (finish env.nth opt.outSize) = .ok l') :
    List.Forall₂ (Group opt.step (OfRecord env opt)) gs l' := by
  induction h generalizing l' with
  | nil => cases h'; exact .nil
  | @cons g d gs l h _ ih =>
    rw [List.mapM_cons] at h'
    obtain ⟨d', e', hdel⟩ := finish_spec env.nth opt.outSize d
    rw [e', bind_ok'] at h'
    cases hl : l.mapM (finish env.nth opt.outSize) with
    | error e => rw [hl] at h'; cases h'
    | ok l1 =>
      rw [hl] at h'
      cases h'
      refine .cons ⟨⟨_, h.1, e'⟩, ?_⟩ (ih hl)
      rw [hdel.ts]
      exact h.2

theorem ogood_aggregate0 {env : Env} {opt : AggregatorOpts} {raw : Bool} {o : AObs}
    {gR gA gS segs : List (List (Int × AddArg))} {cur : List (Int × AddArg)} {a' : Aggregator}
    (g : OGood env opt raw o gR gA gS segs cur) (h : aggregate0_ env.nth o.a = .ok a') :
    OGood env opt raw { o with a := a' } gR (gA ++ gS) [] segs cur := by
  obtain ⟨hout, ⟨hsep, hseen, hofs⟩, hrec, hwait, hsegs, hord⟩ := g
  unfold aggregate0_ at h
  cases hl : o.a.sep.sepList.mapM (finish env.nth o.a.outSize) with
  | error e => rw [hl] at h; cases h
  | ok l =>
    rw [hl] at h
    cases h
    rw [hout] at hl
    exact ⟨hout, ⟨⟨hsep.step, hsep.red, hsep.win, .nil⟩, hseen, .nil⟩, hrec,
      List.rel_append hwait (mapM_record hofs hl), by simpa using hsegs, hord⟩

theorem ogood_add {env : Env} {opt : AggregatorOpts} {raw : Bool} {o : AObs}
    {gR gA gS segs : List (List (Int × AddArg))} {cur : List (Int × AddArg)} (hs : 0 < opt.step)
    (g : OGood env opt raw o gR gA gS segs cur) {clk1 clk2 ts : Int} {x : AddArg} (hc : 0 ≤ clk1 ∧ 0 ≤ clk2) {b : Bool}
    {a' : Aggregator} (h : o.a.add env clk1 clk2 ts x = .ok (b, a')) :
    ∃ gA gS segs cur, OGood env opt raw ⟨a', o.received, o.record b clk1 ts x⟩ gR gA gS segs cur := by
  by_cases he : o.a.enabled = true
  · unfold add Separator.add at h
    rw [if_neg (by simp [he])] at h
    cases hp : o.a.sep.push env clk1 clk2 ts x false with
    | error e => rw [hp] at h; cases h
    | ok p =>
      obtain ⟨ok, out, s'⟩ := p
      obtain ⟨hst, hres⟩ := g.sep.base.step
      obtain ⟨gP, cur', pub, _, hperm, _, g1⟩ := opart_push hs hc g.sep hp
      rw [hp] at h
      simp only [bind_ok'] at h
      have g2 : OGood env opt raw ⟨{ o.a with sep := s' }, o.received, o.record ok clk1 ts x⟩ gR gA
          (gS ++ gP) (segs ++ gP) cur' := by
        refine ⟨g.out, g1, g.rec_, g.wait, by rw [← List.append_assoc]; exact g.whole.append_right _, ?_⟩
        have : o.record ok clk1 ts x =
            o.accepted ++ if ok then [(align opt.step (meant opt.resolution clk1 ts), x)] else [] := by
          unfold AObs.record
          rw [hst, hres]
          cases ok <;> simp [he]
        show o.record ok clk1 ts x = _
        rw [this, g.order, List.flatten_append, List.append_assoc, List.append_assoc, hperm]
      cases ok with
      | false => cases h; exact ⟨_, _, _, _, g2⟩
      | true =>
        simp only [Bool.true_eq_false, if_false] at h
        cases ha : aggregate0_ env.nth { o.a with sep := s' } with
        | error e => rw [ha] at h; cases h
        | ok a1 =>
          rw [ha] at h
          cases h
          exact ⟨_, _, _, _, ogood_aggregate0 g2 ha⟩
  · unfold add at h
    rw [if_pos (by simpa using he)] at h
    cases h
    refine ⟨gA, gS, segs, cur, ?_⟩
    simp only [AObs.record, he]
    exact g

theorem perm_ins' {α : Type} (a b c e : List α) : (a ++ e ++ b ++ c).Perm (a ++ b ++ c ++ e) := by
  have h1 : (e ++ (b ++ c)).Perm ((b ++ c) ++ e) := List.perm_append_comm
  have := h1.append_left a
  simpa only [List.append_assoc] using this

/-- Every operation keeps the invariant. -/
theorem ogood_exec {env : Env} {opt : AggregatorOpts} {raw : Bool} {o o' : AObs} {gR gA gS segs : List (List (Int × AddArg))}
    {cur : List (Int × AddArg)} (hs : 0 < opt.step) (g : OGood env opt raw o gR gA gS segs cur) (op : AOp)
    (hc : op.clockOk) (hsh : op.sepHandler = true → raw = true)
    (h : exec env o op = .ok o') : ∃ gR gA gS segs cur, OGood env opt raw o' gR gA gS segs cur := by
  obtain ⟨hst, hres⟩ := g.sep.base.step
  cases op with
  | add clk1 clk2 ts x =>
    simp only [exec] at h
    cases ha : o.a.add env clk1 clk2 ts x with
    | error e => rw [ha] at h; cases h
    | ok p =>
      obtain ⟨b, a'⟩ := p
      rw [ha] at h
      cases h
      exact ⟨gR, ogood_add hs g hc ha⟩
  | push clk1 clk2 ts x handler =>
    simp only [exec] at h
    cases ha : o.a.push env clk1 clk2 ts x handler with
    | error e => rw [ha] at h; cases h
    | ok p =>
      obtain ⟨b, out, a'⟩ := p
      rw [ha] at h
      simp only [bind_ok'] at h
      cases h
      unfold push at ha
      by_cases he : o.a.enabled = true
      · rw [if_neg (by simp [he])] at ha
        cases handler with
        | false =>
          simp only [if_true] at ha
          cases hb : o.a.add env clk1 clk2 ts x with
          | error e => rw [hb] at ha; cases ha
          | ok p =>
            rw [hb] at ha
            cases ha
            rw [List.append_nil]
            exact ⟨gR, ogood_add hs g hc hb⟩
        | true =>
          simp only [Bool.true_eq_false, if_false] at ha
          cases hp : o.a.sep.push env clk1 clk2 ts x true with
          | error e => rw [hp] at ha; cases ha
          | ok p =>
            obtain ⟨ok, out1, s'⟩ := p
            rw [hp] at ha
            simp only [bind_ok'] at ha
            cases hl : out1.mapM (finish env.nth o.a.outSize) with
            | error e => rw [hl] at ha; cases ha
            | ok l =>
              rw [hl] at ha
              cases ha
              obtain ⟨gP, cur', pub, ho, hperm, hG, g1⟩ := opart_push hs hc g.sep hp
              simp only [if_true] at ho g1
              subst ho
              rw [g.out] at hl
              refine ⟨gR ++ gP, gA, gS, segs ++ gP, cur', g.out, g1,
                List.rel_append g.rec_ ((mapM_record hG hl).imp fun _ _ h => h.imp fun _ _ h => .inl h), g.wait,
                (perm_ins' _ _ _ _).trans (g.whole.append_right _), ?_⟩
              have : o.record b clk1 ts x =
                  o.accepted ++ if b then [(align opt.step (meant opt.resolution clk1 ts), x)] else [] := by
                unfold AObs.record
                rw [hst, hres]
                cases b <;> simp [he]
              show o.record b clk1 ts x = _
              rw [this, g.order, List.flatten_append, List.append_assoc, List.append_assoc, hperm]
      · rw [if_pos (by simpa using he)] at ha
        cases ha
        refine ⟨gR, gA, gS, segs, cur, ?_⟩
        simp only [AObs.record, he, List.append_nil]
        exact g
  | separate clk ts handler force =>
    simp only [exec] at h
    unfold separate at h
    cases hp : o.a.sep.separate env clk ts handler force with
    | error e => rw [hp] at h; cases h
    | ok p =>
      obtain ⟨res, out, s'⟩ := p
      rw [hp] at h
      simp only [bind_ok'] at h
      cases ha : aggregate0_ env.nth { o.a with sep := s' } with
      | error e => rw [ha] at h; cases h
      | ok a1 =>
        rw [ha] at h
        cases h
        obtain ⟨pub, as', eff, _⟩ := Separator.separate_effect (by rw [hst]; exact hs) g.sep.base.red hp
        obtain ⟨gP, cur', hperm, hG, g1⟩ := opart_effect g.sep eff
        have hord : o.accepted = (segs ++ gP).flatten ++ cur' := by
          rw [g.order, List.flatten_append, List.append_assoc, hperm]
        cases handler with
        | false =>
          have ho : out = [] := eff.lists.1
          subst ho
          have g2 : OGood env opt raw ⟨{ o.a with sep := s' }, o.received, o.accepted⟩ gR gA (gS ++ gP) (segs ++ gP) cur' :=
            ⟨g.out, g1, g.rec_, g.wait, by rw [← List.append_assoc]; exact g.whole.append_right _, hord⟩
          rw [List.append_nil]
          exact ⟨gR, _, _, _, _, ogood_aggregate0 (o := ⟨{ o.a with sep := s' }, o.received, o.accepted⟩) g2 ha⟩
        | true =>
          have ho : out = pub := eff.lists.1
          subst ho
          have g2 : OGood env opt raw ⟨{ o.a with sep := s' }, o.received ++ out, o.accepted⟩ (gR ++ gP) gA gS (segs ++ gP) cur' :=
            ⟨g.out, g1, List.rel_append g.rec_ (hG.imp fun _ _ h => h.imp fun _ _ h => .inr ⟨hsh rfl, h⟩), g.wait,
              (perm_ins' _ _ _ _).trans (g.whole.append_right _), hord⟩
          exact ⟨_, _, _, _, _, ogood_aggregate0 (o := ⟨{ o.a with sep := s' }, o.received ++ out, o.accepted⟩) g2 ha⟩
  | pop =>
    simp only [exec, pop] at h
    cases hl : o.a.agList with
    | nil => rw [hl] at h; cases h; exact ⟨gR, gA, gS, segs, cur, by simpa using g⟩
    | cons d l =>
      rw [hl] at h
      cases h
      obtain ⟨hout, hsep, hrec, hwait, hsegs, hord⟩ := g
      rw [hl] at hwait
      cases hwait with
      | @cons ga _ gA' _ h1 h2 =>
        refine ⟨gR ++ [ga], gA', gS, segs, cur, hout, hsep,
          List.rel_append hrec (.cons (h1.imp fun _ _ h => .inl h) .nil), h2, ?_, hord⟩
        simpa using hsegs
  | forcePop =>
    simp only [exec] at h
    cases hx : o.a.forcePop env with
    | error e => rw [hx] at h; cases h
    | ok p =>
      obtain ⟨x, a'⟩ := p
      rw [hx] at h
      cases h
      obtain ⟨hout, ⟨⟨hstep, hred, hwin, hrecs⟩, hseen, hofs⟩, hrec, hwait, hsegs, hord⟩ := g
      unfold forcePop Separator.forcePop Separator.pop at hx
      cases hl : o.a.sep.sepList with
      | cons r l =>
        rw [hl] at hx hrecs hofs
        simp only [bind_ok'] at hx
        obtain ⟨d', ed, hdel⟩ := finish_spec env.nth o.a.outSize r
        rw [ed] at hx
        cases hx
        cases hofs with
        | @cons gs _ gS' _ h1 h2 =>
          cases hrecs with
          | cons h3 h4 =>
            rw [hout] at ed
            refine ⟨gR ++ [gs], gA, gS', segs, cur, hout, ⟨⟨hstep, hred, hwin, h4⟩, hseen, h2⟩,
              List.rel_append hrec (.cons ?_ .nil), hwait, ?_, hord⟩
            · refine ⟨.inl ⟨_, h1.1, ed⟩, ?_⟩
              rw [hdel.ts]
              exact h1.2
            · refine List.Perm.trans ?_ hsegs
              have : ([gs] ++ gA).Perm (gA ++ [gs]) := List.perm_append_comm
              have := (this.append_right gS').append_left gR
              simpa only [List.append_assoc, List.singleton_append] using this
      | nil =>
        rw [hl] at hx hrecs hofs
        cases hrecs
        simp only at hx
        rcases Reducer.detach_spec hred with ⟨e, e', _⟩ | ⟨hne, r1, er, g1, _, _, _, _, ⟨a, _, e⟩ | ⟨_, e⟩⟩
        · rw [e'] at hx
          cases hx
          refine ⟨gR, gA, [], segs, cur, hout, ⟨⟨hstep, hred, hwin, ?_⟩, hseen, ?_⟩, by simpa using hrec, hwait, hsegs, hord⟩
          all_goals
            show List.Forall₂ _ _ o.a.sep.sepList
            rw [hl]; exact .nil
        · obtain ⟨hw, hs'⟩ := seen_detach hred hseen e (o.a.sep.next - o.a.sep.step)
          have hg' := Reducer.goodA_clear g1
          rw [e] at hx
          simp only [bind_ok', Option.map_some] at hx
          obtain ⟨d', ed, hdel⟩ := finish_spec env.nth o.a.outSize
            { Reducer.resultOf o.a.sep.reducer (r1.data.headD []) a with ts := o.a.sep.next - o.a.sep.step }
          have ed' := ed
          simp only at ed
          rw [ed] at hx
          cases hx
          rw [hout] at ed'
          refine ⟨gR ++ [cur], gA, [], segs ++ [cur], [], hout, ⟨⟨hstep, hg', by simp, ?_⟩, hs', ?_⟩,
            List.rel_append hrec (.cons ⟨.inl ⟨_, hw, ed'⟩, ?_⟩ .nil), hwait, ?_, ?_⟩
          · show List.Forall₂ _ _ o.a.sep.sepList
            rw [hl]; exact .nil
          · show List.Forall₂ _ _ o.a.sep.sepList
            rw [hl]; exact .nil
          · intro e he
            have := hwin e he
            rw [hdel.ts, hst]
            simp only
            omega
          · exact (perm_ins' _ _ _ _).trans (hsegs.append_right _)
          · show o.accepted = _
            rw [hord]
            simp
        · rw [e] at hx; cases hx
  | look =>
    simp only [exec] at h
    cases hx : o.a.aggregateCurrent env with
    | error e => rw [hx] at h; cases h
    | ok p => rw [hx] at h; cases h; exact ⟨gR, gA, gS, segs, cur, g⟩
  | enable v => cases h; exact ⟨gR, gA, gS, segs, cur, g.out, g.sep, g.rec_, g.wait, g.whole, g.order⟩

theorem ogood_execAll {env : Env} {opt : AggregatorOpts} {raw : Bool} (hs : 0 < opt.step) (ops : List AOp) :
    ∀ {o o' : AObs} {gR gA gS segs : List (List (Int × AddArg))} {cur : List (Int × AddArg)},
      OGood env opt raw o gR gA gS segs cur → (∀ op ∈ ops, op.clockOk) → (∀ op ∈ ops, op.sepHandler = true → raw = true) →
      execAll env o ops = .ok o' → ∃ gR gA gS segs cur, OGood env opt raw o' gR gA gS segs cur := by
  induction ops with
  | nil => intro o o' gR gA gS segs cur g _ _ h; cases h; exact ⟨_, _, _, _, _, g⟩
  | cons op ops ih =>
    intro o o' gR gA gS segs cur g h1 h3 h
    unfold execAll at h
    rw [List.foldlM_cons] at h
    cases hx : exec env o op with
    | error e => rw [hx] at h; cases h
    | ok o1 =>
      rw [hx] at h
      obtain ⟨_, _, _, _, _, g1⟩ := ogood_exec hs g op (h1 op (by simp)) (h3 op (by simp)) hx
      exact ih g1 (fun op' h' => h1 op' (by simp [h'])) (fun op' h' => h3 op' (by simp [h'])) h

theorem seen_new (env : Env) (opt : ReducerOpts) : Seen env opt (Reducer.new opt) [] := ⟨_, fun _ => rfl, rfl⟩

theorem ogood_fresh {env : Env} {opt : AggregatorOpts} {raw : Bool} (hs : 0 < opt.step)
    {a : Aggregator} (h : Fresh env opt a) : OGood env opt raw { a := a } [] [] [] [] [] := by
  have p := pgood_fresh (Q := fun _ _ => True) hs h
  have hw : a.agList = [] := by
    have : List.Forall₂ _ [] a.agList := p.wait
    exact List.forall₂_nil_left_iff.1 this
  have hl : a.sep.sepList = [] := by
    have : List.Forall₂ _ [] a.sep.sepList := p.sep.recs
    exact List.forall₂_nil_left_iff.1 this
  suffices hseen : Seen env opt.toReducerOpts a.sep.reducer [] by
    refine ⟨p.out, ⟨p.sep, hseen, ?_⟩, .nil, ?_, by simp, rfl⟩
    · show List.Forall₂ _ _ a.sep.sepList
      rw [hl]; exact .nil
    · show List.Forall₂ _ _ a.agList
      rw [hw]; exact .nil
  clear p hw hl
  induction h with
  | @new clk rand ts a h =>
    unfold Aggregator.new at h
    cases hx : Separator.new opt.toSeparatorOpts clk rand ts with
    | error e => rw [hx] at h; cases h
    | ok s =>
      rw [hx] at h
      cases h
      unfold Separator.new at hx
      cases ht : Separator.getTsWith opt.step opt.resolution clk ts with
      | error e => rw [ht] at hx; cases hx
      | ok t =>
      rw [ht] at hx
      cases hx
      exact seen_new env opt.toReducerOpts
  | @clear a0 a ops o clk ts h0 hc hx hcl ih =>
    have p := pgood_fresh (Q := fun _ _ => True) hs h0
    have hw : a0.agList = [] := by
      have : List.Forall₂ _ [] a0.agList := p.wait
      exact List.forall₂_nil_left_iff.1 this
    have hl : a0.sep.sepList = [] := by
      have : List.Forall₂ _ [] a0.sep.sepList := p.sep.recs
      exact List.forall₂_nil_left_iff.1 this
    have g0 : OGood env opt true { a := a0 } [] [] [] [] [] := by
      refine ⟨p.out, ⟨p.sep, ih, ?_⟩, .nil, ?_, by simp, rfl⟩
      · show List.Forall₂ _ _ a0.sep.sepList
        rw [hl]; exact .nil
      · show List.Forall₂ _ _ a0.agList
        rw [hw]; exact .nil
    obtain ⟨gR, gA, gS, segs, cur, g⟩ := ogood_execAll hs ops g0 hc (fun _ _ _ => rfl) hx
    obtain ⟨hst, hres⟩ := g.sep.base.step
    unfold clear Separator.clear Separator.getTs at hcl
    rw [Separator.getTs_eq (by omega)] at hcl
    cases hcl
    exact seen_clear g.sep.base.red g.sep.seen

end Aggregator
end Wrtstat
