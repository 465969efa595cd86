import Verif.Lemmas.Partition

namespace Wrtstat

namespace Separator
open Reducer

/-- The invariant does not depend on the order of reception. -/
theorem sgood_received {env : Env} {opt : SeparatorOpts} {org : Int} {o : Obs} {log rec l : List AggData}
    (g : SGood env opt org o log) (h : (o.received ++ o.s.sepList).Perm (rec ++ l)) :
    SGood env opt org ⟨{ o.s with sepList := l }, rec, o.accepted⟩ log := by
  obtain ⟨h1, h2, h3, h4, hred, hbef, hrecs, hcov, hsort, hcnt, hperm⟩ := g
  exact ⟨h1, h2, h3, h4, hred, hbef, hrecs, hcov, hsort, hcnt, hperm.trans h⟩

end Separator

namespace Aggregator
open Separator (SGood SOp Obs sgood_received sgood_exec)

/-- Invariant of a run.  `Q` relates window records to the records received; with `ord` set the
records are received in the order of publication. -/
structure AGood (env : Env) (opt : AggregatorOpts) (org : Int) (Q : AggData → AggData → Prop) (ord : Bool)
    (o : AObs) (log : List AggData) : Prop where
  out : o.a.outSize = opt.outSize
  rel : ∃ rraw araw, SGood env opt.toSeparatorOpts org ⟨o.a.sep, rraw ++ araw, o.accepted⟩ log ∧
    List.Forall₂ Q rraw o.received ∧ List.Forall₂ (Delivered opt.outSize) araw o.a.agList ∧
    (ord = true → rraw ++ araw ++ o.a.sep.sepList = log)

theorem agood_aggregate0 {env : Env} {opt : AggregatorOpts} {org : Int} {Q : AggData → AggData → Prop} {ord : Bool}
    {o : AObs} {log : List AggData} {a' : Aggregator} (g : AGood env opt org Q ord o log)
    (h : aggregate0_ env.nth o.a = .ok a') : AGood env opt org Q ord { o with a := a' } log := by
  obtain ⟨hout, rraw, araw, gs, h1, h2, h3⟩ := g
  obtain ⟨l, e, hl⟩ := aggregate0_spec env.nth o.a
  rw [e] at h
  cases h
  rw [hout] at hl
  refine ⟨hout, rraw, araw ++ o.a.sep.sepList, ?_, h1, List.rel_append h2 hl, ?_⟩
  · exact sgood_received gs (by simp)
  · intro ho
    show rraw ++ (araw ++ o.a.sep.sepList) ++ [] = log
    simpa using h3 ho

/-- An operation of the separator without handler. -/
theorem agood_sep {env : Env} {opt : AggregatorOpts} {org : Int} {Q : AggData → AggData → Prop} {ord : Bool}
    {o : AObs} {log : List AggData} (hs : 0 < opt.step) (g : AGood env opt org Q ord o log) (op : SOp)
    (hc : op.clockOk) (hh : op.handed = false) {s' : Separator} {acc' : List (Int × AddArg)}
    (h : ∀ r, Separator.exec env ⟨o.a.sep, r, o.accepted⟩ op = .ok ⟨s', r, acc'⟩) :
    ∃ pub, AGood env opt org Q ord ⟨{ o.a with sep := s' }, o.received, acc'⟩ (log ++ pub) := by
  obtain ⟨hout, rraw, araw, gs, h1, h2, h3⟩ := g
  obtain ⟨pub, g', hf, _⟩ := sgood_exec hs gs op hc (h _)
  exact ⟨pub, hout, rraw, araw, g', h1, h2, fun ho => hf hh (h3 ho)⟩

/-- An operation of the separator with handler. -/
theorem agood_sepH {env : Env} {opt : AggregatorOpts} {org : Int} {Q : AggData → AggData → Prop}
    {o : AObs} {log : List AggData} (hs : 0 < opt.step) (g : AGood env opt org Q false o log) (op : SOp)
    (hc : op.clockOk) {s' : Separator} {acc' : List (Int × AddArg)} {out out' : List AggData}
    (h : ∀ r, Separator.exec env ⟨o.a.sep, r, o.accepted⟩ op = .ok ⟨s', r ++ out, acc'⟩)
    (hq : List.Forall₂ Q out out') :
    ∃ pub, AGood env opt org Q false ⟨{ o.a with sep := s' }, o.received ++ out', acc'⟩ (log ++ pub) := by
  obtain ⟨hout, rraw, araw, gs, h1, h2, h3⟩ := g
  obtain ⟨pub, g', hf, _⟩ := sgood_exec hs gs op hc (h _)
  refine ⟨pub, hout, rraw ++ out, araw, ?_, List.rel_append h1 hq, h2, by simp⟩
  refine sgood_received (rec := rraw ++ out ++ araw) (l := s'.sepList) g' ?_
  refine List.Perm.append_right _ ?_
  show (rraw ++ araw ++ out).Perm (rraw ++ out ++ araw)
  rw [List.append_assoc, List.append_assoc]
  exact (List.perm_append_comm).append_left _

theorem add_unfold (env : Env) (a : Aggregator) (clk1 clk2 ts : Int) (x : AddArg) (he : a.enabled = true) :
    a.add env clk1 clk2 ts x = (do
      let (ok, _, sep) ← a.sep.push env clk1 clk2 ts x false
      if ok = false then .ok (false, { a with sep := sep })
      else do
        let a ← aggregate0_ env.nth { a with sep := sep }
        .ok (true, a)) := by
  unfold add Separator.add
  rw [if_neg (by simp [he])]
  cases a.sep.push env clk1 clk2 ts x false with
  | error e => rfl
  | ok p => rfl

theorem sep_out_nil' {env : Env} {s s' : Separator} {clk ts : Int} {b force : Bool}
    {out : List AggData} (hx : s.separate env clk ts false force = .ok (b, out, s')) : out = [] := by
  unfold Separator.separate at hx
  cases hg : s.getTs clk ts with
  | error e => rw [hg] at hx; cases hx
  | ok T2 =>
    rw [hg] at hx
    simp only [bind_ok'] at hx
    by_cases hc : force = false ∧ T2 < s.next
    · rw [if_pos hc] at hx; cases hx; rfl
    · rw [if_neg hc] at hx
      cases hl : Separator.sepLoop env s.step T2 s.next s.reducer with
      | error e => rw [hl] at hx; cases hx
      | ok p => rw [hl] at hx; cases hx; rfl

theorem sep_out_nil {env : Env} {s s' : Separator} {clk1 clk2 ts : Int} {x : AddArg} {b : Bool}
    {out : List AggData} (h : s.push env clk1 clk2 ts x false = .ok (b, out, s')) : out = [] := by
  unfold Separator.push at h
  cases hg : s.getTs clk1 ts with
  | error e => rw [hg] at h; cases h
  | ok T =>
    rw [hg] at h
    simp only [bind_ok'] at h
    cases hx : s.separate env clk2 T false false with
    | error e => rw [hx] at h; cases h
    | ok p =>
      obtain ⟨b1, out1, s1⟩ := p
      rw [hx] at h
      have := sep_out_nil' hx
      subst this
      simp only [bind_ok'] at h
      split_ifs at h <;> cases h <;> rfl

theorem agood_add {env : Env} {opt : AggregatorOpts} {org : Int} {Q : AggData → AggData → Prop} {ord : Bool}
    {o : AObs} {log : List AggData} (hs : 0 < opt.step) (g : AGood env opt org Q ord o log)
    {clk1 clk2 ts : Int} {x : AddArg} (hc : 0 ≤ clk1 ∧ 0 ≤ clk2) {b : Bool} {a' : Aggregator}
    (h : o.a.add env clk1 clk2 ts x = .ok (b, a')) :
    ∃ pub, AGood env opt org Q ord ⟨a', o.received, o.record b clk1 ts x⟩ (log ++ pub) := by
  by_cases he : o.a.enabled = true
  · rw [add_unfold _ _ _ _ _ _ he] at h
    cases hp : o.a.sep.push env clk1 clk2 ts x false with
    | error e => rw [hp] at h; cases h
    | ok p =>
      obtain ⟨ok, out, s'⟩ := p
      have hnil := sep_out_nil hp
      subst hnil
      have hx : ∀ r, Separator.exec env ⟨o.a.sep, r, o.accepted⟩ (.push clk1 clk2 ts x false) =
          .ok ⟨s', r, o.record ok clk1 ts x⟩ := by
        intro r
        simp only [Separator.exec, hp, bind_ok', List.append_nil, AObs.record, he, and_true]
      obtain ⟨pub, g'⟩ := agood_sep hs g (.push clk1 clk2 ts x false) hc rfl hx
      rw [hp] at h
      simp only [bind_ok'] at h
      cases ok with
      | false => cases h; exact ⟨pub, g'⟩
      | true =>
        simp only [Bool.true_eq_false, if_false] at h
        cases ha : aggregate0_ env.nth { o.a with sep := s' } with
        | error e => rw [ha] at h; cases h
        | ok a1 =>
          rw [ha] at h
          cases h
          exact ⟨pub, agood_aggregate0 g' ha⟩
  · unfold add at h
    rw [if_pos (by simpa using he)] at h
    cases h
    refine ⟨[], ?_⟩
    simp only [AObs.record, he, List.append_nil]
    exact g

/-- Every operation keeps the invariant. -/
theorem agood_exec {env : Env} {opt : AggregatorOpts} {org : Int} {Q : AggData → AggData → Prop} {ord : Bool}
    (hQ : ∀ raw d, Delivered opt.outSize raw d → Q raw d)
    {o o' : AObs} {log : List AggData} (hs : 0 < opt.step) (g : AGood env opt org Q ord o log) (op : AOp)
    (hc : op.clockOk) (hf : op.forced = false) (hh : ord = true → op.handed = false)
    (hsh : op.sepHandler = true → ∀ d, Q d d) (h : exec env o op = .ok o') : ∃ pub, AGood env opt org Q ord o' (log ++ pub) := by
  cases op with
  | add clk1 clk2 ts x =>
    simp only [exec] at h
    cases ha : o.a.add env clk1 clk2 ts x with
    | error e => rw [ha] at h; cases h
    | ok p =>
      obtain ⟨b, a'⟩ := p
      rw [ha] at h
      cases h
      exact agood_add hs g hc ha
  | push clk1 clk2 ts x handler =>
    simp only [exec] at h
    cases ha : o.a.push env clk1 clk2 ts x handler with
    | error e => rw [ha] at h; cases h
    | ok p =>
      obtain ⟨b, out, a'⟩ := p
      rw [ha] at h
      simp only [bind_ok'] at h
      cases h
      unfold push at ha
      by_cases he : o.a.enabled = true
      · rw [if_neg (by simp [he])] at ha
        cases handler with
        | false =>
          simp only [if_true] at ha
          cases hb : o.a.add env clk1 clk2 ts x with
          | error e => rw [hb] at ha; cases ha
          | ok p =>
            rw [hb] at ha
            cases ha
            rw [List.append_nil]
            exact agood_add hs g hc hb
        | true =>
          have ho : ord = false := by
            cases ord with
            | false => rfl
            | true => exact absurd (hh rfl) (by simp [AOp.handed])
          subst ho
          simp only [Bool.true_eq_false, if_false] at ha
          cases hp : o.a.sep.push env clk1 clk2 ts x true with
          | error e => rw [hp] at ha; cases ha
          | ok p =>
            obtain ⟨ok, out1, s'⟩ := p
            rw [hp] at ha
            obtain ⟨l, el, hl⟩ := mapM_finish env.nth o.a.outSize out1
            simp only [bind_ok', el] at ha
            cases ha
            have hx : ∀ r, Separator.exec env ⟨o.a.sep, r, o.accepted⟩ (.push clk1 clk2 ts x true) =
                .ok ⟨s', r ++ out1, o.record b clk1 ts x⟩ := by
              intro r
              simp only [Separator.exec, hp, bind_ok', AObs.record, he, and_true]
            rw [g.out] at hl
            exact agood_sepH hs g (.push clk1 clk2 ts x true) hc hx (hl.imp hQ)
      · rw [if_pos (by simpa using he)] at ha
        cases ha
        refine ⟨[], ?_⟩
        simp only [AObs.record, he, List.append_nil]
        exact g
  | separate clk ts handler force =>
    simp only [exec] at h
    unfold separate at h
    cases hp : o.a.sep.separate env clk ts handler force with
    | error e => rw [hp] at h; cases h
    | ok p =>
      obtain ⟨res, out, s'⟩ := p
      rw [hp] at h
      simp only [bind_ok'] at h
      cases ha : aggregate0_ env.nth { o.a with sep := s' } with
      | error e => rw [ha] at h; cases h
      | ok a1 =>
        rw [ha] at h
        cases h
        have hx : ∀ r, Separator.exec env ⟨o.a.sep, r, o.accepted⟩ (.separate clk ts handler force) =
            .ok ⟨s', r ++ out, o.accepted⟩ := by
          intro r; simp only [Separator.exec, hp, bind_ok']
        cases handler with
        | false =>
          have hnil := sep_out_nil' hp
          subst hnil
          simp only [List.append_nil] at hx ⊢
          obtain ⟨pub, g'⟩ := agood_sep hs g (.separate clk ts false force) hc rfl hx
          exact ⟨pub, agood_aggregate0 (o := ⟨{ o.a with sep := s' }, o.received, o.accepted⟩) g' ha⟩
        | true =>
          have ho : ord = false := by
            cases ord with
            | false => rfl
            | true => exact absurd (hh rfl) (by simp [AOp.handed])
          subst ho
          obtain ⟨pub, g'⟩ := agood_sepH hs g (.separate clk ts true force) hc hx
            (List.forall₂_same.2 (fun d _ => hsh rfl d))
          exact ⟨pub, agood_aggregate0 (o := ⟨{ o.a with sep := s' }, o.received ++ out, o.accepted⟩) g' ha⟩
  | pop =>
    simp only [exec, pop] at h
    cases hl : o.a.agList with
    | nil =>
      rw [hl] at h
      cases h
      exact ⟨[], by simpa using g⟩
    | cons d l =>
      rw [hl] at h
      cases h
      obtain ⟨hout, rraw, araw, gs, h1, h2, h3⟩ := g
      rw [hl] at h2
      cases h2 with
      | @cons raw _ araw' _ hd hl' =>
        refine ⟨[], ?_⟩
        rw [List.append_nil]
        refine ⟨hout, rraw ++ [raw], araw', ?_, ?_, hl', ?_⟩
        · have : rraw ++ [raw] ++ araw' = rraw ++ raw :: araw' := by simp
          rw [this]; exact gs
        · exact List.rel_append h1 (.cons (hQ _ _ hd) .nil)
        · intro ho
          simpa using h3 ho
  | forcePop => cases hf
  | look =>
    simp only [exec] at h
    cases hx : o.a.aggregateCurrent env with
    | error e => rw [hx] at h; cases h
    | ok p => rw [hx] at h; cases h; exact ⟨[], by simpa using g⟩
  | enable v =>
    cases h
    exact ⟨[], by rw [List.append_nil]; exact ⟨g.out, g.rel⟩⟩

theorem agood_execAll {env : Env} {opt : AggregatorOpts} {org : Int} {Q : AggData → AggData → Prop} {ord : Bool}
    (hQ : ∀ raw d, Delivered opt.outSize raw d → Q raw d) (hs : 0 < opt.step) (ops : List AOp) :
    ∀ {o o' : AObs} {log : List AggData}, AGood env opt org Q ord o log → (∀ op ∈ ops, op.clockOk) →
      (∀ op ∈ ops, op.forced = false) → (ord = true → ∀ op ∈ ops, op.handed = false) → (∀ op ∈ ops, op.sepHandler = true → ∀ d, Q d d) →
      execAll env o ops = .ok o' → ∃ pub, AGood env opt org Q ord o' (log ++ pub) := by
  induction ops with
  | nil => intro o o' log g _ _ _ _ h; cases h; exact ⟨[], by simpa using g⟩
  | cons op ops ih =>
    intro o o' log g h1 hf h2 h3 h
    unfold execAll at h
    rw [List.foldlM_cons] at h
    cases hx : exec env o op with
    | error e => rw [hx] at h; cases h
    | ok o1 =>
      rw [hx] at h
      obtain ⟨pub, g1⟩ := agood_exec hQ hs g op (h1 op (by simp)) (hf op (by simp)) (fun ho => h2 ho op (by simp))
        (h3 op (by simp)) hx
      obtain ⟨pub2, g2⟩ := ih g1 (fun op' h' => h1 op' (by simp [h'])) (fun op' h' => hf op' (by simp [h'])) (fun ho op' h' => h2 ho op' (by simp [h']))
        (fun op' h' => h3 op' (by simp [h'])) h
      exact ⟨pub ++ pub2, by rw [← List.append_assoc]; exact g2⟩

theorem agood_new {env : Env} {opt : AggregatorOpts} {clk rand ts : Int} {a : Aggregator}
    {Q : AggData → AggData → Prop} {ord : Bool} (h : Aggregator.new opt clk rand ts = .ok a) :
    AGood env opt a.sep.currentTime Q ord { a := a } [] := by
  unfold Aggregator.new at h
  cases hx : Separator.new opt.toSeparatorOpts clk rand ts with
  | error e => rw [hx] at h; cases h
  | ok s =>
    rw [hx] at h
    cases h
    have g := Separator.sgood_new (env := env) hx
    refine ⟨rfl, [], [], ?_, .nil, .nil, ?_⟩
    · have : s.step = opt.step := g.step.1
      show SGood env _ (s.next - s.step) _ _
      rw [this]; exact g
    · intro _
      show s.sepList = []
      unfold Separator.new at hx
      cases ht : Separator.getTsWith opt.step opt.resolution clk ts with
      | error e => rw [ht] at hx; cases hx
      | ok t => rw [ht] at hx; cases hx; rfl

end Aggregator
end Wrtstat
