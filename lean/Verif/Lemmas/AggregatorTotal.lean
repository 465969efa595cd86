import Verif.Lemmas.AggregatorInv

namespace Wrtstat
namespace Aggregator
open Separator (SGood SOp Obs)
open Reducer (Bounds)

/-- A started aggregator satisfies the invariant. -/
theorem agood_fresh {env : Env} {opt : AggregatorOpts} {Q : AggData → AggData → Prop} {ord : Bool}
    (hs : 0 < opt.step) {a : Aggregator} (h : Fresh env opt a) :
    AGood env opt a.sep.currentTime Q ord { a := a } [] := by
  induction h generalizing Q ord with
  | new h => exact agood_new h
  | @clear a0 a ops o clk ts h0 hc hx hcl ih =>
    obtain ⟨gR, gA, gS, cur, g⟩ := pgood_execAll (Q := fun _ _ => True) (fun _ _ _ => trivial) hs ops
      (pgood_fresh hs h0) hc (fun _ _ _ _ _ _ => trivial) hx
    obtain ⟨hst, hres⟩ := g.sep.step
    unfold clear Separator.clear Separator.getTs at hcl
    rw [Separator.getTs_eq (by omega)] at hcl
    cases hcl
    refine ⟨g.out, [], [], ?_, .nil, .nil, fun _ => rfl⟩
    refine ⟨⟨0, le_refl _, ?_⟩, by simp, by simp, ⟨hst, hres⟩, ?_, by simp, by simp, by simp, by simp, ?_, by simp⟩
    · simp only [Separator.currentTime, hst]; omega
    · exact Reducer.goodA_clear g.sep.red
    · simp [logCount, sumCount, eventsIn]

theorem sep_push_keep {env : Env} {opt : SeparatorOpts} {s : Separator} {gS : List (List (Int × AddArg))}
    {cur : List (Int × AddArg)} (hs : 0 < opt.step) (g : SPart env opt s gS cur) {clk1 clk2 ts : Int} {x : AddArg} {handler b : Bool}
    {out : List AggData} {s' : Separator}
    (hts : opt.resolution = .none ∨ align opt.step (meant opt.resolution clk1 ts) ≠ 0)
    (h : s.push env clk1 clk2 ts x handler = .ok (b, out, s')) (hb : b = false ∨ handler = true) :
    s'.sepList = s.sepList := by
  obtain ⟨hst, hres⟩ := g.step
  obtain ⟨s1, pub, as', eff, hbi, hs'⟩ := Separator.push_effect (by rw [hst]; exact hs) g.red h
  rw [hst, hres] at eff hbi
  generalize hT : align opt.step (meant opt.resolution clk1 ts) = T at *
  have hT2 : align opt.step (meant opt.resolution clk2 T) = T := by
    unfold meant
    rw [if_neg (by tauto), ← hT]
    exact Separator.align_idem (by omega) _
  rw [hT2] at eff
  have hs1 : s1.step = opt.step := eff.frame.1.trans hst
  have hl : s'.sepList = s1.sepList := by rw [hs']; cases b <;> rfl
  rw [hl, eff.lists.2]
  rcases hb with hb | hb
  · rcases eff.cases with ⟨_, c2, _⟩ | ⟨_, _, c3, _⟩
    · rw [c2]; cases handler <;> simp
    · exfalso
      rw [hst] at c3
      rw [hs1] at hbi
      rw [hbi.2 c3] at hb
      cases hb
  · rw [hb]; rfl

theorem keep_add {env : Env} {opt : AggregatorOpts} {Q : List AddArg → AggData → Prop} {o : AObs}
    {gR gA gS : List (List (Int × AddArg))} {cur : List (Int × AddArg)} (hs : 0 < opt.step)
    (g : PGood env opt Q o gR gA gS cur)
    (hl : o.a.sep.sepList = []) {clk1 clk2 ts : Int} {x : AddArg} {b : Bool} {a' : Aggregator}
    (ht : opt.resolution = .none ∨ align opt.step (meant opt.resolution clk1 ts) ≠ 0)
    (ha : o.a.add env clk1 clk2 ts x = .ok (b, a')) : a'.sep.sepList = [] := by
  have gs := g.sep
  by_cases he : o.a.enabled = true
  · rw [add_unfold _ _ _ _ _ _ he] at ha
    cases hp : o.a.sep.push env clk1 clk2 ts x false with
    | error e => rw [hp] at ha; cases ha
    | ok p =>
      obtain ⟨ok, out, s'⟩ := p
      rw [hp] at ha
      simp only [bind_ok'] at ha
      cases ok with
      | false =>
        cases ha
        exact (sep_push_keep hs gs ht hp (.inl rfl)).trans hl
      | true =>
        simp only [Bool.true_eq_false, if_false] at ha
        obtain ⟨l, e, _⟩ := aggregate0_spec env.nth { o.a with sep := s' }
        rw [e] at ha
        cases ha; rfl
  · unfold add at ha
    rw [if_pos (by simpa using he)] at ha
    cases ha; exact hl

theorem keep_exec {env : Env} {opt : AggregatorOpts} {Q : List AddArg → AggData → Prop} {o o' : AObs}
    {gR gA gS : List (List (Int × AddArg))} {cur : List (Int × AddArg)} (hs : 0 < opt.step)
    (g : PGood env opt Q o gR gA gS cur)
    (hl : o.a.sep.sepList = []) (op : AOp) (ht : op.timeOk opt) (h : exec env o op = .ok o') :
    o'.a.sep.sepList = [] := by
  cases op with
  | add clk1 clk2 ts x =>
    simp only [exec] at h
    cases ha : o.a.add env clk1 clk2 ts x with
    | error e => rw [ha] at h; cases h
    | ok p => rw [ha] at h; cases h; exact keep_add hs g hl ht ha
  | push clk1 clk2 ts x handler =>
    simp only [exec] at h
    cases ha : o.a.push env clk1 clk2 ts x handler with
    | error e => rw [ha] at h; cases h
    | ok p =>
      obtain ⟨b, out, a'⟩ := p
      rw [ha] at h
      cases h
      show a'.sep.sepList = []
      unfold push at ha
      by_cases he : o.a.enabled = true
      · rw [if_neg (by simp [he])] at ha
        cases handler with
        | false =>
          simp only [if_true] at ha
          cases hb : o.a.add env clk1 clk2 ts x with
          | error e => rw [hb] at ha; cases ha
          | ok p => rw [hb] at ha; cases ha; exact keep_add hs g hl ht hb
        | true =>
          simp only [Bool.true_eq_false, if_false] at ha
          cases hp : o.a.sep.push env clk1 clk2 ts x true with
          | error e => rw [hp] at ha; cases ha
          | ok p =>
            obtain ⟨ok, out1, s'⟩ := p
            rw [hp] at ha
            obtain ⟨l, el, _⟩ := mapM_finish env.nth o.a.outSize out1
            simp only [bind_ok', el] at ha
            cases ha
            have gs := g.sep
            exact (sep_push_keep hs gs ht hp (.inr rfl)).trans hl
      · rw [if_pos (by simpa using he)] at ha
        cases ha; exact hl
  | separate clk ts handler force =>
    simp only [exec] at h
    unfold separate at h
    cases hp : o.a.sep.separate env clk ts handler force with
    | error e => rw [hp] at h; cases h
    | ok p =>
      obtain ⟨res, out, s'⟩ := p
      rw [hp] at h
      simp only [bind_ok'] at h
      obtain ⟨l, e, _⟩ := aggregate0_spec env.nth { o.a with sep := s' }
      rw [e] at h
      cases h; rfl
  | pop =>
    simp only [exec, pop] at h
    cases hl' : o.a.agList with
    | nil => rw [hl'] at h; cases h; exact hl
    | cons d l => rw [hl'] at h; cases h; exact hl
  | forcePop =>
    simp only [exec] at h
    cases hx : o.a.forcePop env with
    | error e => rw [hx] at h; cases h
    | ok p =>
      obtain ⟨x, a'⟩ := p
      rw [hx] at h
      cases h
      unfold forcePop Separator.forcePop Separator.pop at hx
      rw [hl] at hx
      simp only at hx
      cases hd : o.a.sep.reducer.detach env with
      | error e => rw [hd] at hx; cases hx
      | ok q =>
        obtain ⟨y, r⟩ := q
        rw [hd] at hx
        cases y with
        | none => cases hx; exact hl
        | some d =>
          simp only [bind_ok', Option.map_some] at hx
          obtain ⟨d', ed, _⟩ := finish_spec env.nth o.a.outSize { d with ts := o.a.sep.next - o.a.sep.step }
          rw [ed] at hx
          cases hx; exact hl
  | look =>
    simp only [exec] at h
    cases hx : o.a.aggregateCurrent env with
    | error e => rw [hx] at h; cases h
    | ok p => rw [hx] at h; cases h; exact hl
  | enable v => cases h; exact hl

theorem fresh_keep {env : Env} {opt : AggregatorOpts} {a : Aggregator} (h : Fresh env opt a) :
    a.sep.sepList = [] ∧ a.agList = [] := by
  induction h with
  | @new clk rand ts a h =>
    unfold Aggregator.new at h
    cases hx : Separator.new opt.toSeparatorOpts clk rand ts with
    | error e => rw [hx] at h; cases h
    | ok s =>
      rw [hx] at h
      cases h
      refine ⟨?_, rfl⟩
      show s.sepList = []
      unfold Separator.new at hx
      cases ht : Separator.getTsWith opt.step opt.resolution clk ts with
      | error e => rw [ht] at hx; cases hx
      | ok t => rw [ht] at hx; cases hx; rfl
  | @clear a0 a ops o clk ts _ hc hx hcl ih =>
    unfold clear at hcl
    cases hx : o.a.sep.clear clk ts with
    | error e => rw [hx] at hcl; cases hcl
    | ok s =>
      rw [hx] at hcl
      cases hcl
      unfold Separator.clear at hx
      cases ht : o.a.sep.getTs clk ts with
      | error e => rw [ht] at hx; cases hx
      | ok t => rw [ht] at hx; cases hx; exact ⟨rfl, rfl⟩

theorem keep_execAll {env : Env} {opt : AggregatorOpts} (hs : 0 < opt.step) (ops : List AOp) :
    ∀ {o o' : AObs} {gR gA gS : List (List (Int × AddArg))} {cur : List (Int × AddArg)},
      PGood env opt (fun _ _ => True) o gR gA gS cur →
      (∀ op ∈ ops, op.clockOk) → o.a.sep.sepList = [] → (∀ op ∈ ops, op.timeOk opt) →
      execAll env o ops = .ok o' → o'.a.sep.sepList = [] := by
  induction ops with
  | nil => intro o o' gR gA gS cur _ _ hl _ h; cases h; exact hl
  | cons op ops ih =>
    intro o o' gR gA gS cur g hc hl ht h
    unfold execAll at h
    rw [List.foldlM_cons] at h
    cases hx : exec env o op with
    | error e => rw [hx] at h; cases h
    | ok o1 =>
      rw [hx] at h
      obtain ⟨_, _, _, _, g1⟩ := pgood_exec (fun _ _ _ => trivial) hs g op (hc op (by simp))
        (fun _ _ _ _ => trivial) hx
      exact ih g1 (fun op' h' => hc op' (by simp [h'])) (keep_exec hs g hl op (ht op (by simp)) hx)
        (fun op' h' => ht op' (by simp [h'])) h

/-! ### Totality -/

theorem getCurrent_ok {env : Env} {opt : AggregatorOpts} {Q : List AddArg → AggData → Prop} {o : AObs}
    {gR gA gS : List (List (Int × AddArg))} {cur : List (Int × AddArg)} {m M : Int} (B : Bounds env m M)
    (g : PGood env opt Q o gR gA gS cur)
    (ha : ∀ e ∈ o.accepted, ∀ v ∈ e.2.values, m ≤ v ∧ v ≤ M) :
    (∃ x, o.a.sep.getCurrent env = .ok x) ∧ ∃ x r', o.a.sep.reducer.detach env = .ok (x, r') := by
  have gs := g.sep
  have hv : ∀ v ∈ allValues (cur.map Prod.snd), m ≤ v ∧ v ≤ M := by
    intro v hv
    unfold allValues at hv
    obtain ⟨x, hx, hv⟩ := List.mem_flatMap.1 hv
    obtain ⟨e, he, rfl⟩ := List.mem_map.1 hx
    exact ha e (g.perm.mem_iff.1 (List.mem_append_right _ he)) v hv
  obtain ⟨y, e⟩ := Separator.getReduced_ok B gs.red hv
  refine ⟨?_, Reducer.detach_total B gs.red hv⟩
  unfold Separator.getCurrent
  rw [e]
  exact ⟨_, rfl⟩

theorem mem_record {o : AObs} {b : Bool} {clk ts : Int} {x : AddArg} {m M : Int}
    (ha : ∀ e ∈ o.accepted, ∀ v ∈ e.2.values, m ≤ v ∧ v ≤ M) (hx : ∀ v ∈ x.values, m ≤ v ∧ v ≤ M) :
    ∀ e ∈ o.record b clk ts x, ∀ v ∈ e.2.values, m ≤ v ∧ v ≤ M := by
  intro e he v hv
  unfold AObs.record at he
  split_ifs at he
  · rcases List.mem_append.1 he with he | he
    · exact ha e he v hv
    · simp only [List.mem_singleton] at he
      subst he; exact hx v hv
  · exact ha e he v hv

theorem add_total {env : Env} {opt : AggregatorOpts} {Q : List AddArg → AggData → Prop} {o : AObs}
    {gR gA gS : List (List (Int × AddArg))} {cur : List (Int × AddArg)} {m M : Int} (hs : 0 < opt.step)
    (B : Bounds env m M) (g : PGood env opt Q o gR gA gS cur) (ha : ∀ e ∈ o.accepted, ∀ v ∈ e.2.values, m ≤ v ∧ v ≤ M)
    (clk1 clk2 ts : Int) (x : AddArg) : ∃ b a', o.a.add env clk1 clk2 ts x = .ok (b, a') := by
  obtain ⟨_, y, r', hd⟩ := getCurrent_ok B g ha
  have gs := g.sep
  have hst : o.a.sep.step = opt.step := gs.step.1
  by_cases he : o.a.enabled = true
  · rw [add_unfold _ _ _ _ _ _ he]
    rcases Separator.push_result clk1 clk2 ts x false (by rw [hst]; exact hs) gs.red with ⟨⟨ok, out, s'⟩, e⟩ | ⟨_, e⟩
    · rw [e]
      simp only [bind_ok']
      cases ok with
      | false => exact ⟨_, _, rfl⟩
      | true =>
        simp only [Bool.true_eq_false, if_false]
        obtain ⟨l, e, _⟩ := aggregate0_spec env.nth { o.a with sep := s' }
        rw [e]; exact ⟨_, _, rfl⟩
    · rw [hd] at e; cases e
  · unfold add
    rw [if_pos (by simpa using he)]
    exact ⟨_, _, rfl⟩

theorem exec_total {env : Env} {opt : AggregatorOpts} {Q : List AddArg → AggData → Prop} {o : AObs}
    {gR gA gS : List (List (Int × AddArg))} {cur : List (Int × AddArg)} {m M : Int} (hs : 0 < opt.step)
    (B : Bounds env m M) (g : PGood env opt Q o gR gA gS cur) (ha : ∀ e ∈ o.accepted, ∀ v ∈ e.2.values, m ≤ v ∧ v ≤ M)
    (op : AOp) (hop : ∀ v ∈ op.vals, m ≤ v ∧ v ≤ M) :
    ∃ o', exec env o op = .ok o' ∧ ∀ e ∈ o'.accepted, ∀ v ∈ e.2.values, m ≤ v ∧ v ≤ M := by
  obtain ⟨⟨cx, hcx⟩, y, r', hd⟩ := getCurrent_ok B g ha
  cases op with
  | add clk1 clk2 ts x =>
    obtain ⟨b, a', e⟩ := add_total hs B g ha clk1 clk2 ts x
    simp only [exec, e, bind_ok']
    exact ⟨_, rfl, mem_record ha hop⟩
  | push clk1 clk2 ts x handler =>
    have : ∃ b out a', o.a.push env clk1 clk2 ts x handler = .ok (b, out, a') := by
      unfold push
      by_cases he : o.a.enabled = true
      · rw [if_neg (by simp [he])]
        cases handler with
        | false =>
          obtain ⟨b, a', e⟩ := add_total hs B g ha clk1 clk2 ts x
          simp only [if_true, e, bind_ok']
          exact ⟨_, _, _, rfl⟩
        | true =>
          have gs := g.sep
          have hst : o.a.sep.step = opt.step := gs.step.1
          simp only [Bool.true_eq_false, if_false]
          rcases Separator.push_result clk1 clk2 ts x true (by rw [hst]; exact hs) gs.red with
            ⟨⟨ok, out, s'⟩, e⟩ | ⟨_, e⟩
          · rw [e]
            obtain ⟨l, el, _⟩ := mapM_finish env.nth o.a.outSize out
            simp only [bind_ok', el]
            exact ⟨_, _, _, rfl⟩
          · rw [hd] at e; cases e
      · rw [if_pos (by simpa using he)]
        exact ⟨_, _, _, rfl⟩
    obtain ⟨b, out, a', e⟩ := this
    simp only [exec, e, bind_ok']
    exact ⟨_, rfl, mem_record ha hop⟩
  | separate clk ts handler force =>
    have gs := g.sep
    have hst : o.a.sep.step = opt.step := gs.step.1
    simp only [exec, separate]
    rcases Separator.separate_result clk ts handler force (by rw [hst]; exact hs) gs.red with
      ⟨⟨b, out, s'⟩, e⟩ | ⟨_, e⟩
    · rw [e]
      simp only [bind_ok']
      obtain ⟨l, e, _⟩ := aggregate0_spec env.nth { o.a with sep := s' }
      rw [e]
      exact ⟨_, rfl, ha⟩
    · rw [hd] at e; cases e
  | pop => exact ⟨_, rfl, ha⟩
  | forcePop =>
    simp only [exec, forcePop, Separator.forcePop, Separator.pop]
    cases hl : o.a.sep.sepList with
    | cons r l =>
      obtain ⟨d', ed, _⟩ := finish_spec env.nth o.a.outSize r
      simp only [bind_ok', ed]
      exact ⟨_, rfl, ha⟩
    | nil =>
      simp only [hd, bind_ok']
      cases y with
      | none => exact ⟨_, rfl, ha⟩
      | some d =>
        obtain ⟨d', ed, _⟩ := finish_spec env.nth o.a.outSize { d with ts := o.a.sep.next - o.a.sep.step }
        simp only [Option.map_some, ed, bind_ok']
        exact ⟨_, rfl, ha⟩
  | look =>
    simp only [exec, aggregateCurrent, hcx, bind_ok']
    cases cx with
    | none => exact ⟨_, rfl, ha⟩
    | some d =>
      obtain ⟨d', e, _⟩ := finish_spec env.nth o.a.outSize d
      simp only [e, bind_ok']
      exact ⟨_, rfl, ha⟩
  | enable v => exact ⟨_, rfl, ha⟩

theorem execAll_total {env : Env} {opt : AggregatorOpts} {m M : Int} (hs : 0 < opt.step)
    (B : Bounds env m M) (ops : List AOp) :
    ∀ {o : AObs} {gR gA gS : List (List (Int × AddArg))} {cur : List (Int × AddArg)},
      PGood env opt (fun _ _ => True) o gR gA gS cur →
      (∀ op ∈ ops, op.clockOk) → (∀ e ∈ o.accepted, ∀ v ∈ e.2.values, m ≤ v ∧ v ≤ M) →
      (∀ op ∈ ops, ∀ v ∈ op.vals, m ≤ v ∧ v ≤ M) → ∃ o', execAll env o ops = .ok o' := by
  induction ops with
  | nil => intro o gR gA gS cur _ _ _ _; exact ⟨o, rfl⟩
  | cons op ops ih =>
    intro o gR gA gS cur g hc ha hv
    obtain ⟨o1, e, ha1⟩ := exec_total hs B g ha op (hv op (by simp))
    obtain ⟨_, _, _, _, g1⟩ := pgood_exec (fun _ _ _ => trivial) hs g op (hc op (by simp))
      (fun _ _ _ _ => trivial) e
    obtain ⟨o', e'⟩ := ih g1 (fun op' h' => hc op' (by simp [h'])) ha1 (fun op' h' => hv op' (by simp [h']))
    refine ⟨o', ?_⟩
    unfold execAll
    rw [List.foldlM_cons, e]
    exact e'

end Aggregator
end Wrtstat
