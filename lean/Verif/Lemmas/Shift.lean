/-
Lemmas: a history moved in time.
-/
import Verif.Spec.Shift
import Verif.Lemmas.Partition
import Verif.Lemmas.RegistryStep

namespace Wrtstat

set_option autoImplicit false

variable {env : Env}

theorem except_map_bind {α β γ : Type} (x : M α) (f : α → M β) (g : β → γ) : (x >>= f).map g = x >>= fun a => (f a).map g := by
  cases x <;> rfl

theorem except_bind_map {α β γ : Type} (x : M α) (g : α → β) (f : β → M γ) : (x.map g >>= f) = x >>= fun a => f (g a) := by
  cases x <;> rfl

/-- Alignment of a later time. -/
theorem align_later {step K t : Int} (hs : 0 < step) (hK : step ∣ K) (h : 0 ≤ t) (h' : 0 ≤ t + K) :
    (t + K).tdiv step * step = t.tdiv step * step + K := by
  obtain ⟨m, rfl⟩ := hK
  rw [Int.tdiv_eq_ediv_of_nonneg h, Int.tdiv_eq_ediv_of_nonneg h', mul_comm step m, Int.add_mul_ediv_right _ _ hs.ne']
  ring

theorem Separator.getTs_later {s : Separator} {K clk ts : Int} (hs : 0 < s.step) (hK : s.step ∣ K)
    (h : 0 ≤ meant s.resolution clk ts) (h' : 0 ≤ meant s.resolution clk ts + K) (hz : s.resolution ≠ .none → ts ≠ 0 → ts + K ≠ 0) :
    (s.later K).getTs (clk + K) (Aggregator.laterTs s.resolution K ts) = (s.getTs clk ts).map (· + K) := by
  unfold getTs getTsWith later Aggregator.laterTs
  unfold meant at h h'
  simp only
  rw [if_neg hs.ne', if_neg hs.ne']
  show Except.ok _ = Except.ok _
  congr 1
  by_cases hr : s.resolution = .none
  · simp only [hr, ne_eq, not_true, and_false, if_false, or_true, if_true] at h h' ⊢
    exact align_later hs hK h h'
  · by_cases h0 : ts = 0
    · simp only [hr, h0, ne_eq, not_true, not_false_iff, and_self, if_false, or_self, if_true] at h h' ⊢
      exact align_later hs hK h h'
    · have hz := hz hr h0
      simp only [h0, ne_eq, false_and, if_false, if_true, not_false_iff, true_or, hz] at h h' ⊢
      exact align_later hs hK h h'

theorem Separator.sepLoop_later (step K : Int) (t : Int) : ∀ (k : Nat) (next : Int) (r : Reducer), (t - next + 1).toNat ≤ k →
    sepLoop env step (t + K) (next + K) r =
      (sepLoop env step t next r).map fun x => (x.1.map (AggData.later K), x.2.1 + K, x.2.2) := by
  intro k
  induction k with
  | zero =>
    intro next r hk
    rw [sepLoop, sepLoop, dif_neg (by omega), dif_neg (by omega)]
    rfl
  | succ k ih =>
    intro next r hk
    rw [sepLoop, sepLoop]
    by_cases hn : next ≤ t
    · rw [dif_pos (by omega), dif_pos hn]
      by_cases hs : 0 < step
      · rw [dif_pos hs, dif_pos hs, except_map_bind]
        congr 1
        funext ⟨o, r1⟩
        simp only
        rw [show next + K + step = next + step + K by ring, ih _ _ (by omega), except_map_bind, except_bind_map]
        congr 1
        funext ⟨l, n, r2⟩
        cases o with
        | none => rfl
        | some d =>
          show Except.ok _ = Except.ok _
          simp only [Option.map_some, Option.toList_some, List.singleton_append, List.map_cons, AggData.later]
          rw [show next + K - step = next - step + K by ring]
      · rw [dif_neg hs, dif_neg hs]
        rfl
    · rw [dif_neg (by omega), dif_neg hn]
      rfl

/-- Separation by a time that is not negative, nor will be. -/
theorem Separator.separate_later {s : Separator} {K clk ts : Int} {handler force : Bool} (hs : 0 < s.step) (hK : s.step ∣ K)
    (h : 0 ≤ meant s.resolution clk ts) (h' : 0 ≤ meant s.resolution clk ts + K) (hz : s.resolution ≠ .none → ts ≠ 0 → ts + K ≠ 0) :
    (s.later K).separate env (clk + K) (Aggregator.laterTs s.resolution K ts) handler force =
      (s.separate env clk ts handler force).map fun x => (x.1, x.2.1.map (AggData.later K), x.2.2.later K) := by
  unfold separate
  rw [getTs_later hs hK h h' hz, except_bind_map, except_map_bind]
  congr 1
  funext t
  have hn : (t + K < (s.later K).next) = (t < s.next) := by
    unfold later
    simp
  by_cases hc : force = false ∧ t < s.next
  · rw [if_pos (by rw [hn]; exact hc), if_pos hc]
    rfl
  · rw [if_neg (by rw [hn]; exact hc), if_neg hc, except_map_bind]
    have e : sepLoop env (s.later K).step (t + K) (s.later K).next (s.later K).reducer = _ :=
      sepLoop_later (env := env) s.step K t _ s.next s.reducer (le_refl _)
    rw [e, except_bind_map]
    congr 1
    funext ⟨l, n, r⟩
    cases handler with
    | true => rfl
    | false =>
      show Except.ok _ = Except.ok _
      simp [later]

theorem align_pos {step t : Int} (hs : 0 < step) (h : step ≤ t) : step ≤ t.tdiv step * step := by
  rw [Int.tdiv_eq_ediv_of_nonneg (by omega)]
  have : 1 ≤ t / step := by
    rw [Int.le_ediv_iff_mul_le hs]
    omega
  nlinarith

theorem Separator.push_later {s : Separator} {K clk1 clk2 ts : Int} {x : AddArg} {handler : Bool} (hs : 0 < s.step) (hK : s.step ∣ K)
    (h : s.step ≤ meant s.resolution clk1 ts) (h' : s.step ≤ meant s.resolution clk1 ts + K) :
    (s.later K).push env (clk1 + K) (clk2 + K) (Aggregator.laterTs s.resolution K ts) x handler =
      (s.push env clk1 clk2 ts x handler).map fun y => (y.1, y.2.1.map (AggData.later K), y.2.2.later K) := by
  have hz : s.resolution ≠ .none → ts ≠ 0 → ts + K ≠ 0 := by
    intro _ h0
    rw [meant, if_neg (by simp [h0])] at h'
    omega
  unfold push
  rw [getTs_later hs hK (by omega) (by omega) hz, except_bind_map, except_map_bind]
  cases ht : s.getTs clk1 ts with
  | error e => rfl
  | ok t =>
    have hT : t = (meant s.resolution clk1 ts).tdiv s.step * s.step := by
      unfold getTs getTsWith at ht
      simp only at ht
      rw [if_neg hs.ne'] at ht
      cases ht
      unfold meant
      by_cases hc : ts = 0 ∧ s.resolution ≠ .none
      · rw [if_pos hc, if_neg (by simp [hc])]
      · rw [if_neg hc, if_pos (by
          by_cases h0 : ts = 0
          · exact .inr (by by_contra hr; exact hc ⟨h0, hr⟩)
          · exact .inl h0)]
    have t1 : s.step ≤ t := by rw [hT]; exact align_pos hs h
    have t2 : s.step ≤ t + K := by
      rw [hT, ← align_later hs hK (by omega) (by omega)]
      exact align_pos hs h'
    have hm : meant s.resolution clk2 t = t := by rw [meant, if_neg (by omega)]
    have hl : Aggregator.laterTs s.resolution K t = t + K := by rw [Aggregator.laterTs, if_neg (by omega)]
    have e := separate_later (env := env) (handler := handler) (force := false) hs hK (clk := clk2) (ts := t) (by rw [hm]; omega)
      (by rw [hm]; omega) (by omega)
    rw [hl] at e
    rw [bind_ok', bind_ok', e, except_bind_map, except_map_bind]
    cases hs1 : s.separate env clk2 t handler false with
    | error e => rfl
    | ok y =>
      obtain ⟨b, out, s1⟩ := y
      rw [bind_ok', bind_ok']
      simp only
      have hn : (t + K < (s1.later K).next - (s1.later K).step) = (t < s1.next - s1.step) := by
        unfold later
        simp only [eq_iff_iff]
        omega
      by_cases hc : t < s1.next - s1.step
      · rw [if_pos (by rw [hn]; exact hc), if_pos hc]
        rfl
      · rw [if_neg (by rw [hn]; exact hc), if_neg hc]
        rfl

namespace Aggregator

theorem calcPerc_later (E : NthElement) (K : Int) (d : AggData) : calcPerc E (d.later K) = (calcPerc E d).map (AggData.later K) := by
  unfold calcPerc
  have hd : (d.later K).data = d.data := rfl
  simp only [hd]
  by_cases h : d.data.length ≠ 0
  · rw [if_pos h, if_pos h]
    simp only [except_map_bind]
    rfl
  · rw [if_neg h, if_neg h]
    rfl

theorem finish_later (E : NthElement) (R : Nat) (K : Int) (d : AggData) : finish E R (d.later K) = (finish E R d).map (AggData.later K) := by
  unfold finish
  rw [calcPerc_later, except_bind_map, except_map_bind]
  congr 1
  funext ag
  rw [except_map_bind]
  rfl

theorem mapM_later (E : NthElement) (R : Nat) (K : Int) (l : List AggData) :
    (l.map (AggData.later K)).mapM (finish E R) = (l.mapM (finish E R)).map (List.map (AggData.later K)) := by
  induction l with
  | nil => rfl
  | cons d l ih =>
    rw [List.map_cons, List.mapM_cons, List.mapM_cons, finish_later, ih, except_bind_map, except_map_bind]
    congr 1
    funext d'
    rw [except_bind_map, except_map_bind]
    rfl

theorem aggregate0_later (E : NthElement) (K : Int) (a : Aggregator) : aggregate0_ E (a.later K) = (aggregate0_ E a).map (later K) := by
  unfold aggregate0_
  have : (a.later K).sep.sepList.mapM (finish E (a.later K).outSize) = _ := mapM_later E a.outSize K a.sep.sepList
  rw [this, except_bind_map, except_map_bind]
  congr 1
  funext l
  show Except.ok _ = Except.ok _
  simp [later, Separator.later]

variable {opt : AggregatorOpts} {a : Aggregator} {K : Int}

theorem add_later {clk1 clk2 ts : Int} {x : AddArg} (hs : 0 < a.sep.step) (hK : a.sep.step ∣ K)
    (h : a.sep.step ≤ meant a.sep.resolution clk1 ts) (h' : a.sep.step ≤ meant a.sep.resolution clk1 ts + K) :
    (a.later K).add env (clk1 + K) (clk2 + K) (laterTs a.sep.resolution K ts) x =
      (a.add env clk1 clk2 ts x).map fun y => (y.1, y.2.later K) := by
  unfold add
  have he : (a.later K).enabled = a.enabled := rfl
  rw [he]
  by_cases hd : a.enabled = false
  · rw [if_pos hd, if_pos hd]
    rfl
  rw [if_neg hd, if_neg hd]
  have e : (a.later K).sep.add env (clk1 + K) (clk2 + K) (laterTs a.sep.resolution K ts) x =
      (a.sep.add env clk1 clk2 ts x).map fun y => (y.1, y.2.later K) := by
    unfold Separator.add
    have : Separator.push env (a.later K).sep (clk1 + K) (clk2 + K) (laterTs a.sep.resolution K ts) x false = _ :=
      Separator.push_later (env := env) (s := a.sep) (clk2 := clk2) (x := x) (handler := false) hs hK h h'
    rw [this, except_bind_map, except_map_bind]
    rfl
  rw [e, except_bind_map, except_map_bind]
  congr 1
  funext ⟨ok, s⟩
  cases ok with
  | false => rfl
  | true =>
    simp only [Bool.true_eq_false, if_false]
    have : aggregate0_ env.nth { a.later K with sep := s.later K } = _ := aggregate0_later env.nth K { a with sep := s }
    refine Eq.trans (congrArg (fun y => y >>= fun a => Except.ok (true, a)) this) ?_
    rw [except_bind_map, except_map_bind]
    rfl

theorem push_later {clk1 clk2 ts : Int} {x : AddArg} {handler : Bool} (hs : 0 < a.sep.step) (hK : a.sep.step ∣ K)
    (h : a.sep.step ≤ meant a.sep.resolution clk1 ts) (h' : a.sep.step ≤ meant a.sep.resolution clk1 ts + K) :
    (a.later K).push env (clk1 + K) (clk2 + K) (laterTs a.sep.resolution K ts) x handler =
      (a.push env clk1 clk2 ts x handler).map fun y => (y.1, y.2.1.map (AggData.later K), y.2.2.later K) := by
  unfold push
  have he : (a.later K).enabled = a.enabled := rfl
  rw [he]
  by_cases hd : a.enabled = false
  · rw [if_pos hd, if_pos hd]
    rfl
  rw [if_neg hd, if_neg hd]
  cases handler with
  | false =>
    rw [if_pos rfl, if_pos rfl, add_later hs hK h h', except_bind_map, except_map_bind]
    rfl
  | true =>
    rw [if_neg (by simp), if_neg (by simp)]
    have : Separator.push env (a.later K).sep (clk1 + K) (clk2 + K) (laterTs a.sep.resolution K ts) x true = _ :=
      Separator.push_later (env := env) (s := a.sep) (clk2 := clk2) (x := x) (handler := true) hs hK h h'
    rw [this, except_bind_map, except_map_bind]
    congr 1
    funext ⟨ok, out, s⟩
    simp only
    have : (out.map (AggData.later K)).mapM (finish env.nth (a.later K).outSize) = _ := mapM_later env.nth a.outSize K out
    rw [this, except_bind_map, except_map_bind]
    rfl

theorem exec_later {o : AObs} {op : AOp} (hs : 0 < opt.step) (hK : opt.step ∣ K) (hst : o.a.sep.step = opt.step)
    (hres : o.a.sep.resolution = opt.resolution) (ho : op.settled opt K) :
    exec env (o.later K) (op.later opt.resolution K) = (exec env o op).map (AObs.later K) := by
  have hrec : ∀ (clk ts : Int) (x : AddArg) (ok : Bool), Settled opt K clk ts →
      (o.later K).record ok (clk + K) (laterTs opt.resolution K ts) x = (o.record ok clk ts x).map fun e => (e.1 + K, e.2) := by
    intro clk ts x ok ⟨h1, h2⟩
    unfold AObs.record
    have he : (o.later K).a.enabled = o.a.enabled := rfl
    rw [he]
    by_cases hc : ok = true ∧ o.a.enabled = true
    · rw [if_pos hc, if_pos hc, List.map_append]
      congr 1
      simp only [List.map_cons, List.map_nil, List.cons.injEq, Prod.mk.injEq, and_true]
      have e1 : (o.later K).a.sep.step = opt.step := hst
      have e2 : (o.later K).a.sep.resolution = opt.resolution := hres
      rw [e1, e2, hst, hres]
      have hm : meant opt.resolution (clk + K) (laterTs opt.resolution K ts) = meant opt.resolution clk ts + K := by
        unfold meant laterTs
        by_cases h0 : ts = 0 ∧ opt.resolution ≠ .none
        · rw [if_pos h0, if_pos ⟨rfl, h0.2⟩, if_pos h0]
        · rw [if_neg h0, if_neg h0]
          rw [meant, if_neg h0] at h2
          rw [if_neg (by omega)]
      rw [hm]
      exact align_later hs hK (by omega) (by omega)
    · rw [if_neg hc, if_neg hc]
      rfl
  have hs' : 0 < o.a.sep.step := by omega
  have hK' : o.a.sep.step ∣ K := by rw [hst]; exact hK
  cases op with
  | add clk1 clk2 ts x =>
    obtain ⟨h1, h2⟩ := ho
    have e := add_later (env := env) (a := o.a) (clk1 := clk1) (clk2 := clk2) (ts := ts) (x := x) hs' hK' (by rw [hst, hres]; exact h1)
      (by rw [hst, hres]; exact h2)
    rw [hres] at e
    have e : (o.later K).a.add env (clk1 + K) (clk2 + K) (laterTs opt.resolution K ts) x = _ := e
    simp only [AOp.later, exec]
    rw [e, except_bind_map, except_map_bind]
    congr 1
    funext ⟨ok, a⟩
    simp only
    rw [hrec _ _ _ _ ⟨h1, h2⟩]
    rfl
  | push clk1 clk2 ts x handler =>
    obtain ⟨h1, h2⟩ := ho
    have e := push_later (env := env) (a := o.a) (clk1 := clk1) (clk2 := clk2) (ts := ts) (x := x) (handler := handler) hs' hK'
      (by rw [hst, hres]; exact h1) (by rw [hst, hres]; exact h2)
    rw [hres] at e
    have e : (o.later K).a.push env (clk1 + K) (clk2 + K) (laterTs opt.resolution K ts) x handler = _ := e
    simp only [AOp.later, exec]
    rw [e, except_bind_map, except_map_bind]
    congr 1
    funext ⟨ok, out, a⟩
    simp only
    rw [hrec _ _ _ _ ⟨h1, h2⟩]
    show Except.ok _ = Except.ok _
    simp [AObs.later]
  | separate clk ts handler force =>
    obtain ⟨h1, h2⟩ := ho
    have hz : o.a.sep.resolution ≠ .none → ts ≠ 0 → ts + K ≠ 0 := by
      intro _ h0
      rw [meant, if_neg (by simp [h0])] at h2
      omega
    have e := Separator.separate_later (env := env) (s := o.a.sep) (clk := clk) (ts := ts) (handler := handler) (force := force) hs' hK'
      (by rw [hres]; omega) (by rw [hres]; omega) hz
    rw [hres] at e
    have e : (o.later K).a.sep.separate env (clk + K) (laterTs opt.resolution K ts) handler force = _ := e
    simp only [AOp.later, exec, separate]
    rw [e]
    simp only [except_bind_map, except_map_bind, bind_assoc]
    congr 1
    funext ⟨b, out, s⟩
    simp only
    have : aggregate0_ env.nth { (o.later K).a with sep := s.later K } = _ := aggregate0_later env.nth K { o.a with sep := s }
    rw [this, except_bind_map]
    congr 1
    funext a
    show Except.ok _ = Except.ok _
    simp [AObs.later]
  | pop =>
    simp only [AOp.later, exec, pop]
    have : (o.later K).a.agList = o.a.agList.map (AggData.later K) := rfl
    rw [this]
    cases h : o.a.agList with
    | nil =>
      show Except.ok _ = Except.ok _
      simp [AObs.later]
    | cons d l =>
      show Except.ok _ = Except.ok _
      simp [AObs.later, later]
  | forcePop =>
    simp only [AOp.later, exec, forcePop]
    have e : (o.later K).a.sep.forcePop env = (o.a.sep.forcePop env).map fun y => (y.1.map (AggData.later K), y.2.later K) := by
      unfold Separator.forcePop Separator.pop
      have hl : (o.later K).a.sep.sepList = o.a.sep.sepList.map (AggData.later K) := rfl
      rw [hl]
      cases h : o.a.sep.sepList with
      | nil =>
        simp only [List.map_nil]
        have hr : (o.later K).a.sep.reducer = o.a.sep.reducer := rfl
        rw [hr, except_map_bind]
        congr 1
        funext ⟨d, r⟩
        show Except.ok _ = Except.ok _
        cases d with
        | none => simp [AObs.later, later, Separator.later]
        | some d =>
          simp only [AObs.later, later, Separator.later, Option.map_some, AggData.later]
          rw [show o.a.sep.next + K - o.a.sep.step = o.a.sep.next - o.a.sep.step + K by ring]
      | cons d l =>
        simp only [List.map_cons]
        rfl
    rw [e]
    simp only [except_bind_map, except_map_bind, bind_assoc]
    congr 1
    funext ⟨d, s⟩
    cases d with
    | none =>
      show Except.ok _ = Except.ok _
      simp [AObs.later, later]
    | some d =>
      simp only [Option.map_some]
      have : finish env.nth (o.later K).a.outSize (d.later K) = _ := finish_later env.nth o.a.outSize K d
      rw [this]
      simp only [except_bind_map, bind_assoc]
      congr 1
      funext ag
      show Except.ok _ = Except.ok _
      simp [AObs.later, later]
  | look =>
    simp only [AOp.later, exec, aggregateCurrent]
    have e : (o.later K).a.sep.getCurrent env = (o.a.sep.getCurrent env).map (Option.map (AggData.later K)) := by
      unfold Separator.getCurrent
      have hr : (o.later K).a.sep.reducer = o.a.sep.reducer := rfl
      rw [hr, except_map_bind]
      congr 1
      funext d
      show Except.ok _ = Except.ok _
      cases d with
      | none => rfl
      | some d =>
        simp only [AObs.later, later, Separator.later, Option.map_some, AggData.later]
        rw [show o.a.sep.next + K - o.a.sep.step = o.a.sep.next - o.a.sep.step + K by ring]
    rw [e]
    simp only [except_bind_map, except_map_bind, bind_assoc]
    congr 1
    funext d
    cases d with
    | none => rfl
    | some d =>
      simp only [Option.map_some]
      have : finish env.nth (o.later K).a.outSize (d.later K) = _ := finish_later env.nth o.a.outSize K d
      rw [this]
      simp only [except_bind_map, bind_assoc]
      rfl
  | enable v => rfl

end Aggregator

end Wrtstat
