/-
Lemmas: a history told in another unit of time.
-/
import Verif.Spec.Unit
import Verif.Lemmas.Shift

namespace Wrtstat

set_option autoImplicit false

variable {env : Env}

theorem tdiv_tdiv_nonneg {t a b : Int} (ha : 0 < a) (h : 0 ≤ t) : (t.tdiv a).tdiv b = t.tdiv (a * b) := by
  rw [Int.tdiv_eq_ediv_of_nonneg h, Int.tdiv_eq_ediv_of_nonneg h, Int.tdiv_eq_ediv_of_nonneg (Int.ediv_nonneg h ha.le),
    Int.ediv_ediv_of_nonneg ha.le]

/-- Truncating twice is truncating once. -/
theorem tdiv_tdiv_pos {t a b : Int} (ha : 0 < a) : (t.tdiv a).tdiv b = t.tdiv (a * b) := by
  rcases le_total 0 t with h | h
  · exact tdiv_tdiv_nonneg ha h
  · have := tdiv_tdiv_nonneg (t := -t) (b := b) ha (by omega)
    rw [Int.neg_tdiv, Int.neg_tdiv, Int.neg_tdiv] at this
    omega

/-- Alignment in a finer unit. -/
theorem align_finer {step f t : Int} (hf : 0 < f) : t.tdiv (f * step) * (f * step) = f * ((t.tdiv f).tdiv step * step) := by
  rw [tdiv_tdiv_pos hf]
  ring

theorem Separator.getTs_finer {s : Separator} {f clk ts : Int} {res : Resolution} (hs : 0 < s.step) (hf : 0 < f)
    (hr : res = .none ↔ s.resolution = .none) (hz : s.resolution ≠ .none → ts.tdiv f = 0 → ts = 0) :
    (s.finer f res).getTs clk ts = (s.getTs (clk.tdiv f) (ts.tdiv f)).map (f * ·) := by
  have hp : 0 < f * s.step := Int.mul_pos hf hs
  unfold getTs getTsWith finer
  simp only
  rw [if_neg hp.ne', if_neg hs.ne']
  show Except.ok _ = Except.ok _
  congr 1
  by_cases h : s.resolution = .none
  · rw [if_pos (.inr (hr.2 h)), if_pos (.inr h)]
    exact align_finer hf
  · have h' : res ≠ .none := fun e => h (hr.1 e)
    by_cases h0 : ts = 0
    · rw [if_neg (by simp [h0, h']), if_neg (by simp [h0, h])]
      exact align_finer hf
    · have : ts.tdiv f ≠ 0 := fun e => h0 (hz h e)
      rw [if_pos (.inl h0), if_pos (.inl this)]
      exact align_finer hf

theorem Separator.sepLoop_finer {step f : Int} (hf : 0 < f) (t : Int) : ∀ (k : Nat) (next : Int) (r : Reducer),
    (t - next + 1).toNat ≤ k → sepLoop env (f * step) (f * t) (f * next) r =
      (sepLoop env step t next r).map fun x => (x.1.map (AggData.finer f), f * x.2.1, x.2.2) := by
  intro k
  induction k with
  | zero =>
    intro next r hk
    rw [sepLoop, sepLoop, dif_neg (by rw [Int.mul_le_mul_left hf]; omega), dif_neg (by omega)]
    rfl
  | succ k ih =>
    intro next r hk
    rw [sepLoop, sepLoop]
    by_cases hn : next ≤ t
    · rw [dif_pos (by rw [Int.mul_le_mul_left hf]; exact hn), dif_pos hn]
      by_cases hs : 0 < step
      · rw [dif_pos (Int.mul_pos hf hs), dif_pos hs, except_map_bind]
        congr 1
        funext ⟨o, r1⟩
        simp only
        rw [show f * next + f * step = f * (next + step) by ring, ih _ _ (by omega), except_map_bind, except_bind_map]
        congr 1
        funext ⟨l, n, r2⟩
        cases o with
        | none => rfl
        | some d =>
          show Except.ok _ = Except.ok _
          simp only [Option.map_some, Option.toList_some, List.singleton_append, List.map_cons, AggData.finer]
          rw [show f * next - f * step = f * (next - step) by ring]
      · rw [dif_neg (fun h => hs (pos_of_mul_pos_right h hf.le)), dif_neg hs]
        rfl
    · rw [dif_neg (by rw [Int.mul_le_mul_left hf]; exact hn), dif_neg hn]
      rfl

theorem Separator.separate_finer {s : Separator} {f clk ts : Int} {res : Resolution} {handler force : Bool} (hs : 0 < s.step) (hf : 0 < f)
    (hr : res = .none ↔ s.resolution = .none) (hz : s.resolution ≠ .none → ts.tdiv f = 0 → ts = 0) :
    (s.finer f res).separate env clk ts handler force =
      (s.separate env (clk.tdiv f) (ts.tdiv f) handler force).map fun x => (x.1, x.2.1.map (AggData.finer f), x.2.2.finer f res) := by
  unfold separate
  rw [getTs_finer hs hf hr hz, except_bind_map, except_map_bind]
  congr 1
  funext t
  have hn : (f * t < (s.finer f res).next) = (t < s.next) := by
    unfold finer
    simp only [eq_iff_iff]
    exact Int.mul_lt_mul_left hf
  by_cases hc : force = false ∧ t < s.next
  · rw [if_pos (by rw [hn]; exact hc), if_pos hc]
    rfl
  · rw [if_neg (by rw [hn]; exact hc), if_neg hc, except_map_bind]
    have e : sepLoop env (s.finer f res).step (f * t) (s.finer f res).next (s.finer f res).reducer = _ :=
      sepLoop_finer (env := env) hf t _ s.next s.reducer (le_refl _)
    rw [e, except_bind_map]
    congr 1
    funext ⟨l, n, r⟩
    cases handler with
    | true => rfl
    | false =>
      show Except.ok _ = Except.ok _
      simp [finer]

theorem Separator.push_finer {s : Separator} {f clk1 clk2 ts : Int} {res : Resolution} {x : AddArg} {handler : Bool} (hs : 0 < s.step)
    (hf : 0 < f) (hr : res = .none ↔ s.resolution = .none) (hz : s.resolution ≠ .none → ts.tdiv f = 0 → ts = 0) :
    (s.finer f res).push env clk1 clk2 ts x handler =
      (s.push env (clk1.tdiv f) (clk2.tdiv f) (ts.tdiv f) x handler).map
        fun y => (y.1, y.2.1.map (AggData.finer f), y.2.2.finer f res) := by
  unfold push
  rw [getTs_finer hs hf hr hz, except_bind_map, except_map_bind]
  congr 1
  funext t
  have ht : (f * t).tdiv f = t := Int.mul_tdiv_cancel_left t hf.ne'
  have e := separate_finer (env := env) (handler := handler) (force := false) hs hf hr (clk := clk2) (ts := f * t)
    (by rw [ht]; intro _ h; rw [h]; ring)
  rw [ht] at e
  rw [e, except_bind_map, except_map_bind]
  congr 1
  funext ⟨b, out, s1⟩
  simp only
  have hn : (f * t < (s1.finer f res).next - (s1.finer f res).step) = (t < s1.next - s1.step) := by
    unfold finer
    simp only [eq_iff_iff]
    rw [← Int.mul_sub]
    exact Int.mul_lt_mul_left hf
  by_cases hc : t < s1.next - s1.step
  · rw [if_pos (by rw [hn]; exact hc), if_pos hc]
    rfl
  · rw [if_neg (by rw [hn]; exact hc), if_neg hc]
    rfl

namespace Aggregator

theorem calcPerc_finer (E : NthElement) (f : Int) (d : AggData) : calcPerc E (d.finer f) = (calcPerc E d).map (AggData.finer f) := by
  unfold calcPerc
  have hd : (d.finer f).data = d.data := rfl
  simp only [hd]
  by_cases h : d.data.length ≠ 0
  · rw [if_pos h, if_pos h]
    simp only [except_map_bind]
    rfl
  · rw [if_neg h, if_neg h]
    rfl

theorem finish_finer (E : NthElement) (R : Nat) (f : Int) (d : AggData) : finish E R (d.finer f) = (finish E R d).map (AggData.finer f) := by
  unfold finish
  rw [calcPerc_finer, except_bind_map, except_map_bind]
  congr 1
  funext ag
  rw [except_map_bind]
  rfl

theorem mapM_finer (E : NthElement) (R : Nat) (f : Int) (l : List AggData) :
    (l.map (AggData.finer f)).mapM (finish E R) = (l.mapM (finish E R)).map (List.map (AggData.finer f)) := by
  induction l with
  | nil => rfl
  | cons d l ih =>
    rw [List.map_cons, List.mapM_cons, List.mapM_cons, finish_finer, ih, except_bind_map, except_map_bind]
    congr 1
    funext d'
    rw [except_bind_map, except_map_bind]
    rfl

theorem aggregate0_finer (E : NthElement) (f : Int) (res : Resolution) (a : Aggregator) : aggregate0_ E (a.finer f res) = (aggregate0_ E a).map (finer f res) := by
  unfold aggregate0_
  have : (a.finer f res).sep.sepList.mapM (finish E (a.finer f res).outSize) = _ := mapM_finer E a.outSize f a.sep.sepList
  rw [this, except_bind_map, except_map_bind]
  congr 1
  funext l
  show Except.ok _ = Except.ok _
  simp [finer, Separator.finer]

variable {opt : AggregatorOpts} {a : Aggregator} {f : Int} {res : Resolution}

theorem add_finer {clk1 clk2 ts : Int} {x : AddArg} (hs : 0 < a.sep.step) (hf : 0 < f)
    (hr : res = .none ↔ a.sep.resolution = .none) (hz : a.sep.resolution ≠ .none → ts.tdiv f = 0 → ts = 0) :
    (a.finer f res).add env clk1 clk2 ts x =
      (a.add env (clk1.tdiv f) (clk2.tdiv f) (ts.tdiv f) x).map fun y => (y.1, y.2.finer f res) := by
  unfold add
  have he : (a.finer f res).enabled = a.enabled := rfl
  rw [he]
  by_cases hd : a.enabled = false
  · rw [if_pos hd, if_pos hd]
    rfl
  rw [if_neg hd, if_neg hd]
  have e : (a.finer f res).sep.add env clk1 clk2 ts x =
      (a.sep.add env (clk1.tdiv f) (clk2.tdiv f) (ts.tdiv f) x).map fun y => (y.1, y.2.finer f res) := by
    unfold Separator.add
    have : Separator.push env (a.finer f res).sep clk1 clk2 ts x false = _ :=
      Separator.push_finer (env := env) (s := a.sep) (clk2 := clk2) (x := x) (handler := false) hs hf hr hz
    rw [this, except_bind_map, except_map_bind]
    rfl
  rw [e, except_bind_map, except_map_bind]
  congr 1
  funext ⟨ok, s⟩
  cases ok with
  | false => rfl
  | true =>
    simp only [Bool.true_eq_false, if_false]
    have : aggregate0_ env.nth { a.finer f res with sep := s.finer f res } = _ := aggregate0_finer env.nth f res { a with sep := s }
    refine Eq.trans (congrArg (fun y => y >>= fun a => Except.ok (true, a)) this) ?_
    rw [except_bind_map, except_map_bind]
    rfl

theorem push_finer {clk1 clk2 ts : Int} {x : AddArg} {handler : Bool} (hs : 0 < a.sep.step) (hf : 0 < f)
    (hr : res = .none ↔ a.sep.resolution = .none) (hz : a.sep.resolution ≠ .none → ts.tdiv f = 0 → ts = 0) :
    (a.finer f res).push env clk1 clk2 ts x handler =
      (a.push env (clk1.tdiv f) (clk2.tdiv f) (ts.tdiv f) x handler).map
        fun y => (y.1, y.2.1.map (AggData.finer f), y.2.2.finer f res) := by
  unfold push
  have he : (a.finer f res).enabled = a.enabled := rfl
  rw [he]
  by_cases hd : a.enabled = false
  · rw [if_pos hd, if_pos hd]
    rfl
  rw [if_neg hd, if_neg hd]
  cases handler with
  | false =>
    rw [if_pos rfl, if_pos rfl, add_finer hs hf hr hz, except_bind_map, except_map_bind]
    rfl
  | true =>
    rw [if_neg (by simp), if_neg (by simp)]
    have : Separator.push env (a.finer f res).sep clk1 clk2 ts x true = _ :=
      Separator.push_finer (env := env) (s := a.sep) (clk2 := clk2) (x := x) (handler := true) hs hf hr hz
    rw [this, except_bind_map, except_map_bind]
    congr 1
    funext ⟨ok, out, s⟩
    simp only
    have : (out.map (AggData.finer f)).mapM (finish env.nth (a.finer f res).outSize) = _ := mapM_finer env.nth a.outSize f out
    rw [this, except_bind_map, except_map_bind]
    rfl

theorem exec_finer {o : AObs} {op : AOp} (hs : 0 < o.a.sep.step) (hf : 0 < f) (hr : res = .none ↔ o.a.sep.resolution = .none)
    (hz : o.a.sep.resolution ≠ .none → op.stamp.tdiv f = 0 → op.stamp = 0) :
    exec env (o.finer f res) op = (exec env o (op.times (·.tdiv f))).map (AObs.finer f res) := by
  have hrec : ∀ (clk ts : Int) (x : AddArg) (ok : Bool), (o.a.sep.resolution ≠ .none → ts.tdiv f = 0 → ts = 0) →
      (o.finer f res).record ok clk ts x = (o.record ok (clk.tdiv f) (ts.tdiv f) x).map fun e => (f * e.1, e.2) := by
    intro clk ts x ok hz
    unfold AObs.record
    have he : (o.finer f res).a.enabled = o.a.enabled := rfl
    rw [he]
    by_cases hc : ok = true ∧ o.a.enabled = true
    · rw [if_pos hc, if_pos hc, List.map_append]
      congr 1
      simp only [List.map_cons, List.map_nil, List.cons.injEq, Prod.mk.injEq, and_true]
      have e1 : (o.finer f res).a.sep.step = f * o.a.sep.step := rfl
      have e2 : (o.finer f res).a.sep.resolution = res := rfl
      rw [e1, e2]
      have hm : meant o.a.sep.resolution (clk.tdiv f) (ts.tdiv f) = (meant res clk ts).tdiv f := by
        unfold meant
        by_cases h : o.a.sep.resolution = .none
        · rw [if_neg (by simp [h]), if_neg (by simp [hr.2 h])]
        · have h' : res ≠ .none := fun e => h (hr.1 e)
          by_cases h0 : ts = 0
          · subst h0
            rw [if_pos ⟨Int.zero_tdiv f, h⟩, if_pos ⟨rfl, h'⟩]
          · rw [if_neg (fun hh => h0 (hz h hh.1)), if_neg (fun hh => h0 hh.1)]
      rw [hm]
      exact align_finer hf
    · rw [if_neg hc, if_neg hc]
      rfl
  cases op with
  | add clk1 clk2 ts x =>
    have e : (o.finer f res).a.add env clk1 clk2 ts x = _ :=
      add_finer (env := env) (a := o.a) (clk1 := clk1) (clk2 := clk2) (ts := ts) (x := x) hs hf hr hz
    simp only [AOp.times, exec]
    rw [e, except_bind_map, except_map_bind]
    congr 1
    funext ⟨ok, a⟩
    simp only
    rw [hrec clk1 ts x ok hz]
    rfl
  | push clk1 clk2 ts x handler =>
    have e : (o.finer f res).a.push env clk1 clk2 ts x handler = _ :=
      push_finer (env := env) (a := o.a) (clk1 := clk1) (clk2 := clk2) (ts := ts) (x := x) (handler := handler) hs hf hr hz
    simp only [AOp.times, exec]
    rw [e, except_bind_map, except_map_bind]
    congr 1
    funext ⟨ok, out, a⟩
    simp only
    rw [hrec clk1 ts x ok hz]
    show Except.ok _ = Except.ok _
    simp [AObs.finer]
  | separate clk ts handler force =>
    have e : (o.finer f res).a.sep.separate env clk ts handler force = _ :=
      Separator.separate_finer (env := env) (s := o.a.sep) (clk := clk) (ts := ts) (handler := handler) (force := force) hs hf hr hz
    simp only [AOp.times, exec, separate]
    rw [e]
    simp only [except_bind_map, except_map_bind, bind_assoc]
    congr 1
    funext ⟨b, out, s⟩
    simp only
    have : aggregate0_ env.nth { (o.finer f res).a with sep := s.finer f res } = _ := aggregate0_finer env.nth f res { o.a with sep := s }
    rw [this, except_bind_map]
    congr 1
    funext a
    show Except.ok _ = Except.ok _
    simp [AObs.finer]
  | pop =>
    simp only [AOp.times, exec, pop]
    have : (o.finer f res).a.agList = o.a.agList.map (AggData.finer f) := rfl
    rw [this]
    cases h : o.a.agList with
    | nil =>
      show Except.ok _ = Except.ok _
      simp [AObs.finer]
    | cons d l =>
      show Except.ok _ = Except.ok _
      simp [AObs.finer, finer]
  | forcePop =>
    simp only [AOp.times, exec, forcePop]
    have e : (o.finer f res).a.sep.forcePop env = (o.a.sep.forcePop env).map fun y => (y.1.map (AggData.finer f), y.2.finer f res) := by
      unfold Separator.forcePop Separator.pop
      have hl : (o.finer f res).a.sep.sepList = o.a.sep.sepList.map (AggData.finer f) := rfl
      rw [hl]
      cases h : o.a.sep.sepList with
      | nil =>
        simp only [List.map_nil]
        have hr : (o.finer f res).a.sep.reducer = o.a.sep.reducer := rfl
        rw [hr, except_map_bind]
        congr 1
        funext ⟨d, r⟩
        show Except.ok _ = Except.ok _
        cases d with
        | none => simp [AObs.finer, finer, Separator.finer]
        | some d =>
          simp only [AObs.finer, finer, Separator.finer, Option.map_some, AggData.finer]
          rw [show f * o.a.sep.next - f * o.a.sep.step = f * (o.a.sep.next - o.a.sep.step) by ring]
      | cons d l =>
        simp only [List.map_cons]
        rfl
    rw [e]
    simp only [except_bind_map, except_map_bind, bind_assoc]
    congr 1
    funext ⟨d, s⟩
    cases d with
    | none =>
      show Except.ok _ = Except.ok _
      simp [AObs.finer, finer]
    | some d =>
      simp only [Option.map_some]
      have : finish env.nth (o.finer f res).a.outSize (d.finer f) = _ := finish_finer env.nth o.a.outSize f d
      rw [this]
      simp only [except_bind_map, bind_assoc]
      congr 1
      funext ag
      show Except.ok _ = Except.ok _
      simp [AObs.finer, finer]
  | look =>
    simp only [AOp.times, exec, aggregateCurrent]
    have e : (o.finer f res).a.sep.getCurrent env = (o.a.sep.getCurrent env).map (Option.map (AggData.finer f)) := by
      unfold Separator.getCurrent
      have hr : (o.finer f res).a.sep.reducer = o.a.sep.reducer := rfl
      rw [hr, except_map_bind]
      congr 1
      funext d
      show Except.ok _ = Except.ok _
      cases d with
      | none => rfl
      | some d =>
        simp only [AObs.finer, finer, Separator.finer, Option.map_some, AggData.finer]
        rw [show f * o.a.sep.next - f * o.a.sep.step = f * (o.a.sep.next - o.a.sep.step) by ring]
    rw [e]
    simp only [except_bind_map, except_map_bind, bind_assoc]
    congr 1
    funext d
    cases d with
    | none => rfl
    | some d =>
      simp only [Option.map_some]
      have : finish env.nth (o.finer f res).a.outSize (d.finer f) = _ := finish_finer env.nth o.a.outSize f d
      rw [this]
      simp only [except_bind_map, bind_assoc]
      rfl
  | enable v => rfl

end Aggregator

end Wrtstat
