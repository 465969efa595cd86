/-
Two aggregators, with other options and another library, run side by side.
-/
import Verif.Spec.Likeness
import Verif.Lemmas.AggregatorInv
import Verif.Lemmas.Shift
import Verif.Lemmas.AggregatorTotal

namespace Wrtstat

set_option autoImplicit false

/-- What has to be known of two reducers, of the records they give (`D`) and of the records delivered (`F`), for the aggregators that
contain them to keep in step.  `n` and `n'` are the two values of `outgoing_reduced_size`. -/
structure Twins (env env' : Env) (n n' : Nat) where
  R : Reducer → Reducer → Prop
  X : AddArg → AddArg → Prop
  D : AggData → AggData → Prop
  F : AggData → AggData → Prop
  add : ∀ {r r' : Reducer} {x x' : AddArg}, R r r' → X x x' → R (r.add env x) (r'.add env' x')
  detach : ∀ {r r' q q' : Reducer} {o o' : Option AggData}, R r r' → r.detach env = .ok (o, q) → r'.detach env' = .ok (o', q') →
    R q q' ∧ Option.Rel D o o'
  setTs : ∀ {d d' : AggData} (t : Int), D d d' → D { d with ts := t } { d' with ts := t }
  finish : ∀ {d d' x x' : AggData}, D d d' → Aggregator.finish env.nth n d = .ok x → Aggregator.finish env'.nth n' d' = .ok x' → F x x'
  raw : ∀ {d d' : AggData}, D d d' → F d d'

namespace Twins

variable {env env' : Env} {n n' : Nat} (T : Twins env env' n n')

theorem mapM {l l' : List AggData} (g : List.Forall₂ T.D l l') : ∀ {m m' : List AggData}, l.mapM (Aggregator.finish env.nth n) = .ok m →
    l'.mapM (Aggregator.finish env'.nth n') = .ok m' → List.Forall₂ T.F m m' := by
  induction g with
  | nil =>
    intro m m' h h'
    cases h; cases h'
    exact .nil
  | cons hd ht ih =>
    intro m m' h h'
    rw [List.mapM_cons] at h h'
    obtain ⟨x, e, h⟩ := bind_inv h
    obtain ⟨xs, e2, h⟩ := bind_inv h
    obtain ⟨x', e', h'⟩ := bind_inv h'
    obtain ⟨xs', e2', h'⟩ := bind_inv h'
    cases h; cases h'
    exact .cons (T.finish hd e e') (ih e2 e2')

theorem rawAll {l l' : List AggData} (g : List.Forall₂ T.D l l') : List.Forall₂ T.F l l' := g.imp fun _ _ h => T.raw h

/-- Separators in step. -/
structure S (s s' : Separator) : Prop where
  step : s'.step = s.step
  next : s'.next = s.next
  res : s'.resolution = s.resolution
  red : T.R s.reducer s'.reducer
  list : List.Forall₂ T.D s.sepList s'.sepList

variable {T}

theorem S.getTs {s s' : Separator} (g : T.S s s') (clk ts : Int) : s'.getTs clk ts = s.getTs clk ts := by
  unfold Separator.getTs
  rw [g.step, g.res]

theorem toList {o o' : Option AggData} (h : Option.Rel T.D o o') (t : Int) :
    List.Forall₂ T.D (o.map fun d => { d with ts := t }).toList (o'.map fun d => { d with ts := t }).toList := by
  cases h with
  | none => exact .nil
  | some h => exact .cons (T.setTs t h) .nil

theorem sepLoop (step t : Int) : ∀ (k : Nat) (next : Int) {r r' q q' : Reducer} {l l' : List AggData} {m m' : Int},
    (t - next + 1).toNat ≤ k → T.R r r' → Separator.sepLoop env step t next r = .ok (l, m, q) →
    Separator.sepLoop env' step t next r' = .ok (l', m', q') → m' = m ∧ T.R q q' ∧ List.Forall₂ T.D l l' := by
  intro k
  induction k with
  | zero =>
    intro next r r' q q' l l' m m' hk g h h'
    rw [Separator.sepLoop, dif_neg (by omega)] at h h'
    cases h; cases h'
    exact ⟨rfl, g, .nil⟩
  | succ k ih =>
    intro next r r' q q' l l' m m' hk g h h'
    rw [Separator.sepLoop] at h h'
    by_cases hn : next ≤ t
    · rw [dif_pos hn] at h h'
      by_cases hs : 0 < step
      · rw [dif_pos hs] at h h'
        obtain ⟨⟨o, r1⟩, e1, h⟩ := bind_inv h
        obtain ⟨⟨l1, n1, r2⟩, e2, h⟩ := bind_inv h
        obtain ⟨⟨o', r1'⟩, e1', h'⟩ := bind_inv h'
        obtain ⟨⟨l1', n1', r2'⟩, e2', h'⟩ := bind_inv h'
        cases h; cases h'
        obtain ⟨g1, ho⟩ := T.detach g e1 e1'
        obtain ⟨a1, a2, a3⟩ := ih (next + step) (by omega) g1 e2 e2'
        exact ⟨a1, a2, List.rel_append (toList ho _) a3⟩
      · rw [dif_neg hs] at h
        cases h
    · rw [dif_neg hn] at h h'
      cases h; cases h'
      exact ⟨rfl, g, .nil⟩

theorem S.separate {s s' q q' : Separator} (g : T.S s s') {clk ts : Int} {handler force b b' : Bool} {out out' : List AggData}
    (h : s.separate env clk ts handler force = .ok (b, out, q)) (h' : s'.separate env' clk ts handler force = .ok (b', out', q')) :
    b' = b ∧ List.Forall₂ T.D out out' ∧ T.S q q' := by
  unfold Separator.separate at h h'
  rw [g.getTs] at h'
  obtain ⟨t, e, h⟩ := bind_inv h
  rw [e, bind_ok', g.next] at h'
  by_cases hc : force = false ∧ t < s.next
  · rw [if_pos hc] at h h'
    cases h; cases h'
    exact ⟨rfl, .nil, g⟩
  · rw [if_neg hc] at h h'
    rw [g.step] at h'
    obtain ⟨⟨l, m, r⟩, e1, h⟩ := bind_inv h
    obtain ⟨⟨l', m', r'⟩, e1', h'⟩ := bind_inv h'
    obtain ⟨a1, a2, a3⟩ := sepLoop s.step t _ s.next (le_refl _) g.red e1 e1'
    cases handler with
    | true =>
      simp only [if_true] at h h'
      cases h; cases h'
      exact ⟨rfl, a3, rfl, a1, g.res, a2, g.list⟩
    | false =>
      simp only [Bool.false_eq_true, if_false] at h h'
      cases h; cases h'
      exact ⟨rfl, .nil, rfl, a1, g.res, a2, List.rel_append g.list a3⟩

theorem S.push {s s' q q' : Separator} (g : T.S s s') {clk1 clk2 ts : Int} {x x' : AddArg} {handler b b' : Bool} {out out' : List AggData}
    (hx : T.X x x') (h : s.push env clk1 clk2 ts x handler = .ok (b, out, q))
    (h' : s'.push env' clk1 clk2 ts x' handler = .ok (b', out', q')) : b' = b ∧ List.Forall₂ T.D out out' ∧ T.S q q' := by
  unfold Separator.push at h h'
  rw [g.getTs] at h'
  obtain ⟨t, e, h⟩ := bind_inv h
  rw [e, bind_ok'] at h'
  obtain ⟨⟨c, o1, s1⟩, e1, h⟩ := bind_inv h
  obtain ⟨⟨c', o1', s1'⟩, e1', h'⟩ := bind_inv h'
  obtain ⟨_, a2, a3⟩ := g.separate e1 e1'
  simp only at h h'
  rw [a3.next, a3.step] at h'
  by_cases hc : t < s1.next - s1.step
  · rw [if_pos hc] at h h'
    cases h; cases h'
    exact ⟨rfl, a2, a3⟩
  · rw [if_neg hc] at h h'
    cases h; cases h'
    exact ⟨rfl, a2, rfl, rfl, a3.res, T.add a3.red hx, a3.list⟩

theorem S.forcePop {s s' q q' : Separator} (g : T.S s s') {o o' : Option AggData} (h : s.forcePop env = .ok (o, q))
    (h' : s'.forcePop env' = .ok (o', q')) : Option.Rel T.D o o' ∧ T.S q q' := by
  unfold Separator.forcePop Separator.pop at h h'
  have hl := g.list
  generalize hl1 : s.sepList = l at hl h
  generalize hl2 : s'.sepList = l' at hl h'
  cases hl with
  | nil =>
    simp only at h h'
    obtain ⟨⟨d, r⟩, e, h⟩ := bind_inv h
    obtain ⟨⟨d', r'⟩, e', h'⟩ := bind_inv h'
    cases h; cases h'
    obtain ⟨a1, a2⟩ := T.detach g.red e e'
    refine ⟨?_, g.step, g.next, g.res, a1, g.list⟩
    simp only
    rw [g.next, g.step]
    cases a2 with
    | none => exact .none
    | some a => exact .some (T.setTs _ a)
  | cons hd ht =>
    cases h; cases h'
    exact ⟨.some hd, g.step, g.next, g.res, g.red, ht⟩

variable (T)

/-- Aggregators in step. -/
structure A (a a' : Aggregator) : Prop where
  sep : T.S a.sep a'.sep
  out : a.outSize = n
  out' : a'.outSize = n'
  on : a'.enabled = a.enabled
  list : List.Forall₂ T.F a.agList a'.agList

/-- What is observed of two runs in step. -/
structure O (o o' : Aggregator.AObs) : Prop where
  a : T.A o.a o'.a
  received : List.Forall₂ T.F o.received o'.received
  accepted : List.Forall₂ (Aggregator.SameTime T.X) o.accepted o'.accepted

variable {T}

theorem A.aggregate0 {a a' q q' : Aggregator} (g : T.A a a')
    (h : Aggregator.aggregate0_ env.nth a = .ok q) (h' : Aggregator.aggregate0_ env'.nth a' = .ok q') : T.A q q' := by
  unfold Aggregator.aggregate0_ at h h'
  rw [g.out] at h
  rw [g.out'] at h'
  obtain ⟨l, e, h⟩ := bind_inv h
  obtain ⟨l', e', h'⟩ := bind_inv h'
  cases h; cases h'
  exact ⟨⟨g.sep.step, g.sep.next, g.sep.res, g.sep.red, .nil⟩, rfl, rfl, g.on, List.rel_append g.list (T.mapM g.sep.list e e')⟩

theorem A.withSep {a a' : Aggregator} (g : T.A a a') {s s' : Separator} (h : T.S s s') :
    T.A { a with sep := s } { a' with sep := s' } := ⟨h, g.out, g.out', g.on, g.list⟩

theorem A.withSep' {a a' : Aggregator} (g : T.A a a') {s s' : Separator} (h : T.S s s') :
    T.A { a with sep := s } { a' with sep := s', enabled := a.enabled } := ⟨h, g.out, g.out', rfl, g.list⟩

theorem A.add {a a' q q' : Aggregator} (g : T.A a a') {clk1 clk2 ts : Int} {x x' : AddArg} {b b' : Bool} (hx : T.X x x')
    (h : a.add env clk1 clk2 ts x = .ok (b, q)) (h' : a'.add env' clk1 clk2 ts x' = .ok (b', q')) : b' = b ∧ T.A q q' := by
  unfold Aggregator.add at h h'
  rw [g.on] at h'
  by_cases he : a.enabled = false
  · rw [if_pos he] at h h'
    cases h; cases h'
    exact ⟨rfl, g⟩
  rw [if_neg he] at h h'
  obtain ⟨⟨ok, s⟩, e, h⟩ := bind_inv h
  obtain ⟨⟨ok', s'⟩, e', h'⟩ := bind_inv h'
  obtain ⟨⟨c, o, s1⟩, e1, e⟩ := bind_inv e
  obtain ⟨⟨c', o', s1'⟩, e1', e'⟩ := bind_inv e'
  cases e; cases e'
  obtain ⟨a1, _, a3⟩ := g.sep.push hx e1 e1'
  simp only at h h'
  subst a1
  cases ok' with
  | false =>
    simp only [if_true] at h h'
    cases h; cases h'
    exact ⟨rfl, g.withSep' a3⟩
  | true =>
    simp only [Bool.true_eq_false, if_false] at h h'
    obtain ⟨y, e2, h⟩ := bind_inv h
    obtain ⟨y', e2', h'⟩ := bind_inv h'
    cases h; cases h'
    exact ⟨rfl, (g.withSep' a3).aggregate0 e2 e2'⟩

theorem A.push {a a' q q' : Aggregator} (g : T.A a a') {clk1 clk2 ts : Int} {x x' : AddArg} {handler b b' : Bool}
    {out out' : List AggData} (hx : T.X x x') (h : a.push env clk1 clk2 ts x handler = .ok (b, out, q))
    (h' : a'.push env' clk1 clk2 ts x' handler = .ok (b', out', q')) : b' = b ∧ List.Forall₂ T.F out out' ∧ T.A q q' := by
  unfold Aggregator.push at h h'
  rw [g.on] at h'
  by_cases he : a.enabled = false
  · rw [if_pos he] at h h'
    cases h; cases h'
    exact ⟨rfl, .nil, g⟩
  rw [if_neg he] at h h'
  cases handler with
  | false =>
    rw [if_pos rfl] at h h'
    obtain ⟨⟨ok, y⟩, e, h⟩ := bind_inv h
    obtain ⟨⟨ok', y'⟩, e', h'⟩ := bind_inv h'
    cases h; cases h'
    obtain ⟨a1, a2⟩ := g.add hx e e'
    exact ⟨a1, .nil, a2⟩
  | true =>
    rw [if_neg (by simp)] at h h'
    obtain ⟨⟨ok, o, s⟩, e, h⟩ := bind_inv h
    obtain ⟨l, e2, h⟩ := bind_inv h
    obtain ⟨⟨ok', o', s'⟩, e', h'⟩ := bind_inv h'
    obtain ⟨l', e2', h'⟩ := bind_inv h'
    cases h; cases h'
    obtain ⟨a1, a2, a3⟩ := g.sep.push hx e e'
    rw [g.out] at e2
    rw [g.out'] at e2'
    exact ⟨a1, T.mapM a2 e2 e2', g.withSep' a3⟩

theorem O.exec {o o' p p' : Aggregator.AObs} {op op' : Aggregator.AOp} (g : T.O o o') (hop : op.Like T.X op')
    (h : Aggregator.exec env o op = .ok p) (h' : Aggregator.exec env' o' op' = .ok p') : T.O p p' := by
  have hrec : ∀ (ok : Bool) (clk ts : Int) (x x' : AddArg), T.X x x' →
      List.Forall₂ (Aggregator.SameTime T.X) (o.record ok clk ts x) (o'.record ok clk ts x') := by
    intro ok clk ts x x' hx
    unfold Aggregator.AObs.record
    rw [g.a.on, g.a.sep.step, g.a.sep.res]
    split_ifs
    · exact List.rel_append g.accepted (.cons ⟨rfl, hx⟩ .nil)
    · exact g.accepted
  cases hop with
  | add clk1 clk2 ts hx =>
    obtain ⟨⟨ok, a⟩, e, h⟩ := bind_inv h
    obtain ⟨⟨ok', a'⟩, e', h'⟩ := bind_inv h'
    cases h; cases h'
    obtain ⟨a1, a2⟩ := g.a.add hx e e'
    subst a1
    exact ⟨a2, g.received, hrec _ _ _ _ _ hx⟩
  | push clk1 clk2 ts handler hx =>
    obtain ⟨⟨ok, out, a⟩, e, h⟩ := bind_inv h
    obtain ⟨⟨ok', out', a'⟩, e', h'⟩ := bind_inv h'
    cases h; cases h'
    obtain ⟨a1, a2, a3⟩ := g.a.push hx e e'
    subst a1
    exact ⟨a3, List.rel_append g.received a2, hrec _ _ _ _ _ hx⟩
  | separate clk ts handler force =>
    obtain ⟨⟨ok, out, a⟩, e, h⟩ := bind_inv h
    obtain ⟨⟨ok', out', a'⟩, e', h'⟩ := bind_inv h'
    cases h; cases h'
    obtain ⟨⟨b, l, s⟩, e1, e⟩ := bind_inv e
    obtain ⟨y, e2, e⟩ := bind_inv e
    obtain ⟨⟨b', l', s'⟩, e1', e'⟩ := bind_inv e'
    obtain ⟨y', e2', e'⟩ := bind_inv e'
    cases e; cases e'
    obtain ⟨_, a2, a3⟩ := g.a.sep.separate e1 e1'
    exact ⟨(g.a.withSep a3).aggregate0 e2 e2', List.rel_append g.received (T.rawAll a2), g.accepted⟩
  | pop =>
    simp only [Aggregator.exec, Aggregator.pop] at h h'
    have hl := g.a.list
    generalize hl1 : o.a.agList = l at hl h
    generalize hl2 : o'.a.agList = l' at hl h'
    cases hl with
    | nil =>
      cases h; cases h'
      exact ⟨g.a, by simpa using g.received, g.accepted⟩
    | cons hd ht =>
      cases h; cases h'
      exact ⟨⟨g.a.sep, g.a.out, g.a.out', g.a.on, ht⟩, List.rel_append g.received (.cons hd .nil), g.accepted⟩
  | forcePop =>
    obtain ⟨⟨d, a⟩, e, h⟩ := bind_inv h
    obtain ⟨⟨d', a'⟩, e', h'⟩ := bind_inv h'
    cases h; cases h'
    obtain ⟨⟨x, s⟩, e1, e⟩ := bind_inv e
    obtain ⟨⟨x', s'⟩, e1', e'⟩ := bind_inv e'
    obtain ⟨a1, a2⟩ := g.a.sep.forcePop e1 e1'
    cases a1 with
    | none =>
      cases e; cases e'
      exact ⟨g.a.withSep a2, by simpa using g.received, g.accepted⟩
    | some a1 =>
      simp only at e e'
      obtain ⟨y, e2, e⟩ := bind_inv e
      obtain ⟨y', e2', e'⟩ := bind_inv e'
      cases e; cases e'
      rw [g.a.out] at e2
      rw [g.a.out'] at e2'
      exact ⟨g.a.withSep a2, List.rel_append g.received (.cons (T.finish a1 e2 e2') .nil), g.accepted⟩
  | look =>
    obtain ⟨_, _, h⟩ := bind_inv h
    obtain ⟨_, _, h'⟩ := bind_inv h'
    cases h; cases h'
    exact g
  | enable v =>
    cases h; cases h'
    exact ⟨⟨g.a.sep, g.a.out, g.a.out', rfl, g.a.list⟩, g.received, g.accepted⟩

theorem O.execAll {ops ops' : List Aggregator.AOp} (hl : List.Forall₂ (Aggregator.AOp.Like T.X) ops ops') :
    ∀ {o o' p p' : Aggregator.AObs}, T.O o o' → Aggregator.execAll env o ops = .ok p → Aggregator.execAll env' o' ops' = .ok p' →
    T.O p p' := by
  unfold Aggregator.execAll
  induction hl with
  | nil =>
    intro o o' p p' g h h'
    cases h; cases h'
    exact g
  | cons hd ht ih =>
    intro o o' p p' g h h'
    rw [List.foldlM_cons] at h h'
    obtain ⟨o1, e1, h⟩ := bind_inv h
    obtain ⟨o1', e1', h'⟩ := bind_inv h'
    exact ih (g.exec hd e1 e1') h h'

/-- Fresh aggregators with empty reducers in step are in step. -/
theorem O.start {opt opt' : AggregatorOpts} {a a' : Aggregator} (hs : 0 < opt.step) (hstep : opt'.step = opt.step)
    (hres : opt'.resolution = opt.resolution) (h : Aggregator.Fresh env opt a) (h' : Aggregator.Fresh env' opt' a')
    (hn : opt.outSize = n) (hn' : opt'.outSize = n') (hnext : a'.sep.next = a.sep.next) (ho : a'.enabled = a.enabled)
    (hR : Reducer.GoodA env opt.toReducerOpts a.sep.reducer [] → Reducer.GoodA env' opt'.toReducerOpts a'.sep.reducer [] →
      T.R a.sep.reducer a'.sep.reducer) : T.O { a := a } { a := a' } := by
  have g := Aggregator.pgood_fresh (Q := fun _ _ => True) hs h
  have g' := Aggregator.pgood_fresh (Q := fun _ _ => True) (by rw [hstep]; exact hs) h'
  obtain ⟨h1, h2⟩ := Aggregator.fresh_keep h
  obtain ⟨h1', h2'⟩ := Aggregator.fresh_keep h'
  exact ⟨⟨⟨by rw [g.sep.step.1, g'.sep.step.1]; exact hstep, hnext, by rw [g.sep.step.2, g'.sep.step.2]; exact hres,
    hR g.sep.red g'.sep.red, by rw [h1, h1']; exact .nil⟩, g.out.trans hn, g'.out.trans hn', ho, by rw [h2, h2']; exact .nil⟩, .nil, .nil⟩

end Twins

end Wrtstat
