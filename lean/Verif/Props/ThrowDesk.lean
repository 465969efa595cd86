/-
C176: an aggregator shared by threads whose handlers throw is a desk at which the books are kept, one call after the other.
-/
import Verif.Model.ThrowingMt
import Verif.Props.ThrowFolio

namespace Wrtstat

set_option autoImplicit false

open Aggregator

namespace Aggregator

/-- The slip a call of the desk gives to its handler. -/
def Desk.gives (opt : AggregatorOpts) (D : Desk) : MtOp → List Slip
  | .push c1 c2 ts x h => AOp.given opt D.toFullbook (.push c1 c2 ts x h)
  | .separate c ts h f => AOp.given opt D.toFullbook (.separate c ts h f)
  | _ => []

/-- A call at the desk.  It is one of C163, and its handler did not throw on what it was given; or it had a slip to give, the
handler threw on the record that says it, and the page, emptied, stays open and nothing is noted. -/
def Desk.SpecX (env : Env) (opt : AggregatorOpts) (D : Desk) (x : XOp) (r : M XRet) (D' : Desk) : Prop :=
  (∃ r0, r = .ok (.back r0) ∧ D.Spec env opt x.op (.ok r0) D' ∧ ∀ b out, r0 = .handed b out → ∀ d ∈ out, x.thr d = false) ∨
  (∃ s d, D.gives opt x.op = [s] ∧ Slip.Says env opt s d ∧ x.thr d = true ∧ r = .ok (.threw [d]) ∧ D' = { D with on := [], made := [s] })

theorem sepLoopX_quiet {env : Env} {step ts next next1 : Int} {f : AggData → M AggData} {thr : AggData → Bool} {r r1 : Reducer} {out : List AggData}
    (h : Separator.sepLoopX env step ts (fun d => do let d ← f d; .ok (d, thr d)) next r = .ok (false, out, next1, r1)) : ∀ d ∈ out, thr d = false := by
  rw [Separator.sepLoopX] at h
  split_ifs at h with hn hs
  · obtain ⟨⟨d, r2⟩, h1, h⟩ := bind_inv h
    have he := detach_empty h1
    simp only at h
    cases d with
    | none =>
      simp only [bind_ok', Bool.false_eq_true, if_false] at h
      rw [Separator.sepLoopX_empty hs he _ _ (le_refl _), bind_ok'] at h
      cases h
      simp
    | some d =>
      obtain ⟨⟨t1, o1⟩, h2, h⟩ := bind_inv h
      obtain ⟨⟨d1, t2⟩, h3, h2⟩ := bind_inv h2
      cases h2
      obtain ⟨d2, h4, h3⟩ := bind_inv h3
      cases h3
      simp only at h
      split_ifs at h with ht
      · cases h
      · rw [Separator.sepLoopX_empty hs he _ _ (le_refl _), bind_ok'] at h
        cases h
        simpa using ht
  · cases h
    simp

theorem pushX_unthrown {env : Env} {a a1 : Aggregator} {c1 c2 ts : Int} {x : AddArg} {thr : AggData → Bool} {b : Bool} {out : List AggData}
    (h : a.pushX env c1 c2 ts x thr = .ok (some b, out, a1)) : ∀ d ∈ out, thr d = false := by
  unfold Aggregator.pushX at h
  split_ifs at h
  · cases h; simp
  obtain ⟨T, h1, h⟩ := bind_inv h
  obtain ⟨T', h2, h⟩ := bind_inv h
  obtain ⟨⟨th, out1, next, r⟩, h3, h⟩ := bind_inv h
  simp only at h
  cases th with
  | true => rw [if_pos rfl] at h; cases h
  | false =>
    rw [if_neg (by simp)] at h
    split_ifs at h <;> (cases h; exact sepLoopX_quiet h3)

theorem mapM_ok {l out : List AggData} (h : l.mapM (fun d => (.ok d : M AggData)) = .ok out) : out = l := by
  induction l generalizing out with
  | nil => cases h; rfl
  | cons d l ih =>
    rw [List.mapM_cons] at h
    obtain ⟨d', h1, h⟩ := bind_inv h
    obtain ⟨l', h2, h⟩ := bind_inv h
    cases h1
    cases h
    rw [ih h2]

/-- What `separate` does with a handler that may throw. -/
theorem separateX_spec {env : Env} {a a1 : Aggregator} {clk ts : Int} {force : Bool} {thr : AggData → Bool} {res : Option Bool} {out : List AggData}
    (h : a.separateX env clk ts force thr = .ok (res, out, a1)) :
    (∀ b, res = some b → a.separate env clk ts true force = .ok (b, out, a1) ∧ ∀ d ∈ out, thr d = false) ∧
    (res = none → ∃ t r d b s', a.sep.getTs clk ts = .ok t ∧ out = [d] ∧ thr d = true ∧ a.sep.next ≤ t ∧ a1 = { a with sep := { a.sep with reducer := r } } ∧
      Separator.sepLoop env a.sep.step t a.sep.next a.sep.reducer = .ok ([d], s', r) ∧
      ∃ a2, a.separate env clk ts true force = .ok (b, [d], a2)) := by
  unfold Aggregator.separateX at h
  obtain ⟨t, h1, h⟩ := bind_inv h
  split_ifs at h with hc
  · obtain ⟨a2, h2, h⟩ := bind_inv h
    cases h
    refine ⟨fun b hb => ⟨?_, by simp⟩, fun h => (by cases h)⟩
    cases hb
    unfold Aggregator.separate Separator.separate
    rw [h1, bind_ok', if_pos hc, bind_ok']
    simp only [h2, bind_ok']
  · obtain ⟨⟨th, out1, next, r⟩, h3, h⟩ := bind_inv h
    obtain ⟨l, e1, e2, e3, e4⟩ := Separator.sepLoopX_spec h3
    have e2 := mapM_ok e2
    subst e2
    simp only at h
    cases th with
    | false =>
      rw [if_neg (by simp)] at h
      obtain ⟨a2, h2, h⟩ := bind_inv h
      cases h
      refine ⟨fun b hb => ⟨?_, sepLoopX_quiet h3⟩, fun h => (by cases h)⟩
      cases hb
      unfold Aggregator.separate Separator.separate
      rw [h1, bind_ok', if_neg hc, e1, bind_ok']
      simp only [if_true, bind_ok']
      rw [← e3 rfl, h2]
      rfl
    | true =>
      rw [if_pos rfl] at h
      cases h
      refine ⟨fun b hb => (by cases hb), fun _ => ?_⟩
      obtain ⟨hs, f1, f2, f3, d, f4, f5⟩ := e4 rfl
      subst f4
      subst f3
      obtain ⟨l, el, -⟩ := aggregate0_spec env.nth { a with sep := { a.sep with next := after a.sep.step t a.sep.next, reducer := r } }
      refine ⟨t, r, d, true, _, h1, rfl, f5, f2, rfl, e1, ?_⟩
      unfold Aggregator.separate Separator.separate
      rw [h1, bind_ok', if_neg hc, e1, bind_ok']
      simp only [if_true, bind_ok', el]
      exact ⟨_, rfl⟩

section

variable {env : Env} {opt : AggregatorOpts} {mi ma : Int} {D : Desk} {a : Aggregator}

/-- The desk after an exception. -/
theorem desk_torn (A : AtDesk env opt mi ma D a) {op : AOp} {s : Slip} {a1 : Aggregator} {d : AggData}
    (F : FBooked env opt (AOp.torn opt { D.toFullbook with made := [] } op) ⟨a1, [] ++ [d], []⟩) (hl : a1.alive = a.alive)
    (hg : op.given opt { D.toFullbook with made := [] } = [s]) : AtDesk env opt mi ma { D with on := [], made := [s] } a1 ∧ Slip.Says env opt s d := by
  have hm := F.made
  simp only [AOp.torn, hg, List.nil_append] at hm
  refine ⟨?_, by cases hm; assumption⟩
  exact atDesk_of (D := { D with on := [], made := [s] }) (out := [d]) (acc := [])
    ⟨F.page.congr rfl rfl, F.out, F.raw, F.tray, F.en, F.queue, hm⟩ (hl.trans A.live) (by simp)

theorem given_one {op : AOp} {a1 : Aggregator} {d : AggData}
    (F : FBooked env opt (AOp.torn opt { D.toFullbook with made := [] } op) ⟨a1, [] ++ [d], []⟩) :
    ∃ s, op.given opt { D.toFullbook with made := [] } = [s] := by
  have hm := F.made.length_eq
  simp only [AOp.torn, List.nil_append, List.length_singleton] at hm
  exact List.length_eq_one_iff.1 hm

theorem fbooked_separateX (hs : 0 < opt.step) {D : Fullbook} {a a1 : Aggregator} {out : List AggData} {c ts : Int} {f : Bool} {thr : AggData → Bool}
    (B : FBooked env opt D ⟨a, [], []⟩) (h : a.separateX env c ts f thr = .ok (none, out, a1)) :
    FBooked env opt (AOp.torn opt D (.separate c ts true f)) ⟨a1, [] ++ out, []⟩ ∧ ∃ d, out = [d] ∧ thr d = true := by
  obtain ⟨-, h⟩ := separateX_spec h
  obtain ⟨t, r, d, b, s', h1, rfl, h3, h4, rfl, h5, a2, h6⟩ := h rfl
  have hx : exec env ⟨a, [], []⟩ (.separate c ts true f) = .ok ⟨a2, [] ++ [d], []⟩ := by
    simp only [exec, h6, bind_ok']
  have hm := (fbooked_exec hs B _ hx).made
  rw [given_made rfl] at hm
  exact ⟨⟨(page_torn hs B.page h1 h5 h4).congr rfl rfl, B.out, B.raw, B.tray, B.en, B.queue, hm⟩, d, rfl, h3⟩

theorem pushX_total (hs : 0 < opt.step) (B : Reducer.Bounds env mi ma) (A : AtDesk env opt mi ma D a) (c1 c2 ts : Int) (x : AddArg) (thr : AggData → Bool) :
    ∃ res out a', a.pushX env c1 c2 ts x thr = .ok (res, out, a') := by
  have hst : 0 < a.sep.step := by rw [A.books.page.step]; exact hs
  unfold Aggregator.pushX
  split_ifs with he
  · exact ⟨_, _, _, rfl⟩
  · rw [getTs_align hst, bind_ok', getTs_align hst, bind_ok']
    obtain ⟨⟨th, out, next, r⟩, e⟩ := Separator.sepLoopX_total (ts := align a.sep.step (meant a.sep.resolution c2 (align a.sep.step (meant a.sep.resolution c1 ts)))) (next := a.sep.next) hst
      (give := fun d => do let d ← finish env.nth a.outSize d; .ok (d, thr d)) (fun d => by
        obtain ⟨d', e, -⟩ := finish_spec env.nth a.outSize d
        simp only [e, bind_ok']
        exact ⟨_, rfl⟩) (page_total B A).2
    simp only [e, bind_ok']
    split_ifs <;> exact ⟨_, _, _, rfl⟩

theorem separateX_total (hs : 0 < opt.step) (B : Reducer.Bounds env mi ma) (A : AtDesk env opt mi ma D a) (c ts : Int) (f : Bool) (thr : AggData → Bool) :
    ∃ res out a', a.separateX env c ts f thr = .ok (res, out, a') := by
  have hst : 0 < a.sep.step := by rw [A.books.page.step]; exact hs
  unfold Aggregator.separateX
  rw [getTs_align hst, bind_ok']
  split_ifs with hc
  · obtain ⟨l, e, -⟩ := aggregate0_spec env.nth a
    rw [e, bind_ok']
    exact ⟨_, _, _, rfl⟩
  · obtain ⟨⟨th, out, next, r⟩, e⟩ := Separator.sepLoopX_total (ts := align a.sep.step (meant a.sep.resolution c ts)) (next := a.sep.next) hst
      (give := fun d => do let d ← (.ok d : M AggData); .ok (d, thr d)) (fun d => ⟨_, rfl⟩) (page_total B A).2
    simp only [bind_ok'] at e ⊢
    simp only [e, bind_ok']
    split_ifs
    · exact ⟨_, _, _, rfl⟩
    · obtain ⟨l, e, -⟩ := aggregate0_spec env.nth { a with sep := { a.sep with next := next, reducer := r } }
      rw [e, bind_ok']
      exact ⟨_, _, _, rfl⟩

/-- A call of the aggregator is a call at the desk, and does not fault. -/
theorem deskX_step (hs : 0 < opt.step) (B : Reducer.Bounds env mi ma) (A : AtDesk env opt mi ma D a) (x : XOp) (hop : x.op.within mi ma) :
    ∃ r a' D', a.mtExecX env x = .ok (r, a') ∧ D.SpecX env opt x (.ok r) D' ∧ AtDesk env opt mi ma D' a' := by
  obtain ⟨op, thr⟩ := x
  obtain ⟨r0, a0, D0, e0, s0, A0⟩ := desk_step hs B A op hop
  have plain : (a.mtExecX env ⟨op, thr⟩ = do let (r, a) ← a.mtExec env op; .ok (.back r, a)) → (∀ b out, r0 = .handed b out → out = []) →
      ∃ r a' D', a.mtExecX env ⟨op, thr⟩ = .ok (r, a') ∧ D.SpecX env opt ⟨op, thr⟩ (.ok r) D' ∧ AtDesk env opt mi ma D' a' := by
    intro e hq
    refine ⟨.back r0, a0, D0, by rw [e, e0, bind_ok'], .inl ⟨r0, rfl, s0, fun b out h d hd => ?_⟩, A0⟩
    rw [hq b out h] at hd
    cases hd
  cases op with
  | push c1 c2 ts x h =>
    cases h with
    | false =>
      refine plain rfl fun b out h => ?_
      subst h
      obtain ⟨⟨ok, out', a'⟩, h1, h2⟩ := bind_inv e0
      cases h2
      unfold Aggregator.push at h1
      split_ifs at h1 with g1 g2
      · cases h1; rfl
      · obtain ⟨⟨_, _⟩, _, h1⟩ := bind_inv h1
        cases h1
        rfl
      · exact absurd rfl g2
    | true =>
      obtain ⟨res, out, a1, h1⟩ := pushX_total hs B A c1 c2 ts x thr
      have e1 : a.mtExecX env ⟨.push c1 c2 ts x true, thr⟩ = .ok (.of res out, a1) := by
        simp only [Aggregator.mtExecX, h1, bind_ok']
      obtain ⟨ok, a2, g1, -, -, g2, g3⟩ := Aggregator.pushX_spec h1
      cases res with
      | some b =>
        obtain ⟨rfl, rfl⟩ := g2 b rfl
        have e2 : a.mtExec env (.push c1 c2 ts x true) = .ok (.handed b out, a1) := by simp only [Aggregator.mtExec, g1, bind_ok']
        rw [e2] at e0
        cases e0
        refine ⟨_, _, D0, e1, .inl ⟨_, rfl, s0, fun b' out' h => ?_⟩, A0⟩
        cases h
        exact pushX_unthrown h1
      | none =>
        obtain ⟨⟨d, rfl, ht⟩, -⟩ := g3 rfl
        have F := fbooked_pushX hs A.books h1
        obtain ⟨s, hg⟩ := given_one F
        obtain ⟨A1, hS⟩ := desk_torn A F (pushX_alive h1) hg
        exact ⟨_, _, _, e1, .inr ⟨s, d, hg, hS, ht, rfl, rfl⟩, A1⟩
  | separate c ts h f =>
    cases h with
    | false =>
      refine plain rfl fun b out h => ?_
      subst h
      obtain ⟨⟨ok, out', a'⟩, h1, h2⟩ := bind_inv e0
      cases h2
      obtain ⟨⟨_, _, _⟩, h3, h1⟩ := bind_inv h1
      obtain ⟨_, _, h1⟩ := bind_inv h1
      cases h1
      obtain ⟨_, _, h3⟩ := bind_inv h3
      split_ifs at h3
      · cases h3; rfl
      · obtain ⟨⟨_, _, _⟩, _, h3⟩ := bind_inv h3
        contradiction
      · obtain ⟨⟨_, _, _⟩, _, h3⟩ := bind_inv h3
        cases h3
        rfl
    | true =>
      obtain ⟨res, out, a1, h1⟩ := separateX_total hs B A c ts f thr
      have e1 : a.mtExecX env ⟨.separate c ts true f, thr⟩ = .ok (.of res out, a1) := by
        simp only [Aggregator.mtExecX, h1, bind_ok']
      cases res with
      | some b =>
        obtain ⟨g1, g2⟩ := (separateX_spec h1).1 b rfl
        have e2 : a.mtExec env (.separate c ts true f) = .ok (.handed b out, a1) := by simp only [Aggregator.mtExec, g1, bind_ok']
        rw [e2] at e0
        cases e0
        refine ⟨_, _, D0, e1, .inl ⟨_, rfl, s0, fun b' out' h => ?_⟩, A0⟩
        cases h
        exact g2
      | none =>
        obtain ⟨F, d, rfl, ht⟩ := fbooked_separateX hs A.books h1
        obtain ⟨s, hg⟩ := given_one F
        have hal : a1.alive = a.alive := by
          obtain ⟨_, _, _, _, _, -, -, -, -, rfl, -⟩ := (separateX_spec h1).2 rfl
          rfl
        obtain ⟨A1, hS⟩ := desk_torn A F hal hg
        exact ⟨_, _, _, e1, .inr ⟨s, d, hg, hS, ht, rfl, rfl⟩, A1⟩
  | add c1 c2 ts x => exact plain rfl fun b out h => by subst h; obtain ⟨_, _, h⟩ := bind_inv e0; cases h
  | pop => exact plain rfl fun b out h => by subst h; cases e0
  | forcePop => exact plain rfl fun b out h => by subst h; obtain ⟨_, _, h⟩ := bind_inv e0; cases h
  | aggregateCurrent => exact plain rfl fun b out h => by subst h; obtain ⟨_, _, h⟩ := bind_inv e0; cases h
  | enable v => exact plain rfl fun b out h => by subst h; cases e0
  | createPusher h => exact plain rfl fun b out h => by subst h; cases e0
  | size => exact plain rfl fun b out h => by subst h; cases e0
  | clear c ts => exact plain rfl fun b out h => by subst h; obtain ⟨_, _, h⟩ := bind_inv e0; cases h

end

theorem deskX_legal {T : Type} {env : Env} {opt : AggregatorOpts} {mi ma : Int} (hs : 0 < opt.step) (B : Reducer.Bounds env mi ma)
    {l : List (T × XOp × M XRet)} {a a1 : Aggregator} (h : Legal (Aggregator.XSpec env) a l a1) :
    ∀ {D : Desk}, AtDesk env opt mi ma D a → (∀ e ∈ l, e.2.1.op.within mi ma) → ∃ D1, Legal (Desk.SpecX env opt) D l D1 := by
  induction h with
  | nil s => intro D _ _; exact ⟨D, .nil D⟩
  | cons s s1 s2 t op r l h _ ih =>
    intro D A hw
    obtain ⟨r0, a', D', e, hsp, A'⟩ := deskX_step hs B A op (hw (t, op, r) (by simp))
    unfold Aggregator.XSpec at h
    rw [e] at h
    obtain ⟨rfl, rfl⟩ := h
    obtain ⟨D1, h1⟩ := ih A' (fun e he => hw e (by simp [he]))
    exact ⟨D1, .cons D D' D1 t op _ l hsp h1⟩

theorem atDesk_new {env : Env} {opt : AggregatorOpts} {mi ma : Int} (hs : 0 < opt.step) {clk rand ts : Int} {a0 : Aggregator}
    (h0 : Aggregator.new opt clk rand ts = .ok a0) : AtDesk env opt mi ma { begins := Multi.firstPage opt clk rand ts } a0 := by
  have S := Single.shows_new (env := env) hs h0
  refine ⟨⟨S.page.congr rfl rfl, S.out, by simp, ?_, S.clean.2.2, ?_, .nil⟩, ?_, by simp⟩
  · show List.Forall₂ _ [] a0.sep.sepList
    rw [S.clean.2.1]; exact .nil
  · show List.Forall₂ _ [] a0.agList
    rw [S.clean.1]; exact .nil
  · unfold Aggregator.new at h0
    obtain ⟨s, -, h0⟩ := bind_inv h0
    cases h0
    rfl

end Aggregator

/-! ### C176 -/

/-- Whatever threads do with an aggregator they share, and whenever their handlers throw, their calls are explained by calls at
the desk, one after the other: nothing faults, and answers, exceptions and records are those of the books. -/
theorem C176_desk {T L : Type} [DecidableEq T] (env : Env) (opt : AggregatorOpts) (mi ma : Int) (hs : 0 < opt.step) (B : Reducer.Bounds env mi ma)
    (b : Body Aggregator XOp (M XRet) L) (hb : ∀ x a r a', b.Runs (b.start x) a r a' → a.XSpec env x r a')
    (clk rand ts : Int) (a0 : Aggregator) (h0 : Aggregator.new opt clk rand ts = .ok a0)
    (m : Mon T Aggregator XOp (M XRet) L) (h : Mon.Reach b a0 m) (hw : ∀ t, ∀ x ∈ invOf t m.hist, x.op.within mi ma) :
    Linearizable (Desk.SpecX env opt) { begins := Multi.firstPage opt clk rand ts } m.hist := by
  obtain ⟨lin, ⟨a1, hl⟩, hm, hp⟩ := (Mon.linearizable hb h).made
  exact ⟨lin, deskX_legal hs B hl (atDesk_new hs h0) (fun e he => hw e.1 _ (hm e he)), hp⟩

/-- The bodies of the model satisfy the assumption. -/
theorem C176_bodies (env : Env) (x : XOp) (a : Aggregator) (r : M XRet) (a' : Aggregator)
    (h : (Aggregator.xBody env).Runs (.start x) a r a') : a.XSpec env x r a' := by
  have fetch : ∀ (x : MtRet) (a : Aggregator) (r : M XRet) (a' : Aggregator), (Aggregator.xBody env).Runs (.fetch x) a r a' →
      match Aggregator.aggregate0_ env.nth a with
      | .ok a0 => r = .ok (.back x) ∧ a' = a0
      | .error e => r = .error e := by
    intro x a r a' h
    cases hg : Aggregator.aggregate0_ env.nth a with
    | error e =>
      cases h with
      | last _ _ _ _ hn => simp [Aggregator.xBody, hg] at hn; exact hn.2.symm
      | small _ _ _ _ _ _ hn _ => simp [Aggregator.xBody, hg] at hn
    | ok a0 =>
      cases h with
      | last _ _ _ _ hn => simp [Aggregator.xBody, hg] at hn; exact ⟨hn.2.symm, hn.1.symm⟩
      | small _ _ _ _ _ _ hn _ => simp [Aggregator.xBody, hg] at hn
  have plain : ((Aggregator.xBody env).next (.start x) a = match a.mtExecX env x with
      | .error e => (a, .inr (.error e))
      | .ok (r, a') => (a', .inr (.ok r))) → a.XSpec env x r a' := by
    intro e
    unfold Aggregator.XSpec
    cases hg : a.mtExecX env x with
    | error e' =>
      rw [hg] at e
      cases h with
      | last _ _ _ _ hn => rw [e] at hn; simp at hn; exact hn.2.symm
      | small _ _ _ _ _ _ hn _ => rw [e] at hn; simp at hn
    | ok p =>
      obtain ⟨r0, a0⟩ := p
      rw [hg] at e
      cases h with
      | last _ _ _ _ hn => rw [e] at hn; simp at hn; exact ⟨hn.2.symm, hn.1.symm⟩
      | small _ _ _ _ _ _ hn _ => rw [e] at hn; simp at hn
  obtain ⟨op, thr⟩ := x
  cases op with
  | separate c ts hd f =>
    cases hd with
    | false => exact plain rfl
    | true =>
      unfold Aggregator.XSpec
      simp only [Aggregator.mtExecX, Aggregator.separateX]
      cases h1 : a.sep.getTs c ts with
      | error e =>
        cases h with
        | last _ _ _ _ hn => simp [Aggregator.xBody, h1] at hn; exact hn.2.symm
        | small _ _ _ _ _ _ hn _ => simp [Aggregator.xBody, h1] at hn
      | ok t =>
        simp only [bind_ok']
        by_cases hc : f = false ∧ t < a.sep.next
        · simp only [if_pos hc]
          cases h with
          | last _ _ _ _ hn => simp [Aggregator.xBody, h1, hc] at hn
          | small _ _ _ _ _ _ hn hr =>
            simp only [Aggregator.xBody, h1, if_pos hc, Prod.mk.injEq, Sum.inl.injEq] at hn
            obtain ⟨rfl, rfl⟩ := hn
            have := fetch _ _ _ _ hr
            cases hg : Aggregator.aggregate0_ env.nth a with
            | error e => rw [hg] at this; exact this
            | ok a2 => rw [hg] at this; exact this
        · simp only [if_neg hc]
          cases h2 : Separator.sepLoopX env a.sep.step t (fun d => do let d ← (.ok d : M AggData); .ok (d, thr d)) a.sep.next a.sep.reducer with
          | error e =>
            have h2' := h2
            simp only [bind_ok'] at h2'
            simp only [h2']
            cases h with
            | last _ _ _ _ hn => simp only [Aggregator.xBody, h1, if_neg hc, h2, Prod.mk.injEq, Sum.inr.injEq] at hn; exact hn.2.symm
            | small _ _ _ _ _ _ hn _ => simp only [Aggregator.xBody, h1, if_neg hc, h2, Prod.mk.injEq] at hn; cases hn.2
          | ok p =>
            obtain ⟨th, out, next, rd⟩ := p
            have h2' := h2
            simp only [bind_ok'] at h2'
            simp only [h2', bind_ok']
            cases th with
            | true =>
              cases h with
              | last _ _ _ _ hn =>
                simp only [Aggregator.xBody, h1, if_neg hc, h2, if_true, Prod.mk.injEq, Sum.inr.injEq] at hn
                obtain ⟨rfl, rfl⟩ := hn
                exact ⟨rfl, rfl⟩
              | small _ _ _ _ _ _ hn _ =>
                simp only [Aggregator.xBody, h1, if_neg hc, h2, if_true, Prod.mk.injEq] at hn
                cases hn.2
            | false =>
              cases h with
              | last _ _ _ _ hn =>
                simp only [Aggregator.xBody, h1, if_neg hc, h2, Bool.false_eq_true, if_false, Prod.mk.injEq] at hn
                cases hn.2
              | small _ _ _ _ _ _ hn hr =>
                simp only [Aggregator.xBody, h1, if_neg hc, h2, Bool.false_eq_true, if_false, Prod.mk.injEq, Sum.inl.injEq] at hn
                obtain ⟨rfl, rfl⟩ := hn
                have := fetch _ _ _ _ hr
                simp only [Bool.false_eq_true, if_false]
                cases hg : Aggregator.aggregate0_ env.nth { a with sep := { a.sep with next := next, reducer := rd } } with
                | error e => rw [hg] at this; exact this
                | ok a2 => rw [hg] at this; exact this
  | push c1 c2 ts x h => exact plain rfl
  | add c1 c2 ts x => exact plain rfl
  | pop => exact plain rfl
  | forcePop => exact plain rfl
  | aggregateCurrent => exact plain rfl
  | enable v => exact plain rfl
  | createPusher h => exact plain rfl
  | size => exact plain rfl
  | clear c ts => exact plain rfl

/-- Handlers that do not throw: the calls at the desk are those of C163. -/
theorem C176_calm (env : Env) (opt : AggregatorOpts) (D D' : Desk) (x : XOp) (r : M XRet) (hx : ∀ d, x.thr d = false) :
    D.SpecX env opt x r D' ↔ ∃ r0, r = .ok (.back r0) ∧ D.Spec env opt x.op (.ok r0) D' := by
  constructor
  · rintro (⟨r0, h1, h2, -⟩ | ⟨s, d, -, -, h, -⟩)
    · exact ⟨r0, h1, h2⟩
    · rw [hx] at h; cases h
  · rintro ⟨r0, h1, h2⟩
    exact .inl ⟨r0, h1, h2, fun _ _ _ d _ => hx d⟩

/-- After an exception the books are as before but for the page, which is empty: the one record given is all that is left of its events. -/
theorem C176_threw (env : Env) (opt : AggregatorOpts) (D D' : Desk) (x : XOp) (out : List AggData) (h : D.SpecX env opt x (.ok (.threw out)) D') :
    D'.begins = D.begins ∧ D'.on = [] ∧ D'.queue = D.queue ∧ D'.tray = D.tray ∧ D'.en = D.en ∧
      ∃ s d, D'.made = [s] ∧ out = [d] ∧ D.gives opt x.op = [s] ∧ Slip.Says env opt s d ∧ x.thr d = true := by
  rcases h with ⟨r0, h, -⟩ | ⟨s, d, h1, h2, h3, h4, rfl⟩
  · cases h
  · cases h4
    exact ⟨rfl, rfl, rfl, rfl, rfl, s, d, rfl, rfl, h1, h2, h3⟩

/-- A handler that throws on the record of the window 1000: the event that would turn the page is not noted; made again, the call gives
nothing, the page is turned and the event is noted. -/
example : let D0 : Desk := { begins := 1000, on := [.one 5 1] }
    let op : MtOp := .push 0 0 1012 (.one 6 1) true
    let D1 : Desk := { D0 with on := [], made := [⟨1000, [.one 5 1], false⟩] }
    D0.gives exAOpt op = [⟨1000, [.one 5 1], false⟩] ∧ D1.gives exAOpt op = [] ∧ D0.gives exAOpt (.push 0 0 1004 (.one 6 1) true) = [] ∧
    D1.after exAOpt (.push 0 0 1012 (.one 6 1) true) = { begins := 1010, on := [.one 6 1] } ∧
    D0.after exAOpt (.push 0 0 1012 (.one 6 1) true) = { begins := 1010, on := [.one 6 1], made := [⟨1000, [.one 5 1], false⟩] } := by
  decide +kernel

/-- The same with the object: the first call throws, the second returns and hands nothing over. -/
example : ((do
      let a ← Aggregator.new exAOpt 0 0 1003
      let (_, a) ← a.mtExecX exactEnv ⟨.add 0 0 1004 (.one 5 1), fun _ => true⟩
      let (r1, a) ← a.mtExecX exactEnv ⟨.push 0 0 1012 (.one 6 1) true, fun _ => true⟩
      let (r2, a) ← a.mtExecX exactEnv ⟨.separate 0 1012 true false, fun _ => true⟩
      let (r3, _) ← a.mtExecX exactEnv ⟨.separate 0 1012 true true, fun _ => true⟩
      .ok ([r1, r2, r3].map fun
        | .threw out => (none, out.map fun d => (d.ts, (d.count : Int)))
        | .back (.handed b out) => (some b, out.map fun d => (d.ts, (d.count : Int)))
        | .back _ => (none, []))) : M (List (Option Bool × List (Int × Int)))) =
    .ok [(none, [(1000, 1)]), (some true, []), (some true, [])] := by
  decide +kernel

end Wrtstat
