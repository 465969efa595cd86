/-
C174: whole histories of a wrtstat object whose handler throws, by the folio.
-/
import Verif.Props.WrtFolio
import Verif.Props.ThrowAccount
import Verif.Lemmas.ConcRegistry

namespace Wrtstat

set_option autoImplicit false

open Aggregator Registry

/-! ### The folio -/

/-- A leaf is torn: what was on the page is handed over; the page is not turned and nothing is noted. -/
def Registry.Folio.tear (F : Folio) (opt : RegistryOpts) (op : RegOp) : Folio :=
  { F with leaf := fun nm => (F.leaf nm).map fun L => { L with book := (op.told nm L).foldl (AOp.torn opt.toAggregatorOpts) L.book } }

/-- The folio after an operation of which is known whether it threw. -/
def Registry.Folio.afterX (F : Folio) (opt : RegistryOpts) (c : RegOp × Bool) : Folio := if c.2 then F.tear opt c.1 else F.after opt c.1

namespace Wrt

/-- The folio after operations of which is known whether they threw. -/
def wfolioX (opt : WOpts) (t : List (RegOp × Bool)) : Folio :=
  t.foldl (fun F c => F.afterX opt.toRegistryOpts c) (.fresh opt.toRegistryOpts)

/-! ### The object -/

/-- A part of a composite call: the function, null or not, the clocks, the value and the number. -/
structure Part where
  p : Option WPusher
  k : Clks
  v : Int
  count : Nat

/-- The registry call a part stands for. -/
def Part.op (q : Part) (ts : Int) : List RegOp := callOp q.p q.k ts q.v q.count

/-- What came of a call: the registry operations made and whether they threw, whether the call threw, what reached the handler, the object. -/
structure Called where
  done : List (RegOp × Bool)
  threw : Bool
  handed : List (Name × AggData)
  w : Wrt

/-- The parts are called one after the other, as `Wrt.callCX`, which notes nothing. -/
def callsX (env : Env) (thr : Name × AggData → Bool) (ts : Int) : List Part → Wrt → M Called
  | [], w => .ok ⟨[], false, [], w⟩
  | q :: qs, w => do
    let (t, l, w) ← w.callOptX env q.p q.k.1 q.k.2 ts q.v q.count thr
    let d := (q.op ts).map fun o => (o, t)
    if t = true then .ok ⟨d, true, l, w⟩
    else do
      let c ← callsX env thr ts qs w
      .ok { c with done := d ++ c.done, handed := l ++ c.handed }

/-- The parts of a composite call. -/
def CPusher.parts (p : CPusher) (kt kr kw : Clks) (span : Int) (count : Nat) (rd wr : Int) : List Part :=
  [⟨p.time, kt, span, count⟩, ⟨p.read, kr, rd, if p.summary then toSize rd else count⟩, ⟨p.write, kw, wr, if p.summary then toSize wr else count⟩]

/-- What came of an operation: the answer unless it threw, what reached the handler, what was lost, the registry operations made. -/
structure Came where
  resp : Option WResp
  handed : List (Name × AggData)
  lost : List (Name × AggData) := []
  done : List (RegOp × Bool)
  w : Wrt

/-- What came of a call. -/
def Called.came (c : Called) : Came := { resp := if c.threw then none else some .unit, handed := c.handed, done := c.done, w := c.w }

/-- An operation with a handler that may throw. -/
def stepX (env : Env) (w : Wrt) (thr : Thrower) : WOp → M Came
  | .call p c1 c2 ts v count => do
    let c ← callsX env (fun r => thr [r]) ts [⟨some p, (c1, c2), v, count⟩] w
    .ok c.came
  | .callC p kt kr kw ts span count rd wr => do
    let c ← callsX env (fun r => thr [r]) ts (CPusher.parts p kt kr kw span count rd wr) w
    .ok c.came
  | .pushout force clk =>
    if w.handler = true then do
      let o ← w.pushoutX env force clk thr
      .ok { resp := if o.threw then none else some (.num o.handed.length), handed := o.handed, lost := o.lost, done := [(.popAll force clk, false)], w := o.w }
    else do
      let (resp, l, w) ← w.step env (.pushout force clk)
      .ok { resp := some resp, handed := l, done := [(.popAll force clk, false)], w := w }
  | op => do
    let (resp, l, w) ← w.step env op
    .ok { resp := some resp, handed := l, done := op.regOps.map fun o => (o, false), w := w }

/-- A client that performs every operation and keeps in mind what threw. -/
def wkeepX (env : Env) : List (WOp × Thrower) → WObs → M (WObs × List (RegOp × Bool))
  | [], o => .ok (o, [])
  | (op, thr) :: ops, o => do
    let c ← o.w.stepX env thr op
    let (o, t) ← wkeepX env ops { w := c.w, handed := o.handed ++ c.handed }
    .ok (o, c.done ++ t)

/-! ### The answers -/

/-- What calls of parts hand over and where they end, by the folio before them. -/
def CallsSay (env : Env) (opt : RegistryOpts) (thr : Name × AggData → Bool) (ts : Int) : Folio → List Part → List (RegOp × Bool) → Bool →
    List (Name × AggData) → Prop
  | _, [], d, t, l => d = [] ∧ t = false ∧ l = []
  | F, q :: qs, d, t, l => ∃ l1, Hands env opt F q.p q.k ts q.v q.count l1 ∧
      ((∃ r ∈ l1, thr r = true) → l = l1 ∧ t = true ∧ d = (q.op ts).map fun o => (o, true)) ∧
      ((∀ r ∈ l1, thr r = false) → ∃ d' l', l = l1 ++ l' ∧ d = ((q.op ts).map fun o => (o, false)) ++ d' ∧
        CallsSay env opt thr ts (afterCall opt F q.p q.k ts q.v q.count) qs d' t l')

/-- The answer to an operation, what reaches the handler and what is lost, by the folio before it. -/
def WAnswersX (env : Env) (opt : RegistryOpts) (hd : Bool) (F : Folio) (thr : Thrower) : WOp → Came → Prop
  | .call p c1 c2 ts v count, c => c.lost = [] ∧ (c.resp = none ∨ c.resp = some .unit) ∧
      CallsSay env opt (fun r => thr [r]) ts F [⟨some p, (c1, c2), v, count⟩] c.done c.resp.isNone c.handed
  | .callC p kt kr kw ts span count rd wr, c => c.lost = [] ∧ (c.resp = none ∨ c.resp = some .unit) ∧
      CallsSay env opt (fun r => thr [r]) ts F (CPusher.parts p kt kr kw span count rd wr) c.done c.resp.isNone c.handed
  | .pushout force clk, c => c.done = [(.popAll force clk, false)] ∧
      F.Answers env opt (.popAll force clk) (.records (c.handed ++ c.lost)) ∧ (hd = false → c.handed ++ c.lost = [] ∧ c.resp = some (.num 0)) ∧
      (hd = true →
        (c.resp = some (.num c.handed.length) ∧ c.lost = [] ∧ ∀ q, q <+: c.handed → q ≠ [] → thr q = false) ∨
        (c.resp = none ∧ c.handed ≠ [] ∧ thr c.handed = true ∧ ∀ q, q <+: c.handed → q ≠ [] → q ≠ c.handed → thr q = false))
  | op, c => c.lost = [] ∧ c.done = (op.regOps.map fun o => (o, false)) ∧ ∃ a, c.resp = some a ∧ WAnswers env opt hd F op a c.handed

end Wrt

/-! ### A call that throws -/

theorem Aggregator.pushX_alive {env : Env} {a a1 : Aggregator} {c1 c2 ts : Int} {x : AddArg} {thr : AggData → Bool} {res : Option Bool} {out : List AggData}
    (h : a.pushX env c1 c2 ts x thr = .ok (res, out, a1)) : a1.alive = a.alive := by
  unfold Aggregator.pushX at h
  split_ifs at h
  · cases h; rfl
  obtain ⟨T, h1, h⟩ := bind_inv h
  obtain ⟨T', h2, h⟩ := bind_inv h
  obtain ⟨⟨th, out1, next, r⟩, h3, h⟩ := bind_inv h
  simp only at h
  split_ifs at h <;> cases h <;> rfl

theorem Aggregator.fbooked_pushX {env : Env} {opt : AggregatorOpts} (hs : 0 < opt.step) {D : Fullbook} {a a1 : Aggregator} {R out : List AggData}
    {c1 c2 ts : Int} {x : AddArg} {thr : AggData → Bool} (B : FBooked env opt D ⟨a, R, []⟩) (h : a.pushX env c1 c2 ts x thr = .ok (none, out, a1)) :
    FBooked env opt (AOp.torn opt D (.push c1 c2 ts x true)) ⟨a1, R ++ out, []⟩ := by
  obtain ⟨ok, a2, e1, -, -, -, -⟩ := Aggregator.pushX_spec h
  have hx : exec env ⟨a, R, []⟩ (.push c1 c2 ts x true) = .ok ⟨a2, R ++ out, AObs.record ⟨a, R, []⟩ ok c1 ts x⟩ := by
    simp only [exec, e1, bind_ok']
  have hm := (fbooked_exec hs B _ hx).made
  rw [given_made rfl] at hm
  unfold Aggregator.pushX at h
  split_ifs at h
  · cases h
  obtain ⟨T, h1, h⟩ := bind_inv h
  obtain ⟨T', h2, h⟩ := bind_inv h
  obtain ⟨⟨th, out1, next, r⟩, h3, h⟩ := bind_inv h
  obtain ⟨l, f1, f2, f3, f4⟩ := Separator.sepLoopX_spec h3
  simp only at h
  cases th with
  | false =>
    rw [if_neg (by simp)] at h
    split_ifs at h <;> cases h
  | true =>
    rw [if_pos rfl] at h
    cases h
    obtain ⟨-, -, hn, rfl, -⟩ := f4 rfl
    exact ⟨(page_torn hs B.page h2 f1 hn).congr rfl rfl, B.out, B.raw, B.tray, B.en, B.queue, hm⟩

namespace Registry

variable {env : Env} {opt : RegistryOpts} {n : Nat} {F : Folio} {r : Registry} {R : List (Nat × AggData)}

theorem rinv_update (hi : RInv opt n r) (k : Nat) {a : Aggregator} (ha : a.alive = true) : RInv opt n (r.update k a) :=
  { ropt := hi.ropt
    step := hi.step
    res := hi.res
    cle := hi.cle
    idx := hi.idx
    names := hi.names
    ids := hi.ids
    nonempty := hi.nonempty
    free := hi.free
    disj := hi.disj
    form := hi.form
    occ := fun p c hc => by
      obtain ⟨c0, h0, -⟩ := update_get_some hc
      exact hi.occ p c0 h0
    live := fun nm id hm => by
      obtain ⟨c, hc⟩ := hi.live nm id hm
      exact ⟨_, update_of_get hc⟩
    refs := fun p q c d hp hq he => by
      obtain ⟨c0, h0, e0, -⟩ := update_get_some hp
      obtain ⟨d0, h1, e1, -⟩ := update_get_some hq
      exact hi.refs p q c0 d0 h0 h1 (by rw [e0, e1, he])
    refLt := fun p c hp => by
      obtain ⟨c0, h0, e0, -⟩ := update_get_some hp
      rw [← e0]
      exact hi.refLt p c0 h0
    alive := fun p c hp => by
      obtain ⟨c0, h0, -, ⟨-, h1⟩ | ⟨-, rfl⟩⟩ := update_get_some hp
      · rw [h1]; exact ha
      · exact hi.alive p _ h0
    len := by simpa [update] using hi.len }

/-- The folio after a call that threw. -/
theorem filed_tear (hs : 0 < opt.step) (hr : Room opt n) (H : Filed env opt n F r R) {p : RPusher} {c1 c2 ts : Int} {x : AddArg} {a a1 : Aggregator}
    {thr : AggData → Bool} {out : List AggData} (hf : r.find p.ref = some a) (ht : p.p.token = true) (hh : p.p.handler = true)
    (h : a.pushX env c1 c2 ts x thr = .ok (none, out, a1)) :
    Filed env opt (n + 1) (F.tear opt (.call p c1 c2 ts x)) (r.update p.ref a1) (R ++ out.map fun d => (p.ref, d)) := by
  rcases H.find hr p.ref with ⟨-, g⟩ | ⟨nm0, L0, c0, g1, g2, g3, g4, g5, g6⟩
  · rw [g] at hf; cases hf
  rw [g3] at hf
  cases hf
  have B := Aggregator.fbooked_pushX hs g6 h
  have hal : a1.alive = true := (pushX_alive h).trans (H.inv.alive _ _ g4)
  refine ⟨(rinv_update H.inv _ hal).mono (by omega), ?_, ?_, ?_, H.freed, H.last, H.next, H.en, H.init⟩
  · intro y hy
    rcases List.mem_append.1 hy with hy | hy
    · exact H.recKey y hy
    · obtain ⟨d, -, rfl⟩ := List.mem_map.1 hy
      show p.ref < r.nextRef
      rw [← g5]
      exact H.inv.refLt _ _ g4
  · intro nm id
    show (nm, id) ∈ r.dict.dict ↔ _
    rw [H.entry]
    simp only [Folio.tear]
    cases F.leaf nm with
    | none => simp
    | some L => simp
  · intro nm L' c' hL' hc'
    simp only [Folio.tear, Option.map_eq_some_iff] at hL'
    obtain ⟨L, hL, rfl⟩ := hL'
    obtain ⟨c, -, -, -, -, hc, href, B1⟩ := H.cell hr hL
    rw [update_of_get hc] at hc'
    simp only [Option.some.injEq] at hc'
    subst hc'
    rw [forRef_append]
    by_cases he : c.ref = p.ref
    · rw [if_pos he]
      refine ⟨href, ?_⟩
      have e := H.inv.refs _ _ _ _ hc g4 (he.trans g5.symm)
      rw [e, g4] at hc
      cases hc
      have hsame := H.same hL g1 (by
        have h1 := (H.entry nm L.id).2 ⟨L, hL, rfl⟩
        have h2 := (H.entry nm0 L0.id).2 ⟨L0, g1, rfl⟩
        exact posOf_inj (H.inv.id_form h1).1 (H.inv.id_form h2).1 e)
      obtain ⟨-, rfl⟩ := hsame
      simp only [RegOp.told]
      rw [if_pos ⟨g2, ht⟩, hh]
      show FBooked _ _ _ ⟨a1, _, _⟩
      have e3 : forRef c0.ref (out.map fun d => (p.ref, d)) = out := by rw [g5]; exact forRef_self _ _
      rw [e3]
      exact B
    · rw [if_neg he]
      refine ⟨href, ?_⟩
      simp only [RegOp.told]
      rw [if_neg (fun h => he (href.symm.trans h.1)), forRef_other (Ne.symm he), List.append_nil]
      exact B1

end Registry

namespace Wrt

variable {env : Env} {opt : RegistryOpts} {n : Nat} {w w' : Wrt} {F : Folio} {R : List (Nat × AggData)}

theorem callOptX_handler {p : Option WPusher} {k : Clks} {ts v : Int} {count : Nat} {thr : Name × AggData → Bool} {t : Bool}
    {l : List (Name × AggData)} (h : w.callOptX env p k.1 k.2 ts v count thr = .ok (t, l, w')) : w'.handler = w.handler := by
  cases p with
  | none => cases h; rfl
  | some p =>
    have h : w.callX env p k.1 k.2 ts v count thr = .ok (t, l, w') := h
    unfold callX at h
    cases hf : w.reg.find p.rp.ref with
    | none => rw [hf] at h; cases h; rfl
    | some a =>
      rw [hf] at h
      simp only at h
      split_ifs at h
      · obtain ⟨⟨ok, out, a1⟩, h1, h⟩ := bind_inv h
        cases h; rfl
      · obtain ⟨⟨l1, w2⟩, h1, h⟩ := bind_inv h
        cases h
        obtain ⟨⟨o, r⟩, -, h1⟩ := bind_inv h1
        cases h1; rfl

/-- One part. -/
theorem filed_part (hs : 0 < opt.step) {q : Part} {ts : Int} (hr : Room opt (n + (q.op ts).length)) {thr : Name × AggData → Bool} {t : Bool}
    {l : List (Name × AggData)} (H : Filed env opt n F w.reg R) (h : w.callOptX env q.p q.k.1 q.k.2 ts q.v q.count thr = .ok (t, l, w')) :
    Hands env opt F q.p q.k ts q.v q.count l ∧ (t = true ↔ ∃ r ∈ l, thr r = true) ∧
      ∃ R', Filed env opt (n + (q.op ts).length) (((q.op ts).map fun o => (o, t)).foldl (fun F c => F.afterX opt c) F) w'.reg R' := by
  obtain ⟨w2, e1, e2, e3⟩ := callOptX_spec h
  obtain ⟨k1, R', k2⟩ := filed_call hs hr H e1
  cases t with
  | false =>
    refine ⟨k1, ?_, R', ?_⟩
    · cases hp : q.p with
      | none =>
        rw [hp] at h
        cases h
        simp
      | some p =>
        rw [hp] at h
        have := callX_quiet (show w.callX env p q.k.1 q.k.2 ts q.v q.count thr = .ok (false, l, w') from h)
        simp only [Bool.false_eq_true, false_iff, not_exists, not_and]
        intro r hr
        simp [this r hr]
    · rw [e2 rfl, List.foldl_map]
      exact k2
  | true =>
    obtain ⟨⟨r, rfl, hthr⟩, -⟩ := e3 rfl
    refine ⟨k1, by simp [hthr], ?_⟩
    rcases q with ⟨p, k, v, count⟩
    cases p with
    | none => cases h
    | some p =>
      have h : w.callX env p k.1 k.2 ts v count thr = .ok (true, [r], w') := h
      unfold callX at h
      cases hf : w.reg.find p.rp.ref with
      | none => rw [hf] at h; cases h
      | some a =>
        rw [hf] at h
        simp only at h
        split_ifs at h with hc
        · obtain ⟨⟨ok, out, a1⟩, h1, h⟩ := bind_inv h
          simp only [Except.ok.injEq, Prod.mk.injEq, decide_eq_true_eq] at h
          obtain ⟨rfl, -, rfl⟩ := h
          exact ⟨_, filed_tear hs (hr.mono (by omega)) H hf hc.1 hc.2.2 h1⟩
        · obtain ⟨⟨l1, w2⟩, -, h⟩ := bind_inv h
          cases h

theorem filed_calls (hs : 0 < opt.step) {thr : Name × AggData → Bool} {ts : Int} (qs : List Part) : ∀ {n : Nat} {F : Folio} {w : Wrt} {R : List (Nat × AggData)}
    {c : Called}, Room opt (n + (qs.flatMap fun q => q.op ts).length) → Filed env opt n F w.reg R → callsX env thr ts qs w = .ok c →
    CallsSay env opt thr ts F qs c.done c.threw c.handed ∧ c.w.handler = w.handler ∧ c.done.length ≤ (qs.flatMap fun q => q.op ts).length ∧
      ∃ R', Filed env opt (n + c.done.length) (c.done.foldl (fun F c => F.afterX opt c) F) c.w.reg R' := by
  induction qs with
  | nil =>
    intro n F w R c hr H h
    cases h
    exact ⟨⟨rfl, rfl, rfl⟩, rfl, Nat.le_refl _, R, H⟩
  | cons q qs ih =>
    intro n F w R c hr H h
    rw [List.flatMap_cons, List.length_append] at hr ⊢
    obtain ⟨⟨t, l, w1⟩, h1, h⟩ := bind_inv h
    obtain ⟨k1, k2, R1, H1⟩ := filed_part hs (hr.mono (by omega)) H h1
    have hh := callOptX_handler h1
    cases t with
    | true =>
      simp only [if_true] at h
      cases h
      refine ⟨⟨l, k1, fun _ => ⟨rfl, rfl, rfl⟩, fun hq => ?_⟩, hh, by simp, R1, by simpa using H1⟩
      obtain ⟨r, hr, ht⟩ := k2.1 rfl
      rw [hq r hr] at ht
      cases ht
    | false =>
      simp only [Bool.false_eq_true, if_false] at h
      obtain ⟨c1, h2, h⟩ := bind_inv h
      cases h
      have e : ((q.op ts).map fun o => (o, false)).foldl (fun F c => F.afterX opt c) F = afterCall opt F q.p q.k ts q.v q.count := by
        rw [List.foldl_map]; rfl
      rw [e] at H1
      obtain ⟨g1, g2, g3, R2, g4⟩ := ih (by rw [Nat.add_assoc]; exact hr) H1 h2
      refine ⟨⟨l, k1, fun hx => ?_, fun _ => ⟨c1.done, c1.handed, rfl, rfl, g1⟩⟩, g2.trans hh, ?_, R2, ?_⟩
      · have := k2.2 hx; cases this
      · simp only [List.length_append, List.length_map]; omega
      · simp only [List.length_append, List.length_map, List.foldl_append]
        rw [e, ← Nat.add_assoc]
        exact g4

/-- An operation: the answer, and the folio after it. -/
theorem filed_stepX (hs : 0 < opt.step) (H : Filed env opt n F w.reg R) {op : WOp} (hid : op.idOk opt) (hr : Room opt (n + op.regOps.length + 1))
    {thr : Thrower} {c : Came} (h : w.stepX env thr op = .ok c) :
    WAnswersX env opt w.handler F thr op c ∧ c.w.handler = w.handler ∧ c.done.length ≤ op.regOps.length ∧
      ∃ R', Filed env opt (n + c.done.length) (c.done.foldl (fun F c => F.afterX opt c) F) c.w.reg R' := by
  have calls : ∀ {ts : Int} {qs : List Part} {c : Called}, (qs.flatMap fun q => q.op ts).length = op.regOps.length →
      callsX env (fun r => thr [r]) ts qs w = .ok c →
      CallsSay env opt (fun r => thr [r]) ts F qs c.done c.came.resp.isNone c.handed ∧ (c.came.resp = none ∨ c.came.resp = some .unit) ∧
        c.w.handler = w.handler ∧ c.done.length ≤ op.regOps.length ∧
        ∃ R', Filed env opt (n + c.done.length) (c.done.foldl (fun F c => F.afterX opt c) F) c.w.reg R' := by
    intro ts qs c hl hc
    obtain ⟨g1, g2, g3, g4⟩ := filed_calls hs qs (by rw [hl]; exact hr.mono (by omega)) H hc
    refine ⟨?_, ?_, g2, hl ▸ g3, g4⟩
    · have : c.came.resp.isNone = c.threw := by unfold Called.came; cases c.threw <;> rfl
      rw [this]; exact g1
    · unfold Called.came; cases c.threw <;> simp
  have plain : ∀ {resp : WResp} {l : List (Name × AggData)} {w' : Wrt}, w.step env op = .ok (resp, l, w') →
      WAnswers env opt w.handler F op resp l ∧ w'.handler = w.handler ∧
        ∃ R', Filed env opt (n + op.regOps.length) ((op.regOps.map fun o => (o, false)).foldl (fun F c => F.afterX opt c) F) w'.reg R' := by
    intro resp l w' hx
    obtain ⟨k1, ro, k2, k3⟩ := step_sim hx (ro := { r := w.reg, received := R }) rfl
    have H1 := filed_execAll hs op.regOps (o := { r := w.reg, received := R }) H (hr.mono (by omega)) (WOp.idOk_reg hid) k2
    rw [k3] at H1
    refine ⟨filed_wstep hs H hid hr hx, k1, ro.received, ?_⟩
    rw [List.foldl_map]
    exact H1
  have other : ∀ {c : Came}, (do let (resp, l, w) ← w.step env op
                                 .ok { resp := some resp, handed := l, done := op.regOps.map fun o => (o, false), w := w } : M Came) = .ok c →
      (c.lost = [] ∧ c.done = (op.regOps.map fun o => (o, false)) ∧ ∃ a, c.resp = some a ∧ WAnswers env opt w.handler F op a c.handed) ∧
        c.w.handler = w.handler ∧ c.done.length ≤ op.regOps.length ∧
        ∃ R', Filed env opt (n + c.done.length) (c.done.foldl (fun F c => F.afterX opt c) F) c.w.reg R' := by
    intro c hc
    obtain ⟨⟨resp, l, w1⟩, h1, h2⟩ := bind_inv hc
    cases h2
    obtain ⟨g1, g2, g3⟩ := plain h1
    exact ⟨⟨rfl, rfl, resp, rfl, g1⟩, g2, by simp, by simpa using g3⟩
  cases op with
  | reg op => exact other h
  | meterId id => exact other h
  | meterName q name now => exact other h
  | compositeId t r x s => exact other h
  | compositeName ord qt qr qw nt nr nw now s => exact other h
  | call p c1 c2 ts v count =>
    obtain ⟨c1, h1, h⟩ := bind_inv h
    cases h
    obtain ⟨g1, g2, g3⟩ := calls (by simp [Part.op, WOp.regOps, callOp]) h1
    exact ⟨⟨rfl, g2, g1⟩, g3⟩
  | callC p kt kr kw ts span count rd wr =>
    obtain ⟨c1, h1, h⟩ := bind_inv h
    cases h
    obtain ⟨g1, g2, g3⟩ := calls (by simp [Part.op, WOp.regOps, CPusher.parts]) h1
    exact ⟨⟨rfl, g2, g1⟩, g3⟩
  | pushout force clk =>
    unfold stepX at h
    split_ifs at h with hh
    · obtain ⟨o, h1, h⟩ := bind_inv h
      cases h
      obtain ⟨e, k1, k2⟩ := C112_pushout_partial env w force clk thr o hh h1
      have hx : w.step env (.pushout force clk) = .ok (.num (o.handed ++ o.lost).length, o.handed ++ o.lost, o.w) := by simp only [step, e, bind_ok']
      obtain ⟨⟨-, g1, -⟩, g2, g3⟩ := plain hx
      refine ⟨⟨rfl, g1, fun hf => (by rw [hh] at hf; cases hf), fun _ => ?_⟩, g2, Nat.le_refl _, g3⟩
      cases ht : o.threw with
      | false => exact .inl ⟨rfl, k1 ht⟩
      | true => exact .inr ⟨rfl, k2 ht⟩
    · obtain ⟨⟨resp, l, w1⟩, h1, h⟩ := bind_inv h
      cases h
      obtain ⟨⟨g1, g2, g3⟩, g4, g5⟩ := plain h1
      refine ⟨⟨rfl, by simpa using g2, fun hf => ?_, fun hf => absurd hf hh⟩, g4, Nat.le_refl _, g5⟩
      have := g3 hf
      subst this
      exact ⟨rfl, by rw [g1]; rfl⟩

theorem filed_keepX {opt : WOpts} (hs : 0 < opt.step) (ops : List (WOp × Thrower)) : ∀ {n : Nat} {F : Folio} {o o' : WObs} {R : List (Nat × AggData)}
    {t : List (RegOp × Bool)}, Filed env opt.toRegistryOpts n F o.w.reg R → (∀ c ∈ ops, c.1.idOk opt.toRegistryOpts) →
    Room opt.toRegistryOpts (n + (regHist (ops.map Prod.fst)).length + 1) → wkeepX env ops o = .ok (o', t) →
    o'.w.handler = o.w.handler ∧ t.length ≤ (regHist (ops.map Prod.fst)).length ∧
      ∃ R', Filed env opt.toRegistryOpts (n + t.length) (t.foldl (fun F c => F.afterX opt.toRegistryOpts c) F) o'.w.reg R' := by
  induction ops with
  | nil =>
    intro n F o o' R t H _ _ h
    cases h
    exact ⟨rfl, Nat.le_refl _, R, H⟩
  | cons c ops ih =>
    obtain ⟨op, thr⟩ := c
    intro n F o o' R t H hid hr h
    have e : regHist (((op, thr) :: ops).map Prod.fst) = op.regOps ++ regHist (ops.map Prod.fst) := by simp [regHist]
    rw [e, List.length_append] at hr ⊢
    obtain ⟨c, h1, h⟩ := bind_inv h
    obtain ⟨⟨o1, t1⟩, h2, h⟩ := bind_inv h
    cases h
    have h1 : o.w.stepX env thr op = .ok c := h1
    have hop : op.idOk opt.toRegistryOpts := hid (op, thr) List.mem_cons_self
    obtain ⟨-, g1, g2, R1, H1⟩ := filed_stepX hs H hop (hr.mono (by omega)) h1
    obtain ⟨g3, g4, R2, H2⟩ := ih (o := { w := c.w, handed := o.handed ++ c.handed }) H1 (fun x hx => hid x (List.mem_cons_of_mem _ hx)) (hr.mono (by omega)) h2
    refine ⟨g3.trans g1, by rw [List.length_append]; omega, R2, ?_⟩
    rw [List.length_append, List.foldl_append, ← Nat.add_assoc]
    exact H2

/-! ### No faults -/

theorem fit_part {m mx : Int} (hs : 0 < opt.step) (B : Reducer.Bounds env m mx) (hi : RInv opt n w.reg) (hr : Room opt n) (h : AllFit env opt m mx w.reg)
    (q : Part) (ts : Int) (thr : Name × AggData → Bool) (hv : ∀ op ∈ q.op ts, op.within m mx) :
    ∃ t l w1, w.callOptX env q.p q.k.1 q.k.2 ts q.v q.count thr = .ok (t, l, w1) ∧ AllFit env opt m mx w1.reg ∧ RInv opt (n + (q.op ts).length) w1.reg := by
  rcases q with ⟨p, k, v, count⟩
  cases p with
  | none => exact ⟨false, [], w, rfl, h, hi⟩
  | some p =>
    have hv : ∀ y ∈ (AddArg.one v count).values, m ≤ y ∧ y ≤ mx := hv (.call p.rp k.1 k.2 ts (.one v count)) (by simp [Part.op, callOp])
    simp only [callOptX, callX]
    cases hf : w.reg.find p.rp.ref with
    | none => exact ⟨false, [], w, rfl, h, hi.mono (by omega)⟩
    | some a =>
      simp only
      split_ifs with hc
      · obtain ⟨pos, c, hp, -, rfl⟩ := hi.find_eq.1 hf
        obtain ⟨res, out, a', e, f⟩ := fits_pushX (opt := opt.toAggregatorOpts) hs B (h pos c hp) k.1 k.2 ts (fun d => (w.deliver p.h d).any thr) hv
        have hal : a'.alive = true := (pushX_alive e).trans (hi.alive pos c hp)
        simp only [e, bind_ok']
        exact ⟨_, _, _, rfl, h.update _ f, (rinv_update hi _ hal).mono (by omega)⟩
      · obtain ⟨l, w1, h1, h2, h3⟩ := fit_callOpt hs B hi hr h (some p) k ts v count (by
          intro op ho
          simp only [callOp, Option.toList_some, List.map_cons, List.map_nil, List.mem_singleton] at ho
          subst ho
          exact hv)
        have h1 : w.call env p k.1 k.2 ts v count = .ok (l, w1) := h1
        simp only [h1, bind_ok']
        exact ⟨_, _, _, rfl, h2, h3⟩

theorem fit_calls {m mx : Int} (hs : 0 < opt.step) (B : Reducer.Bounds env m mx) (ts : Int) (thr : Name × AggData → Bool) (qs : List Part) :
    ∀ {n : Nat} {w : Wrt}, RInv opt n w.reg → Room opt (n + (qs.flatMap fun q => q.op ts).length) → AllFit env opt m mx w.reg →
    (∀ op ∈ qs.flatMap fun q => q.op ts, op.within m mx) →
    ∃ c, callsX env thr ts qs w = .ok c ∧ AllFit env opt m mx c.w.reg ∧ RInv opt (n + (qs.flatMap fun q => q.op ts).length) c.w.reg ∧
      c.w.handler = w.handler := by
  induction qs with
  | nil => intro n w hi _ h _; exact ⟨_, rfl, h, hi, rfl⟩
  | cons q qs ih =>
    intro n w hi hr h hv
    rw [List.flatMap_cons, List.length_append] at hr ⊢
    rw [List.flatMap_cons] at hv
    obtain ⟨t, l, w1, h1, h2, h3⟩ := fit_part hs B hi (hr.mono (by omega)) h q ts thr (fun op ho => hv op (List.mem_append_left _ ho))
    have hh := callOptX_handler h1
    simp only [callsX, h1, bind_ok']
    cases t with
    | true => exact ⟨_, rfl, h2, h3.mono (by omega), hh⟩
    | false =>
      obtain ⟨c, g1, g2, g3, g4⟩ := ih h3 (hr.mono (by omega)) h2 (fun op ho => hv op (List.mem_append_right _ ho))
      simp only [Bool.false_eq_true, if_false, g1, bind_ok']
      exact ⟨_, rfl, g2, by rw [← Nat.add_assoc]; exact g3, g4.trans hh⟩

/-- With a handler, no operation faults. -/
theorem fit_stepX {m mx : Int} (hs : 0 < opt.step) (B : Reducer.Bounds env m mx) {op : WOp} (hi : RInv opt n w.reg) (hr : Room opt (n + op.regOps.length))
    (h : AllFit env opt m mx w.reg) (hv : ∀ o ∈ op.regOps, o.within m mx) (hd : w.handler = true) (thr : Thrower) :
    ∃ c, w.stepX env thr op = .ok c ∧ AllFit env opt m mx c.w.reg ∧ RInv opt (n + op.regOps.length) c.w.reg ∧ c.w.handler = true := by
  have plain : ∃ resp l w', w.step env op = .ok (resp, l, w') ∧ AllFit env opt m mx w'.reg ∧ RInv opt (n + op.regOps.length) w'.reg ∧
      w'.handler = true := by
    rcases fit_wstep hs B op hi hr h hv with ⟨⟨resp, l, w1⟩, h1⟩ | ⟨g, -⟩
    · obtain ⟨k1, ro, k2, k3⟩ := step_sim h1 (ro := { r := w.reg }) rfl
      obtain ⟨ro', k4, k5⟩ := fit_execAll hs B op.regOps (o := { r := w.reg }) hi hr h hv
      rw [k2] at k4; cases k4
      have k6 := Registry.inv_execAll op.regOps (o := { r := w.reg }) hi hr k2
      rw [k3] at k5 k6
      exact ⟨resp, l, w1, h1, k5, k6, k1.trans hd⟩
    · rw [hd] at g; cases g
  have other : ∃ c, (do let (resp, l, w) ← w.step env op
                        .ok { resp := some resp, handed := l, done := op.regOps.map fun o => (o, false), w := w } : M Came) = .ok c ∧
      AllFit env opt m mx c.w.reg ∧ RInv opt (n + op.regOps.length) c.w.reg ∧ c.w.handler = true := by
    obtain ⟨resp, l, w', h1, h2⟩ := plain
    simp only [h1, bind_ok']
    exact ⟨_, rfl, h2⟩
  have calls : ∀ {ts : Int} {qs : List Part}, (qs.flatMap fun q => q.op ts) = op.regOps →
      ∃ c, (do let c ← callsX env (fun r => thr [r]) ts qs w
               .ok c.came : M Came) = .ok c ∧ AllFit env opt m mx c.w.reg ∧ RInv opt (n + op.regOps.length) c.w.reg ∧ c.w.handler = true := by
    intro ts qs hq
    obtain ⟨c, g1, g2, g3, g4⟩ := fit_calls hs B ts (fun r => thr [r]) qs hi (by rw [hq]; exact hr) h (by rw [hq]; exact hv)
    simp only [g1, bind_ok']
    exact ⟨_, rfl, g2, hq ▸ g3, g4.trans hd⟩
  cases op with
  | reg op => exact other
  | meterId id => exact other
  | meterName q name now => exact other
  | compositeId t r x s => exact other
  | compositeName ord qt qr qw nt nr nw now s => exact other
  | call p c1 c2 ts v count => exact calls (by simp [Part.op, WOp.regOps, callOp])
  | callC p kt kr kw ts span count rd wr => exact calls (by simp [Part.op, WOp.regOps, CPusher.parts])
  | pushout force clk =>
    obtain ⟨resp, l, w', h1, h2⟩ := plain
    obtain ⟨⟨k, l', w1⟩, h3, h4⟩ := bind_inv h1
    cases h4
    obtain ⟨⟨l1, r1⟩, h5, h6⟩ := bind_inv h3
    simp only [hd, Bool.true_eq_false, and_false, if_false] at h6
    cases h6
    simp only [stepX, hd, if_true, pushoutX, h5, bind_ok']
    exact ⟨_, rfl, h2⟩

theorem fit_keepX {opt : WOpts} {m mx : Int} (hs : 0 < opt.step) (B : Reducer.Bounds env m mx) (ops : List (WOp × Thrower)) : ∀ {n : Nat} {o : WObs},
    RInv opt.toRegistryOpts n o.w.reg → Room opt.toRegistryOpts (n + (regHist (ops.map Prod.fst)).length) → AllFit env opt.toRegistryOpts m mx o.w.reg →
    (∀ op ∈ regHist (ops.map Prod.fst), op.within m mx) → o.w.handler = true → ∃ p, wkeepX env ops o = .ok p := by
  induction ops with
  | nil => intro n o _ _ _ _ _; exact ⟨_, rfl⟩
  | cons c ops ih =>
    obtain ⟨op, thr⟩ := c
    intro n o hi hr h hv hd
    have e : regHist (((op, thr) :: ops).map Prod.fst) = op.regOps ++ regHist (ops.map Prod.fst) := by simp [regHist]
    rw [e, List.length_append, ← Nat.add_assoc] at hr
    rw [e] at hv
    obtain ⟨c, g1, g2, g3, g4⟩ := fit_stepX hs B hi (hr.mono (by omega)) h (fun x hx => hv x (List.mem_append_left _ hx)) hd thr
    obtain ⟨p, h2⟩ := ih (o := { w := c.w, handed := o.handed ++ c.handed }) g3 hr g2 (fun x hx => hv x (List.mem_append_right _ hx)) g4
    simp only [wkeepX, g1, h2, bind_ok']
    exact ⟨_, rfl⟩

/-! ### Handlers that do not throw -/

theorem part_calm {q : Part} {ts : Int} {thr : Name × AggData → Bool} (hq : ∀ r, thr r = false) {t : Bool} {l : List (Name × AggData)}
    (h : w.callOptX env q.p q.k.1 q.k.2 ts q.v q.count thr = .ok (t, l, w')) :
    t = false ∧ w.callOpt env q.p q.k.1 q.k.2 ts q.v q.count = .ok (l, w') := by
  obtain ⟨w2, e1, e2, e3⟩ := callOptX_spec h
  cases t with
  | false => rw [e2 rfl]; exact ⟨rfl, e1⟩
  | true =>
    obtain ⟨⟨r, -, hr⟩, -⟩ := e3 rfl
    rw [hq r] at hr
    cases hr

theorem stepX_calm {op : WOp} {thr : Thrower} (hq : ∀ l, thr l = false) {c : Came} (h : w.stepX env thr op = .ok c) :
    ∃ resp, w.step env op = .ok (resp, c.handed, c.w) ∧ c.resp = some resp ∧ c.lost = [] ∧ c.done = op.regOps.map fun o => (o, false) := by
  have other : ∀ {c : Came}, (do let (resp, l, w) ← w.step env op
                                 .ok { resp := some resp, handed := l, done := op.regOps.map fun o => (o, false), w := w } : M Came) = .ok c →
      ∃ resp, w.step env op = .ok (resp, c.handed, c.w) ∧ c.resp = some resp ∧ c.lost = [] ∧ c.done = op.regOps.map fun o => (o, false) := by
    intro c hc
    obtain ⟨⟨resp, l, w1⟩, h1, h2⟩ := bind_inv hc
    cases h2
    exact ⟨resp, h1, rfl, rfl, rfl⟩
  have part : ∀ {ts : Int} {q : Part} {qs : List Part} {w : Wrt} {c : Called}, callsX env (fun r => thr [r]) ts (q :: qs) w = .ok c →
      ∃ l w1 c', w.callOpt env q.p q.k.1 q.k.2 ts q.v q.count = .ok (l, w1) ∧ callsX env (fun r => thr [r]) ts qs w1 = .ok c' ∧
        c = { c' with done := ((q.op ts).map fun o => (o, false)) ++ c'.done, handed := l ++ c'.handed } := by
    intro ts q qs w c hc
    obtain ⟨⟨t, l, w1⟩, h1, hc⟩ := bind_inv hc
    obtain ⟨rfl, h2⟩ := part_calm (fun r => hq [r]) h1
    simp only [Bool.false_eq_true, if_false] at hc
    obtain ⟨c', h3, hc⟩ := bind_inv hc
    cases hc
    exact ⟨l, w1, c', h2, h3, rfl⟩
  cases op with
  | reg op => exact other h
  | meterId id => exact other h
  | meterName q name now => exact other h
  | compositeId t r x s => exact other h
  | compositeName ord qt qr qw nt nr nw now s => exact other h
  | call p c1 c2 ts v count =>
    obtain ⟨c1, h1, h⟩ := bind_inv h
    cases h
    obtain ⟨l, w1, c', e1, e2, rfl⟩ := part h1
    cases e2
    have e1 : w.call env p _ c2 ts v count = .ok (l, w1) := e1
    refine ⟨.unit, ?_, rfl, rfl, by simp [Called.came, Part.op, callOp, WOp.regOps]⟩
    simp only [step, e1, bind_ok', Called.came, List.append_nil]
  | callC p kt kr kw ts span count rd wr =>
    obtain ⟨c1, h1, h⟩ := bind_inv h
    cases h
    obtain ⟨l, w1, c', e1, e2, rfl⟩ := part h1
    obtain ⟨l2, w2, c2, e3, e4, rfl⟩ := part e2
    obtain ⟨l3, w3, c3, e5, e6, rfl⟩ := part e4
    cases e6
    simp only at e1 e3 e5
    refine ⟨.unit, ?_, rfl, rfl, by simp [Called.came, Part.op, WOp.regOps]⟩
    simp only [step, callC, e1, e3, e5, bind_ok', Called.came, List.append_nil, List.append_assoc]
  | pushout force clk =>
    unfold stepX at h
    split_ifs at h with hh
    · obtain ⟨o, h1, h⟩ := bind_inv h
      cases h
      obtain ⟨e, k1, k2⟩ := C112_pushout_partial env w force clk thr o hh h1
      cases ht : o.threw with
      | true => rw [hq o.handed] at k2; cases (k2 ht).2.1
      | false =>
        obtain ⟨g, -⟩ := k1 ht
        rw [g, List.append_nil] at e
        exact ⟨.num o.handed.length, by simp only [step, e, bind_ok'], rfl, g, rfl⟩
    · exact other h

end Wrt

open Wrt

/-! ### C174 -/

/-- The calls of the parts are the composite call. -/
theorem C174_composite (env : Env) (w : Wrt) (p : CPusher) (kt kr kw : Clks) (ts span : Int) (count : Nat) (rd wr : Int) (thr : Name × AggData → Bool) :
    w.callCX env p kt kr kw ts span count rd wr thr =
      (callsX env thr ts (CPusher.parts p kt kr kw span count rd wr) w).map fun c => (c.threw, c.handed, c.w) := by
  rw [callCX]
  simp only [CPusher.parts, callsX]
  cases w.callOptX env p.time kt.1 kt.2 ts span count thr with
  | error e => rfl
  | ok q =>
    obtain ⟨t, l, w1⟩ := q
    simp only [bind_ok']
    cases t with
    | true => rfl
    | false =>
      simp only [Bool.false_eq_true, if_false]
      cases w1.callOptX env p.read kr.1 kr.2 ts rd (if p.summary = true then toSize rd else count) thr with
      | error e => rfl
      | ok q =>
        obtain ⟨t, l2, w2⟩ := q
        simp only [bind_ok']
        cases t with
        | true => rfl
        | false =>
          simp only [Bool.false_eq_true, if_false]
          cases w2.callOptX env p.write kw.1 kw.2 ts wr (if p.summary = true then toSize wr else count) thr with
          | error e => rfl
          | ok q =>
            obtain ⟨t, l3, w3⟩ := q
            simp only [bind_ok']
            cases t <;> simp [Except.map, bind_ok']

/-- Every answer of a wrtstat object whose handler throws, everything handed over and everything lost, is what the folio says. -/
theorem C174_answers (env : Env) (opt : WOpts) (ops : List (WOp × Thrower)) (o : WObs) (t : List (RegOp × Bool)) (hs : 0 < opt.step) (op : WOp)
    (thr : Thrower) (hr : Room opt.toRegistryOpts ((regHist (ops.map Prod.fst)).length + op.regOps.length + 1))
    (hid : ∀ c ∈ ops, c.1.idOk opt.toRegistryOpts) (h : wkeepX env ops { w := Wrt.new opt } = .ok (o, t)) (hop : op.idOk opt.toRegistryOpts) (c : Came)
    (hstep : o.w.stepX env thr op = .ok c) : WAnswersX env opt.toRegistryOpts opt.handler (wfolioX opt t) thr op c := by
  obtain ⟨hh, hl, R, H⟩ := filed_keepX hs ops (o := { w := Wrt.new opt }) (filed_new env opt.toRegistryOpts) hid
    (by rw [Nat.zero_add]; exact hr.mono (by omega)) h
  have hh : o.w.handler = opt.handler := hh
  rw [← hh]
  exact (filed_stepX hs H hop (hr.mono (by omega)) hstep).1

/-- The end of the object: it hands over what the folio says, or the program is terminated when the handler throws. -/
theorem C174_end (env : Env) (opt : WOpts) (ops : List (WOp × Thrower)) (o : WObs) (t : List (RegOp × Bool)) (hs : 0 < opt.step)
    (thr : Thrower) (hr : Room opt.toRegistryOpts ((regHist (ops.map Prod.fst)).length + 2))
    (hid : ∀ c ∈ ops, c.1.idOk opt.toRegistryOpts) (h : wkeepX env ops { w := Wrt.new opt } = .ok (o, t)) (hd : opt.handler = true) (clk : Nat → Int)
    (p : PushedOut) (hp : o.w.pushoutX env true clk thr = .ok p) :
    (wfolioX opt t).Answers env opt.toRegistryOpts (.popAll true clk) (.records (p.handed ++ p.lost)) ∧
      (o.w.destroyX env clk thr = .ok (p.handed ++ p.lost) ↔ ∀ q, q <+: p.handed ++ p.lost → q ≠ [] → thr q = false) ∧
      (o.w.destroyX env clk thr = .error .abort ↔ ∃ q, q <+: p.handed ++ p.lost ∧ q ≠ [] ∧ thr q = true) := by
  obtain ⟨hh, hl, R, H⟩ := filed_keepX hs ops (o := { w := Wrt.new opt }) (filed_new env opt.toRegistryOpts) hid
    (by rw [Nat.zero_add]; exact hr.mono (by omega)) h
  have hh : o.w.handler = true := hh.trans hd
  have hx : o.w.stepX env thr (.pushout true clk) = .ok { resp := if p.threw then none else some (.num p.handed.length), handed := p.handed, lost := p.lost, done := [(.popAll true clk, false)], w := p.w } := by
    simp only [stepX, hh, if_true, hp, bind_ok']
  obtain ⟨⟨-, g1, -⟩, -⟩ := filed_stepX hs H (by trivial) (hr.mono (by simp only [WOp.regOps, List.length_singleton]; omega)) hx
  have g1 : (wfolioX opt t).Answers env opt.toRegistryOpts (.popAll true clk) (.records (p.handed ++ p.lost)) := g1
  obtain ⟨e, k1, k2⟩ := C112_pushout_partial env o.w true clk thr p hh hp
  refine ⟨g1, ?_⟩
  unfold destroyX
  rw [hp, bind_ok']
  cases ht : p.threw with
  | false =>
    obtain ⟨e1, e2⟩ := k1 ht
    simp only [Bool.false_eq_true, if_false, e1, List.append_nil, true_iff]
    refine ⟨e2, ⟨fun h => (by cases h), ?_⟩⟩
    rintro ⟨q, h1, h2, h3⟩
    rw [e2 q h1 h2] at h3
    cases h3
  | true =>
    obtain ⟨e1, e2, -⟩ := k2 ht
    simp only [if_true, true_iff]
    refine ⟨⟨fun h => (by cases h), fun h => ?_⟩, p.handed, List.prefix_append _ _, e1, e2⟩
    rw [h _ (List.prefix_append _ _) e1] at e2
    cases e2

/-- With a handler, no history faults, whatever throws. -/
theorem C174_total (env : Env) (opt : WOpts) (ops : List (WOp × Thrower)) (m mx : Int) (B : Reducer.Bounds env m mx) (hs : 0 < opt.step)
    (hr : Room opt.toRegistryOpts (regHist (ops.map Prod.fst)).length) (hv : ∀ op ∈ regHist (ops.map Prod.fst), op.within m mx)
    (hd : opt.handler = true) : ∃ p, wkeepX env ops { w := Wrt.new opt } = .ok p :=
  fit_keepX hs B ops (o := { w := Wrt.new opt }) (rinv_new _) (by rw [Nat.zero_add]; exact hr) (by simp [AllFit, Wrt.new, Registry.new]) hv hd

/-- Handlers that do not throw: the history is one of C167, and so is its folio. -/
theorem C174_calm (env : Env) (opt : WOpts) (ops : List (WOp × Thrower)) (hq : ∀ c ∈ ops, ∀ l, c.2 l = false) : ∀ (o o' : WObs) (t : List (RegOp × Bool)),
    wkeepX env ops o = .ok (o', t) → wexecAll env o (ops.map Prod.fst) = .ok o' ∧ wfolioX opt t = wfolio opt (ops.map Prod.fst) := by
  have key : ∀ (ops : List (WOp × Thrower)), (∀ c ∈ ops, ∀ l, c.2 l = false) → ∀ (o o' : WObs) (t : List (RegOp × Bool)),
      wkeepX env ops o = .ok (o', t) → wexecAll env o (ops.map Prod.fst) = .ok o' ∧ t = (regHist (ops.map Prod.fst)).map fun o => (o, false) := by
    intro ops
    induction ops with
    | nil => intro _ o o' t h; cases h; exact ⟨rfl, rfl⟩
    | cons c ops ih =>
      obtain ⟨op, thr⟩ := c
      intro hq o o' t h
      obtain ⟨c, h1, h⟩ := bind_inv h
      obtain ⟨⟨o1, t1⟩, h2, h⟩ := bind_inv h
      cases h
      obtain ⟨resp, e1, -, -, e2⟩ := stepX_calm (hq (op, thr) List.mem_cons_self) h1
      obtain ⟨g1, g2⟩ := ih (fun c hc => hq c (List.mem_cons_of_mem _ hc)) _ _ _ h2
      refine ⟨?_, ?_⟩
      · unfold wexecAll at g1 ⊢
        rw [List.map_cons, List.foldlM_cons]
        simp only [wexec, e1, bind_ok']
        exact g1
      · rw [e2, g2]
        simp [regHist]
  intro o o' t h
  obtain ⟨h1, rfl⟩ := key ops hq o o' t h
  refine ⟨h1, ?_⟩
  unfold wfolioX wfolio folio
  rw [List.foldl_map]
  rfl

/-- A handler that throws on everything. -/
def exFurious : Thrower := fun _ => true

/-- A handler that throws on nothing. -/
def exCalm : Thrower := fun _ => false

/-- Two names with an event each; the call of a meter throws and its event is lost, and so is a report that throws on the first of two records. -/
def exTornHistory : List (WOp × Thrower) :=
  [(.meterName {} ['a'] 1003, exCalm), (.reg (.addId 1 0 0 1003 5 1), exCalm), (.meterName {} ['b'] 1003, exCalm), (.reg (.addId 2 0 0 1003 7 1), exCalm),
    (.call ⟨⟨0, true, true⟩, .byId 1⟩ 0 0 1014 6 1, exFurious), (.reg (.addId 1 0 0 1004 8 1), exCalm)]

example : (match wkeepX exactEnv exTornHistory { w := Wrt.new exWOpt } with
    | .ok (o, t) => decide (o.handed.map (fun r => (r.1, r.2.count)) = [(['a'], 1)] ∧ t.map Prod.snd = [false, false, false, false, true, false] ∧
        (wfolioX exWOpt t).leaf ['a'] = some ⟨1, 0, { begins := 1000, on := [.one 8 1], made := [⟨1000, [.one 5 1], false⟩] }⟩ ∧
        (match o.w.stepX exactEnv exFurious (.pushout true fun _ => 1005) with
        | .ok c => decide (c.resp = none ∧ c.handed.map (fun r => (r.1, r.2.count)) = [(['a'], 1)] ∧ c.lost.map (fun r => (r.1, r.2.count)) = [(['b'], 1)])
        | .error _ => false) = true)
    | .error _ => false) = true := by decide +kernel

end Wrtstat
