/-
C166: no operation of a wrtstat object faults, except those that report without a handler.
-/
import Verif.Props.RegistryTotal
import Verif.Props.ExactWrtstat

namespace Wrtstat

set_option autoImplicit false

open Aggregator Registry

namespace Wrt

variable {env : Env} {opt : RegistryOpts} {n : Nat} {w w' : Wrt} {m mx : Int}

theorem fit_pusherId {r : Registry} (h : AllFit env opt m mx r) (h0 : r.dict.step ≠ 0) (id : Nat) (hd : Bool) : ∃ p, r.pusherId id hd = .ok p := by
  unfold pusherId
  rcases h.get h0 id with e | ⟨c, e, -⟩
  · rw [e]; exact ⟨_, rfl⟩
  · rw [e]; exact ⟨_, rfl⟩

theorem fit_meterId (h : AllFit env opt m mx w.reg) (h0 : w.reg.dict.step ≠ 0) (id : Nat) : ∃ p, w.meterId id = .ok p := by
  obtain ⟨p, e⟩ := fit_pusherId h h0 id (decide (w.makeHandlerId id ≠ .none))
  unfold meterId
  simp only [e, bind_ok']
  exact ⟨_, rfl⟩

theorem fit_composite (h : AllFit env opt m mx w.reg) (h0 : w.reg.dict.step ≠ 0) (t r x : Nat) (ht hr hw : Hnd) (s : Bool) :
    ∃ p, w.compositePusher t r x ht hr hw s = .ok p := by
  obtain ⟨p1, e1⟩ := fit_pusherId h h0 t (decide (ht ≠ .none))
  obtain ⟨p2, e2⟩ := fit_pusherId h h0 r (decide (hr ≠ .none))
  obtain ⟨p3, e3⟩ := fit_pusherId h h0 x (decide (hw ≠ .none))
  unfold compositePusher part
  simp only [e1, e2, e3, bind_ok']
  split <;> exact ⟨_, rfl⟩

/-- A creation, and what it leaves for the next. -/
theorem fit_create' (hs : 0 < opt.step) (B : Reducer.Bounds env m mx) (hi : RInv opt n w.reg) (hr : Room opt n) (h : AllFit env opt m mx w.reg)
    {q : Ask} (hq : Ask.within m mx q) (name : Name) (now : Int) :
    ∃ id w1, (do let (id, r) ← w.reg.createAggregator env q name now; .ok (id, { w with reg := r }) : M (Nat × Wrt)) = .ok (id, w1) ∧
      AllFit env opt m mx w1.reg ∧ RInv opt (n + 1) w1.reg ∧ w1.reg.dict.step ≠ 0 := by
  obtain ⟨id, r1, h1, h2, h3⟩ := fit_create hs B hi hr h hq name now
  exact ⟨id, { w with reg := r1 }, by simp only [h1, bind_ok'], h2, (create_keep hi hr h1).1, h3⟩

theorem fit_three (hs : 0 < opt.step) (B : Reducer.Bounds env m mx) (hi : RInv opt n w.reg) (hr : Room opt (n + 3)) (h : AllFit env opt m mx w.reg)
    {q1 q2 q3 : Ask} (h1 : Ask.within m mx q1) (h2 : Ask.within m mx q2) (h3 : Ask.within m mx q3) (ord : Order) (nt nr nw : Name) (now : Int) :
    ∃ t r x w1, w.createThree env ord q1 q2 q3 nt nr nw now = .ok ((t, r, x), w1) ∧ AllFit env opt m mx w1.reg ∧ w1.reg.dict.step ≠ 0 := by
  have key : ∀ {p1 p2 p3 : Ask} (_ : Ask.within m mx p1) (_ : Ask.within m mx p2) (_ : Ask.within m mx p3) (n1 n2 n3 : Name),
      ∃ i1 w1 i2 w2 i3 w3,
        (do let (id, r) ← w.reg.createAggregator env p1 n1 now; .ok (id, { w with reg := r }) : M (Nat × Wrt)) = .ok (i1, w1) ∧
        (do let (id, r) ← w1.reg.createAggregator env p2 n2 now; .ok (id, { w1 with reg := r }) : M (Nat × Wrt)) = .ok (i2, w2) ∧
        (do let (id, r) ← w2.reg.createAggregator env p3 n3 now; .ok (id, { w2 with reg := r }) : M (Nat × Wrt)) = .ok (i3, w3) ∧
        AllFit env opt m mx w3.reg ∧ w3.reg.dict.step ≠ 0 := by
    intro p1 p2 p3 k1 k2 k3 n1 n2 n3
    obtain ⟨i1, w1, e1, f1, v1, -⟩ := fit_create' hs B hi (hr.mono (by omega)) h k1 n1 now
    obtain ⟨i2, w2, e2, f2, v2, -⟩ := fit_create' hs B v1 (hr.mono (by omega)) f1 k2 n2 now
    obtain ⟨i3, w3, e3, f3, -, z3⟩ := fit_create' hs B v2 (hr.mono (by omega)) f2 k3 n3 now
    exact ⟨i1, w1, i2, w2, i3, w3, e1, e2, e3, f3, z3⟩
  unfold createThree
  cases ord
  · obtain ⟨i1, w1, i2, w2, i3, w3, e1, e2, e3, f, z⟩ := key h1 h2 h3 nt nr nw
    exact ⟨i1, i2, i3, w3, by simp only [e1, e2, e3, bind_ok'], f, z⟩
  · obtain ⟨i1, w1, i2, w2, i3, w3, e1, e2, e3, f, z⟩ := key h1 h3 h2 nt nw nr
    exact ⟨i1, i3, i2, w3, by simp only [e1, e2, e3, bind_ok'], f, z⟩
  · obtain ⟨i1, w1, i2, w2, i3, w3, e1, e2, e3, f, z⟩ := key h2 h1 h3 nr nt nw
    exact ⟨i2, i1, i3, w3, by simp only [e1, e2, e3, bind_ok'], f, z⟩
  · obtain ⟨i1, w1, i2, w2, i3, w3, e1, e2, e3, f, z⟩ := key h2 h3 h1 nr nw nt
    exact ⟨i3, i1, i2, w3, by simp only [e1, e2, e3, bind_ok'], f, z⟩
  · obtain ⟨i1, w1, i2, w2, i3, w3, e1, e2, e3, f, z⟩ := key h3 h1 h2 nw nt nr
    exact ⟨i2, i3, i1, w3, by simp only [e1, e2, e3, bind_ok'], f, z⟩
  · obtain ⟨i1, w1, i2, w2, i3, w3, e1, e2, e3, f, z⟩ := key h3 h2 h1 nw nr nt
    exact ⟨i3, i2, i1, w3, by simp only [e1, e2, e3, bind_ok'], f, z⟩

theorem fit_callOpt (hs : 0 < opt.step) (B : Reducer.Bounds env m mx) (hi : RInv opt n w.reg) (hr : Room opt n) (h : AllFit env opt m mx w.reg)
    (p : Option WPusher) (k : Clks) (ts v : Int) (count : Nat) (hv : ∀ op ∈ callOp p k ts v count, op.within m mx) :
    ∃ l w1, w.callOpt env p k.1 k.2 ts v count = .ok (l, w1) ∧ AllFit env opt m mx w1.reg ∧ RInv opt (n + 1) w1.reg := by
  cases p with
  | none => exact ⟨[], w, rfl, h, hi.mono (by omega)⟩
  | some p =>
    obtain ⟨resp, r1, h1, h2⟩ := fit_step hs B hi hr h (op := .call p.rp k.1 k.2 ts (.one v count)) (hv _ (by simp [callOp]))
    have h3 := (eff_any hi hr h1).1
    obtain ⟨⟨out, r2⟩, h4, h5⟩ := bind_inv h1
    cases h5
    exact ⟨_, { w with reg := r1 }, by simp only [callOpt, call, h4, bind_ok']; rfl, h2, h3⟩

/-- No operation faults, except `pushout` and `force_pushout` that have something to report without a handler. -/
theorem fit_wstep (hs : 0 < opt.step) (B : Reducer.Bounds env m mx) (op : WOp) (hi : RInv opt n w.reg) (hr : Room opt (n + op.regOps.length))
    (h : AllFit env opt m mx w.reg) (hv : ∀ o ∈ op.regOps, o.within m mx) :
    (∃ x, w.step env op = .ok x) ∨
      (w.handler = false ∧ w.step env op = .error .badFunctionCall ∧
        ∃ force clk l r, op = .pushout force clk ∧ w.reg.popAll env force clk = .ok (l, r) ∧ l ≠ []) := by
  have h0 : w.reg.dict.step ≠ 0 := by rw [hi.step]; have := hr.1; omega
  cases op with
  | reg op =>
    obtain ⟨resp, r1, h1, -⟩ := fit_step hs B hi (hr.mono (by omega)) h (hv op (by simp [WOp.regOps]))
    left
    simp only [step, h1, bind_ok']
    exact ⟨_, rfl⟩
  | meterId id =>
    obtain ⟨p, h1⟩ := fit_meterId h h0 id
    left
    simp only [step, h1, bind_ok']
    exact ⟨_, rfl⟩
  | meterName q name now =>
    obtain ⟨id, r1, h1, h2, h3⟩ := fit_create hs B hi (hr.mono (by omega)) h (hv (.create q name now) (by simp [WOp.regOps])) name now
    obtain ⟨p, h4⟩ := fit_meterId (w := { w with reg := r1 }) h2 h3 id
    left
    simp only [step, meterName, h1, h4, bind_ok']
    exact ⟨_, rfl⟩
  | compositeId t r x s =>
    obtain ⟨p, h1⟩ := fit_composite h h0 t r x (w.makeHandlerId t) (w.makeHandlerId r) (w.makeHandlerId x) s
    left
    simp only [step, compositeId, h1, bind_ok']
    exact ⟨_, rfl⟩
  | compositeName ord qt qr qw nt nr nw now s =>
    have hl : (WOp.compositeName ord qt qr qw nt nr nw now s).regOps.length = 3 := by cases ord <;> rfl
    rw [hl] at hr
    obtain ⟨t, r, x, w1, h1, h2, h3⟩ := fit_three hs B hi hr h
      (hv (.create qt nt now) (by cases ord <;> simp [WOp.regOps, createOps]))
      (hv (.create qr nr now) (by cases ord <;> simp [WOp.regOps, createOps]))
      (hv (.create qw nw now) (by cases ord <;> simp [WOp.regOps, createOps])) ord nt nr nw now
    obtain ⟨p, h4⟩ := fit_composite h2 h3 t r x (w1.makeHandlerName nt) (w1.makeHandlerName nr) (w1.makeHandlerName nw) s
    left
    simp only [step, compositeName, h1, h4, bind_ok']
    exact ⟨_, rfl⟩
  | call p c1 c2 ts v count =>
    obtain ⟨l, w1, h1, -⟩ := fit_callOpt hs B hi (hr.mono (by omega)) h (some p) (c1, c2) ts v count hv
    left
    have h1 : w.call env p c1 c2 ts v count = .ok (l, w1) := h1
    simp only [step, h1, bind_ok']
    exact ⟨_, rfl⟩
  | callC p kt kr kw ts span count rd wr =>
    have hv1 : ∀ o ∈ callOp p.time kt ts span count, o.within m mx := fun o ho => hv o (by simp [WOp.regOps, ho])
    have hv2 : ∀ o ∈ callOp p.read kr ts rd (if p.summary then toSize rd else count), o.within m mx := fun o ho => hv o (by simp [WOp.regOps, ho])
    have hv3 : ∀ o ∈ callOp p.write kw ts wr (if p.summary then toSize wr else count), o.within m mx := fun o ho => hv o (by simp [WOp.regOps, ho])
    have step1 : ∀ {n : Nat} {w : Wrt} (p : Option WPusher) (k : Clks) (v : Int) (c : Nat), RInv opt n w.reg →
        Room opt (n + (callOp p k ts v c).length) → AllFit env opt m mx w.reg → (∀ o ∈ callOp p k ts v c, o.within m mx) →
        ∃ l w1, w.callOpt env p k.1 k.2 ts v c = .ok (l, w1) ∧ AllFit env opt m mx w1.reg ∧ RInv opt (n + (callOp p k ts v c).length) w1.reg := by
      intro n w p k v c hi hr h hv
      cases p with
      | none => exact ⟨[], w, rfl, h, hi⟩
      | some p => exact fit_callOpt hs B hi (hr.mono (by omega)) h (some p) k ts v c hv
    simp only [WOp.regOps, List.length_append] at hr
    obtain ⟨l1, w1, e1, f1, i1⟩ := step1 p.time kt span count hi (hr.mono (by omega)) h hv1
    obtain ⟨l2, w2, e2, f2, i2⟩ := step1 p.read kr rd _ i1 (hr.mono (by omega)) f1 hv2
    obtain ⟨l3, w3, e3, f3, i3⟩ := step1 p.write kw wr _ i2 (hr.mono (by omega)) f2 hv3
    left
    simp only [step, callC, e1, e2, e3, bind_ok']
    exact ⟨_, rfl⟩
  | pushout force clk =>
    obtain ⟨resp, r1, h1, -⟩ := fit_step hs B hi (hr.mono (by omega)) h (op := .popAll force clk) trivial
    obtain ⟨⟨l, r2⟩, h2, h3⟩ := bind_inv h1
    simp only [step, pushout, h2, bind_ok']
    by_cases hc : l ≠ [] ∧ w.handler = false
    · right
      rw [if_pos hc]
      exact ⟨hc.2, rfl, force, clk, l, r2, rfl, h2, hc.1⟩
    · left
      rw [if_neg hc]
      exact ⟨_, rfl⟩

theorem fit_wexecAll {opt : WOpts} (hs : 0 < opt.step) (B : Reducer.Bounds env m mx) (ops : List WOp) : ∀ {n : Nat} {o : WObs},
    RInv opt.toRegistryOpts n o.w.reg → Room opt.toRegistryOpts (n + (regHist ops).length) → AllFit env opt.toRegistryOpts m mx o.w.reg →
    (∀ op ∈ regHist ops, op.within m mx) →
    (∃ o', wexecAll env o ops = .ok o') ∨
      (o.w.handler = false ∧ wexecAll env o ops = .error .badFunctionCall ∧ ∃ ops1 force clk ops2 o1 l r, ops = ops1 ++ .pushout force clk :: ops2 ∧
        wexecAll env o ops1 = .ok o1 ∧ o1.w.reg.popAll env force clk = .ok (l, r) ∧ l ≠ []) := by
  induction ops with
  | nil => intro n o _ _ _ _; exact .inl ⟨o, rfl⟩
  | cons op ops ih =>
    intro n o hi hr h hv
    have e : regHist (op :: ops) = op.regOps ++ regHist ops := by simp [regHist]
    rw [e, List.length_append, ← Nat.add_assoc] at hr
    rw [e] at hv
    rcases fit_wstep hs B op hi (hr.mono (by omega)) h (fun x hx => hv x (List.mem_append_left _ hx)) with ⟨⟨resp, l, w1⟩, h1⟩ | ⟨g1, g2, force, clk, l, r, g3, g4, g5⟩
    · have hx : wexec env o op = .ok { w := w1, handed := o.handed ++ l } := by simp only [wexec, h1, bind_ok']
      obtain ⟨k1, ro, k2, k3⟩ := step_sim h1 (ro := { r := o.w.reg }) rfl
      obtain ⟨ro', k4, k5⟩ := fit_execAll hs B op.regOps (o := { r := o.w.reg }) hi (hr.mono (by omega)) h (fun x hx => hv x (List.mem_append_left _ hx))
      rw [k2] at k4; cases k4
      have k6 := Registry.inv_execAll op.regOps (o := { r := o.w.reg }) hi (hr.mono (by omega)) k2
      rw [k3] at k5 k6
      have e1 : ∀ l, wexecAll env o (op :: l) = wexecAll env { w := w1, handed := o.handed ++ _ } l := fun l => by
        unfold wexecAll
        rw [List.foldlM_cons, hx]
        rfl
      rcases ih (o := { w := w1, handed := o.handed ++ l }) k6 hr k5 (fun x hx => hv x (List.mem_append_right _ hx)) with ⟨o', h2⟩ | ⟨g1, g2, ops1, force, clk, ops2, o1, l', r, g3, g4, g5, g6⟩
      · exact .inl ⟨o', by rw [e1]; exact h2⟩
      · refine .inr ⟨by rw [← k1]; exact g1, by rw [e1]; exact g2, op :: ops1, force, clk, ops2, o1, l', r, by rw [g3]; rfl, ?_, g5, g6⟩
        rw [e1]; exact g4
    · refine .inr ⟨g1, ?_, [], force, clk, ops, o, l, r, by rw [g3]; rfl, rfl, g4, g5⟩
      unfold wexecAll
      rw [List.foldlM_cons]
      unfold wexec
      rw [g2]
      rfl

end Wrt

open Wrt

/-! ### C166 -/

/-- With a handler no history of a wrtstat object faults, and neither does its end. -/
theorem C166_total (env : Env) (opt : WOpts) (ops : List WOp) (m mx : Int) (B : Reducer.Bounds env m mx) (hs : 0 < opt.step)
    (hr : Room opt.toRegistryOpts ((regHist ops).length + 1)) (hv : ∀ op ∈ regHist ops, op.within m mx) (hh : opt.handler = true) (clk : Nat → Int) :
    ∃ o l, wexecAll env { w := Wrt.new opt } ops = .ok o ∧ o.w.destroy env clk = .ok l := by
  have e : regHist (ops ++ [.pushout true clk]) = regHist ops ++ [.popAll true clk] := by simp [regHist, WOp.regOps]
  rcases fit_wexecAll hs B (ops ++ [.pushout true clk]) (n := 0) (o := { w := Wrt.new opt }) (rinv_new _)
    (by rw [Nat.zero_add, e, List.length_append]; exact hr) (by simp [AllFit, Wrt.new, Registry.new])
    (by rw [e]; intro op ho; rcases List.mem_append.1 ho with ho | ho
        · exact hv op ho
        · rw [List.mem_singleton.1 ho]; trivial) with ⟨o', h⟩ | ⟨h, -⟩
  · rw [wexecAll_append] at h
    obtain ⟨o, h1, h2⟩ := bind_inv h
    obtain ⟨o2, h3, -⟩ := wexecAll_cons h2
    obtain ⟨resp, l, h4, -⟩ := wexec_inv h3
    obtain ⟨⟨k, l', w1⟩, h5, -⟩ := bind_inv h4
    refine ⟨o, l', h1, ?_⟩
    unfold destroy
    rw [h5]
    rfl
  · have h : opt.handler = false := h
    rw [hh] at h; cases h

/-- Without one a history that faults calls the null handler, and it does so in the first `pushout` or `force_pushout` with something to report. -/
theorem C166_no_handler (env : Env) (opt : WOpts) (ops : List WOp) (m mx : Int) (B : Reducer.Bounds env m mx) (hs : 0 < opt.step)
    (hr : Room opt.toRegistryOpts (regHist ops).length) (hv : ∀ op ∈ regHist ops, op.within m mx) (f : Fault)
    (hf : wexecAll env { w := Wrt.new opt } ops = .error f) :
    f = .badFunctionCall ∧ opt.handler = false ∧ ∃ ops1 force clk ops2 o1 l r, ops = ops1 ++ .pushout force clk :: ops2 ∧
      wexecAll env { w := Wrt.new opt } ops1 = .ok o1 ∧ o1.w.reg.popAll env force clk = .ok (l, r) ∧ l ≠ [] := by
  rcases fit_wexecAll hs B ops (n := 0) (o := { w := Wrt.new opt }) (rinv_new _) (by rw [Nat.zero_add]; exact hr)
    (by simp [AllFit, Wrt.new, Registry.new]) hv with ⟨o', h⟩ | ⟨h1, h2, h3⟩
  · rw [hf] at h; cases h
  · rw [hf] at h2
    cases h2
    exact ⟨rfl, h1, h3⟩

/-- The same three calls, with a handler and without. -/
example : (match wexecAll exactEnv { w := Wrt.new exWOpt }
      [.meterName {} ['a'] 1003, .reg (.addId 1 0 0 1003 5 1), .pushout true fun _ => 1005] with
    | .ok o => decide (o.handed.length = 1)
    | .error _ => false) = true ∧
    (match wexecAll exactEnv { w := Wrt.new { exWOpt with handler := false } }
      [.meterName {} ['a'] 1003, .reg (.addId 1 0 0 1003 5 1), .pushout true fun _ => 1005] with
    | .ok _ => false
    | .error f => decide (f = .badFunctionCall)) = true := by decide +kernel

end Wrtstat
