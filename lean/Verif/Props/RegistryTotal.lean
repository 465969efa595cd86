/-
C165: no operation of a registry faults.
-/
import Verif.Props.Folio

namespace Wrtstat

set_option autoImplicit false

open Aggregator

namespace Registry

/-- Values between bounds. -/
def _root_.Wrtstat.AddArg.within (m mx : Int) (x : AddArg) : Prop := ∀ v ∈ x.values, m ≤ v ∧ v ≤ mx

/-- The record of the initializer, if there is one, is within the bounds. -/
def Ask.within (m mx : Int) (q : Ask) : Prop := ∀ rd, q.ini = some rd → (AddArg.reduced rd).within m mx

/-- All values of the operation are within the bounds. -/
def RegOp.within (m mx : Int) : RegOp → Prop
  | .create q _ _ => Ask.within m mx q
  | .addId _ _ _ _ v count => (AddArg.one v count).within m mx
  | .addData q _ _ _ rd => Ask.within m mx q ∧ (AddArg.reduced rd).within m mx
  | .pusherName q _ _ _ => Ask.within m mx q
  | .call _ _ _ _ x => x.within m mx
  | .direct _ op => ∀ v ∈ op.vals, m ≤ v ∧ v ≤ mx
  | _ => True

variable {env : Env} {opt : RegistryOpts} {n : Nat} {r r' : Registry} {m mx : Int}

/-- An aggregator that agrees with some books. -/
def Fit (env : Env) (opt : RegistryOpts) (m mx : Int) (a : Aggregator) : Prop := ∃ D : Desk, AtDesk env opt.toAggregatorOpts m mx D a

theorem Fit.mt (hs : 0 < opt.step) (B : Reducer.Bounds env m mx) {a : Aggregator} (h : Fit env opt m mx a) (op : MtOp) (hop : op.within m mx) :
    ∃ r a', a.mtExec env op = .ok (r, a') ∧ Fit env opt m mx a' := by
  obtain ⟨D, A⟩ := h
  obtain ⟨r, a', D', h1, -, h3⟩ := desk_step hs B A op hop
  exact ⟨r, a', h1, D', h3⟩

theorem Fit.add (hs : 0 < opt.step) (B : Reducer.Bounds env m mx) {a : Aggregator} (h : Fit env opt m mx a) (c1 c2 ts : Int) (x : AddArg)
    (hx : x.within m mx) : ∃ b a', a.add env c1 c2 ts x = .ok (b, a') ∧ Fit env opt m mx a' := by
  obtain ⟨r, a', h1, h2⟩ := h.mt hs B (.add c1 c2 ts x) hx
  obtain ⟨⟨b, a1⟩, h3, h4⟩ := bind_inv h1
  cases h4
  exact ⟨_, _, h3, h2⟩

theorem Fit.push (hs : 0 < opt.step) (B : Reducer.Bounds env m mx) {a : Aggregator} (h : Fit env opt m mx a) (c1 c2 ts : Int) (x : AddArg) (hd : Bool)
    (hx : x.within m mx) : ∃ b out a', a.push env c1 c2 ts x hd = .ok (b, out, a') ∧ Fit env opt m mx a' := by
  obtain ⟨r, a', h1, h2⟩ := h.mt hs B (.push c1 c2 ts x hd) hx
  obtain ⟨⟨b, out, a1⟩, h3, h4⟩ := bind_inv h1
  cases h4
  exact ⟨_, _, _, h3, h2⟩

theorem Fit.separate (hs : 0 < opt.step) (B : Reducer.Bounds env m mx) {a : Aggregator} (h : Fit env opt m mx a) (c ts : Int) (hd f : Bool) :
    ∃ b out a', a.separate env c ts hd f = .ok (b, out, a') ∧ Fit env opt m mx a' := by
  obtain ⟨r, a', h1, h2⟩ := h.mt hs B (.separate c ts hd f) trivial
  obtain ⟨⟨b, out, a1⟩, h3, h4⟩ := bind_inv h1
  cases h4
  exact ⟨_, _, _, h3, h2⟩

theorem Fit.forcePop (hs : 0 < opt.step) (B : Reducer.Bounds env m mx) {a : Aggregator} (h : Fit env opt m mx a) :
    ∃ d a', a.forcePop env = .ok (d, a') ∧ Fit env opt m mx a' := by
  obtain ⟨r, a', h1, h2⟩ := h.mt hs B .forcePop trivial
  obtain ⟨⟨d, a1⟩, h3, h4⟩ := bind_inv h1
  cases h4
  exact ⟨_, _, h3, h2⟩

theorem Fit.pop (hs : 0 < opt.step) (B : Reducer.Bounds env m mx) {a : Aggregator} (h : Fit env opt m mx a) : Fit env opt m mx a.pop.2 := by
  obtain ⟨r, a', h1, h2⟩ := h.mt hs B .pop trivial
  cases h1
  exact h2

theorem Fit.enable (hs : 0 < opt.step) (B : Reducer.Bounds env m mx) {a : Aggregator} (h : Fit env opt m mx a) (v : Bool) :
    Fit env opt m mx (a.enable v) := by
  obtain ⟨r, a', h1, h2⟩ := h.mt hs B (.enable v) trivial
  cases h1
  exact h2

theorem Fit.exec (hs : 0 < opt.step) (B : Reducer.Bounds env m mx) {a : Aggregator} (h : Fit env opt m mx a) (op : AOp)
    (hx : ∀ v ∈ op.vals, m ≤ v ∧ v ≤ mx) : ∃ o, Aggregator.exec env { a := a } op = .ok o ∧ Fit env opt m mx o.a := by
  cases op with
  | add c1 c2 ts x =>
    obtain ⟨b, a', h1, h2⟩ := h.add hs B c1 c2 ts x hx
    simp only [Aggregator.exec, h1, bind_ok']
    exact ⟨_, rfl, h2⟩
  | push c1 c2 ts x hd =>
    obtain ⟨b, out, a', h1, h2⟩ := h.push hs B c1 c2 ts x hd hx
    simp only [Aggregator.exec, h1, bind_ok']
    exact ⟨_, rfl, h2⟩
  | separate c ts hd f =>
    obtain ⟨b, out, a', h1, h2⟩ := h.separate hs B c ts hd f
    simp only [Aggregator.exec, h1, bind_ok']
    exact ⟨_, rfl, h2⟩
  | pop => exact ⟨_, rfl, h.pop hs B⟩
  | forcePop =>
    obtain ⟨d, a', h1, h2⟩ := h.forcePop hs B
    simp only [Aggregator.exec, h1, bind_ok']
    exact ⟨_, rfl, h2⟩
  | look =>
    obtain ⟨r, a', h1, h2⟩ := h.mt hs B .aggregateCurrent trivial
    obtain ⟨d, h3, h4⟩ := bind_inv h1
    cases h4
    simp only [Aggregator.exec, h3, bind_ok']
    exact ⟨_, rfl, h2⟩
  | enable v => exact ⟨_, rfl, h.enable hs B v⟩

/-- A new aggregator. -/
theorem fit_new (hs : 0 < opt.step) (m mx clk rand ts : Int) : ∃ a, Aggregator.new opt.toAggregatorOpts clk rand ts = .ok a ∧ Fit env opt m mx a := by
  have h : ∃ a, Aggregator.new opt.toAggregatorOpts clk rand ts = .ok a := by
    unfold Aggregator.new Separator.new Separator.getTsWith
    rw [if_neg (by omega)]
    exact ⟨_, rfl⟩
  obtain ⟨a, h⟩ := h
  have F0 := fbooked_fresh hs (Fresh.new (env := env) h)
  have hal : a.alive = true := by
    unfold Aggregator.new at h
    obtain ⟨s, _, g⟩ := bind_inv h
    cases g; rfl
  exact ⟨a, h, { begins := a.sep.currentTime, en := a.enabled }, atDesk_of F0 hal (by simp)⟩

/-- Every aggregator of the registry agrees with some books. -/
def AllFit (env : Env) (opt : RegistryOpts) (m mx : Int) (r : Registry) : Prop :=
  ∀ (p : Nat) (c : Cell), r.agarr[p]? = some (some c) → Fit env opt m mx c.agg

theorem AllFit.update (h : AllFit env opt m mx r) (k : Nat) {a : Aggregator} (ha : Fit env opt m mx a) : AllFit env opt m mx (r.update k a) := by
  intro p c hc
  simp only [Registry.update, List.getElem?_map] at hc
  obtain ⟨o, ho, he⟩ := Option.map_eq_some_iff.1 hc
  cases o with
  | none => cases he
  | some c0 =>
    simp only [Option.map_some, Option.some.injEq] at he
    subst he
    split
    · exact ha
    · exact h p c0 ho

theorem AllFit.congr (h : AllFit env opt m mx r) (he : r'.agarr = r.agarr) : AllFit env opt m mx r' := by
  intro p c hc
  rw [he] at hc
  exact h p c hc

/-- `get_aggregator` never faults, whatever the id. -/
theorem AllFit.get (h : AllFit env opt m mx r) (h0 : r.dict.step ≠ 0) (id : Nat) :
    r.getAggregator id = .ok none ∨ ∃ c, r.getAggregator id = .ok (some c) ∧ Fit env opt m mx c.agg := by
  unfold getAggregator
  by_cases hb : id = badId
  · rw [if_pos hb]; exact .inl rfl
  rw [if_neg hb]
  unfold Dict.id2pos
  rw [if_neg h0]
  simp only [bind_ok']
  generalize (id + r.dict.step + (idMod - 1)) % idMod / r.dict.step = p
  cases ho : r.agarr[p]? with
  | none => exact .inl rfl
  | some o =>
    cases o with
    | none => exact .inl rfl
    | some c => exact .inr ⟨c, rfl, h p c ho⟩

theorem fit_construct (hs : 0 < opt.step) (B : Reducer.Bounds env m mx) (ho : r.opt = opt.toAggregatorOpts) {q : Ask} (hq : Ask.within m mx q)
    (now : Int) : ∃ a, construct env r q now = .ok a ∧ Fit env opt m mx a := by
  obtain ⟨a, h1, h2⟩ := fit_new (env := env) hs m mx q.clk q.rand now
  unfold construct
  rw [ho, h1]
  simp only [bind_ok']
  by_cases he : r.enabled = false
  · rw [if_pos he]; exact ⟨_, rfl, h2.enable hs B false⟩
  rw [if_neg he]
  by_cases hh : r.hasInit = true
  · rw [if_pos hh]
    cases hi : q.ini with
    | none => exact ⟨_, rfl, h2⟩
    | some rd =>
      obtain ⟨b, a', h3, h4⟩ := h2.add hs B q.iclk1 q.iclk2 rd.ts (.reduced rd) (hq rd hi)
      simp only [h3, bind_ok']
      exact ⟨_, rfl, h4⟩
  · rw [if_neg hh]; exact ⟨_, rfl, h2⟩

theorem fit_create (hs : 0 < opt.step) (B : Reducer.Bounds env m mx) (hi : RInv opt n r) (hr : Room opt n) (h : AllFit env opt m mx r) {q : Ask}
    (hq : Ask.within m mx q) (name : Name) (now : Int) :
    ∃ id r', r.createAggregator env q name now = .ok (id, r') ∧ AllFit env opt m mx r' ∧ r'.dict.step ≠ 0 := by
  have h0 : r.dict.step ≠ 0 := by rw [hi.step]; have := hr.1; omega
  by_cases hn : name = []
  · exact ⟨badId, r, by unfold createAggregator; rw [if_pos hn], h, h0⟩
  unfold createAggregator
  rw [if_neg hn]
  have hst : (r.dict.createId q.pick name).2.step = r.dict.step := by
    unfold Dict.createId
    split
    · rfl
    · split <;> rfl
  generalize hx : r.dict.createId q.pick name = x at *
  obtain ⟨id, d⟩ := x
  simp only at hst ⊢
  unfold Dict.id2pos
  rw [if_neg (by rw [hst]; exact h0)]
  simp only [bind_ok']
  generalize (id + d.step + (idMod - 1)) % idMod / d.step = p
  cases ho : r.agarr[p]?.join with
  | some c => exact ⟨id, _, rfl, h, by simp only; rw [hst]; exact h0⟩
  | none =>
    obtain ⟨a, h1, h2⟩ := fit_construct (r := { r with dict := d }) hs B hi.ropt hq now
    simp only [h1, bind_ok']
    refine ⟨id, _, rfl, ?_, by simp only; rw [hst]; exact h0⟩
    intro p' c hc
    simp only at hc
    by_cases he : p = p'
    · subst he
      by_cases hl : p < (r.agarr ++ List.replicate (p + 1 - r.agarr.length) none).length
      · rw [List.getElem?_set_self hl] at hc
        cases hc
        exact h2
      · rw [List.getElem?_eq_none (by rw [List.length_set]; omega)] at hc
        cases hc
    · exact h p' c ((getElem?_resize_set (Ne.symm he)).1 hc)

theorem fit_popLoop (hs : 0 < opt.step) (B : Reducer.Bounds env m mx) {force : Bool} {clk : Nat → Int} (is : List Nat) :
    ∀ {r : Registry} {l : List (Name × AggData)}, r.dict.step ≠ 0 → AllFit env opt m mx r →
      ∃ l' r', is.foldlM (popStep env force clk) (r, l) = .ok (r', l') ∧ AllFit env opt m mx r' := by
  induction is with
  | nil => intro r l _ h; exact ⟨l, r, rfl, h⟩
  | cons i is ih =>
    intro r l h0 h
    have key : ∃ r1 l1, popStep env force clk (r, l) i = .ok (r1, l1) ∧ AllFit env opt m mx r1 ∧ r1.dict.step ≠ 0 := by
      unfold popStep Dict.pos2id
      simp only [if_neg h0, bind_ok']
      rcases h.get h0 ((i * r.dict.step + r.dict.counter % r.dict.step) % idMod) with e | ⟨c, e, f⟩
      · rw [e]; exact ⟨r, l, rfl, h, h0⟩
      · rw [e]
        simp only [bind_ok']
        obtain ⟨b, out, a1, e1, f1⟩ := f.separate hs B (clk ((i * r.dict.step + r.dict.counter % r.dict.step) % idMod)) 0 false force
        rw [e1]
        simp only [bind_ok']
        cases force with
        | true =>
          obtain ⟨d, a2, e2, f2⟩ := f1.forcePop hs B
          simp only [if_true, e2, bind_ok']
          exact ⟨_, _, rfl, h.update c.ref f2, h0⟩
        | false =>
          simp only [Bool.false_eq_true, if_false, bind_ok']
          exact ⟨_, _, rfl, h.update c.ref (f1.pop hs B), h0⟩
    obtain ⟨r1, l1, h1, h2, h3⟩ := key
    obtain ⟨l', r', h4, h5⟩ := ih (l := l1) h3 h2
    exact ⟨l', r', by rw [List.foldlM_cons, h1]; exact h4, h5⟩

/-- No operation faults. -/
theorem fit_step (hs : 0 < opt.step) (B : Reducer.Bounds env m mx) (hi : RInv opt n r) (hr : Room opt n) (h : AllFit env opt m mx r) {op : RegOp}
    (hop : op.within m mx) : ∃ resp r', r.step env op = .ok (resp, r') ∧ AllFit env opt m mx r' := by
  have h0 : r.dict.step ≠ 0 := by rw [hi.step]; have := hr.1; omega
  cases op with
  | create q name now =>
    obtain ⟨id, r1, h1, h2, -⟩ := fit_create hs B hi hr h hop name now
    exact ⟨.id id, r1, by simp only [Registry.step, h1, bind_ok'], h2⟩
  | addId id c1 c2 now v count =>
    simp only [Registry.step, addId]
    rcases h.get h0 id with e | ⟨c, e, f⟩
    · rw [e]; exact ⟨_, _, rfl, h⟩
    · obtain ⟨b, a, h1, h2⟩ := f.add hs B c1 c2 now (.one v count) hop
      simp only [e, h1, bind_ok']
      exact ⟨_, _, rfl, h.update c.ref h2⟩
  | addData q name c1 c2 rd =>
    obtain ⟨id, r1, h1, h2, h3⟩ := fit_create hs B hi hr h hop.1 name rd.ts
    simp only [Registry.step, addData, h1, bind_ok']
    rcases h2.get h3 id with e | ⟨c, e, f⟩
    · rw [e]; exact ⟨_, _, rfl, h2⟩
    · obtain ⟨b, a, h4, h5⟩ := f.add hs B c1 c2 rd.ts (.reduced rd) hop.2
      simp only [e, h4, bind_ok']
      exact ⟨_, _, rfl, h2.update c.ref h5⟩
  | pop id =>
    simp only [Registry.step, Registry.pop]
    rcases h.get h0 id with e | ⟨c, e, f⟩
    · rw [e]; exact ⟨_, _, rfl, h⟩
    · simp only [e, bind_ok']
      exact ⟨_, _, rfl, h.update c.ref (f.pop hs B)⟩
  | forcePop id =>
    simp only [Registry.step, Registry.forcePop]
    rcases h.get h0 id with e | ⟨c, e, f⟩
    · rw [e]; exact ⟨_, _, rfl, h⟩
    · obtain ⟨d, a, h1, h2⟩ := f.forcePop hs B
      simp only [e, h1, bind_ok']
      exact ⟨_, _, rfl, h.update c.ref h2⟩
  | popAll force clk =>
    obtain ⟨l, r1, h1, h2⟩ := fit_popLoop (force := force) (clk := clk) hs B (List.range r.agarr.length) (l := []) h0 h
    refine ⟨.records l, r1, ?_, h2⟩
    simp only [Registry.step, popAll, h1, bind_ok']
  | getName id => exact ⟨_, _, rfl, h⟩
  | setInit v => exact ⟨_, _, rfl, h.congr rfl⟩
  | pusherId id hd =>
    simp only [Registry.step, pusherId]
    rcases h.get h0 id with e | ⟨c, e, f⟩
    · rw [e]; exact ⟨_, _, rfl, h⟩
    · rw [e]; exact ⟨_, _, rfl, h⟩
  | pusherName q name now hd =>
    obtain ⟨id, r1, h1, h2, h3⟩ := fit_create hs B hi hr h hop name now
    simp only [Registry.step, pusherName, pusherId, h1, bind_ok']
    rcases h2.get h3 id with e | ⟨c, e, f⟩
    · rw [e]; exact ⟨_, _, rfl, h2⟩
    · rw [e]; exact ⟨_, _, rfl, h2⟩
  | call p c1 c2 ts x =>
    simp only [Registry.step, call]
    cases hf : r.find p.ref with
    | none => exact ⟨_, _, rfl, h⟩
    | some a =>
      obtain ⟨q, c, hq, hk, rfl⟩ := hi.find_eq.1 hf
      have f := h q c hq
      unfold Pusher.call
      simp only
      split_ifs
      · obtain ⟨b, out, a', h1, h2⟩ := f.push hs B c1 c2 ts x p.p.handler hop
        simp only [h1, bind_ok']
        exact ⟨_, _, rfl, h.update p.ref h2⟩
      · exact ⟨_, _, rfl, h.update p.ref f⟩
  | enable v =>
    refine ⟨_, _, rfl, ?_⟩
    intro p c hc
    simp only [Registry.enable, List.getElem?_map] at hc
    obtain ⟨o, ho, he⟩ := Option.map_eq_some_iff.1 hc
    cases o with
    | none => cases he
    | some c0 =>
      simp only [Option.map_some, Option.some.injEq] at he
      subst he
      exact (h p c0 ho).enable hs B v
  | del name =>
    obtain ⟨r1, h1⟩ := del_total hi hr name
    refine ⟨.bool false, r1, by simp only [Registry.step, h1, bind_ok'], ?_⟩
    rcases (del_cases hi hr h1).2 with ⟨-, rfl⟩ | ⟨id, -, -, -, -, -, -, -, ha⟩
    · exact h
    · intro p c hc
      rw [ha] at hc
      by_cases he : posOf opt.idStep (opt.idInit % opt.idStep) id = p
      · rw [he] at hc
        by_cases hl : p < r.agarr.length
        · rw [List.getElem?_set_self hl] at hc; cases hc
        · rw [List.getElem?_eq_none (by rw [List.length_set]; omega)] at hc; cases hc
      · rw [List.getElem?_set_ne he] at hc
        exact h p c hc
  | direct id op =>
    simp only [Registry.step]
    rcases h.get h0 id with e | ⟨c, e, f⟩
    · rw [e]; exact ⟨_, _, rfl, h⟩
    · obtain ⟨o, h1, h2⟩ := f.exec hs B op hop
      simp only [e, h1, bind_ok']
      exact ⟨_, _, rfl, h.update c.ref h2⟩

theorem fit_execAll (hs : 0 < opt.step) (B : Reducer.Bounds env m mx) (ops : List RegOp) : ∀ {n : Nat} {o : RObs}, RInv opt n o.r →
    Room opt (n + ops.length) → AllFit env opt m mx o.r → (∀ op ∈ ops, op.within m mx) → ∃ o', rexecAll env o ops = .ok o' ∧ AllFit env opt m mx o'.r := by
  induction ops with
  | nil => intro n o _ _ h _; exact ⟨o, rfl, h⟩
  | cons op ops ih =>
    intro n o hi hr h hv
    have e : n + 1 + ops.length = n + (op :: ops).length := by simp; omega
    rw [← e] at hr
    obtain ⟨resp, r1, h1, h2⟩ := fit_step hs B hi (hr.mono (by omega)) h (hv op List.mem_cons_self)
    have hi1 := (eff_any hi (hr.mono (by omega)) h1).1
    have hx : rexec env o op = .ok { r := r1, asked := o.asked ++ o.r.asked op, received := o.received ++ o.r.delivered op resp } := by
      simp only [rexec, h1, bind_ok']
    obtain ⟨o', h3, h4⟩ := ih (o := { r := r1, asked := o.asked ++ o.r.asked op, received := o.received ++ o.r.delivered op resp }) hi1 hr h2
      (fun x hx => hv x (List.mem_cons_of_mem _ hx))
    refine ⟨o', ?_, h4⟩
    unfold rexecAll at h3 ⊢
    rw [List.foldlM_cons, hx]
    exact h3

end Registry

open Registry

/-! ### C165 -/

/-- No history of a registry faults, whatever ids, names, times and clocks it has, while the values lie between representable bounds. -/
theorem C165_total (env : Env) (opt : RegistryOpts) (ops : List RegOp) (m mx : Int) (B : Reducer.Bounds env m mx) (hs : 0 < opt.step)
    (hr : Room opt ops.length) (hv : ∀ op ∈ ops, op.within m mx) : ∃ o, rexecAll env { r := Registry.new opt } ops = .ok o :=
  (fit_execAll hs B ops (o := { r := Registry.new opt }) (rinv_new opt) (by rw [Nat.zero_add]; exact hr) (by simp [AllFit, Registry.new])
    hv).imp fun _ h => h.1

/-- With `id_step` zero the first name already divides by zero. -/
theorem C165_no_ids (env : Env) (opt : RegistryOpts) (h0 : opt.idStep = 0) (q : Ask) (name : Name) (hn : name ≠ []) (now : Int) :
    (Registry.new opt).step env (.create q name now) = .error .divByZero := by
  have h : (Registry.new opt).createAggregator env q name now = .error .divByZero := by
    unfold createAggregator Registry.new Dict.createId Dict.id2pos
    rw [if_neg hn]
    simp [h0]
    rfl
  simp only [Registry.step, h]
  rfl

/-- With a step of zero the first name divides by zero, too. -/
theorem C165_no_step (env : Env) (opt : RegistryOpts) (h0 : opt.step = 0) (hi : 0 < opt.idStep) (q : Ask) (name : Name) (hn : name ≠ [])
    (now : Int) : (Registry.new opt).step env (.create q name now) = .error .divByZero := by
  have h : (Registry.new opt).createAggregator env q name now = .error .divByZero := by
    unfold createAggregator Registry.new Dict.createId Dict.id2pos construct Aggregator.new Separator.new Separator.getTsWith
    rw [if_neg hn]
    have : opt.idStep ≠ 0 := by omega
    simp [h0, this]
    rfl
  simp only [Registry.step, h]
  rfl

/-- Two names, additions by id and by name, a deletion: ids of any form, a pusher of no one. -/
example : ∃ o, rexecAll exactEnv { r := Registry.new exROpt } (exROps ++ [.addId 999 0 0 5 7 2, .forcePop 12, .popAll true fun _ => 3,
    .call ⟨41, { token := true, handler := true }⟩ 0 0 8 (.one 3 1), .direct 13 .look]) = .ok o :=
  C165_total exactEnv exROpt _ 1 9 exBounds (by decide) (by decide) (by
    simp only [exROps, List.cons_append, List.nil_append, List.forall_mem_cons]
    simp [RegOp.within, Ask.within, AddArg.within, AddArg.values, AOp.vals])

end Wrtstat
