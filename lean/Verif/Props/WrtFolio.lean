/-
C167: the wrtstat object described in full by the folio: meters, composite meters, and what reaches the handler of the user.
-/
import Verif.Props.WrtTotal

namespace Wrtstat

set_option autoImplicit false

open Aggregator Registry

namespace Wrt

/-- The folio after the history of a wrtstat object. -/
def wfolio (opt : WOpts) (ops : List WOp) : Folio := folio opt.toRegistryOpts (regHist ops)

/-- How a meter by id finds its name: by the id, if there is a handler. -/
def signId (hd : Bool) (id : Nat) : Hnd := if hd then .byId id else .none

/-- A composite meter by name remembers the name. -/
def signName (hd : Bool) (nm : Name) : Hnd := if hd then .byName nm else .none

/-- The function of a meter of a leaf. -/
def onLeaf (L : Leaf) (h : Hnd) : WPusher := ⟨⟨L.ref, true, decide (h ≠ .none)⟩, h⟩

/-- The function of a meter made from an id. -/
def MadeFor (F : Folio) (hd : Bool) (id : Nat) (p : Option WPusher) : Prop :=
  (F.nobody id → p = none) ∧ ∀ nm L, F.leaf nm = some L → L.id = id → p = some (onLeaf L (signId hd id))

/-- A composite function: null if all three parts are. -/
def bundle (pt pr pw : Option WPusher) (s : Bool) : Option CPusher :=
  if pt = none ∧ pr = none ∧ pw = none then none else some ⟨pt, pr, pw, s⟩

/-- Records on the way to the handler of the user: nowhere without handler, under the name remembered, or under the name that has the id now (nowhere
if none has). -/
def Sends (F : Folio) (h : Hnd) (out : List AggData) (l : List (Name × AggData)) : Prop :=
  match h with
  | .none => l = []
  | .byName nm => l = out.map fun d => (nm, d)
  | .byId id => (F.nobody id → l = []) ∧ ∀ nm L, F.leaf nm = some L → L.id = id → l = out.map fun d => (nm, d)

/-- What the call of a meter function, null or not, hands to the handler of the user. -/
def Hands (env : Env) (opt : RegistryOpts) (F : Folio) (p : Option WPusher) (k : Clks) (ts v : Int) (count : Nat) (l : List (Name × AggData)) : Prop :=
  match p with
  | none => l = []
  | some p => ∃ out, F.Answers env opt (.call p.rp k.1 k.2 ts (.one v count)) (.handed out) ∧ Sends F p.h out l

/-- The folio after the call of a meter function. -/
def afterCall (opt : RegistryOpts) (F : Folio) (p : Option WPusher) (k : Clks) (ts v : Int) (count : Nat) : Folio :=
  (callOp p k ts v count).foldl (fun F op => F.after opt op) F

/-- The answer to an operation and what reaches the handler of the user, by the folio before it. -/
def WAnswers (env : Env) (opt : RegistryOpts) (hd : Bool) (F : Folio) : WOp → WResp → List (Name × AggData) → Prop
  | .reg op, a, l => l = [] ∧ ∃ x, a = .reg x ∧ F.Answers env opt op x
  | .meterId id, a, l => l = [] ∧ ∃ p, a = .meter p ∧ MadeFor F hd id p
  | .meterName q n now, a, l => l = [] ∧ a = .meter (((F.open opt q n now).leaf n).map fun L => onLeaf L (signId hd L.id))
  | .compositeId t r x s, a, l => l = [] ∧ ∃ pt pr pw, a = .composite (bundle pt pr pw s) ∧
      MadeFor F hd t pt ∧ MadeFor F hd r pr ∧ MadeFor F hd x pw
  | .compositeName ord qt qr qw nt nr nw now s, a, l => l = [] ∧
      let F' := (createOps ord qt qr qw nt nr nw now).foldl (fun F op => F.after opt op) F
      let part (nm : Name) := (F'.leaf nm).map fun L => onLeaf L (signName hd nm)
      a = .composite (bundle (part nt) (part nr) (part nw) s)
  | .call p c1 c2 ts v count, a, l => a = .unit ∧ Hands env opt F (some p) (c1, c2) ts v count l
  | .callC p kt kr kw ts span count rd wr, a, l => a = .unit ∧
      let cr := if p.summary then toSize rd else count
      let cw := if p.summary then toSize wr else count
      let F1 := afterCall opt F p.time kt ts span count
      let F2 := afterCall opt F1 p.read kr ts rd cr
      ∃ l1 l2 l3, l = l1 ++ l2 ++ l3 ∧ Hands env opt F p.time kt ts span count l1 ∧ Hands env opt F1 p.read kr ts rd cr l2 ∧
        Hands env opt F2 p.write kw ts wr cw l3
  | .pushout force clk, a, l => a = .num l.length ∧ F.Answers env opt (.popAll force clk) (.records l) ∧ (hd = false → l = [])

/-- Ids given by the client have the form of those given out. -/
def WOp.idOk (opt : RegistryOpts) : WOp → Prop
  | .reg op => op.idOk opt
  | .meterId id => IdOk opt id
  | .compositeId t r w _ => IdOk opt t ∧ IdOk opt r ∧ IdOk opt w
  | _ => True

variable {env : Env} {opt : RegistryOpts} {n : Nat} {w w' : Wrt} {F : Folio} {R : List (Nat × AggData)}

theorem WOp.idOk_reg {op : WOp} (h : op.idOk opt) : ∀ o ∈ op.regOps, o.idOk opt := by
  have hc : ∀ (p : Option WPusher) (k : Clks) (ts v : Int) (c : Nat), ∀ o ∈ callOp p k ts v c, o.idOk opt := by
    intro p k ts v c o ho
    obtain ⟨x, -, rfl⟩ := List.mem_map.1 ho
    intro id hid; cases hid
  cases op with
  | reg op => intro o ho; rw [List.mem_singleton.1 ho]; exact h
  | meterId id => intro o ho; cases ho
  | meterName q name now => intro o ho; rw [List.mem_singleton.1 ho]; intro id hid; cases hid
  | compositeId t r x s => intro o ho; cases ho
  | compositeName ord qt qr qw nt nr nw now s =>
    intro o ho
    have : ∃ q nm, o = .create q nm now := by
      cases ord <;> (simp only [WOp.regOps, createOps, List.mem_cons, List.not_mem_nil, or_false] at ho; rcases ho with rfl | rfl | rfl <;> exact ⟨_, _, rfl⟩)
    obtain ⟨q, nm, rfl⟩ := this
    intro id hid; cases hid
  | call p c1 c2 ts v count => intro o ho; rw [List.mem_singleton.1 ho]; intro id hid; cases hid
  | callC p kt kr kw ts span count rd wr =>
    intro o ho
    simp only [WOp.regOps, List.mem_append] at ho
    rcases ho with (ho | ho) | ho
    · exact hc _ _ _ _ _ o ho
    · exact hc _ _ _ _ _ o ho
    · exact hc _ _ _ _ _ o ho
  | pushout force clk => intro o ho; rw [List.mem_singleton.1 ho]; intro id hid; cases hid

/-- The pusher of an id, by the folio. -/
theorem filed_pusher {r : Registry} (H : Filed env opt n F r R) (hr : Room opt n) {id : Nat} (hid : IdOk opt id) {hd : Bool} {p : Option RPusher}
    (h : r.pusherId id hd = .ok p) :
    (F.nobody id → p = none) ∧ ∀ nm L, F.leaf nm = some L → L.id = id → p = some ⟨L.ref, true, hd⟩ := by
  unfold pusherId at h
  refine ⟨fun hn => ?_, ?_⟩
  · rw [H.inv.get_eq hr hid, H.nobody hr hn] at h
    cases h; rfl
  · rintro nm L hL rfl
    obtain ⟨c, -, -, -, k3, k4, k5, -⟩ := H.cell hr hL
    rw [k3] at h
    cases h
    simp only [Option.map_some, Aggregator.createPusher, H.inv.alive _ _ k4, k5]

theorem not_bad {r : Registry} (H : Filed env opt n F r R) (hr : Room opt n) {nm : Name} {L : Leaf} (hL : F.leaf nm = some L) : L.id ≠ badId := by
  intro he
  obtain ⟨c, -, -, -, k3, -⟩ := H.cell hr hL
  rw [he] at k3
  simp [getAggregator] at k3

theorem sign_eq {r : Registry} (H : Filed env opt n F r R) (hr : Room opt n) {nm : Name} {L : Leaf} (hL : F.leaf nm = some L) :
    w.makeHandlerId L.id = signId w.handler L.id := by
  unfold makeHandlerId signId
  have := not_bad H hr hL
  cases w.handler <;> simp [this]

theorem made_for (H : Filed env opt n F w.reg R) (hr : Room opt n) {id : Nat} (hid : IdOk opt id) {p : Option WPusher}
    (h : w.part id (w.makeHandlerId id) = .ok p) : MadeFor F w.handler id p := by
  obtain ⟨q, h1, h2⟩ := bind_inv h
  cases h2
  obtain ⟨k1, k2⟩ := filed_pusher H hr hid h1
  refine ⟨fun hn => by rw [k1 hn]; rfl, ?_⟩
  rintro nm L hL rfl
  rw [k2 nm L hL rfl, sign_eq H hr hL]
  rfl

/-- The part of a name that was just created. -/
theorem made_named (H : Filed env opt n F w.reg R) (hr : Room opt n) {id : Nat} {nm : Name}
    (hm : (nm = [] ∧ id = badId) ∨ (nm, id) ∈ w.reg.dict.dict) {g : Nat → Hnd} {p : Option WPusher} (h : w.part id (g id) = .ok p) :
    p = (F.leaf nm).map fun L => onLeaf L (g L.id) := by
  obtain ⟨q, h1, h2⟩ := bind_inv h
  cases h2
  rcases hm with ⟨rfl, rfl⟩ | hm
  · have hn : F.leaf [] = none := by
      cases hl : F.leaf [] with
      | none => rfl
      | some L => exact absurd rfl (H.inv.nonempty _ ((H.entry [] L.id).2 ⟨L, hl, rfl⟩))
    unfold pusherId at h1
    rw [show w.reg.getAggregator badId = .ok none from by simp [getAggregator]] at h1
    cases h1
    rw [hn]; rfl
  · obtain ⟨L, hL, rfl⟩ := (H.entry _ _).1 hm
    obtain ⟨c, -, -, -, k3, k4, k5, -⟩ := H.cell hr hL
    unfold pusherId at h1
    rw [k3] at h1
    cases h1
    rw [hL]
    simp only [Option.map_some, Aggregator.createPusher, H.inv.alive _ _ k4, k5, onLeaf]

theorem sends_deliver {r : Registry} (H : Filed env opt n F r R) (hd : w.reg.dict = r.dict) (h : Hnd) (out : List AggData) :
    Sends F h out (out.flatMap (w.deliver h)) := by
  have hn : ∀ id, w.reg.getName id = r.getName id := fun id => by unfold getName; rw [hd]
  cases h with
  | none => simp [Sends, deliver]
  | byName nm =>
    have e : w.deliver (.byName nm) = fun d => [(nm, d)] := rfl
    show out.flatMap (w.deliver (.byName nm)) = out.map fun d => (nm, d)
    rw [e]
    induction out <;> simp_all
  | byId id =>
    refine ⟨fun hno => ?_, ?_⟩
    · have : r.getName id = [] := by
        by_contra hne
        obtain ⟨L, h1, h2⟩ := (H.entry _ _).1 ((getName_live H.inv hne).1 rfl)
        exact hno _ L h1 h2
      have e : w.deliver (.byId id) = fun _ => [] := funext fun d => by simp only [deliver, hn, this, if_true]
      rw [e]
      induction out <;> simp_all
    · rintro nm L hL rfl
      have hm := (H.entry nm L.id).2 ⟨L, hL, rfl⟩
      have h0 := H.inv.nonempty _ hm
      have : r.getName L.id = nm := (getName_live H.inv h0).2 hm
      have h0 : nm ≠ [] := h0
      have e : w.deliver (.byId L.id) = fun d => [(nm, d)] := funext fun d => by simp only [deliver, hn, this, if_neg h0]
      rw [e]
      induction out <;> simp_all

/-- A call of a meter function. -/
theorem filed_call (hs : 0 < opt.step) {p : Option WPusher} {k : Clks} {ts v : Int} {count : Nat}
    (hr : Room opt (n + (callOp p k ts v count).length)) {l : List (Name × AggData)} (H : Filed env opt n F w.reg R)
    (h : w.callOpt env p k.1 k.2 ts v count = .ok (l, w')) :
    Hands env opt F p k ts v count l ∧
      ∃ R', Filed env opt (n + (callOp p k ts v count).length) (afterCall opt F p k ts v count) w'.reg R' := by
  cases p with
  | none =>
    cases h
    exact ⟨rfl, R, H⟩
  | some p =>
    obtain ⟨⟨out, r1⟩, h1, h2⟩ := bind_inv h
    cases h2
    have h3 : w.reg.step env (.call p.rp k.1 k.2 ts (.one v count)) = .ok (.handed out, r1) := by
      simp only [Registry.step, h1, bind_ok']
    obtain ⟨k1, k2⟩ := filed_step hs hr H (by intro id hid; cases hid) h3
    exact ⟨⟨out, k2, sends_deliver (w := { w with reg := r1 }) H (call_dict h1) p.h out⟩, _, k1⟩

/-- Every answer, and everything that reaches the handler of the user. -/
theorem filed_wstep (hs : 0 < opt.step) (H : Filed env opt n F w.reg R) {op : WOp} (hid : op.idOk opt) (hr : Room opt (n + op.regOps.length + 1))
    {resp : WResp} {l : List (Name × AggData)} (h : w.step env op = .ok (resp, l, w')) : WAnswers env opt w.handler F op resp l := by
  have hr0 : Room opt n := hr.mono (by omega)
  cases op with
  | reg op =>
    obtain ⟨⟨x, r1⟩, h1, h2⟩ := bind_inv h
    cases h2
    exact ⟨rfl, x, rfl, (filed_step hs (hr.mono (by omega)) H hid h1).2⟩
  | meterId id =>
    obtain ⟨p, h1, h2⟩ := bind_inv h
    cases h2
    exact ⟨rfl, p, rfl, made_for H hr0 hid h1⟩
  | meterName q name now =>
    obtain ⟨⟨p, w1⟩, h1, h2⟩ := bind_inv h
    cases h2
    obtain ⟨⟨id, r1⟩, h3, h4⟩ := bind_inv h1
    obtain ⟨p', h5, h6⟩ := bind_inv h4
    cases h6
    obtain ⟨H1, -⟩ := filed_open hs hr0 H h3
    have hr1 : Room opt (n + 1) := hr.mono (by simp [WOp.regOps])
    refine ⟨rfl, ?_⟩
    have := made_named (w := { w with reg := r1 }) H1 hr1 (create_keep H.inv hr0 h3).2.1 (g := Wrt.makeHandlerId { w with reg := r1 }) h5
    rw [this]
    congr 1
    cases hl : (F.open opt q name now).leaf name with
    | none => rfl
    | some L =>
      simp only [Option.map_some]
      rw [sign_eq (w := { w with reg := r1 }) H1 hr1 hl]
  | compositeId t r x s =>
    obtain ⟨p, h1, h2⟩ := bind_inv h
    cases h2
    obtain ⟨pt, e1, h1⟩ := bind_inv h1
    obtain ⟨pr, e2, h1⟩ := bind_inv h1
    obtain ⟨pw, e3, h1⟩ := bind_inv h1
    refine ⟨rfl, pt, pr, pw, ?_, made_for H hr0 hid.1 e1, made_for H hr0 hid.2.1 e2, made_for H hr0 hid.2.2 e3⟩
    unfold bundle
    split at h1
    · rename_i hc; cases h1; rw [if_pos hc]
    · rename_i hc; cases h1; rw [if_neg hc]
  | compositeName ord qt qr qw nt nr nw now s =>
    have hl : (WOp.compositeName ord qt qr qw nt nr nw now s).regOps.length = 3 := by cases ord <;> rfl
    have hops := WOp.idOk_reg hid
    rw [hl] at hr
    obtain ⟨⟨p, w1⟩, h1, h2⟩ := bind_inv h
    cases h2
    obtain ⟨⟨⟨t, r, x⟩, w2⟩, h3, h4⟩ := bind_inv h1
    obtain ⟨p', h5, h6⟩ := bind_inv h4
    cases h6
    obtain ⟨-, i1, i2, i3⟩ := createThree_ids H.inv (hr.mono (by omega)) h3
    obtain ⟨hh, ro, e1, e2⟩ := createThree_sim h3 (ro := { r := w.reg, received := R }) rfl
    have H1 := filed_execAll hs _ (o := { r := w.reg, received := R }) H (by rw [hl]; exact hr.mono (by omega)) hops e1
    rw [hl, e2] at H1
    simp only [WOp.regOps] at H1
    obtain ⟨pt, k1, h5⟩ := bind_inv h5
    obtain ⟨pr, k2, h5⟩ := bind_inv h5
    obtain ⟨pw, k3, h5⟩ := bind_inv h5
    have sg : ∀ nm, w'.makeHandlerName nm = signName w.handler nm := fun nm => by
      unfold makeHandlerName signName
      rw [hh]
    rw [sg] at k1 k2 k3
    have m1 := made_named H1 (hr.mono (by omega)) i1 (g := fun _ => signName w.handler nt) k1
    have m2 := made_named H1 (hr.mono (by omega)) i2 (g := fun _ => signName w.handler nr) k2
    have m3 := made_named H1 (hr.mono (by omega)) i3 (g := fun _ => signName w.handler nw) k3
    refine ⟨rfl, ?_⟩
    simp only
    rw [← m1, ← m2, ← m3]
    unfold bundle
    split at h5
    · rename_i hc; cases h5; rw [if_pos hc]
    · rename_i hc; cases h5; rw [if_neg hc]
  | call p c1 c2 ts v count =>
    obtain ⟨⟨out, w1⟩, h1, h2⟩ := bind_inv h
    cases h2
    exact ⟨rfl, (filed_call (p := some p) (k := (c1, c2)) hs (hr.mono (by simp [WOp.regOps, callOp])) H h1).1⟩
  | callC p kt kr kw ts span count rd wr =>
    simp only [WOp.regOps, List.length_append] at hr
    obtain ⟨⟨out, w1⟩, h0, h⟩ := bind_inv h
    cases h
    obtain ⟨⟨l1, w1⟩, h1, h⟩ := bind_inv h0
    obtain ⟨⟨l2, w2⟩, h2, h⟩ := bind_inv h
    obtain ⟨⟨l3, w3⟩, h3, h⟩ := bind_inv h
    cases h
    obtain ⟨g1, R1, H1⟩ := filed_call hs (hr.mono (by omega)) H h1
    obtain ⟨g2, R2, H2⟩ := filed_call hs (hr.mono (by omega)) H1 h2
    obtain ⟨g3, -⟩ := filed_call hs (hr.mono (by omega)) H2 h3
    exact ⟨rfl, l1, l2, l3, rfl, g1, g2, g3⟩
  | pushout force clk =>
    obtain ⟨⟨k, out, w1⟩, h1, h2⟩ := bind_inv h
    cases h2
    obtain ⟨⟨l1, r1⟩, h3, h4⟩ := bind_inv h1
    simp only at h4
    have h5 : w.reg.step env (.popAll force clk) = .ok (.records l1, r1) := by simp only [Registry.step, h3, bind_ok']
    by_cases hc : l1 ≠ [] ∧ w.handler = false
    · rw [if_pos hc] at h4; cases h4
    · rw [if_neg hc] at h4
      cases h4
      refine ⟨rfl, (filed_step hs (hr.mono (by omega)) H (by intro id hid; cases hid) h5).2, fun hd => ?_⟩
      by_contra hne
      exact hc ⟨hne, hd⟩

end Wrt

open Wrt

/-! ### C167 -/

theorem wfiled {env : Env} {opt : WOpts} {ops : List WOp} {o : WObs} (hs : 0 < opt.step) (hr : Room opt.toRegistryOpts (regHist ops).length)
    (hid : ∀ op ∈ ops, op.idOk opt.toRegistryOpts) (h : wexecAll env { w := Wrt.new opt } ops = .ok o) :
    o.w.handler = opt.handler ∧ ∃ R, Filed env opt.toRegistryOpts (regHist ops).length (wfolio opt ops) o.w.reg R := by
  obtain ⟨h1, ro, h2, h3⟩ := wsim ops (ro := { r := Registry.new opt.toRegistryOpts }) h rfl
  have hids : ∀ op ∈ regHist ops, op.idOk opt.toRegistryOpts := by
    intro op ho
    obtain ⟨x, hx, ho⟩ := List.mem_flatMap.1 ho
    exact WOp.idOk_reg (hid x hx) op ho
  have H := filed_execAll hs (regHist ops) (filed_new env opt.toRegistryOpts) (by rw [Nat.zero_add]; exact hr) hids h2
  rw [Nat.zero_add, h3] at H
  exact ⟨h1, _, H⟩

/-- Every answer of a wrtstat object, and everything it hands to the handler of the user, is what the folio says. -/
theorem C167_answers (env : Env) (opt : WOpts) (ops : List WOp) (o : WObs) (hs : 0 < opt.step) (op : WOp)
    (hr : Room opt.toRegistryOpts ((regHist ops).length + op.regOps.length + 1)) (hid : ∀ op ∈ ops, op.idOk opt.toRegistryOpts)
    (h : wexecAll env { w := Wrt.new opt } ops = .ok o) (hop : op.idOk opt.toRegistryOpts) (resp : WResp) (l : List (Name × AggData)) (w' : Wrt)
    (hstep : o.w.step env op = .ok (resp, l, w')) : WAnswers env opt.toRegistryOpts opt.handler (wfolio opt ops) op resp l := by
  obtain ⟨hh, R, H⟩ := wfiled hs (hr.mono (by omega)) hid h
  rw [← hh]
  exact filed_wstep hs H hop hr hstep

/-- The end of a wrtstat object hands over what `force_pop_all` reports of the leaves. -/
theorem C167_end (env : Env) (opt : WOpts) (ops : List WOp) (o : WObs) (hs : 0 < opt.step) (hr : Room opt.toRegistryOpts ((regHist ops).length + 1))
    (hid : ∀ op ∈ ops, op.idOk opt.toRegistryOpts) (h : wexecAll env { w := Wrt.new opt } ops = .ok o) (clk : Nat → Int) (l : List (Name × AggData))
    (hd : o.w.destroy env clk = .ok l) :
    (wfolio opt ops).Answers env opt.toRegistryOpts (.popAll true clk) (.records l) ∧ (opt.handler = false → l = []) := by
  obtain ⟨⟨k, l', w1⟩, h1, h2⟩ := bind_inv hd
  cases h2
  have h3 : o.w.step env (.pushout true clk) = .ok (.num k, l, w1) := by simp only [Wrt.step, h1, bind_ok']
  obtain ⟨hh, R, H⟩ := wfiled hs (hr.mono (by omega)) hid h
  obtain ⟨⟨l1, r1⟩, h4, h5⟩ := bind_inv h1
  have h6 : o.w.reg.step env (.popAll true clk) = .ok (.records l1, r1) := by simp only [Registry.step, h4, bind_ok']
  simp only at h5
  by_cases hc : l1 ≠ [] ∧ o.w.handler = false
  · rw [if_pos hc] at h5; cases h5
  · rw [if_neg hc] at h5
    cases h5
    refine ⟨(filed_step hs hr H (by intro id hid; cases hid) h6).2, fun hd => ?_⟩
    by_contra hne
    exact hc ⟨hne, by rw [hh]; exact hd⟩

/-- A meter by name and an event: the leaf, the meter function, and the report of `force_pushout`. -/
example : (wfolio exWOpt [.meterName {} ['a'] 1003, .reg (.addId 1 0 0 1003 5 1)]).leaf ['a'] =
      some ⟨1, 0, { begins := 1000, on := [.one 5 1] }⟩ ∧
    ((wfolio exWOpt []).open exWOpt.toRegistryOpts {} ['a'] 1003).leaf ['a'] = some ⟨1, 0, { begins := 1000 }⟩ ∧
    (match (Wrt.new exWOpt).step exactEnv (.meterName {} ['a'] 1003) with
    | .ok (.meter p, l, _) => decide (p = some ⟨⟨0, true, true⟩, .byId 1⟩ ∧ l = [])
    | _ => false) = true := by decide +kernel

end Wrtstat
