/-
The effect of registry operations on the aggregators.
-/
import Verif.Lemmas.RegistryStep

namespace Wrtstat
namespace Registry

open Aggregator (AOp AObs Trans)

theorem forRef_append {α : Type} (k : Nat) (l l' : List (Nat × α)) :
    forRef k (l ++ l') = forRef k l ++ forRef k l' := by
  simp [forRef]

theorem forRef_nil {α : Type} (k : Nat) : forRef k ([] : List (Nat × α)) = [] := rfl

theorem forRef_self {α : Type} (k : Nat) (l : List α) : forRef k (l.map fun x => (k, x)) = l := by
  induction l with
  | nil => rfl
  | cons x l ih => simpa [forRef] using ih

theorem forRef_other {α : Type} {k j : Nat} (h : j ≠ k) (l : List α) : forRef k (l.map fun x => (j, x)) = [] := by
  induction l with
  | nil => rfl
  | cons x l ih => simp [forRef, h]

theorem forRef_key {α : Type} {k : Nat} {l : List (Nat × α)} (h : ∀ x ∈ l, x.1 ≠ k) : forRef k l = [] := by
  unfold forRef
  rw [List.filter_eq_nil_iff.2 (by intro x hx; simp [h x hx])]
  rfl

/-- An operation that creates and removes nothing: every aggregator goes through the operations
addressed to it. -/
structure SEff (env : Env) (r r' : Registry) (ask : List (Nat × AOp)) (del : List (Nat × AggData)) : Prop where
  dict : r'.dict = r.dict
  opt : r'.opt = r.opt
  next : r'.nextRef = r.nextRef
  len : r'.agarr.length = r.agarr.length
  empty : ∀ p : Nat, r.agarr[p]? = some none → r'.agarr[p]? = some none
  cell : ∀ (p : Nat) (c : Cell), r.agarr[p]? = some (some c) → ∃ c', r'.agarr[p]? = some (some c') ∧ c'.ref = c.ref ∧
    Trans env c.agg (forRef c.ref ask) c'.agg (forRef c.ref del)

variable {env : Env} {opt : RegistryOpts} {n : Nat} {r r' r'' : Registry}
  {ask ask' : List (Nat × AOp)} {del del' : List (Nat × AggData)}

theorem seff_refl (env : Env) (r : Registry) : SEff env r r [] [] :=
  { dict := rfl, opt := rfl, next := rfl, len := rfl, empty := fun _ h => h,
    cell := fun _ c h => ⟨c, h, rfl, Aggregator.trans_nil env c.agg⟩ }

theorem seff_trans (h : SEff env r r' ask del) (h' : SEff env r' r'' ask' del') :
    SEff env r r'' (ask ++ ask') (del ++ del') :=
  { dict := h'.dict.trans h.dict, opt := h'.opt.trans h.opt, next := h'.next.trans h.next,
    len := h'.len.trans h.len, empty := fun p hp => h'.empty p (h.empty p hp)
    cell := by
      intro p c hp
      obtain ⟨c1, h1, e1, t1⟩ := h.cell p c hp
      obtain ⟨c2, h2, e2, t2⟩ := h'.cell p c1 h1
      refine ⟨c2, h2, e2.trans e1, ?_⟩
      rw [forRef_append, forRef_append]
      rw [e1] at t2
      exact Aggregator.trans_append t1 t2 }

/-- Cells after such an operation come from cells before. -/
theorem SEff.back (h : SEff env r r' ask del) {p : Nat} {c' : Cell} (hc : r'.agarr[p]? = some (some c')) :
    ∃ c, r.agarr[p]? = some (some c) ∧ c'.ref = c.ref ∧
      Trans env c.agg (forRef c.ref ask) c'.agg (forRef c.ref del) := by
  cases hp : r.agarr[p]? with
  | none =>
    rw [List.getElem?_eq_none_iff] at hp
    rw [List.getElem?_eq_none (by rw [h.len]; exact hp)] at hc
    simp at hc
  | some o =>
    cases o with
    | none => rw [h.empty p hp] at hc; simp at hc
    | some c =>
      obtain ⟨c2, h2, e2, t2⟩ := h.cell p c hp
      rw [hc] at h2
      cases h2
      exact ⟨c, rfl, e2, t2⟩

theorem SEff.inv (h : SEff env r r' ask del) (hi : RInv opt n r) : RInv opt n r' :=
  { ropt := h.opt.trans hi.ropt
    step := by rw [h.dict]; exact hi.step
    res := by rw [h.dict]; exact hi.res
    cle := by rw [h.dict]; exact hi.cle
    idx := by rw [h.dict]; exact hi.idx
    names := by rw [h.dict]; exact hi.names
    ids := by rw [h.dict]; exact hi.ids
    nonempty := by rw [h.dict]; exact hi.nonempty
    free := by rw [h.dict]; exact hi.free
    disj := by rw [h.dict]; exact hi.disj
    form := by rw [h.dict]; exact hi.form
    occ := by
      intro p c hc
      obtain ⟨c0, h0, _, _⟩ := h.back hc
      rw [h.dict]
      exact hi.occ p c0 h0
    live := by
      intro nm id hm
      rw [h.dict] at hm
      obtain ⟨c, hc⟩ := hi.live nm id hm
      obtain ⟨c', hc', _, _⟩ := h.cell _ c hc
      exact ⟨c', hc'⟩
    refs := by
      intro p q c d hp hq he
      obtain ⟨c0, h0, e0, _⟩ := h.back hp
      obtain ⟨d0, k0, f0, _⟩ := h.back hq
      exact hi.refs p q c0 d0 h0 k0 (by rw [← e0, ← f0, he])
    refLt := by
      intro p c hp
      obtain ⟨c0, h0, e0, _⟩ := h.back hp
      rw [e0, h.next]
      exact hi.refLt p c0 h0
    alive := by
      intro p c hp
      obtain ⟨c0, h0, e0, t⟩ := h.back hp
      rw [Aggregator.trans_alive t]
      exact hi.alive p c0 h0
    len := by rw [h.len, h.dict]; exact hi.len }

/-- Which aggregator a name or id denotes does not change. -/
theorem SEff.cellOf (h : SEff env r r' ask del) (hi : RInv opt n r) (hr : Room opt n) (nm : Name) :
    (r'.cellOf nm).map Cell.ref = (r.cellOf nm).map Cell.ref := by
  by_cases hm : nm ∈ r.dict.dict.map Prod.fst
  · obtain ⟨⟨a, id⟩, hm', rfl⟩ := List.mem_map.1 hm
    have hm := hm'
    obtain ⟨c, h1, _, _, h4⟩ := hi.cellOf_live hr hm
    obtain ⟨c', k1, _, _, k4⟩ := (h.inv hi).cellOf_live hr (by rw [h.dict]; exact hm)
    obtain ⟨c2, h2, e2, _⟩ := h.cell _ c h4
    rw [k4] at h2
    cases h2
    simp only at h1 k1 ⊢
    rw [h1, k1]
    simp [e2]
  · rw [RInv.cellOf_dead hm, RInv.cellOf_dead (by rw [h.dict]; exact hm)]

theorem SEff.cellAt (h : SEff env r r' ask del) (hi : RInv opt n r) (hr : Room opt n) (id : Nat) :
    (r'.cellAt id).map Cell.ref = (r.cellAt id).map Cell.ref := by
  unfold Registry.cellAt
  rw [h.dict]
  cases r.dict.index.lookup id with
  | none => rfl
  | some nm => exact h.cellOf hi hr nm

/-- A method called through a pointer. -/
theorem seff_update (hi : RInv opt n r) {p : Nat} {c : Cell} (hc : r.agarr[p]? = some (some c)) {ops : List AOp}
    {a : Aggregator} {out : List AggData} (ht : Trans env c.agg ops a out) :
    SEff env r (r.update c.ref a) (ops.map fun op => (c.ref, op)) (out.map fun d => (c.ref, d)) :=
  { dict := rfl, opt := rfl, next := rfl
    len := by simp [update]
    empty := by
      intro q hq
      simp [update, hq]
    cell := by
      intro q d hq
      by_cases he : d.ref = c.ref
      · have := hi.refs q p d c hq hc he
        subst this
        rw [hq] at hc
        cases hc
        refine ⟨{ c with agg := a }, by simp [update, hq], rfl, ?_⟩
        rw [forRef_self, forRef_self]
        exact ht
      · refine ⟨d, by simp [update, hq, he], rfl, ?_⟩
        rw [forRef_other (Ne.symm he), forRef_other (Ne.symm he)]
        exact Aggregator.trans_nil env d.agg }

theorem seff_toId (hi : RInv opt n r) (hr : Room opt n) {id : Nat} {c : Cell} (hc : r.cellAt id = some c) {ops : List AOp}
    {a : Aggregator} {out : List AggData} (ht : Trans env c.agg ops a out) :
    SEff env r (r.update c.ref a) (r.toId id ops) ((r.cellAt id).toList.flatMap fun c => out.map fun d => (c.ref, d)) := by
  obtain ⟨_, _, _, h4⟩ := hi.cellAt_some hr hc
  unfold toId
  rw [hc]
  simpa using seff_update hi h4 ht

/-- Operations addressed to an id. -/
theorem seff_direct (hi : RInv opt n r) (hr : Room opt n) {id : Nat} (hid : IdOk opt id) {op : AOp} {resp : Resp}
    (h : r.step env (.direct id op) = .ok (resp, r')) :
    SEff env r r' (r.asked (.direct id op)) (r.delivered (.direct id op) resp) := by
  simp only [Registry.step, hi.get_eq hr hid, bind_ok'] at h
  cases hc : r.cellAt id with
  | none =>
    rw [hc] at h
    cases h
    simp only [asked, delivered, toId, hc, Option.toList_none, List.flatMap_nil]
    exact seff_refl env r
  | some c =>
    rw [hc] at h
    obtain ⟨o, h1, h2⟩ := bind_inv h
    cases h2
    exact seff_toId hi hr hc (Aggregator.trans_one h1)

theorem seff_addId (hi : RInv opt n r) (hr : Room opt n) {id : Nat} (hid : IdOk opt id) {c1 c2 now v : Int}
    {count : Nat} {b : Bool} (h : r.addId env id c1 c2 now v count = .ok (b, r')) :
    SEff env r r' (r.toId id [.add c1 c2 now (.one v count)]) [] := by
  simp only [Registry.addId, hi.get_eq hr hid, bind_ok'] at h
  cases hc : r.cellAt id with
  | none =>
    rw [hc] at h
    cases h
    simp only [toId, hc, Option.toList_none, List.flatMap_nil]
    exact seff_refl env r
  | some c =>
    rw [hc] at h
    obtain ⟨⟨ok, a⟩, h1, h2⟩ := bind_inv h
    cases h2
    have hx : Aggregator.exec env { a := c.agg } (.add c1 c2 now (.one v count)) =
        .ok { a := a, accepted := AObs.record { a := c.agg } ok c1 now (.one v count) } := by
      simp only [Aggregator.exec, h1, bind_ok']
    have := seff_toId hi hr hc (Aggregator.trans_one hx)
    simpa [hc] using this

theorem seff_pop (hi : RInv opt n r) (hr : Room opt n) {id : Nat} (hid : IdOk opt id) {d : Option AggData}
    (h : r.pop id = .ok (d, r')) : SEff env r r' (r.asked (.pop id)) (r.delivered (.pop id) (.record d)) := by
  simp only [Registry.pop, hi.get_eq hr hid, bind_ok'] at h
  cases hc : r.cellAt id with
  | none =>
    rw [hc] at h
    cases h
    simp only [asked, delivered, toId, hc, Option.toList_none, List.flatMap_nil]
    exact seff_refl env r
  | some c =>
    rw [hc] at h
    cases h
    exact seff_toId (env := env) hi hr hc (Aggregator.trans_one (op := .pop) rfl)

theorem seff_forcePop (hi : RInv opt n r) (hr : Room opt n) {id : Nat} (hid : IdOk opt id) {d : Option AggData}
    (h : r.forcePop env id = .ok (d, r')) : SEff env r r' (r.asked (.forcePop id)) (r.delivered (.forcePop id) (.record d)) := by
  simp only [Registry.forcePop, hi.get_eq hr hid, bind_ok'] at h
  cases hc : r.cellAt id with
  | none =>
    rw [hc] at h
    cases h
    simp only [asked, delivered, toId, hc, Option.toList_none, List.flatMap_nil]
    exact seff_refl env r
  | some c =>
    rw [hc] at h
    obtain ⟨⟨o, a⟩, h1, h2⟩ := bind_inv h
    cases h2
    have hx : Aggregator.exec env { a := c.agg } .forcePop = .ok { a := a, received := o.toList } := by
      simp only [Aggregator.exec, h1, bind_ok', List.nil_append]
    exact seff_toId hi hr hc (Aggregator.trans_one hx)

theorem seff_call (hi : RInv opt n r) {p : RPusher} {c1 c2 ts : Int} {x : AddArg} {l : List AggData}
    (h : r.call env p c1 c2 ts x = .ok (l, r')) :
    SEff env r r' (r.asked (.call p c1 c2 ts x)) (r.delivered (.call p c1 c2 ts x) (.handed l)) := by
  unfold Registry.call at h
  simp only [asked, delivered]
  cases hf : r.find p.ref with
  | none =>
    rw [hf] at h
    cases h
    simpa using seff_refl env r
  | some a =>
    rw [hf] at h
    obtain ⟨q, c, hq, hk, ha⟩ := hi.find_eq.1 hf
    have hal := hi.alive q c hq
    rw [ha] at hal
    obtain ⟨⟨out, a'⟩, h1, h2⟩ := bind_inv h
    cases h2
    unfold Aggregator.Pusher.call at h1
    by_cases ht : p.p.token = true
    · rw [if_pos ⟨ht, hal⟩] at h1
      obtain ⟨⟨ok, out2, a2⟩, h3, h4⟩ := bind_inv h1
      cases h4
      rw [if_pos ⟨by simp, ht⟩]
      have hx : Aggregator.exec env { a := c.agg } (.push c1 c2 ts x p.p.handler) =
          .ok { a := a', received := l, accepted := AObs.record { a := c.agg } ok c1 ts x } := by
        rw [ha]
        simp only [Aggregator.exec, h3, bind_ok', List.nil_append]
      have := seff_update hi hq (Aggregator.trans_one hx)
      rw [hk] at this
      exact this
    · rw [if_neg (fun h => ht h.1)] at h1
      cases h1
      rw [if_neg (fun h => ht h.2)]
      have := seff_update (env := env) hi hq (Aggregator.trans_nil env c.agg)
      rw [hk, ha] at this
      exact this

/-- A pointer unique in a list of pointers. -/
theorem forRef_unique {ι α : Type} {g : ι → Option Cell} {f : ι → List α} {L : List ι} {i : ι} {c : Cell}
    (hn : L.Nodup) (hi : i ∈ L) (hc : g i = some c)
    (hu : ∀ j ∈ L, ∀ d, g j = some d → d.ref = c.ref → j = i) :
    forRef c.ref (L.flatMap fun j => (g j).toList.flatMap fun d => (f j).map fun x => (d.ref, x)) = f i := by
  have hz : ∀ j, (∀ d, g j = some d → d.ref ≠ c.ref) →
      forRef c.ref ((g j).toList.flatMap fun d => (f j).map fun x => (d.ref, x)) = [] := by
    intro j hj
    cases hg : g j with
    | none => rfl
    | some d => simpa using forRef_other (hj d hg) (f j)
  have hz' : ∀ l : List ι, (∀ j ∈ l, ∀ d, g j = some d → d.ref ≠ c.ref) →
      forRef c.ref (l.flatMap fun j => (g j).toList.flatMap fun d => (f j).map fun x => (d.ref, x)) = [] := by
    intro l hl
    induction l with
    | nil => rfl
    | cons j l ih =>
      rw [List.flatMap_cons, forRef_append, hz j (hl j List.mem_cons_self),
        ih (fun k hk => hl k (List.mem_cons_of_mem _ hk))]
      rfl
  obtain ⟨s, t, rfl⟩ := List.append_of_mem hi
  rw [List.nodup_append] at hn
  obtain ⟨_, hnt, hd⟩ := hn
  rw [List.nodup_cons] at hnt
  rw [List.flatMap_append, List.flatMap_cons, forRef_append, forRef_append, hz' s, hz' t]
  · rw [hc]
    simpa using forRef_self c.ref (f i)
  · intro j hj d hg he
    have := hu j (by simp [hj]) d hg he
    subst this
    exact hnt.1 hj
  · intro j hj d hg he
    have := hu j (by simp [hj]) d hg he
    subst this
    exact hd j hj j (by simp) rfl

/-- Only the operations addressed to live aggregators count. -/
theorem SEff.congr (h : SEff env r r' ask del) (h1 : ∀ (p : Nat) (c : Cell), r.agarr[p]? = some (some c) → forRef c.ref ask' = forRef c.ref ask)
    (h2 : ∀ (p : Nat) (c : Cell), r.agarr[p]? = some (some c) → forRef c.ref del' = forRef c.ref del) : SEff env r r' ask' del' :=
  { h with
    cell := by
      intro p c hc
      rw [h1 p c hc, h2 p c hc]
      exact h.cell p c hc }

/-- What the live names are asked. -/
theorem forRef_live (hi : RInv opt n r) (hr : Room opt n) {p : Nat} {c : Cell} (hc : r.agarr[p]? = some (some c))
    (f : Nat → List AOp) : ∃ id nm, (nm, id) ∈ r.dict.dict ∧ r.cellAt id = some c ∧
      forRef c.ref (r.dict.dict.flatMap fun q => r.toId q.2 (f q.2)) = f id := by
  obtain ⟨nm, id, hm, h1, h2, hp⟩ := hi.mem_cell hr hc
  refine ⟨id, nm, hm, h2, ?_⟩
  have hn : r.dict.dict.Nodup := List.Nodup.of_map _ hi.names
  exact forRef_unique (g := fun q => r.cellAt q.2) (f := fun q => f q.2) (i := (nm, id)) hn hm h2 (by
    rintro ⟨nm', id'⟩ hj d hd he
    obtain ⟨nm2, hm2, k1, k4⟩ := hi.cellAt_some hr hd
    have h4 : r.agarr[posOf opt.idStep (opt.idInit % opt.idStep) id]? = some (some c) := by rw [hp]; exact hc
    have := hi.refs _ _ d c k4 h4 he
    have := posOf_inj (hi.id_form hm2).1 (hi.id_form hm).1 this
    simp only at this
    subst this
    rw [hi.id_eq hj hm])

theorem seff_enable (hi : RInv opt n r) (hr : Room opt n) (v : Bool) :
    SEff env r (r.enable v) (r.asked (.enable v)) [] :=
  { dict := rfl, opt := rfl, next := rfl
    len := by simp [enable]
    empty := by
      intro q hq
      simp [enable, hq]
    cell := by
      intro q d hq
      refine ⟨{ d with agg := d.agg.enable v }, by simp [enable, hq], rfl, ?_⟩
      obtain ⟨id, nm, _, _, h3⟩ := forRef_live hi hr hq (fun _ => [.enable v])
      show Trans env d.agg (forRef d.ref (r.dict.dict.flatMap fun p => r.toId p.2 [.enable v])) _ _
      rw [h3]
      exact Aggregator.trans_one (op := .enable v) rfl }

/-- The id of position `i`. -/
theorem RInv.pos2id (hi : RInv opt n r) (hr : Room opt n) {i : Nat} (h : i < r.agarr.length) :
    r.dict.pos2id i = .ok (i * opt.idStep + opt.idInit % opt.idStep) ∧
      (i * opt.idStep + opt.idInit % opt.idStep) % opt.idStep = opt.idInit % opt.idStep ∧
      i * opt.idStep + opt.idInit % opt.idStep + opt.idStep ≤ idMod := by
  have h0 := hr.1
  have hb := hi.bound hr
  have hl := hi.len
  have hm := Nat.mod_lt opt.idInit h0
  have he : (opt.idInit % opt.idStep + opt.idStep - 1) / opt.idStep ≤ 1 := by
    have : (opt.idInit % opt.idStep + opt.idStep - 1) / opt.idStep < 2 := by
      rw [Nat.div_lt_iff_lt_mul h0]
      omega
    omega
  unfold posOf at hl
  have h1 : i * opt.idStep ≤ (r.dict.counter / opt.idStep + 1) * opt.idStep := Nat.mul_le_mul_right _ (by omega)
  rw [Nat.add_mul] at h1
  have h2 := Nat.div_mul_le_self r.dict.counter opt.idStep
  have h3 : i * opt.idStep + opt.idInit % opt.idStep + opt.idStep ≤ idMod := by omega
  refine ⟨?_, by simp, h3⟩
  unfold Dict.pos2id
  rw [hi.step, if_neg (by omega), hi.res, Nat.mod_eq_of_lt (by omega)]

/-- The operations of `pop_` on one aggregator. -/
def popOps (force : Bool) (clk : Nat → Int) (id : Nat) : List AOp :=
  [.separate (clk id) 0 false force, if force then .forcePop else .pop]

/-- The aggregator a record is attributed to. -/
def attrib (r : Registry) (p : Name × AggData) : List (Nat × AggData) :=
  (r.cellOf p.1).toList.map fun c => (c.ref, p.2)

theorem trans_popOps {force : Bool} {clk : Nat → Int} {id : Nat} {a a1 a2 : Aggregator} {b : Bool}
    {out : List AggData} {d : Option AggData} (h1 : a.separate env (clk id) 0 false force = .ok (b, out, a1))
    (h2 : (if force then a1.forcePop env else .ok a1.pop) = .ok (d, a2)) :
    Trans env a (popOps force clk id) a2 d.toList := by
  have hout : out = [] := by
    obtain ⟨⟨b', out', s⟩, h3, h4⟩ := bind_inv h1
    have := Aggregator.sep_out_nil' h3
    subst this
    obtain ⟨_, _, h5⟩ := bind_inv h4
    cases h5
    rfl
  subst hout
  have e1 : Aggregator.exec env { a := a } (.separate (clk id) 0 false force) = .ok { a := a1 } := by
    simp only [Aggregator.exec, h1, bind_ok', List.nil_append]
  have e2 : Aggregator.exec env { a := a1 } (if force then .forcePop else .pop) =
      .ok { a := a2, received := d.toList } := by
    cases force with
    | true =>
      simp only [if_true] at h2 ⊢
      simp only [Aggregator.exec, h2, bind_ok', List.nil_append]
    | false =>
      simp only [Bool.false_eq_true, if_false] at h2 ⊢
      simp only [Except.ok.injEq] at h2
      simp only [Aggregator.exec, h2, List.nil_append]
  have := Aggregator.trans_append (Aggregator.trans_one e1) (Aggregator.trans_one e2)
  simpa [popOps] using this

theorem toId_congr (h : SEff env r r' ask del) (hi : RInv opt n r) (hr : Room opt n) (id : Nat) (ops : List AOp) :
    r'.toId id ops = r.toId id ops := by
  have := h.cellAt hi hr id
  unfold toId
  cases h1 : r.cellAt id <;> cases h2 : r'.cellAt id <;> rw [h1, h2] at this <;> simp_all

theorem attrib_congr (h : SEff env r r' ask del) (hi : RInv opt n r) (hr : Room opt n) (p : Name × AggData) :
    attrib r' p = attrib r p := by
  have := h.cellOf hi hr p.1
  unfold attrib
  cases h1 : r.cellOf p.1 <;> cases h2 : r'.cellOf p.1 <;> rw [h1, h2] at this <;> simp_all

theorem seff_popStep (hi : RInv opt n r) (hr : Room opt n) {force : Bool} {clk : Nat → Int} {i : Nat}
    {l l' : List (Name × AggData)} (hl : i < r.agarr.length)
    (h : popStep env force clk (r, l) i = .ok (r', l')) :
    ∃ t, l' = l ++ t ∧ (∀ p ∈ t, p.1 ∈ r.dict.dict.map Prod.fst) ∧ SEff env r r' (r.toId (i * opt.idStep + opt.idInit % opt.idStep)
      (popOps force clk (i * opt.idStep + opt.idInit % opt.idStep))) (t.flatMap (attrib r)) := by
  obtain ⟨e1, e2, e3⟩ := hi.pos2id hr hl
  unfold popStep at h
  simp only [e1, bind_ok'] at h
  generalize i * opt.idStep + opt.idInit % opt.idStep = id at *
  have hid : IdOk opt id := .inr ⟨e2, e3⟩
  rw [hi.get_eq hr hid] at h
  simp only [bind_ok'] at h
  cases hc : r.cellAt id with
  | none =>
    rw [hc] at h
    cases h
    refine ⟨[], by simp, by simp, ?_⟩
    simp only [toId, hc, Option.toList_none, List.flatMap_nil]
    exact seff_refl env r
  | some c =>
    rw [hc] at h
    simp only at h
    obtain ⟨⟨b, out, a1⟩, h1, h2⟩ := bind_inv h
    obtain ⟨⟨d, a2⟩, h3, h4⟩ := bind_inv h2
    cases h4
    have := seff_toId hi hr hc (trans_popOps h1 h3)
    obtain ⟨nm, hm, k1, k2⟩ := hi.cellAt_some hr hc
    have hn : r.dict.getName id = nm := by
      unfold Dict.getName
      rw [hi.index_lookup.2 hm]; rfl
    refine ⟨_, rfl, ?_, ?_⟩
    · intro p hp
      obtain ⟨d', _, rfl⟩ := List.mem_map.1 hp
      rw [hn]
      exact List.mem_map.2 ⟨_, hm, rfl⟩
    rw [hn]
    have hd : (d.toList.map fun d => (nm, d)).flatMap (attrib r) =
        (r.cellAt id).toList.flatMap fun c => d.toList.map fun d => (c.ref, d) := by
      rw [hc]
      cases d with
      | none => rfl
      | some d => simp [attrib, k1]
    rw [hd]
    exact this

theorem seff_popLoop {force : Bool} {clk : Nat → Int} (hr : Room opt n) (is : List Nat) :
    ∀ {r : Registry} {l l' : List (Name × AggData)}, RInv opt n r → (∀ i ∈ is, i < r.agarr.length) →
      is.foldlM (popStep env force clk) (r, l) = .ok (r', l') →
      ∃ t, l' = l ++ t ∧ (∀ p ∈ t, p.1 ∈ r.dict.dict.map Prod.fst) ∧ SEff env r r' (is.flatMap fun i => r.toId (i * opt.idStep + opt.idInit % opt.idStep)
        (popOps force clk (i * opt.idStep + opt.idInit % opt.idStep))) (t.flatMap (attrib r)) := by
  induction is with
  | nil =>
    intro r l l' hi _ h
    cases h
    exact ⟨[], by simp, by simp, seff_refl env _⟩
  | cons i is ih =>
    intro r l l' hi hl h
    simp only [List.foldlM_cons] at h
    obtain ⟨⟨r1, l1⟩, h1, h2⟩ := bind_inv h
    obtain ⟨t1, rfl, m1, e1⟩ := seff_popStep hi hr (hl i List.mem_cons_self) h1
    obtain ⟨t2, rfl, m2, e2⟩ := ih (e1.inv hi) (fun j hj => by rw [e1.len]; exact hl j (List.mem_cons_of_mem _ hj)) h2
    refine ⟨t1 ++ t2, by simp, ?_, ?_⟩
    · intro p hp
      rcases List.mem_append.1 hp with hp | hp
      · exact m1 p hp
      · rw [← e1.dict]; exact m2 p hp
    have e3 := seff_trans e1 e2
    rw [List.flatMap_cons, List.flatMap_append]
    have k1 : (fun i => r1.toId (i * opt.idStep + opt.idInit % opt.idStep)
        (popOps force clk (i * opt.idStep + opt.idInit % opt.idStep))) = fun i =>
        r.toId (i * opt.idStep + opt.idInit % opt.idStep) (popOps force clk (i * opt.idStep + opt.idInit % opt.idStep)) := by
      funext j
      exact toId_congr e1 hi hr _ _
    have k2 : attrib r1 = attrib r := by
      funext p
      exact attrib_congr e1 hi hr p
    rw [k1, k2] at e3
    exact e3

theorem seff_popAll (hi : RInv opt n r) (hr : Room opt n) {force : Bool} {clk : Nat → Int}
    {l : List (Name × AggData)} (h : r.popAll env force clk = .ok (l, r')) :
    SEff env r r' (r.asked (.popAll force clk)) (r.delivered (.popAll force clk) (.records l)) ∧
      ∀ p ∈ l, p.1 ∈ r.dict.dict.map Prod.fst := by
  unfold popAll at h
  obtain ⟨⟨r1, l1⟩, h1, h2⟩ := bind_inv h
  cases h2
  obtain ⟨t, ht, hmem, e⟩ := seff_popLoop hr _ hi (fun i h => List.mem_range.1 h) h1
  simp only [List.nil_append] at ht
  subst ht
  refine ⟨e.congr ?_ (fun _ _ _ => rfl), hmem⟩
  intro p c hc
  obtain ⟨id, nm, hm, h2, h3⟩ := forRef_live hi hr hc (popOps force clk)
  show forRef c.ref (r.dict.dict.flatMap fun q => r.toId q.2 (popOps force clk q.2)) = _
  rw [h3]
  obtain ⟨nm', hm', k1, k4⟩ := hi.cellAt_some hr h2
  obtain ⟨f1, f2⟩ := hi.id_form hm
  have hid : id / opt.idStep * opt.idStep + opt.idInit % opt.idStep = id := by
    rw [← f1, Nat.mul_comm]
    exact Nat.div_add_mod id opt.idStep
  have hlt : id / opt.idStep < r.agarr.length := by
    have : posOf opt.idStep (opt.idInit % opt.idStep) id < r.agarr.length := by
      by_contra hge
      rw [List.getElem?_eq_none (by omega)] at k4
      simp at k4
    unfold posOf at this
    exact Nat.lt_of_le_of_lt (Nat.le_add_right _ _) this
  have := forRef_unique (g := fun i => r.cellAt (i * opt.idStep + opt.idInit % opt.idStep))
    (f := fun i => popOps force clk (i * opt.idStep + opt.idInit % opt.idStep)) (L := List.range r.agarr.length)
    (i := id / opt.idStep) (c := c) List.nodup_range (List.mem_range.2 hlt) (by simp only [hid]; exact h2) (by
      intro j hj d hd he
      obtain ⟨nm2, hm2, _, g4⟩ := hi.cellAt_some hr hd
      have e1 := hi.refs _ _ d c g4 k4 he
      have e2 := posOf_inj (hi.id_form hm2).1 f1 e1
      rw [← e2]
      have h0 := hr.1
      rw [Nat.add_comm, Nat.add_mul_div_right _ _ h0, Nat.div_eq_of_lt (Nat.mod_lt _ h0), Nat.zero_add])
  simp only [hid] at this
  exact this.symm

end Registry
end Wrtstat
