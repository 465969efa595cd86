/-
The dictionary of ids and the invariant of the registry.
-/
import Verif.Spec.RegistrySpec
import Verif.Lemmas.Partition

namespace Wrtstat

section Assoc
variable {α β : Type} [BEq α] [LawfulBEq α]

theorem mem_of_lookup {l : List (α × β)} {a : α} {b : β} (h : l.lookup a = some b) : (a, b) ∈ l := by
  induction l with
  | nil => simp at h
  | cons p l ih =>
    obtain ⟨x, y⟩ := p
    rw [List.lookup_cons] at h
    by_cases he : a = x
    · subst he
      rw [beq_self_eq_true] at h
      simp only [Option.some.injEq] at h
      subst h
      exact List.mem_cons_self
    · rw [show (a == x) = false from by simpa using he] at h
      exact List.mem_cons_of_mem _ (ih h)

theorem lookup_of_mem {l : List (α × β)} {a : α} {b : β} (hn : (l.map Prod.fst).Nodup) (h : (a, b) ∈ l) :
    l.lookup a = some b := by
  induction l with
  | nil => simp at h
  | cons p l ih =>
    obtain ⟨x, y⟩ := p
    rw [List.lookup_cons]
    simp only [List.map_cons, List.nodup_cons] at hn
    by_cases he : a = x
    · subst he
      rcases List.mem_cons.1 h with h | h
      · simp only [Prod.mk.injEq] at h; simp [h.2]
      · exact absurd (List.mem_map.2 ⟨_, h, rfl⟩) hn.1
    · rw [show (a == x) = false from by simpa using he]
      rcases List.mem_cons.1 h with h | h
      · simp only [Prod.mk.injEq] at h; exact absurd h.1 he
      · exact ih hn.2 h

theorem lookup_none {l : List (α × β)} {a : α} : l.lookup a = none ↔ a ∉ l.map Prod.fst := by
  induction l with
  | nil => simp
  | cons p l ih =>
    obtain ⟨x, y⟩ := p
    rw [List.lookup_cons]
    by_cases he : a = x
    · subst he; simp
    · rw [show (a == x) = false from by simpa using he]
      simpa [he] using ih

end Assoc

theorem Dict.link_new {d : Dict} {id : Nat} {name : Name} (hx : d.index = d.dict.map Prod.swap) (h : id ∉ d.dict.map Prod.snd) :
    d.link id name = (id, name) :: d.index := by
  have : d.index.lookup id = none := by
    rw [lookup_none, hx, List.map_map]
    exact h
  rw [Dict.link, this]
  rfl

namespace Registry

/-- Position of an id congruent to the initial id. -/
def posOf (step res id : Nat) : Nat := id / step + (res + step - 1) / step

theorem id2pos_ok {d : Dict} {step res id : Nat} (hs : d.step = step) (h0 : 0 < step) (hr : id % step = res)
    (hb : id + step ≤ idMod) : d.id2pos id = .ok (posOf step res id) := by
  unfold Dict.id2pos
  rw [hs, if_neg (by omega)]
  congr 1
  have hm : (id + step + (idMod - 1)) % idMod = id + step - 1 := by
    unfold idMod at *
    omega
  rw [hm]
  unfold posOf
  have h1 := Nat.div_add_mod id step
  rw [hr] at h1
  have : id + step - 1 = (res + step - 1) + step * (id / step) := by omega
  rw [this, Nat.add_mul_div_left _ _ h0, Nat.add_comm]

theorem posOf_inj {step res a b : Nat} (ha : a % step = res) (hb : b % step = res)
    (h : posOf step res a = posOf step res b) : a = b := by
  unfold posOf at h
  have h1 := Nat.div_add_mod a step
  have h2 := Nat.div_add_mod b step
  have : a / step = b / step := by omega
  rw [this] at h1
  omega

/-- What is always true of the registry, after at most `n` operations. -/
structure RInv (opt : RegistryOpts) (n : Nat) (r : Registry) : Prop where
  ropt : r.opt = opt.toAggregatorOpts
  step : r.dict.step = opt.idStep
  res : r.dict.counter % opt.idStep = opt.idInit % opt.idStep
  cle : r.dict.counter ≤ opt.idInit + n * opt.idStep
  idx : r.dict.index = r.dict.dict.map Prod.swap
  names : (r.dict.dict.map Prod.fst).Nodup
  ids : (r.dict.dict.map Prod.snd).Nodup
  nonempty : ∀ p ∈ r.dict.dict, p.1 ≠ []
  free : r.dict.free.Nodup
  disj : ∀ id ∈ r.dict.free, id ∉ r.dict.dict.map Prod.snd
  form : ∀ id, id ∈ r.dict.free ∨ id ∈ r.dict.dict.map Prod.snd →
    id % opt.idStep = opt.idInit % opt.idStep ∧ id ≤ r.dict.counter
  occ : ∀ (p : Nat) (c : Cell), r.agarr[p]? = some (some c) → ∃ nm id, (nm, id) ∈ r.dict.dict ∧
    posOf opt.idStep (opt.idInit % opt.idStep) id = p
  live : ∀ nm id, (nm, id) ∈ r.dict.dict → ∃ c, r.agarr[posOf opt.idStep (opt.idInit % opt.idStep) id]? = some (some c)
  refs : ∀ (p q : Nat) (c d : Cell), r.agarr[p]? = some (some c) → r.agarr[q]? = some (some d) → c.ref = d.ref → p = q
  refLt : ∀ (p : Nat) (c : Cell), r.agarr[p]? = some (some c) → c.ref < r.nextRef
  alive : ∀ (p : Nat) (c : Cell), r.agarr[p]? = some (some c) → c.agg.alive = true
  len : r.agarr.length ≤ posOf opt.idStep (opt.idInit % opt.idStep) r.dict.counter + 1

theorem rinv_new (opt : RegistryOpts) : RInv opt 0 (Registry.new opt) := by
  constructor <;> simp [Registry.new]

variable {opt : RegistryOpts} {n : Nat} {r : Registry}

theorem RInv.mono (h : RInv opt n r) {m : Nat} (hm : n ≤ m) : RInv opt m r :=
  { h with cle := h.cle.trans (Nat.add_le_add_left (Nat.mul_le_mul_right _ hm) _) }

theorem RInv.bound (h : RInv opt n r) (hr : Room opt n) : r.dict.counter + 3 * opt.idStep < idMod := by
  have := h.cle
  have := hr.2
  rw [Nat.add_mul] at this
  omega

theorem RInv.index_lookup (h : RInv opt n r) {id : Nat} {nm : Name} :
    r.dict.index.lookup id = some nm ↔ (nm, id) ∈ r.dict.dict := by
  rw [h.idx]
  have hn : ((r.dict.dict.map Prod.swap).map Prod.fst).Nodup := by
    rw [List.map_map]; exact h.ids
  constructor
  · intro hl
    have := mem_of_lookup hl
    obtain ⟨⟨a, b⟩, hm, he⟩ := List.mem_map.1 this
    simp only [Prod.swap_prod_mk, Prod.mk.injEq] at he
    rw [← he.1, ← he.2]; exact hm
  · intro hm
    exact lookup_of_mem hn (List.mem_map.2 ⟨_, hm, rfl⟩)

theorem RInv.dict_lookup (h : RInv opt n r) {id : Nat} {nm : Name} :
    r.dict.dict.lookup nm = some id ↔ (nm, id) ∈ r.dict.dict :=
  ⟨mem_of_lookup, lookup_of_mem h.names⟩

theorem RInv.id_form (h : RInv opt n r) {id : Nat} {nm : Name} (hm : (nm, id) ∈ r.dict.dict) :
    id % opt.idStep = opt.idInit % opt.idStep ∧ id ≤ r.dict.counter :=
  h.form id (.inr (List.mem_map.2 ⟨_, hm, rfl⟩))

theorem RInv.id_ne_bad (h : RInv opt n r) (hr : Room opt n) {id : Nat} (hi : id ≤ r.dict.counter) : id ≠ badId := by
  have := h.bound hr
  have := hr.1
  unfold badId idMod at *
  omega

theorem RInv.id_eq (h : RInv opt n r) {nm nm' : Name} {id : Nat} (h1 : (nm, id) ∈ r.dict.dict)
    (h2 : (nm', id) ∈ r.dict.dict) : nm = nm' := by
  have e1 := h.index_lookup.2 h1
  have e2 := h.index_lookup.2 h2
  rw [e1] at e2
  exact Option.some.inj e2

theorem RInv.name_eq (h : RInv opt n r) {nm : Name} {id id' : Nat} (h1 : (nm, id) ∈ r.dict.dict)
    (h2 : (nm, id') ∈ r.dict.dict) : id = id' := by
  have e1 := h.dict_lookup.2 h1
  have e2 := h.dict_lookup.2 h2
  rw [e1] at e2
  exact Option.some.inj e2

/-- `get_aggregator` on an id of the right form. -/
theorem RInv.get (h : RInv opt n r) (hr : Room opt n) {id : Nat} (h1 : id % opt.idStep = opt.idInit % opt.idStep)
    (h2 : id + opt.idStep ≤ idMod) (h3 : id ≠ badId) :
    r.getAggregator id = .ok (r.agarr[posOf opt.idStep (opt.idInit % opt.idStep) id]?.join) := by
  unfold getAggregator
  rw [if_neg h3, id2pos_ok h.step hr.1 h1 h2]
  rfl

theorem RInv.get_live (h : RInv opt n r) (hr : Room opt n) {nm : Name} {id : Nat} (hm : (nm, id) ∈ r.dict.dict) :
    ∃ c, r.getAggregator id = .ok (some c) ∧ r.agarr[posOf opt.idStep (opt.idInit % opt.idStep) id]? = some (some c) := by
  obtain ⟨c, hc⟩ := h.live nm id hm
  obtain ⟨f1, f2⟩ := h.id_form hm
  have := h.bound hr
  refine ⟨c, ?_, hc⟩
  rw [h.get hr f1 (by omega) (h.id_ne_bad hr f2), hc]
  rfl

theorem RInv.get_dead (h : RInv opt n r) (hr : Room opt n) {id : Nat} (hi : IdOk opt id)
    (hd : r.dict.index.lookup id = none) : r.getAggregator id = .ok none := by
  rcases hi with rfl | ⟨h1, h2⟩
  · simp [getAggregator]
  by_cases h3 : id = badId
  · simp [getAggregator, h3]
  rw [h.get hr h1 h2 h3]
  cases hc : r.agarr[posOf opt.idStep (opt.idInit % opt.idStep) id]? with
  | none => rfl
  | some o =>
    cases o with
    | none => rfl
    | some c =>
      obtain ⟨nm, id', hm, hp⟩ := h.occ _ _ hc
      have := posOf_inj (h.id_form hm).1 h1 hp
      subst this
      rw [h.index_lookup.2 hm] at hd
      simp at hd

theorem RInv.cellOf_live (h : RInv opt n r) (hr : Room opt n) {nm : Name} {id : Nat} (hm : (nm, id) ∈ r.dict.dict) :
    ∃ c, r.cellOf nm = some c ∧ r.cellAt id = some c ∧ r.getAggregator id = .ok (some c) ∧
      r.agarr[posOf opt.idStep (opt.idInit % opt.idStep) id]? = some (some c) := by
  obtain ⟨c, h1, h2⟩ := h.get_live hr hm
  have h3 : r.cellOf nm = some c := by
    unfold cellOf
    rw [h.dict_lookup.2 hm]
    simp [h1, Except.toOption]
  refine ⟨c, h3, ?_, h1, h2⟩
  unfold cellAt
  rw [h.index_lookup.2 hm]
  exact h3

theorem RInv.cellOf_dead {nm : Name} (hm : nm ∉ r.dict.dict.map Prod.fst) : r.cellOf nm = none := by
  unfold cellOf
  rw [lookup_none.2 hm]
  rfl

/-- `get_aggregator` returns the aggregator of the live id, if it is one. -/
theorem RInv.get_eq (h : RInv opt n r) (hr : Room opt n) {id : Nat} (hi : IdOk opt id) :
    r.getAggregator id = .ok (r.cellAt id) := by
  cases hl : r.dict.index.lookup id with
  | none =>
    rw [h.get_dead hr hi hl]
    unfold cellAt
    rw [hl]; rfl
  | some nm =>
    obtain ⟨c, _, h2, h3, _⟩ := h.cellOf_live hr (h.index_lookup.1 hl)
    rw [h3, h2]

theorem RInv.cellAt_some (h : RInv opt n r) (hr : Room opt n) {id : Nat} {c : Cell} (hc : r.cellAt id = some c) :
    ∃ nm, (nm, id) ∈ r.dict.dict ∧ r.cellOf nm = some c ∧
      r.agarr[posOf opt.idStep (opt.idInit % opt.idStep) id]? = some (some c) := by
  unfold cellAt at hc
  cases hl : r.dict.index.lookup id with
  | none => rw [hl] at hc; simp at hc
  | some nm =>
    rw [hl] at hc
    have hm := h.index_lookup.1 hl
    obtain ⟨c', h1, h2, h3, h4⟩ := h.cellOf_live hr hm
    simp only [Option.bind_some] at hc
    rw [hc] at h1
    cases h1
    exact ⟨nm, hm, hc, h4⟩

theorem RInv.cellOf_some (h : RInv opt n r) (hr : Room opt n) {nm : Name} {c : Cell} (hc : r.cellOf nm = some c) :
    ∃ id, (nm, id) ∈ r.dict.dict ∧ r.cellAt id = some c ∧
      r.agarr[posOf opt.idStep (opt.idInit % opt.idStep) id]? = some (some c) := by
  by_cases hm : nm ∈ r.dict.dict.map Prod.fst
  · obtain ⟨⟨a, id⟩, hm', rfl⟩ := List.mem_map.1 hm
    have hm := hm'
    obtain ⟨c', h1, h2, h3, h4⟩ := h.cellOf_live hr hm
    simp only at hc
    rw [hc] at h1
    cases h1
    exact ⟨id, hm, h2, h4⟩
  · rw [RInv.cellOf_dead hm] at hc
    simp at hc

/-- Cells of the array are the aggregators of the live names. -/
theorem RInv.mem_cell (h : RInv opt n r) (hr : Room opt n) {p : Nat} {c : Cell} (hc : r.agarr[p]? = some (some c)) :
    ∃ nm id, (nm, id) ∈ r.dict.dict ∧ r.cellOf nm = some c ∧ r.cellAt id = some c ∧
      posOf opt.idStep (opt.idInit % opt.idStep) id = p := by
  obtain ⟨nm, id, hm, hp⟩ := h.occ p c hc
  obtain ⟨c', h1, h2, h3, h4⟩ := h.cellOf_live hr hm
  rw [hp, hc] at h4
  cases h4
  exact ⟨nm, id, hm, h1, h2, hp⟩

/-- `find` gives the aggregator with that identity. -/
theorem RInv.find_eq (h : RInv opt n r) {k : Nat} {a : Aggregator} :
    r.find k = some a ↔ ∃ (p : Nat) (c : Cell), r.agarr[p]? = some (some c) ∧ c.ref = k ∧ c.agg = a := by
  unfold find
  constructor
  · intro hf
    obtain ⟨o, ho, hb⟩ := List.exists_of_findSome?_eq_some hf
    cases o with
    | none => simp at hb
    | some c =>
      obtain ⟨p, hp, he⟩ := List.mem_iff_getElem.1 ho
      simp only [Option.bind_some] at hb
      by_cases hk : c.ref = k
      · rw [if_pos hk] at hb
        exact ⟨p, c, by rw [List.getElem?_eq_getElem hp, he], hk, Option.some.inj hb⟩
      · rw [if_neg hk] at hb; simp at hb
  · rintro ⟨p, c, hp, hk, rfl⟩
    cases hf : r.agarr.findSome? (fun o => o.bind fun c => if c.ref = k then some c.agg else none) with
    | none =>
      rw [List.findSome?_eq_none_iff] at hf
      have := hf (some c) (List.mem_of_getElem? hp)
      simp [hk] at this
    | some a =>
      obtain ⟨o, ho, hb⟩ := List.exists_of_findSome?_eq_some hf
      cases o with
      | none => simp at hb
      | some d =>
        obtain ⟨q, hq, he⟩ := List.mem_iff_getElem.1 ho
        simp only [Option.bind_some] at hb
        by_cases hd : d.ref = k
        · rw [if_pos hd] at hb
          have hq' : r.agarr[q]? = some (some d) := by rw [List.getElem?_eq_getElem hq, he]
          have := h.refs p q c d hp hq' (by rw [hk, hd])
          subst this
          rw [hp] at hq'
          cases hq'
          exact hb.symm
        · rw [if_neg hd] at hb; simp at hb

end Registry
end Wrtstat
