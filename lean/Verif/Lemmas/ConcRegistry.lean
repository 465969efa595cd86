/-
Lemmas on the registry used by several threads: what operations do to aggregators they do not concern, and where a
call on a removed aggregator can be put in a sequential order.
-/
import Verif.Model.ConcRegistry
import Verif.Props.Monitor
import Verif.Lemmas.RegistryStep

namespace Wrtstat
namespace Registry

set_option autoImplicit false

/-- Aggregator `k` is in the registry, as `a`. -/
def At (r : Registry) (k : Nat) (a : Aggregator) : Prop := ∃ i : Nat, r.agarr[i]? = some (some ⟨k, a⟩)

/-- The identities in the registry are different and were given out before. -/
structure Uniq (r : Registry) : Prop where
  inj : ∀ (i j : Nat) (c c' : Cell), r.agarr[i]? = some (some c) → r.agarr[j]? = some (some c') → c.ref = c'.ref → i = j
  lt : ∀ (i : Nat) (c : Cell), r.agarr[i]? = some (some c) → c.ref < r.nextRef

/-- Aggregator `k` was in the registry but is no more. -/
def NoRef (k : Nat) (r : Registry) : Prop := (∀ a, ¬ At r k a) ∧ k < r.nextRef

/-- The aggregator that the call `op` would get. -/
def Sees (r : Registry) (op : RegOp) (k : Nat) (a : Aggregator) : Prop :=
  match op with
  | .call p _ _ _ _ => p.ref = k ∧ At r k a
  | op => ∃ id, op.target = some id ∧ r.getAggregator id = .ok (some ⟨k, a⟩)

theorem getAgg_iff (r : Registry) (id : Nat) (c : Cell) :
    r.getAggregator id = .ok (some c) ↔ id ≠ badId ∧ ∃ pos, r.dict.id2pos id = .ok pos ∧ r.agarr[pos]? = some (some c) := by
  unfold getAggregator
  by_cases h : id = badId
  · rw [if_pos h]; simp [h]
  · rw [if_neg h]
    cases hp : r.dict.id2pos id with
    | error e => simp [bind, Except.bind]
    | ok pos =>
      rw [bind_ok']
      simp only [Except.ok.injEq, exists_eq_left', ne_eq, h, not_false_eq_true, true_and]
      cases hx : r.agarr[pos]? with
      | none => simp
      | some o => simp [Option.join]

theorem id2pos_step {d d' : Dict} (h : d.step = d'.step) (id : Nat) : d.id2pos id = d'.id2pos id := by
  unfold Dict.id2pos; rw [h]

theorem Uniq.at_inj {r : Registry} (hu : Uniq r) {k : Nat} {a a' : Aggregator} (h : At r k a) (h' : At r k a') : a = a' := by
  obtain ⟨i, h⟩ := h
  obtain ⟨j, h'⟩ := h'
  obtain rfl := hu.inj i j _ _ h h' rfl
  rw [h] at h'
  simpa using h'

theorem find_at {r : Registry} {k : Nat} {a : Aggregator} (h : r.find k = some a) : At r k a := by
  obtain ⟨o, ho, h⟩ := List.exists_of_findSome?_eq_some h
  cases o with
  | none => cases h
  | some c =>
    simp only [Option.bind_some] at h
    split at h
    · rename_i hk
      cases h
      obtain ⟨i, hi⟩ := List.getElem?_of_mem ho
      exact ⟨i, by rw [hi]; subst hk; rfl⟩
    · cases h

theorem find_none {r : Registry} {k : Nat} (h : r.find k = none) (a : Aggregator) : ¬ At r k a := by
  rintro ⟨i, hi⟩
  have := List.findSome?_eq_none_iff.1 h _ (List.mem_of_getElem? hi)
  simp at this

theorem Uniq.find_iff {r : Registry} (hu : Uniq r) (k : Nat) (a : Aggregator) : r.find k = some a ↔ At r k a := by
  refine ⟨find_at, fun h => ?_⟩
  cases hf : r.find k with
  | none => exact absurd h (find_none hf a)
  | some b => rw [hu.at_inj h (find_at hf)]

theorem find_noref {r : Registry} {k : Nat} (h : ∀ a, ¬ At r k a) : r.find k = none := by
  cases hf : r.find k with
  | none => rfl
  | some b => exact absurd (find_at hf) (h b)

theorem Sees.at {r : Registry} {op : RegOp} {k : Nat} {a : Aggregator} (h : Sees r op k a) : At r k a := by
  have key : ∀ id, r.getAggregator id = .ok (some ⟨k, a⟩) → At r k a := by
    intro id h
    obtain ⟨-, pos, -, hp⟩ := (getAgg_iff r id _).1 h
    exact ⟨pos, hp⟩
  cases op <;> first | exact h.2 | exact key _ h.choose_spec.2

/-! ### Updates -/

theorem update_get (r : Registry) (k : Nat) (a : Aggregator) (i : Nat) :
    (r.update k a).agarr[i]? = (r.agarr[i]?).map fun o => o.map fun c => if c.ref = k then { c with agg := a } else c := by
  simp [update]

theorem update_get_some {r : Registry} {k : Nat} {a : Aggregator} {i : Nat} {c : Cell}
    (h : (r.update k a).agarr[i]? = some (some c)) :
    ∃ c0, r.agarr[i]? = some (some c0) ∧ c0.ref = c.ref ∧ (c.ref = k ∧ c.agg = a ∨ c.ref ≠ k ∧ c0 = c) := by
  rw [update_get] at h
  cases hx : r.agarr[i]? with
  | none => rw [hx] at h; cases h
  | some o =>
    rw [hx] at h
    cases o with
    | none => cases h
    | some c0 =>
      simp only [Option.map_some, Option.some.injEq] at h
      by_cases hk : c0.ref = k
      · rw [if_pos hk] at h
        subst h
        exact ⟨c0, rfl, rfl, .inl ⟨hk, rfl⟩⟩
      · rw [if_neg hk] at h
        subst h
        exact ⟨c0, rfl, rfl, .inr ⟨hk, rfl⟩⟩

theorem update_of_get {r : Registry} {k : Nat} {a : Aggregator} {i : Nat} {c : Cell} (h : r.agarr[i]? = some (some c)) :
    (r.update k a).agarr[i]? = some (some (if c.ref = k then { c with agg := a } else c)) := by
  rw [update_get, h]; rfl

theorem uniq_update {r : Registry} (hu : Uniq r) (k : Nat) (a : Aggregator) : Uniq (r.update k a) := by
  constructor
  · intro i j c c' h h' he
    obtain ⟨c0, h0, e0, -⟩ := update_get_some h
    obtain ⟨c1, h1, e1, -⟩ := update_get_some h'
    exact hu.inj i j _ _ h0 h1 (by rw [e0, e1, he])
  · intro i c h
    obtain ⟨c0, h0, e0, -⟩ := update_get_some h
    rw [← e0]
    exact hu.lt i c0 h0

theorem at_update_ne {r : Registry} {k j : Nat} (a b : Aggregator) (h : j ≠ k) : At (r.update k a) j b ↔ At r j b := by
  constructor
  · rintro ⟨i, hi⟩
    obtain ⟨c0, h0, e0, h1⟩ := update_get_some hi
    rcases h1 with ⟨h1, -⟩ | ⟨-, h1⟩
    · exact absurd h1 h
    · exact ⟨i, by rw [h0, h1]⟩
  · rintro ⟨i, hi⟩
    exact ⟨i, by rw [update_of_get hi, if_neg h]⟩

theorem at_update_self {r : Registry} {k : Nat} {b : Aggregator} (a : Aggregator) (h : At r k b) : At (r.update k a) k a := by
  obtain ⟨i, hi⟩ := h
  exact ⟨i, by rw [update_of_get hi, if_pos rfl]⟩

theorem update_noref {r : Registry} {k : Nat} (h : ∀ a, ¬ At r k a) (a : Aggregator) : r.update k a = r := by
  have : (r.agarr.map fun o => o.map fun c => if c.ref = k then { c with agg := a } else c) = r.agarr := by
    apply List.ext_getElem?
    intro i
    rw [List.getElem?_map]
    cases hx : r.agarr[i]? with
    | none => rfl
    | some o =>
      cases o with
      | none => rfl
      | some c =>
        simp only [Option.map_some]
        by_cases hk : c.ref = k
        · exact absurd ⟨i, by rw [hx, ← hk]⟩ (h c.agg)
        · rw [if_neg hk]
  unfold update
  rw [this]

theorem update_self {r : Registry} (hu : Uniq r) {k : Nat} {a : Aggregator} (h : At r k a) : r.update k a = r := by
  have : (r.agarr.map fun o => o.map fun c => if c.ref = k then { c with agg := a } else c) = r.agarr := by
    apply List.ext_getElem?
    intro i
    rw [List.getElem?_map]
    cases hx : r.agarr[i]? with
    | none => rfl
    | some o =>
      cases o with
      | none => rfl
      | some c =>
        simp only [Option.map_some]
        by_cases hk : c.ref = k
        · rw [if_pos hk, hu.at_inj h ⟨i, by rw [hx, ← hk]⟩]
        · rw [if_neg hk]
  unfold update
  rw [this]

theorem sees_update_self {r : Registry} {op : RegOp} {k : Nat} {a : Aggregator} (b : Aggregator) (h : Sees r op k a) :
    Sees (r.update k b) op k b := by
  have key : ∀ id, r.getAggregator id = .ok (some ⟨k, a⟩) → (r.update k b).getAggregator id = .ok (some ⟨k, b⟩) := by
    intro id h
    obtain ⟨hb, pos, hp, hc⟩ := (getAgg_iff r id _).1 h
    exact (getAgg_iff _ id _).2 ⟨hb, pos, hp, by rw [update_of_get hc, if_pos rfl]⟩
  cases op <;> first
    | exact ⟨h.1, at_update_self b h.2⟩
    | (obtain ⟨id, h1, h2⟩ := h; exact ⟨id, h1, key id h2⟩)

theorem sees_update_ne {r : Registry} {op : RegOp} {k j : Nat} {a : Aggregator} (b : Aggregator) (hj : k ≠ j)
    (h : Sees r op k a) : Sees (r.update j b) op k a := by
  have key : ∀ id, r.getAggregator id = .ok (some ⟨k, a⟩) → (r.update j b).getAggregator id = .ok (some ⟨k, a⟩) := by
    intro id h
    obtain ⟨hb, pos, hp, hc⟩ := (getAgg_iff r id _).1 h
    exact (getAgg_iff _ id _).2 ⟨hb, pos, hp, by rw [update_of_get hc, if_neg hj]⟩
  cases op <;> first
    | exact ⟨h.1, (at_update_ne b a hj).2 h.2⟩
    | (obtain ⟨id, h1, h2⟩ := h; exact ⟨id, h1, key id h2⟩)

/-- Every aggregator of `r` is at the same place in `r'`. -/
structure SamePlace (r r' : Registry) : Prop where
  step : r'.dict.step = r.dict.step
  cell : ∀ (i : Nat) (c : Cell), r.agarr[i]? = some (some c) → ∃ a, r'.agarr[i]? = some (some ⟨c.ref, a⟩)

theorem SamePlace.sees {r r' : Registry} (h : SamePlace r r') {op : RegOp} {k : Nat} {a : Aggregator} (hs : Sees r op k a) :
    ∃ a', Sees r' op k a' := by
  have key : ∀ id, r.getAggregator id = .ok (some ⟨k, a⟩) → ∃ a', r'.getAggregator id = .ok (some ⟨k, a'⟩) := by
    intro id hg
    obtain ⟨hb, pos, hp, hc⟩ := (getAgg_iff r id _).1 hg
    obtain ⟨a', ha⟩ := h.cell pos _ hc
    exact ⟨a', (getAgg_iff _ id _).2 ⟨hb, pos, by rw [id2pos_step h.step, hp], ha⟩⟩
  cases op <;> first
    | (obtain ⟨h1, i, hi⟩ := hs; obtain ⟨a', ha⟩ := h.cell i _ hi; exact ⟨a', h1, i, ha⟩)
    | (obtain ⟨id, h1, h2⟩ := hs; obtain ⟨a', ha⟩ := key id h2; exact ⟨a', id, h1, ha⟩)

theorem samePlace_update (r : Registry) (k : Nat) (a : Aggregator) : SamePlace r (r.update k a) := by
  refine ⟨rfl, fun i c h => ?_⟩
  rw [update_of_get h]
  by_cases hk : c.ref = k
  · rw [if_pos hk]; exact ⟨a, rfl⟩
  · rw [if_neg hk]; exact ⟨c.agg, rfl⟩

/-! ### `create_aggregator` -/

theorem createId_step (d : Dict) (pick : Nat) (name : Name) : (d.createId pick name).2.step = d.step := by
  unfold Dict.createId
  split
  · rfl
  · split <;> rfl

/-- What `create_aggregator` does to the array: nothing, or a new aggregator in an empty place. -/
theorem create_array {env : Env} {r r' : Registry} {q : Ask} {name : Name} {now : Int} {id : Nat}
    (h : r.createAggregator env q name now = .ok (id, r')) :
    r'.dict.step = r.dict.step ∧
    ((r'.agarr = r.agarr ∧ r'.nextRef = r.nextRef) ∨
     ∃ pos a, r.construct env q now = .ok a ∧ r.agarr[pos]?.join = none ∧ r'.nextRef = r.nextRef + 1 ∧
       r'.agarr = (r.agarr ++ List.replicate (pos + 1 - r.agarr.length) none).set pos (some ⟨r.nextRef, a⟩)) := by
  unfold createAggregator at h
  split at h
  · cases h; exact ⟨rfl, .inl ⟨rfl, rfl⟩⟩
  · obtain ⟨pos, hp, h⟩ := bind_inv h
    simp only at h hp
    split at h
    · cases h
      exact ⟨createId_step _ _ _, .inl ⟨rfl, rfl⟩⟩
    · rename_i hj
      obtain ⟨a, ha, h⟩ := bind_inv h
      cases h
      exact ⟨createId_step _ _ _, .inr ⟨pos, a, ha, hj, rfl, rfl⟩⟩

theorem set_grow_get {arr : List (Option Cell)} {pos : Nat} {x : Cell} (i : Nat) (c : Cell)
    (h : ((arr ++ List.replicate (pos + 1 - arr.length) none).set pos (some x))[i]? = some (some c)) :
    (i = pos ∧ c = x) ∨ (i ≠ pos ∧ arr[i]? = some (some c)) := by
  by_cases hi : i = pos
  · subst hi
    rw [List.getElem?_set_self (by simp; omega)] at h
    simp only [Option.some.injEq] at h
    exact .inl ⟨rfl, h.symm⟩
  · rw [List.getElem?_set_ne (Ne.symm hi)] at h
    refine .inr ⟨hi, ?_⟩
    rw [List.getElem?_append] at h
    split at h
    · exact h
    · rw [List.getElem?_replicate] at h
      split at h <;> cases h

theorem set_grow_of_get {arr : List (Option Cell)} {pos : Nat} {x : Cell} {i : Nat} {c : Cell} (hn : arr[pos]?.join = none)
    (h : arr[i]? = some (some c)) :
    ((arr ++ List.replicate (pos + 1 - arr.length) none).set pos (some x))[i]? = some (some c) := by
  have hi : i ≠ pos := by
    rintro rfl
    rw [h] at hn
    cases hn
  rw [List.getElem?_set_ne (Ne.symm hi), List.getElem?_append, if_pos (List.getElem?_eq_some_iff.1 h).1]
  exact h

/-- What the rest of the development needs to know about a step: no identity comes back, places are kept. -/
structure Grows (r r' : Registry) : Prop where
  uniq : Uniq r'
  next : r.nextRef ≤ r'.nextRef
  noref : ∀ k, NoRef k r → NoRef k r'

theorem create_grows {env : Env} {r r' : Registry} {q : Ask} {name : Name} {now : Int} {id : Nat} (hu : Uniq r)
    (h : r.createAggregator env q name now = .ok (id, r')) : Grows r r' ∧ SamePlace r r' := by
  obtain ⟨hs, h⟩ := create_array h
  rcases h with ⟨h1, h2⟩ | ⟨pos, a, -, hn, h2, h1⟩
  · refine ⟨⟨⟨?_, ?_⟩, by omega, ?_⟩, hs, ?_⟩
    · rw [h1]; exact hu.inj
    · rw [h1, h2]; exact hu.lt
    · rintro k ⟨h3, h4⟩
      refine ⟨fun a ha => h3 a ?_, by omega⟩
      unfold At at ha ⊢
      rwa [h1] at ha
    · intro i c hc
      exact ⟨c.agg, by rw [h1, hc]⟩
  · refine ⟨⟨⟨?_, ?_⟩, by omega, ?_⟩, hs, ?_⟩
    · intro i j c c' hc hc' he
      rw [h1] at hc hc'
      rcases set_grow_get i c hc with ⟨e1, e2⟩ | ⟨e1, e2⟩ <;> rcases set_grow_get j c' hc' with ⟨e3, e4⟩ | ⟨e3, e4⟩
      · rw [e1, e3]
      · have := hu.lt j c' e4
        rw [e2] at he
        simp only at he
        omega
      · have := hu.lt i c e2
        rw [e4] at he
        simp only at he
        omega
      · exact hu.inj i j c c' e2 e4 he
    · intro i c hc
      rw [h1] at hc
      rcases set_grow_get i c hc with ⟨e1, e2⟩ | ⟨e1, e2⟩
      · rw [e2, h2]; exact Nat.lt_succ_self _
      · have := hu.lt i c e2; omega
    · rintro k ⟨h3, h4⟩
      refine ⟨?_, by omega⟩
      rintro b ⟨i, hi⟩
      rw [h1] at hi
      rcases set_grow_get i _ hi with ⟨e1, e2⟩ | ⟨e1, e2⟩
      · have : k = r.nextRef := congrArg Cell.ref e2
        omega
      · exact h3 b ⟨i, e2⟩
    · intro i c hc
      exact ⟨c.agg, by rw [h1, set_grow_of_get hn hc]⟩

theorem update_grows {r : Registry} (hu : Uniq r) (k : Nat) (a : Aggregator) : Grows r (r.update k a) := by
  refine ⟨uniq_update hu k a, Nat.le_refl _, ?_⟩
  rintro j ⟨h1, h2⟩
  refine ⟨?_, h2⟩
  rintro b ⟨i, hi⟩
  obtain ⟨c0, h0, e0, -⟩ := update_get_some hi
  exact h1 c0.agg ⟨i, by rw [h0]; simp only at e0; rw [← e0]⟩

/-! ### `del` -/

theorem del_split {r r' : Registry} {name : Name} {b : Bool} (h : r.del name = .ok (b, r')) :
    (r.dict.getId name = badId ∧ b = false ∧ r' = r) ∨
    ∃ pos, r.dict.getId name ≠ badId ∧ r.dict.id2pos (r.dict.getId name) = .ok pos ∧ pos < r.agarr.length ∧
      b = (r.dict.freeId (r.dict.getId name)).1 ∧
      r' = { r with agarr := r.agarr.set pos none, dict := (r.dict.freeId (r.dict.getId name)).2 } := by
  unfold del at h
  simp only at h
  split at h
  · rename_i hb
    cases h
    exact .inl ⟨hb, rfl, rfl⟩
  · rename_i hb
    obtain ⟨pos, hp, h⟩ := bind_inv h
    split at h
    · rename_i hlt
      cases h
      exact .inr ⟨pos, hb, hp, hlt, rfl, rfl⟩
    · cases h

theorem freeId_step (d : Dict) (id : Nat) : (d.freeId id).2.step = d.step := by
  unfold Dict.freeId
  split <;> rfl

theorem set_none_get {arr : List (Option Cell)} {pos i : Nat} {c : Cell} (h : (arr.set pos none)[i]? = some (some c)) :
    i ≠ pos ∧ arr[i]? = some (some c) := by
  by_cases hi : i = pos
  · subst hi
    rw [List.getElem?_set_self'] at h
    cases hx : arr[i]? <;> rw [hx] at h <;> cases h
  · rw [List.getElem?_set_ne (Ne.symm hi)] at h
    exact ⟨hi, h⟩

theorem del_grows {r r' : Registry} {name : Name} {b : Bool} (hu : Uniq r) (h : r.del name = .ok (b, r')) : Grows r r' := by
  rcases del_split h with ⟨-, -, rfl⟩ | ⟨pos, -, -, -, -, rfl⟩
  · exact ⟨hu, Nat.le_refl _, fun _ h => h⟩
  · refine ⟨⟨?_, ?_⟩, Nat.le_refl _, ?_⟩
    · intro i j c c' h h' he
      exact hu.inj i j c c' (set_none_get h).2 (set_none_get h').2 he
    · intro i c h
      exact hu.lt i c (set_none_get h).2
    · rintro k ⟨h1, h2⟩
      refine ⟨?_, h2⟩
      rintro a ⟨i, hi⟩
      exact h1 a ⟨i, (set_none_get hi).2⟩

/-- After `del`, a call still finds its aggregator, or it is the one that was removed. -/
theorem del_sees {r r' : Registry} {name : Name} {b : Bool} (hu : Uniq r) (h : r.del name = .ok (b, r')) {op : RegOp} {k : Nat}
    {a : Aggregator} (hs : Sees r op k a) : Sees r' op k a ∨ (CReg.dropped r name = [⟨k, a⟩] ∧ NoRef k r') := by
  rcases del_split h with ⟨-, -, rfl⟩ | ⟨pos, hb, hp, hlt, -, rfl⟩
  · exact .inl hs
  · have hat := hs.at
    obtain ⟨i, hi⟩ := hat
    by_cases hip : i = pos
    · right
      subst hip
      refine ⟨?_, ?_, hu.lt i _ hi⟩
      · unfold CReg.dropped
        rw [(getAgg_iff r _ _).2 ⟨hb, i, hp, hi⟩]
        rfl
      · rintro a' ⟨j, hj⟩
        obtain ⟨h1, h2⟩ := set_none_get hj
        exact h1 (hu.inj j i _ _ h2 hi rfl)
    · left
      have key : ∀ id, r.getAggregator id = .ok (some ⟨k, a⟩) →
          ({ r with agarr := r.agarr.set pos none, dict := (r.dict.freeId (r.dict.getId name)).2 } : Registry).getAggregator id =
            .ok (some ⟨k, a⟩) := by
        intro id hg
        obtain ⟨hb', p, hp', hc⟩ := (getAgg_iff r id _).1 hg
        obtain rfl := hu.inj p i _ _ hc hi rfl
        refine (getAgg_iff _ id _).2 ⟨hb', p, ?_, ?_⟩
        · rw [← hp']; exact id2pos_step (freeId_step _ _) id
        · exact (List.getElem?_set_ne (Ne.symm hip)).trans hc
      cases op <;> first
        | exact ⟨hs.1, i, (List.getElem?_set_ne (Ne.symm hip)).trans hi⟩
        | (obtain ⟨id, h1, h2⟩ := hs; exact ⟨id, h1, key id h2⟩)

/-- What happens to an aggregator just before it is removed has no effect on what comes after. -/
theorem del_update {r r' : Registry} {name : Name} {b : Bool} (h : r.del name = .ok (b, r')) {k : Nat} (hn : ∀ a, ¬ At r' k a)
    (a : Aggregator) : (r.update k a).del name = .ok (b, r') := by
  have h' : (r.update k a).del name = .ok (b, r'.update k a) := by
    rcases del_split h with ⟨h1, h2, rfl⟩ | ⟨pos, hb, hp, hlt, h2, rfl⟩
    · unfold del
      rw [show (r'.update k a).dict = r'.dict from rfl]
      simp only
      rw [if_pos h1, h2]
    · unfold del
      rw [show (r.update k a).dict = r.dict from rfl]
      simp only
      rw [if_neg hb, hp, bind_ok', if_pos (by simpa [update] using hlt), h2]
      have : ((r.update k a).agarr.set pos none) = (r.agarr.set pos none).map
          fun o => o.map fun c => if c.ref = k then { c with agg := a } else c := by
        rw [List.map_set]; rfl
      rw [this]
      rfl
  rw [h', update_noref hn]

/-! ### Calls with an aggregator in hand -/

/-- What a call does with the aggregator it has found is what the registry does. -/
theorem use_step {env : Env} {r : Registry} (hu : Uniq r) {op : RegOp} {k : Nat} {a a' : Aggregator} {resp : Resp}
    {ops : List Aggregator.AOp} {out : List AggData} (hs : Sees r op k a) (h : CReg.use env k a op = .ok (resp, a', ops, out)) :
    r.step env op = .ok (resp, r.update k a') := by
  cases op <;> simp only [CReg.use] at h <;> try (first | cases h | skip)
  case addId id c1 c2 now v n =>
    obtain ⟨_, e, hg⟩ := hs
    cases e
    obtain ⟨⟨b, a1⟩, h1, h2⟩ := bind_inv h
    cases h2
    simp only [step, addId, hg, h1, bind_ok']
  case addData => obtain ⟨_, e, -⟩ := hs; cases e
  case pop id =>
    obtain ⟨_, e, hg⟩ := hs
    cases e
    simp only [step, pop, hg, bind_ok']
  case forcePop id =>
    obtain ⟨_, e, hg⟩ := hs
    cases e
    obtain ⟨⟨b, a1⟩, h1, h2⟩ := bind_inv h
    cases h2
    simp only [step, forcePop, hg, h1, bind_ok']
  case pusherId id hd =>
    have hat := hs.at
    obtain ⟨_, e, hg⟩ := hs
    cases e
    simp only [step, pusherId, hg, bind_ok', Option.map_some, update_self hu hat]
  case pusherName => obtain ⟨_, e, -⟩ := hs; cases e
  case call p c1 c2 ts x =>
    obtain ⟨rfl, hat⟩ := hs
    obtain ⟨⟨l, a1⟩, h1, h2⟩ := bind_inv h
    cases h2
    simp only [step, call, (hu.find_iff _ _).2 hat, h1, bind_ok']
  case direct id op =>
    obtain ⟨_, e, hg⟩ := hs
    cases e
    obtain ⟨o, h1, h2⟩ := bind_inv h
    cases h2
    simp only [step, hg, h1, bind_ok']

theorem step_grows {env : Env} {r r' : Registry} (hu : Uniq r) {op : RegOp} (hop : op.simple) {resp : Resp}
    (h : r.step env op = .ok (resp, r')) : Grows r r' := by
  have same : Grows r r := ⟨hu, Nat.le_refl _, fun _ h => h⟩
  cases op <;> simp only [step] at h <;> try exact hop.elim
  case create q n now =>
    obtain ⟨⟨id, r1⟩, h1, h2⟩ := bind_inv h
    cases h2
    exact (create_grows hu h1).1
  case addId =>
    obtain ⟨⟨b, r1⟩, h1, h2⟩ := bind_inv h
    cases h2
    obtain ⟨o, h1, h2⟩ := bind_inv h1
    cases o with
    | none => cases h2; exact same
    | some c =>
      obtain ⟨⟨ok, a⟩, h3, h4⟩ := bind_inv h2
      cases h4
      exact update_grows hu _ _
  case pop =>
    obtain ⟨⟨b, r1⟩, h1, h2⟩ := bind_inv h
    cases h2
    obtain ⟨o, h1, h2⟩ := bind_inv h1
    cases o with
    | none => cases h2; exact same
    | some c =>
      cases h2
      exact update_grows hu _ _
  case forcePop =>
    obtain ⟨⟨b, r1⟩, h1, h2⟩ := bind_inv h
    cases h2
    obtain ⟨o, h1, h2⟩ := bind_inv h1
    cases o with
    | none => cases h2; exact same
    | some c =>
      obtain ⟨⟨ok, a⟩, h3, h4⟩ := bind_inv h2
      cases h4
      exact update_grows hu _ _
  case getName => cases h; exact same
  case setInit => cases h; exact ⟨⟨hu.inj, hu.lt⟩, Nat.le_refl _, fun _ h => h⟩
  case pusherId =>
    obtain ⟨p, h1, h2⟩ := bind_inv h
    cases h2
    exact same
  case call p c1 c2 ts x =>
    obtain ⟨⟨b, r1⟩, h1, h2⟩ := bind_inv h
    cases h2
    unfold call at h1
    split at h1
    · cases h1; exact same
    · obtain ⟨⟨ok, a⟩, h3, h4⟩ := bind_inv h1
      cases h4
      exact update_grows hu _ _
  case del =>
    obtain ⟨⟨b, r1⟩, h1, h2⟩ := bind_inv h
    cases h2
    exact del_grows hu h1
  case direct =>
    obtain ⟨o, h1, h2⟩ := bind_inv h
    cases o with
    | none => cases h2; exact same
    | some c =>
      obtain ⟨o, h3, h4⟩ := bind_inv h2
      cases h4
      exact update_grows hu _ _

end Registry
end Wrtstat
