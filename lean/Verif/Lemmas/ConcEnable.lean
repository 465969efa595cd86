/-
The registry in the middle of `enable`: the aggregators from some position on are still to be enabled or disabled.
-/
import Verif.Lemmas.ConcRegistry

namespace Wrtstat
namespace Registry

set_option autoImplicit false

/-- The registry when `enable(v)`, now before position `i`, is through. -/
def enFrom (r : Registry) (v : Bool) (i : Nat) : Registry :=
  { r with agarr := r.agarr.mapIdx fun j o => if i ≤ j then o.map fun c => { c with agg := c.agg.enable v } else o }

theorem enFrom_get (r : Registry) (v : Bool) (i j : Nat) :
    (r.enFrom v i).agarr[j]? =
      (r.agarr[j]?).map fun o => if i ≤ j then o.map fun c => { c with agg := c.agg.enable v } else o := by
  simp [enFrom, List.getElem?_mapIdx]

theorem enFrom_zero (r : Registry) (v : Bool) : ({ r with enabled := v } : Registry).enFrom v 0 = r.enable v := by
  unfold enFrom enable
  congr 1
  apply List.ext_getElem?
  intro j
  simp [List.getElem?_mapIdx]

theorem enFrom_length (r : Registry) (v : Bool) {i : Nat} (h : r.agarr.length ≤ i) : r.enFrom v i = r := by
  have : (r.enFrom v i).agarr = r.agarr := by
    apply List.ext_getElem?
    intro j
    rw [enFrom_get]
    cases hx : r.agarr[j]? with
    | none => rfl
    | some o =>
      have := (List.getElem?_eq_some_iff.1 hx).1
      rw [Option.map_some, if_neg (by omega)]
  unfold enFrom at this ⊢
  rw [show (r.agarr.mapIdx _) = r.agarr from this]

theorem enFrom_none {r : Registry} {v : Bool} {i : Nat} (h : r.agarr[i]?.join = none) : r.enFrom v (i + 1) = r.enFrom v i := by
  have : (r.enFrom v (i + 1)).agarr = (r.enFrom v i).agarr := by
    apply List.ext_getElem?
    intro j
    rw [enFrom_get, enFrom_get]
    by_cases hj : j = i
    · subst hj
      cases hx : r.agarr[j]? with
      | none => rfl
      | some o =>
        rw [hx] at h
        cases o with
        | none => simp
        | some c => cases h
    · have : i + 1 ≤ j ↔ i ≤ j := by omega
      simp only [this]
  unfold enFrom at this ⊢
  simp only at this
  rw [this]

theorem enFrom_some {r : Registry} (hu : Uniq r) {v : Bool} {i : Nat} {c : Cell} (h : r.agarr[i]? = some (some c)) :
    (r.update c.ref (c.agg.enable v)).enFrom v (i + 1) = r.enFrom v i := by
  have : ((r.update c.ref (c.agg.enable v)).enFrom v (i + 1)).agarr = (r.enFrom v i).agarr := by
    apply List.ext_getElem?
    intro j
    rw [enFrom_get, enFrom_get, update_get]
    by_cases hj : j = i
    · subst hj
      rw [h]
      simp
    · have : i + 1 ≤ j ↔ i ≤ j := by omega
      simp only [this]
      cases hx : r.agarr[j]? with
      | none => rfl
      | some o =>
        cases o with
        | none => rfl
        | some c' =>
          have hne : c'.ref ≠ c.ref := fun he => hj (hu.inj j i c' c hx h he)
          simp only [Option.map_some, if_neg hne]
  unfold enFrom update at this ⊢
  simp only at this
  simp only [this]

/-- Aggregator `k` is at a position from `i` on. -/
def Late (r : Registry) (i k : Nat) : Prop := ∃ (j : Nat) (a : Aggregator), i ≤ j ∧ r.agarr[j]? = some (some ⟨k, a⟩)

theorem Late.of_update {r : Registry} {i k j : Nat} {a : Aggregator} (h : Late (r.update j a) i k) : Late r i k := by
  obtain ⟨p, b, hp, hb⟩ := h
  obtain ⟨c0, h0, e0, -⟩ := update_get_some hb
  exact ⟨p, c0.agg, hp, by rw [h0]; simp only at e0; rw [← e0]⟩

theorem Late.le {r : Registry} {i i' k : Nat} (h : Late r i' k) (hi : i ≤ i') : Late r i k := by
  obtain ⟨p, b, hp, hb⟩ := h
  exact ⟨p, b, by omega, hb⟩

theorem enFrom_update_early {r : Registry} {k i : Nat} (h : ¬ Late r i k) (v : Bool) (b : Aggregator) :
    (r.update k b).enFrom v i = (r.enFrom v i).update k b := by
  have : ((r.update k b).enFrom v i).agarr = ((r.enFrom v i).update k b).agarr := by
    apply List.ext_getElem?
    intro j
    rw [enFrom_get, update_get, update_get, enFrom_get]
    cases hx : r.agarr[j]? with
    | none => rfl
    | some o =>
      cases o with
      | none => simp
      | some c =>
        by_cases hj : i ≤ j
        · have : c.ref ≠ k := fun he => h ⟨j, c.agg, hj, by rw [hx, ← he]⟩
          simp [hj, this]
        · simp [hj]
  unfold enFrom update at this ⊢
  simp only at this
  simp only [this]

theorem enFrom_update_late {r : Registry} (hu : Uniq r) {k i : Nat} (h : Late r i k) (v : Bool) (b : Aggregator) :
    (r.update k b).enFrom v i = (r.enFrom v i).update k (b.enable v) := by
  have : ((r.update k b).enFrom v i).agarr = ((r.enFrom v i).update k (b.enable v)).agarr := by
    apply List.ext_getElem?
    intro j
    rw [enFrom_get, update_get, update_get, enFrom_get]
    cases hx : r.agarr[j]? with
    | none => rfl
    | some o =>
      cases o with
      | none => simp
      | some c =>
        by_cases hk : c.ref = k
        · obtain ⟨p, a, hp, ha⟩ := h
          have := hu.inj j p c _ hx ha hk
          subst this
          simp [hk, hp]
        · by_cases hj : i ≤ j <;> simp [hj, hk]
  unfold enFrom update at this ⊢
  simp only at this
  simp only [this]

theorem enable_update (r : Registry) (v : Bool) (k : Nat) (b : Aggregator) :
    (r.update k b).enable v = (r.enable v).update k (b.enable v) := by
  unfold enable update
  congr 1
  apply List.ext_getElem?
  intro j
  simp only [List.getElem?_map]
  cases r.agarr[j]? with
  | none => rfl
  | some o =>
    cases o with
    | none => rfl
    | some c => by_cases hk : c.ref = k <;> simp [hk]

theorem update_comm (r : Registry) {j k : Nat} (h : j ≠ k) (a b : Aggregator) :
    (r.update j a).update k b = (r.update k b).update j a := by
  unfold update
  congr 1
  apply List.ext_getElem?
  intro p
  simp only [List.getElem?_map]
  cases r.agarr[p]? with
  | none => rfl
  | some o =>
    cases o with
    | none => rfl
    | some c =>
      by_cases hk : c.ref = k
      · have hj : c.ref ≠ j := fun he => h (by rw [← he, hk])
        simp [hk, Ne.symm h]
      · by_cases hj : c.ref = j <;> simp [hk, hj, h]

theorem enFrom_get_some {r : Registry} {v : Bool} {i j : Nat} {c : Cell} (h : (r.enFrom v i).agarr[j]? = some (some c)) :
    ∃ a, r.agarr[j]? = some (some ⟨c.ref, a⟩) := by
  rw [enFrom_get] at h
  cases hx : r.agarr[j]? with
  | none => rw [hx] at h; cases h
  | some o =>
    rw [hx] at h
    cases o with
    | none => by_cases hj : i ≤ j <;> simp [hj] at h
    | some c0 =>
      by_cases hj : i ≤ j
      · rw [Option.map_some, if_pos hj] at h
        cases h
        exact ⟨c0.agg, rfl⟩
      · rw [Option.map_some, if_neg hj] at h
        cases h
        exact ⟨c.agg, rfl⟩

theorem enFrom_of_get {r : Registry} {v : Bool} {i j : Nat} {c : Cell} (h : r.agarr[j]? = some (some c)) :
    (r.enFrom v i).agarr[j]? = some (some ⟨c.ref, if i ≤ j then c.agg.enable v else c.agg⟩) := by
  rw [enFrom_get, h]
  by_cases hj : i ≤ j <;> simp [hj]

theorem uniq_of_enFrom {r : Registry} {v : Bool} {i : Nat} (h : Uniq (r.enFrom v i)) : Uniq r := by
  constructor
  · intro p q c c' hc hc' he
    exact h.inj p q _ _ (enFrom_of_get hc) (enFrom_of_get hc') he
  · intro p c hc
    exact (h.lt p _ (enFrom_of_get hc) :)

theorem noref_enFrom {r : Registry} {v : Bool} {i k : Nat} : NoRef k (r.enFrom v i) ↔ NoRef k r := by
  constructor
  · rintro ⟨h1, h2⟩
    refine ⟨?_, h2⟩
    rintro a ⟨j, hj⟩
    exact h1 _ ⟨j, enFrom_of_get hj⟩
  · rintro ⟨h1, h2⟩
    refine ⟨?_, h2⟩
    rintro a ⟨j, hj⟩
    obtain ⟨a', h'⟩ := enFrom_get_some hj
    exact h1 a' ⟨j, h'⟩

theorem enable_grows {r : Registry} (hu : Uniq r) (v : Bool) : Grows r (r.enable v) := by
  have h0 : Uniq ({ r with enabled := v } : Registry) := ⟨hu.inj, hu.lt⟩
  rw [← enFrom_zero]
  refine ⟨⟨?_, ?_⟩, Nat.le_refl _, fun k hk => noref_enFrom.2 hk⟩
  · intro p q c c' hc hc' he
    obtain ⟨a, ha⟩ := enFrom_get_some hc
    obtain ⟨a', ha'⟩ := enFrom_get_some hc'
    exact h0.inj p q _ _ ha ha' he
  · intro p c hc
    obtain ⟨a, ha⟩ := enFrom_get_some hc
    exact (h0.lt p _ ha :)

/-- What a call sees of an aggregator that `enable` has dealt with. -/
theorem Sees.enFrom {r : Registry} (v : Bool) {i : Nat} {op : RegOp} {k : Nat} {a : Aggregator} (hs : Sees r op k a) (h : ¬ Late r i k) :
    Sees (r.enFrom v i) op k a := by
  have hat : ∀ j : Nat, r.agarr[j]? = some (some ⟨k, a⟩) → (r.enFrom v i).agarr[j]? = some (some ⟨k, a⟩) := by
    intro j hj
    rw [enFrom_of_get hj, if_neg fun hi => h ⟨j, a, hi, hj⟩]
  have key : ∀ id, r.getAggregator id = .ok (some ⟨k, a⟩) → (r.enFrom v i).getAggregator id = .ok (some ⟨k, a⟩) := by
    intro id h
    obtain ⟨hb, pos, hp, hc⟩ := (getAgg_iff r id _).1 h
    exact (getAgg_iff _ id _).2 ⟨hb, pos, hp, hat pos hc⟩
  cases op <;> first
    | exact ⟨hs.1, hs.2.imp fun j => hat j⟩
    | (obtain ⟨id, h1, h2⟩ := hs; exact ⟨id, h1, key id h2⟩)

/-- What a call sees of an aggregator is the same in a registry with the same aggregators from position `i` on. -/
theorem Sees.late {r q : Registry} (hu : Uniq r) {i : Nat} {op : RegOp} {k : Nat} {a : Aggregator} (hs : Sees r op k a) (h : Late r i k)
    (hd : q.dict = r.dict) (hq : ∀ j : Nat, i ≤ j → q.agarr[j]? = r.agarr[j]?) : Sees q op k a := by
  have hat : ∀ j : Nat, r.agarr[j]? = some (some ⟨k, a⟩) → q.agarr[j]? = some (some ⟨k, a⟩) := by
    intro j hj
    obtain ⟨p, b, hp, hb⟩ := h
    have := hu.inj j p _ _ hj hb rfl
    subst this
    rw [hq j hp, hj]
  have key : ∀ id, r.getAggregator id = .ok (some ⟨k, a⟩) → q.getAggregator id = .ok (some ⟨k, a⟩) := by
    intro id h
    obtain ⟨hb, pos, hp, hc⟩ := (getAgg_iff r id _).1 h
    exact (getAgg_iff _ id _).2 ⟨hb, pos, by rw [hd]; exact hp, hat pos hc⟩
  cases op <;> first
    | exact ⟨hs.1, hs.2.imp fun j => hat j⟩
    | (obtain ⟨id, h1, h2⟩ := hs; exact ⟨id, h1, key id h2⟩)

/-! ### Several updates -/

/-- Updates, one after the other. -/
def updates (r : Registry) (U : List (Nat × Aggregator)) : Registry := U.foldl (fun r x => r.update x.1 x.2) r

theorem updates_comm (r : Registry) (U : List (Nat × Aggregator)) {k : Nat} (h : ∀ x ∈ U, x.1 ≠ k) (b : Aggregator) :
    (r.updates U).update k b = (r.update k b).updates U := by
  induction U generalizing r with
  | nil => rfl
  | cons x U ih =>
    show ((r.update x.1 x.2).updates U).update k b = ((r.update k b).update x.1 x.2).updates U
    rw [ih _ fun y hy => h y (List.mem_cons_of_mem _ hy), update_comm r (h x (List.mem_cons_self ..))]

theorem sees_updates {r : Registry} (U : List (Nat × Aggregator)) {op : RegOp} {k : Nat} {a : Aggregator} (h : ∀ x ∈ U, x.1 ≠ k)
    (hs : Sees r op k a) : Sees (r.updates U) op k a := by
  induction U generalizing r with
  | nil => exact hs
  | cons x U ih =>
    exact ih (fun y hy => h y (List.mem_cons_of_mem _ hy)) (sees_update_ne x.2 (h x (List.mem_cons_self ..)).symm hs)

theorem uniq_updates {r : Registry} (hu : Uniq r) (U : List (Nat × Aggregator)) : Uniq (r.updates U) := by
  induction U generalizing r with
  | nil => exact hu
  | cons x U ih => exact ih (uniq_update hu x.1 x.2)

end Registry
end Wrtstat
