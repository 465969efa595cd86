/-
Lemmas: what a sequence of calls of `add` leaves in a reducer, in closed form.
-/
import Verif.Lemmas.FreshWindow

namespace Wrtstat
namespace Reducer

set_option autoImplicit false

/-- The events of the calls that have no value: the surplus of every count. -/
def surplus (as : List AddArg) : Nat := (as.map fun a => a.count - a.values.length).sum

theorem surplus_eq (as : List AddArg) : (allValues as).length + surplus as = sumWeight as := by
  induction as with
  | nil => rfl
  | cons a as ih =>
    have e1 : allValues (a :: as) = a.values ++ allValues as := rfl
    have e2 : surplus (a :: as) = (a.count - a.values.length) + surplus as := by simp [surplus]
    have e3 : sumWeight (a :: as) = a.weight + sumWeight as := by simp [sumWeight]
    rw [e1, e2, e3, List.length_append, AddArg.weight]
    omega

variable {env : Env}

/-- The members not read by `add_` do not matter for it. -/
theorem adds_shift (vs : List Int) : ∀ (r : Reducer) (e : Bool) (t k : Nat) (lo hi : Int),
    vs.foldl (add_ env) { r with empty := e, total := t, lossy := r.lossy + k, min := lo, max := hi } =
      { vs.foldl (add_ env) r with
        empty := e, total := t, lossy := (vs.foldl (add_ env) r).lossy + k, min := vs.foldl Min.min lo, max := vs.foldl Max.max hi } := by
  induction vs with
  | nil => intro r e t k lo hi; rfl
  | cons v vs ih =>
    intro r e t k lo hi
    simp only [List.foldl_cons]
    rw [← ih (add_ env r v)]
    congr 1
    rw [add_eq, add_eq]
    simp only [Reducer.mk.injEq, true_and, and_true]
    omega

theorem adds_extremes (vs : List Int) : ∀ (r : Reducer), (vs.foldl (add_ env) r).min = vs.foldl Min.min r.min ∧
    (vs.foldl (add_ env) r).max = vs.foldl Max.max r.max := by
  induction vs with
  | nil => intro r; exact ⟨rfl, rfl⟩
  | cons v vs ih =>
    intro r
    obtain ⟨h1, h2⟩ := ih (add_ env r v)
    have h3 : (add_ env r v).min = Min.min r.min v ∧ (add_ env r v).max = Max.max r.max v := by rw [add_eq]; exact ⟨rfl, rfl⟩
    simp only [List.foldl_cons]
    rw [h1, h2, h3.1, h3.2]
    exact ⟨rfl, rfl⟩

theorem adds_total (vs : List Int) : ∀ (r : Reducer), (vs.foldl (add_ env) r).total = r.total := by
  induction vs with
  | nil => intro r; rfl
  | cons v vs ih =>
    intro r
    simp only [List.foldl_cons]
    rw [ih, add_eq]

/-- What one call leaves. -/
def given (env : Env) (r : Reducer) (vs : List Int) (e : Bool) (n k : Nat) (ext : List Int) : Reducer :=
  { vs.foldl (add_ env) r with
    empty := e, total := r.total + n, lossy := (vs.foldl (add_ env) r).lossy + k
    min := ext.foldl Min.min r.min, max := ext.foldl Max.max r.max }

theorem given_nil (r : Reducer) : given env r [] r.empty 0 0 [] = r := rfl

theorem add_given (r : Reducer) (a : AddArg) :
    add env r a = given env r a.values false a.count (a.count - a.values.length) (a.values ++ a.extremes) := by
  have hmany : ∀ (vs : List Int) (c : Nat), addMany env r vs c = given env r vs false c (c - vs.length) vs := by
    intro vs c
    have h := adds_shift (env := env) vs r false r.total 0 r.min r.max
    have h' : vs.foldl (add_ env) { r with empty := false } = _ := h
    unfold addMany
    simp only
    rw [h']
    simp only [given]
    split_ifs with hc
    · rfl
    · have : c - vs.length = 0 := by omega
      simp [this]
  cases a with
  | one v c =>
    have h := adds_shift (env := env) [v] r false r.total 0 r.min r.max
    have h' : add_ env { r with empty := false } v = _ := h
    simp only [add, addOne, AddArg.values, AddArg.extremes, AddArg.count, List.append_nil, List.length_singleton]
    rw [h']
    simp only [given]
    split_ifs with hc
    · rfl
    · have : c - 1 = 0 := by omega
      simp [this]
  | many vs c => simpa [add, AddArg.values, AddArg.extremes, AddArg.count] using hmany vs c
  | init vs =>
    simp only [add, addInit, AddArg.values, AddArg.extremes, AddArg.count, List.append_nil, Nat.sub_self]
    obtain ⟨h1, h2⟩ := adds_extremes (env := env) vs r
    simp only [given, ← h1, ← h2, Nat.add_zero, adds_total]
  | reduced rd =>
    simp only [add, addReduced, hmany, AddArg.values, AddArg.extremes, AddArg.count]
    by_cases h1 : rd.min = 0 <;> by_cases h2 : rd.max = 0 <;> simp [h1, h2, given, minmax]

theorem given_given (r : Reducer) (vs ws : List Int) (e e' : Bool) (n k n' k' : Nat) (ext ext' : List Int) :
    given env (given env r vs e n k ext) ws e' n' k' ext' = given env r (vs ++ ws) e' (n + n') (k + k') (ext ++ ext') := by
  have h := adds_shift (env := env) ws (vs.foldl (add_ env) r) e (r.total + n) k (ext.foldl Min.min r.min) (ext.foldl Max.max r.max)
  unfold given
  rw [h]
  simp only [List.foldl_append, Reducer.mk.injEq, true_and, and_true]
  omega

/-- What a sequence of calls leaves. -/
theorem adds_given (as : List AddArg) : ∀ (r : Reducer), as.foldl (add env) r =
    given env r (allValues as) (r.empty && as.isEmpty) (sumCount as) (surplus as) (allExtremes as) := by
  induction as with
  | nil => intro r; simp [allValues, sumCount, surplus, allExtremes, given_nil]
  | cons a as ih =>
    intro r
    rw [List.foldl_cons, ih, add_given, given_given]
    simp only [allValues, sumCount, surplus, allExtremes, List.flatMap_cons, List.map_cons, List.sum_cons, List.isEmpty_cons, Bool.and_false]
    congr 1

theorem fold_min_le {l l' : List Int} {x : Int} (h : ∀ e ∈ l', ∃ f ∈ l, f ≤ e) : l.foldl Min.min x ≤ l'.foldl Min.min x := by
  have lower : ∀ (l : List Int) (x : Int), l.foldl Min.min x ≤ x ∧ ∀ e ∈ l, l.foldl Min.min x ≤ e := by
    intro l
    induction l with
    | nil => intro x; simp
    | cons a l ih =>
      intro x
      obtain ⟨h1, h2⟩ := ih (Min.min x a)
      rw [List.foldl_cons]
      refine ⟨h1.trans (min_le_left _ _), fun e he => ?_⟩
      rcases List.mem_cons.1 he with rfl | he
      · exact h1.trans (min_le_right _ _)
      · exact h2 e he
  have mem : ∀ (l : List Int) (x : Int), l.foldl Min.min x = x ∨ l.foldl Min.min x ∈ l := by
    intro l
    induction l with
    | nil => intro x; simp
    | cons a l ih =>
      intro x
      rw [List.foldl_cons]
      rcases ih (Min.min x a) with h | h
      · rw [h]
        rcases min_choice x a with h | h
        · exact .inl h
        · rw [h]; simp
      · exact .inr (List.mem_cons_of_mem _ h)
  rcases mem l' x with h' | h'
  · rw [h']; exact (lower l x).1
  · obtain ⟨f, hf, hle⟩ := h _ h'
    exact ((lower l x).2 f hf).trans hle

theorem le_fold_max {l l' : List Int} {x : Int} (h : ∀ e ∈ l', ∃ f ∈ l, e ≤ f) : l'.foldl Max.max x ≤ l.foldl Max.max x := by
  have upper : ∀ (l : List Int) (x : Int), x ≤ l.foldl Max.max x ∧ ∀ e ∈ l, e ≤ l.foldl Max.max x := by
    intro l
    induction l with
    | nil => intro x; simp
    | cons a l ih =>
      intro x
      obtain ⟨h1, h2⟩ := ih (Max.max x a)
      rw [List.foldl_cons]
      refine ⟨(le_max_left _ _).trans h1, fun e he => ?_⟩
      rcases List.mem_cons.1 he with rfl | he
      · exact (le_max_right _ _).trans h1
      · exact h2 e he
  have mem : ∀ (l : List Int) (x : Int), l.foldl Max.max x = x ∨ l.foldl Max.max x ∈ l := by
    intro l
    induction l with
    | nil => intro x; simp
    | cons a l ih =>
      intro x
      rw [List.foldl_cons]
      rcases ih (Max.max x a) with h | h
      · rw [h]
        rcases max_choice x a with h | h
        · exact .inl h
        · rw [h]; simp
      · exact .inr (List.mem_cons_of_mem _ h)
  rcases mem l' x with h' | h'
  · rw [h']; exact (upper l x).1
  · obtain ⟨f, hf, hle⟩ := h _ h'
    exact hle.trans ((upper l x).2 f hf)

end Reducer
end Wrtstat
