import Verif.Model.Reducer
import Verif.Spec.ReducerSpec
import Mathlib.Algebra.BigOperators.Group.Finset.Basic
import Mathlib.Algebra.Order.BigOperators.Group.Finset
import Mathlib.Tactic.Ring
import Mathlib.Tactic.Linarith

namespace Wrtstat

/-! ### onBack, sortInts, deref -/

@[simp] theorem onBack_concat {α : Type} (f : α → α) (l : List α) (x : α) :
    onBack f (l ++ [x]) = l ++ [f x] := by
  induction l with
  | nil => rfl
  | cons a l ih =>
    cases l with
    | nil => rfl
    | cons b l => simpa [onBack] using ih

theorem sortInts_perm (l : List Int) : (sortInts l).Perm l := List.perm_insertionSort _ l

@[simp] theorem sortInts_length (l : List Int) : (sortInts l).length = l.length :=
  (sortInts_perm l).length_eq

theorem sortInts_sorted (l : List Int) : (sortInts l).Pairwise (· ≤ ·) :=
  List.pairwise_insertionSort _ l

@[simp] theorem sortInts_nil : sortInts [] = [] := by simp [sortInts]

theorem deref_ok {α : Type} {d : List α} {i : Nat} (h : i < d.length) : deref d i = .ok d[i] := by
  simp [deref, List.getElem?_eq_getElem h]

theorem vat_ok {α : Type} {d : List α} {i : Nat} (h : i < d.length) : vat d i = .ok d[i] := by
  simp [vat, List.getElem?_eq_getElem h]

theorem bind_ok {α β : Type} (a : α) (f : α → M β) : ((Except.ok a : M α) >>= f) = f a := rfl

namespace Reducer

/-! ### Shape invariant -/

/-- Shape of the level table: every level but the last is full, the last is not empty. -/
def Shape (limit levels : Nat) (data : List (List Int)) : Prop :=
  data = [] ∨ ∃ ini last, data = ini ++ [last] ∧ (∀ x ∈ ini, x.length = limit) ∧
    0 < last.length ∧ last.length ≤ limit ∧ ini.length + 1 ≤ levels

def WF (r : Reducer) : Prop := Shape r.opt.limit r.opt.levels r.data

theorem shape_nil {limit levels} : Shape limit levels [] := .inl rfl

/-- One `add_` on the table, in the form used by every later proof. -/
def tableAdd (opt : ReducerOpts) (cur : Mode) (data : List (List Int)) (v : Int) :
    List (List Int) × Nat :=
  if data = [] ∨ (data.getLastD []).length = opt.limit then
    if data.length = opt.levels ∨ opt.limit = 0 then (data, 1)
    else ((if cur = .sorting then onBack sortInts data else data) ++ [[v]], 0)
  else (onBack (· ++ [v]) data, 0)

theorem add_eq (env : Env) (r : Reducer) (v : Int) :
    add_ env r v =
      { r with
        average := avgStep env r.average r.averageCount v
        averageCount := r.averageCount + 1
        min := Min.min r.min v
        max := Max.max r.max v
        lossy := r.lossy + (tableAdd r.opt r.curMode r.data v).2
        data := (tableAdd r.opt r.curMode r.data v).1 } := by
  unfold add_ tableAdd minmax back
  simp only
  split_ifs <;> simp

theorem tableAdd_cases (opt : ReducerOpts) (cur : Mode) (data : List (List Int)) (v : Int)
    (h : Shape opt.limit opt.levels data) :
    (tableAdd opt cur data v = (data, 1) ∧
      (opt.levels = 0 ∨ opt.limit = 0 ∨
        ∃ ini last, data = ini ++ [last] ∧ last.length = opt.limit ∧ ini.length + 1 = opt.levels)) ∨
    (data = [] ∧ tableAdd opt cur data v = ([[v]], 0) ∧ 0 < opt.levels ∧ 0 < opt.limit) ∨
    (∃ ini last, data = ini ++ [last] ∧ last.length = opt.limit ∧ ini.length + 2 ≤ opt.levels ∧
      0 < opt.limit ∧
      tableAdd opt cur data v =
        (ini ++ [if cur = .sorting then sortInts last else last] ++ [[v]], 0)) ∨
    (∃ ini last, data = ini ++ [last] ∧ last.length < opt.limit ∧
      tableAdd opt cur data v = (ini ++ [last ++ [v]], 0)) := by
  rcases h with rfl | ⟨ini, last, rfl, hini, h0, hle, hlev⟩
  · by_cases h1 : opt.levels = 0
    · left; simp [tableAdd, h1]
    · by_cases h2 : opt.limit = 0
      · left; simp [tableAdd, h2]
      · right; left
        refine ⟨rfl, ?_, by omega, by omega⟩
        have h1' : ¬ (0 = opt.levels) := fun h => h1 h.symm
        simp [tableAdd, h1', h2, onBack]
  · by_cases h1 : last.length = opt.limit
    · by_cases h2 : ini.length + 1 = opt.levels
      · left
        refine ⟨by simp [tableAdd, h1, h2], .inr (.inr ⟨ini, last, rfl, h1, h2⟩)⟩
      · right; right; left
        refine ⟨ini, last, rfl, h1, by omega, by omega, ?_⟩
        have : opt.limit ≠ 0 := by omega
        unfold tableAdd
        simp only [List.getLastD_concat, h1, or_true, if_true, List.length_append,
          List.length_cons, List.length_nil, Nat.zero_add, h2, this, or_self, if_false]
        split_ifs <;> simp
    · right; right; right
      refine ⟨ini, last, rfl, by omega, ?_⟩
      simp [tableAdd, h1]

theorem tableAdd_shape {opt : ReducerOpts} {cur : Mode} {data : List (List Int)} {v : Int}
    (h : Shape opt.limit opt.levels data) :
    Shape opt.limit opt.levels (tableAdd opt cur data v).1 := by
  have hh := h
  rcases tableAdd_cases opt cur data v h with ⟨e, _⟩ | ⟨_, e, h1, h2⟩ | ⟨ini, last, e0, h1, h2, h3, e⟩ |
      ⟨ini, last, e0, h1, e⟩
  · rw [e]; exact h
  · rw [e]; exact .inr ⟨[], [v], by simp, by simp, by simp, by simp; omega, by simp; omega⟩
  · rw [e]
    rcases hh with hn | ⟨ini', last', e', hini, _, _, _⟩
    · simp [e0] at hn
    · have := List.append_inj' (e0.symm.trans e') rfl
      obtain ⟨rfl, hl⟩ := this
      refine .inr ⟨_, [v], rfl, ?_, by simp, by simp; omega, by simp; omega⟩
      intro x hx
      simp only [List.mem_append, List.mem_singleton] at hx
      rcases hx with hx | rfl
      · exact hini x hx
      · split_ifs <;> simp [h1]
  · rw [e]
    rcases hh with hn | ⟨ini', last', e', hini, _, _, hlev⟩
    · simp [e0] at hn
    · have := List.append_inj' (e0.symm.trans e') rfl
      obtain ⟨rfl, hl⟩ := this
      exact .inr ⟨_, _, rfl, hini, by simp, by simp; omega, hlev⟩

theorem tableAdd_size {opt : ReducerOpts} {cur : Mode} {data : List (List Int)} {v : Int}
    (h : Shape opt.limit opt.levels data) :
    ((tableAdd opt cur data v).1.map List.length).sum + (tableAdd opt cur data v).2 =
      (data.map List.length).sum + 1 := by
  rcases tableAdd_cases opt cur data v h with ⟨e, _⟩ | ⟨e0, e, h1, h2⟩ | ⟨ini, last, e0, h1, h2, h3, e⟩ |
      ⟨ini, last, e0, h1, e⟩
  · rw [e]
  · rw [e, e0]; simp
  · rw [e, e0]; split_ifs <;> simp <;> omega
  · rw [e, e0]; simp; omega

theorem tableAdd_flatten {opt : ReducerOpts} {cur : Mode} {data : List (List Int)} {v : Int}
    (h : Shape opt.limit opt.levels data) :
    ((tableAdd opt cur data v).2 = 0 ∧
        (tableAdd opt cur data v).1.flatten.Perm (data.flatten ++ [v])) ∨
      (tableAdd opt cur data v).1 = data := by
  rcases tableAdd_cases opt cur data v h with ⟨e, _⟩ | ⟨e0, e, h1, h2⟩ | ⟨ini, last, e0, h1, h2, h3, e⟩ |
      ⟨ini, last, e0, h1, e⟩
  · right; rw [e]
  · left; rw [e, e0]; simp
  · left; rw [e, e0]
    refine ⟨rfl, ?_⟩
    split_ifs
    · simp only [List.flatten_append, List.flatten_cons, List.flatten_nil, List.append_nil]
      exact ((sortInts_perm last).append_left _).append_right _
    · simp
  · left; rw [e, e0]; simp

theorem tableAdd_flatten_subperm {opt : ReducerOpts} {cur : Mode} {data : List (List Int)} {v : Int}
    (h : Shape opt.limit opt.levels data) {vs : List Int} (hs : data.flatten.Subperm vs) :
    (tableAdd opt cur data v).1.flatten.Subperm (vs ++ [v]) := by
  rcases tableAdd_flatten (cur := cur) (v := v) h with ⟨_, p⟩ | e
  · exact p.subperm.trans ((List.subperm_append_right [v]).2 hs)
  · rw [e]; exact hs.trans (List.sublist_append_left _ _).subperm

theorem shape_size_le {limit levels : Nat} {data : List (List Int)} (h : Shape limit levels data) :
    (data.map List.length).sum ≤ limit * levels := by
  rcases h with rfl | ⟨ini, last, rfl, hini, _, hle, hlev⟩
  · simp
  · have : (ini.map List.length).sum = ini.length * limit := by
      have : ini.map List.length = List.replicate ini.length limit :=
        List.eq_replicate_iff.2 ⟨by simp, by simpa using hini⟩
      rw [this]; simp
    simp only [List.map_append, List.map_cons, List.map_nil, List.sum_append, List.sum_cons,
      List.sum_nil, this]
    calc _ ≤ ini.length * limit + limit := by omega
      _ = limit * (ini.length + 1) := by ring
      _ ≤ limit * levels := Nat.mul_le_mul_left _ hlev

end Reducer
end Wrtstat
