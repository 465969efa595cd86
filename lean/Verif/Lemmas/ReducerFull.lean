/-
How many values the table of levels holds.
-/
import Verif.Lemmas.Detach
import Verif.Lemmas.SortMode

namespace Wrtstat
namespace Reducer

set_option autoImplicit false

theorem full_size {limit : Nat} (ini : List (List Int)) (h : ∀ x ∈ ini, x.length = limit) :
    (ini.map List.length).sum = ini.length * limit := by
  have : ini.map List.length = List.replicate ini.length limit := List.eq_replicate_iff.2 ⟨by simp, by simpa using h⟩
  rw [this]; simp

/-- One value, and the number of values in the table. -/
theorem tableAdd_stored {opt : ReducerOpts} {cur : Mode} {data : List (List Int)} {v : Int} {n : Nat}
    (h : Shape opt.limit opt.levels data) (hk : (data.map List.length).sum = Min.min (opt.limit * opt.levels) n) :
    ((tableAdd opt cur data v).1.map List.length).sum = Min.min (opt.limit * opt.levels) (n + 1) := by
  have hs := shape_size_le (tableAdd_shape (cur := cur) (v := v) h)
  have hz := tableAdd_size (cur := cur) (v := v) h
  rcases tableAdd_cases opt cur data v h with ⟨e, h1⟩ | ⟨rfl, e, h1, h2⟩ |
      ⟨ini, last, rfl, h1, h2, h3, e⟩ | ⟨ini, last, rfl, h1, e⟩
  · have hf : (data.map List.length).sum = opt.limit * opt.levels := by
      have hb := shape_size_le h
      rcases h1 with h1 | h1 | ⟨ini, last, rfl, h1, h2⟩
      · rw [h1] at hb ⊢; omega
      · rw [h1] at hb ⊢; omega
      · rcases h with h | ⟨ini', last', e, hi, _⟩
        · simp at h
        obtain ⟨rfl, _⟩ := List.append_inj' e rfl
        rw [List.map_append, List.sum_append, full_size ini hi, ← h2]
        simp only [List.map_cons, List.map_nil, List.sum_cons, List.sum_nil, h1]
        ring
    rw [e]
    simp only
    omega
  all_goals
    rw [e] at hz hs ⊢
    simp only at hz hs ⊢
    omega

theorem foldl_head {opt : ReducerOpts} {cur : Mode} (vs : List Int) {data : List (List Int)} {n : Nat}
    (h : Shape opt.limit opt.levels data) (hl : 0 < opt.levels) (hk : (data.headD []).length = Min.min opt.limit n) :
    ((tableFold opt cur data vs).headD []).length = Min.min opt.limit (n + vs.length) := by
  induction vs generalizing data n with
  | nil => exact hk
  | cons v vs ih =>
    have e := ih (tableAdd_shape (cur := cur) (v := v) h) (tableAdd_head h hl hk)
    unfold tableFold at e ⊢
    rw [List.foldl_cons, e, List.length_cons]
    congr 1
    omega

theorem foldl_stored {opt : ReducerOpts} {cur : Mode} (vs : List Int) {data : List (List Int)} {n : Nat}
    (h : Shape opt.limit opt.levels data) (hk : (data.map List.length).sum = Min.min (opt.limit * opt.levels) n) :
    ((tableFold opt cur data vs).map List.length).sum = Min.min (opt.limit * opt.levels) (n + vs.length) := by
  induction vs generalizing data n with
  | nil => exact hk
  | cons v vs ih =>
    have e := ih (tableAdd_shape (cur := cur) (v := v) h) (tableAdd_stored h hk)
    unfold tableFold at e ⊢
    rw [List.foldl_cons, e, List.length_cons]
    congr 1
    omega

/-- The first row, in every reachable state. -/
theorem head_run {env : Env} {opt : ReducerOpts} (hl : 0 < opt.levels) (ops : List ROp) :
    ∀ {r r' : Reducer} {as : List AddArg}, GoodA env opt r as → keep r = Min.min opt.limit (allValues as).length →
      run env r ops = .ok r' → keep r' = Min.min opt.limit (allValues (ops.foldl pendStep as)).length := by
  induction ops with
  | nil => intro r r' as _ hk h; cases h; exact hk
  | cons op ops ih =>
    intro r r' as g hk h
    unfold run at h
    rw [List.foldlM_cons] at h
    cases hx : step env r op with
    | error e => rw [hx] at h; cases h
    | ok r1 =>
      rw [hx] at h
      refine ih (goodA_step g op hx) ?_ h
      have ho : r.opt.limit = opt.limit ∧ r.opt.levels = opt.levels := by
        rw [g.opt_eq]; unfold new; split_ifs <;> exact ⟨rfl, rfl⟩
      cases op with
      | add a =>
        cases hx
        unfold keep at hk ⊢
        have := foldl_head (opt := r.opt) (cur := r.curMode) a.values g.good.wf (by omega) (by rw [ho.1]; exact hk)
        rw [add_data, this, ho.1]
        simp [pendStep, allValues]
      | reduce =>
        obtain ⟨r2, e, _, _, _, hh, _⟩ := goodA_reduce g
        simp only [step] at hx
        rw [e] at hx
        cases hx
        unfold keep at hk ⊢
        rw [hh]
        exact hk
      | clear =>
        cases hx
        simp [keep, clear, pendStep, allValues]
      | detach =>
        simp only [step] at hx
        rcases detach_spec g with ⟨rfl, e, _⟩ | ⟨_, r2, _, _, _, _, _, _, ⟨a, _, e⟩ | ⟨_, e⟩⟩
        · rw [e] at hx
          cases hx
          exact hk
        · rw [e] at hx
          cases hx
          simp [keep, clear, pendStep, allValues]
        · rw [e] at hx
          cases hx
      | look =>
        simp only [step] at hx
        cases hy : getReduced env r with
        | ok o => rw [hy] at hx; cases hx; exact hk
        | error e => rw [hy] at hx; cases hx

/-- The number of values in the table, as long as `reduce` is not called. -/
theorem stored_run {env : Env} {opt : ReducerOpts} (ops : List ROp) (hr : .reduce ∉ ops) :
    ∀ {r r' : Reducer} {as : List AddArg}, GoodA env opt r as → r.size = Min.min (opt.limit * opt.levels) (allValues as).length →
      run env r ops = .ok r' → r'.size = Min.min (opt.limit * opt.levels) (allValues (ops.foldl pendStep as)).length := by
  induction ops with
  | nil => intro r r' as _ hk h; cases h; exact hk
  | cons op ops ih =>
    intro r r' as g hk h
    unfold run at h
    rw [List.foldlM_cons] at h
    cases hx : step env r op with
    | error e => rw [hx] at h; cases h
    | ok r1 =>
      rw [hx] at h
      refine ih (fun h => hr (List.mem_cons_of_mem _ h)) (goodA_step g op hx) ?_ h
      have ho : r.opt.limit = opt.limit ∧ r.opt.levels = opt.levels := by
        rw [g.opt_eq]; unfold new; split_ifs <;> exact ⟨rfl, rfl⟩
      cases op with
      | add a =>
        cases hx
        unfold size at hk ⊢
        have := foldl_stored (opt := r.opt) (cur := r.curMode) a.values g.good.wf (by rw [ho.1, ho.2]; exact hk)
        rw [add_data, this, ho.1, ho.2]
        simp [pendStep, allValues]
      | reduce => exact absurd (List.mem_cons_self) hr
      | clear =>
        cases hx
        simp [size, clear, pendStep, allValues]
      | detach =>
        simp only [step] at hx
        rcases detach_spec g with ⟨rfl, e, _⟩ | ⟨_, r2, _, _, _, _, _, _, ⟨a, _, e⟩ | ⟨_, e⟩⟩
        · rw [e] at hx
          cases hx
          exact hk
        · rw [e] at hx
          cases hx
          simp [size, clear, pendStep, allValues]
        · rw [e] at hx
          cases hx
      | look =>
        simp only [step] at hx
        cases hy : getReduced env r with
        | ok o => rw [hy] at hx; cases hx; exact hk
        | error e => rw [hy] at hx; cases hx

end Reducer
end Wrtstat
