/-
Property C104: an aggregator can be used as long as somebody has a pointer to it.

`aggregator_registry::get_aggregator` hands out a `std::shared_ptr`.  The aggregator in turn has an allocator whose
functions are bound to the address of the pool of the registry (wrtstat/system/pool.hpp:25-31,
wrtstat/aggregator/aggregator_registry.cpp:93).  After the registry is destroyed, every use of the allocator is a call of a
member function of a destroyed object.
-/
import Verif.Props.PoolReducer
import Verif.Lemmas.ReducerInv
import Verif.Lemmas.Separator
import Verif.Props.Reducer

namespace Wrtstat

set_option autoImplicit false

/-- The allocator of a pool that is gone: the store tells whether a member function was called, which is undefined
behaviour; the buffers are as good as any. -/
def Alloc.gone : Alloc Bool :=
  { create := fun _ => .ok ([], true)
    free := fun _ _ => true }

namespace Reducer

/-- The claim: after any history, whatever is done with the reducer of an aggregator whose registry is gone, the pool is
not touched. -/
def C104_FullClaim : Prop :=
  ∀ (env : Env) (opt : ReducerOpts) (ops : List ROp) (r r' : Reducer) (op : ROp) (res : Option AggData) (b : Bool),
    run env (new opt) ops = .ok r → callA Alloc.gone env (r, false) op = .ok (res, r', b) → b = false

/-- The first event of a new window. -/
theorem C104_refuted : ¬ C104_FullClaim := fun h => by
  have := h exactEnv { limit := 3, levels := 2 } [] _ _ (.add (.one 5 1)) _ true rfl rfl
  cases this

/-- Another row is needed for the next value. -/
def needsRow (r : Reducer) : Prop := (r.data = [] ∨ r.back.length = r.opt.limit) ∧ ¬ (r.data.length = r.opt.levels ∨ r.opt.limit = 0)

instance (r : Reducer) : Decidable (needsRow r) := by unfold needsRow; infer_instance

theorem addA_gone (env : Env) (r : Reducer) (b : Bool) (v : Int) :
    addA_ Alloc.gone env (r, b) v = .ok (add_ env r v, b || decide (needsRow r)) := by
  unfold addA_ add_ minmax
  simp only [Alloc.gone]
  split_ifs with h1 h2
  · rw [decide_eq_false (p := r.needsRow) (fun h => h.2 h2), Bool.or_false]
  · rw [decide_eq_true (p := r.needsRow) ⟨h1, h2⟩, Bool.or_true]; rfl
  · rw [decide_eq_true (p := r.needsRow) ⟨h1, h2⟩, Bool.or_true]; rfl
  · rw [decide_eq_false (p := r.needsRow) (fun h => h1 h.1), Bool.or_false]

theorem shape_size {limit : Nat} {ini : List (List Int)} {last : List Int} (h : ∀ x ∈ ini, x.length = limit) :
    ((ini ++ [last]).map List.length).sum = limit * ini.length + last.length := by
  have : ini.map List.length = List.replicate ini.length limit := List.eq_replicate_iff.2 ⟨by simp, by simpa using h⟩
  simp [this, Nat.mul_comm]

/-- Rows and samples. -/
theorem needsRow_iff {r : Reducer} (h : WF r) :
    needsRow r ↔ 0 < r.opt.limit ∧ r.opt.limit ∣ r.size ∧ r.size < r.opt.limit * r.opt.levels := by
  unfold needsRow size back
  rcases h with e | ⟨ini, last, e, hini, h0, hle, hlev⟩
  · rw [e]
    simp only [List.map_nil, List.sum_nil, dvd_zero, true_and, true_or, List.length_nil, not_or]
    constructor
    · rintro ⟨h1, h2⟩; exact ⟨by omega, Nat.mul_pos (by omega) (by omega)⟩
    · rintro ⟨h1, h2⟩
      refine ⟨fun h => ?_, by omega⟩
      rw [← h] at h2; simp at h2
  · rw [e, shape_size hini]
    simp only [List.append_eq_nil_iff, List.cons_ne_self, and_false, false_or, List.getLastD_concat, List.length_append,
      List.length_singleton, not_or]
    constructor
    · rintro ⟨h1, h2, h3⟩
      refine ⟨by omega, ?_, ?_⟩
      · rw [h1]; exact Dvd.intro (ini.length + 1) (by rw [Nat.mul_succ])
      · rw [h1, ← Nat.mul_succ]; exact Nat.mul_lt_mul_of_pos_left (by omega) (by omega)
    · rintro ⟨h1, h2, h3⟩
      have hd : r.opt.limit ∣ last.length := (Nat.dvd_add_right (Nat.dvd_mul_right _ _)).1 h2
      have hl : last.length = r.opt.limit := Nat.le_antisymm hle (Nat.le_of_dvd h0 hd)
      refine ⟨hl, fun e => ?_, by omega⟩
      rw [hl, ← Nat.mul_succ, Nat.succ_eq_add_one, e] at h3
      exact absurd h3 (lt_irrefl _)

/-- More than one row. -/
theorem rows_iff {r : Reducer} (h : WF r) : 2 ≤ r.data.length ↔ r.opt.limit < r.size := by
  unfold size
  rcases h with e | ⟨ini, last, e, hini, h0, hle, hlev⟩
  · rw [e]; simp
  · rw [e, shape_size hini]
    simp only [List.length_append, List.length_singleton]
    constructor
    · intro h
      have : r.opt.limit * 1 ≤ r.opt.limit * ini.length := Nat.mul_le_mul_left _ (by omega)
      omega
    · intro h
      by_contra hn
      have : ini.length = 0 := by omega
      rw [this] at h
      omega

theorem wf_add {env : Env} {r : Reducer} (h : WF r) (v : Int) : WF (add_ env r v) := by
  rw [add_eq]; exact tableAdd_shape h

/-- One more sample is kept, if there is room. -/
theorem size_add {env : Env} {r : Reducer} (h : WF r) (v : Int) :
    (add_ env r v).size = if r.size < r.opt.limit * r.opt.levels then r.size + 1 else r.size := by
  have hs := tableAdd_size (cur := r.curMode) (v := v) h
  have hle : (add_ env r v).size ≤ (add_ env r v).opt.limit * (add_ env r v).opt.levels := shape_size_le (wf_add h v)
  rw [add_eq] at hle ⊢
  unfold size at hle ⊢
  simp only at hle ⊢
  rcases tableAdd_cases r.opt r.curMode r.data v h with ⟨e, h3⟩ | ⟨e0, e, h1, h2⟩ | ⟨ini, last, e0, h1, h2, h3, e⟩ |
      ⟨ini, last, e0, h1, e⟩
  · rw [e]
    rw [if_neg]
    rcases h3 with h3 | h3 | ⟨ini, last, e0, h4, h5⟩
    · rw [h3]; simp
    · rw [h3]; simp
    · rcases h with hn | ⟨ini', last', e', hini, _, _, _⟩
      · simp [e0] at hn
      · obtain ⟨rfl, hl⟩ := List.append_inj' (e0.symm.trans e') rfl
        rw [e0, shape_size hini, h4, ← h5, Nat.mul_succ]; omega
  all_goals
    rw [e] at hs hle ⊢
    simp only at hs hle ⊢
    have hlt : (r.data.map List.length).sum < r.opt.limit * r.opt.levels :=
      Nat.lt_of_lt_of_le (by rw [Nat.add_zero] at hs; rw [hs]; exact Nat.lt_succ_self _) hle
    rw [if_pos hlt]
    exact hs

/-- The number of samples kept at which the next value opens a row. -/
def opens (opt : ReducerOpts) (n : Nat) : Prop := 0 < opt.limit ∧ opt.limit ∣ n ∧ n < opt.limit * opt.levels

theorem foldA_gone (env : Env) (vs : List Int) : ∀ (r : Reducer) (b : Bool), WF r → ∃ b',
    vs.foldlM (addA_ Alloc.gone env) (r, b) = .ok (vs.foldl (add_ env) r, b') ∧
    (b' = true ↔ b = true ∨ ∃ i < vs.length, opens r.opt (r.size + i)) := by
  induction vs with
  | nil => exact fun r b _ => ⟨b, rfl, by simp⟩
  | cons v vs ih =>
    intro r b h
    obtain ⟨b', e, hb⟩ := ih (add_ env r v) (b || decide (needsRow r)) (wf_add h v)
    refine ⟨b', by rw [List.foldlM_cons, addA_gone]; exact e, ?_⟩
    rw [hb, Bool.or_eq_true, decide_eq_true_iff, needsRow_iff h, size_add h]
    have ho : (add_ env r v).opt = r.opt := (add_frame env r v).1
    rw [ho]
    constructor
    · rintro ((hb | hn) | ⟨i, hi, hn⟩)
      · exact .inl hb
      · exact .inr ⟨0, by simp, hn⟩
      · right
        refine ⟨i + 1, by simp only [List.length_cons]; omega, ?_⟩
        split at hn
        · rw [show r.size + (i + 1) = r.size + 1 + i by omega]; exact hn
        · have := hn.2.2; omega
    · rintro (hb | ⟨i, hi, hn⟩)
      · exact .inl (.inl hb)
      · cases i with
        | zero => exact .inl (.inr hn)
        | succ i =>
          right
          refine ⟨i, by simp only [List.length_cons] at hi; omega, ?_⟩
          have := hn.2.2
          rw [if_pos (by omega), show r.size + 1 + i = r.size + (i + 1) by omega]
          exact hn

theorem frees_gone (l : List Buf) (b : Bool) : l.foldl Alloc.gone.free b = (b || !l.isEmpty) := by
  induction l generalizing b with
  | nil => simp
  | cons d l ih => rw [List.foldl_cons, ih]; simp [Alloc.gone]

theorem reduceA_gone {env : Env} {r : Reducer} {x : Reducer × Bool} (h : WF r)
    (he : reduceA Alloc.gone env (r, false) = .ok x) : x.2 = true ↔ r.opt.limit < r.size := by
  rw [← rows_iff h]
  unfold reduceA at he
  simp only at he
  split at he
  · rename_i h0; cases he; simp [h0]
  · rename_i h0
    set r1 := (if r.curMode = .sorting then { r with data := onBack sortInts r.data } else r) with hr1
    have hsh : Shape r1.opt.limit r1.opt.levels r1.data ∧ r1.data.length = r.data.length := by
      rcases h with hn | ⟨ini, last, e, hini, h2, hle, hlev⟩
      · exact absurd hn h0
      · rw [hr1]
        split_ifs
        · simp only [e, onBack_concat]
          exact ⟨.inr ⟨ini, _, rfl, hini, by simpa using h2, by simpa using hle, hlev⟩, by simp⟩
        · exact ⟨.inr ⟨ini, last, e, hini, h2, hle, hlev⟩, rfl⟩
    split at he
    · rename_i h1; cases he; rw [← hsh.2, h1]; simp
    · rename_i h1
      have h2 : 2 ≤ r1.data.length := by
        have : r1.data.length ≠ 0 := by rw [hsh.2]; simpa using h0
        omega
      obtain ⟨d', e, hl, -⟩ := reduceLoop_start env.nth r1.curMode _ _ r1.data hsh.1 h2
      rw [e] at he
      simp only [bind_ok] at he
      cases he
      rw [frees_gone, ← hsh.2]
      have : d'.drop 1 ≠ [] := fun e => by
        have := congrArg List.length e
        rw [List.length_drop, hl] at this
        simp only [List.length_nil] at this
        omega
      rw [List.isEmpty_eq_false_iff.2 this]; simp [h2]

theorem detachA_gone {env : Env} {r : Reducer} {x : Option AggData × Reducer × Bool} (h : WF r)
    (hemp : r.empty = true → r.size = 0)
    (he : detachA Alloc.gone env (r, false) = .ok x) : x.2.2 = true ↔ r.opt.limit < r.size := by
  unfold detachA at he
  split at he
  · rename_i h0
    cases he
    rw [hemp h0]; simp
  · cases e : reduceA Alloc.gone env (r, false) with
    | error f => rw [e] at he; cases he
    | ok y =>
      obtain ⟨r', s⟩ := y
      rw [e] at he
      simp only [bind_ok] at he
      have := reduceA_gone h e
      cases ea : castInt r'.average with
      | error f => rw [ea] at he; cases he
      | ok a => rw [ea] at he; cases he; exact this

/-- Exactly when a call is undefined after the registry is gone: `add` of values if one of them opens a row (the first one
of a window does), `reduce`, `detach` and `get_reduced` if more samples than one row are kept, `clear` never. -/
theorem C104_exact_partial (env : Env) (opt : ReducerOpts) (ops : List ROp) (r r' : Reducer) (op : ROp)
    (res : Option AggData) (b : Bool) (h : run env (new opt) ops = .ok r)
    (hc : callA Alloc.gone env (r, false) op = .ok (res, r', b)) :
    b = true ↔ match op with
      | .add a => ∃ i < a.values.length,
          0 < opt.limit ∧ opt.limit ∣ r.size + i ∧ r.size + i < opt.limit * opt.levels
      | .clear => False
      | _ => opt.limit < r.size := by
  have g := goodA_run h
  have hwf := g.good.wf
  obtain ⟨ho1, ho2⟩ := new_limits opt
  have hl : r.opt.limit = opt.limit := by rw [g.opt_eq, ho1]
  have hv : r.opt.levels = opt.levels := by rw [g.opt_eq, ho2]
  have hemp : ∀ q : Reducer, q.data = r.data → q.empty = r.empty → q.empty = true → q.size = 0 := by
    intro q hq hq2 hq3
    have hp : pending ops = [] := by
      have := g.emp
      rw [← hq2, hq3] at this
      simpa using this.symm
    have hg := g.good
    rw [hp] at hg
    have := congrArg Reducer.data (good_nil_clear hg (by rw [← hq2, hq3]))
    unfold size
    rw [hq, this]; rfl
  have many : ∀ (q : Reducer) (vs : List Int) (x : Reducer × Bool), q.data = r.data → q.opt = r.opt →
      vs.foldlM (addA_ Alloc.gone env) (q, false) = .ok x →
      (x.2 = true ↔ ∃ i < vs.length, 0 < opt.limit ∧ opt.limit ∣ r.size + i ∧ r.size + i < opt.limit * opt.levels) := by
    intro q vs x hq hq2 hx
    have hwq : WF q := by unfold WF; rw [hq, hq2]; exact hwf
    obtain ⟨b', e, hb⟩ := foldA_gone env vs q false hwq
    rw [e] at hx
    cases hx
    have hsz : q.size = r.size := by unfold size; rw [hq]
    simp only [hb, opens, hsz, hq2, hl, hv, Bool.false_eq_true, false_or]
  cases op with
  | add a =>
    simp only [callA] at hc
    cases ha : addA Alloc.gone env (r, false) a with
    | error f => rw [ha] at hc; cases hc
    | ok x =>
      rw [ha] at hc
      cases hc
      simp only
      cases a with
      | one v count =>
        unfold addA addOneA at ha
        simp only at ha
        cases hx : addA_ Alloc.gone env ({ r with empty := false }, false) v with
        | error f => rw [hx] at ha; cases ha
        | ok y =>
          rw [hx] at ha
          cases ha
          exact many { r with empty := false } [v] y rfl rfl (by rw [List.foldlM_cons, hx]; rfl)
      | many vs count =>
        unfold addA addManyA at ha
        simp only at ha
        cases hx : vs.foldlM (addA_ Alloc.gone env) ({ r with empty := false }, false) with
        | error f => rw [hx] at ha; cases ha
        | ok y => rw [hx] at ha; cases ha; exact many { r with empty := false } vs y rfl rfl hx
      | init vs =>
        unfold addA addInitA at ha
        simp only at ha
        cases hx : vs.foldlM (addA_ Alloc.gone env) (r, false) with
        | error f => rw [hx] at ha; cases ha
        | ok y => rw [hx] at ha; cases ha; exact many r vs y rfl rfl hx
      | reduced rd =>
        unfold addA addReducedA addManyA at ha
        simp only at ha
        cases hx : rd.data.foldlM (addA_ Alloc.gone env) ({ r with empty := false }, false) with
        | error f => rw [hx] at ha; cases ha
        | ok y => rw [hx] at ha; cases ha; exact many { r with empty := false } rd.data y rfl rfl hx
  | reduce =>
    simp only [callA] at hc
    cases hx : reduceA Alloc.gone env (r, false) with
    | error f => rw [hx] at hc; cases hc
    | ok y => rw [hx] at hc; cases hc; rw [← hl]; exact reduceA_gone hwf hx
  | clear => simp only [callA] at hc; cases hc; simp
  | detach =>
    simp only [callA] at hc
    rw [← hl]
    exact detachA_gone (x := (res, r', b)) hwf (hemp r rfl rfl) hc
  | look =>
    simp only [callA] at hc
    unfold getReducedA at hc
    cases hx : detachA Alloc.gone env (r.clone, false) with
    | error f => rw [hx] at hc; cases hc
    | ok y =>
      rw [hx] at hc
      cases hc
      have gc := goodA_clone g
      have hlc : r.clone.opt.limit = opt.limit := by rw [gc.opt_eq, ho1]
      have := detachA_gone gc.good.wf (hemp r.clone rfl rfl) hx
      rw [hlc] at this
      exact this

/-- Nothing else changes: a call that does not touch the pool returns what it would have returned before. -/
theorem C104_same (env : Env) (r : Reducer) (op : ROp) :
    (fun x => (x.1, x.2.1)) <$> callA Alloc.gone env (r, false) op = call env r op := by
  have hc : Alloc.gone.Clean fun _ => True := ⟨fun _ _ => ⟨true, rfl, trivial⟩, fun _ _ _ => trivial⟩
  have h := callA_same hc env r false trivial op
  cases e : call env r op with
  | error f =>
    rw [e] at h
    cases e' : callA Alloc.gone env (r, false) op with
    | error f' =>
      rw [e'] at h
      have h : f' = f := by simpa [Same, Functor.map, Except.map] using h
      subst h; rfl
    | ok z => rw [e'] at h; simp [Same, Functor.map, Except.map] at h
  | ok y =>
    rw [e] at h
    obtain ⟨s', -, h⟩ := h
    cases e' : callA Alloc.gone env (r, false) op with
    | error f' => rw [e'] at h; simp [Functor.map, Except.map] at h
    | ok z =>
      rw [e'] at h
      have h : ((z.1, z.2.1), z.2.2) = (y, s') := by simpa [Functor.map, Except.map] using h
      rw [← (Prod.mk.inj h).1]; rfl

/-- Two of three samples kept: the third fits in, the fourth needs another row, and so does the first of a new window. -/
example : (match run exactEnv (new { limit := 3, levels := 2 }) [.add (.many [5, 7] 2)] with
    | .ok r => (match callA Alloc.gone exactEnv (r, false) (.add (.one 6 1)),
          callA Alloc.gone exactEnv (r, false) (.add (.many [6, 8] 2)), callA Alloc.gone exactEnv (r, false) .detach with
        | .ok (_, _, b1), .ok (_, _, b2), .ok (_, _, b3) => (b1, b2, b3)
        | _, _, _ => (true, false, true))
    | .error _ => (true, false, true)) = (false, true, false) := by decide +kernel

end Reducer
end Wrtstat
