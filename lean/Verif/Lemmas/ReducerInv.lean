import Verif.Lemmas.ReduceLoop

namespace Wrtstat
namespace Reducer

theorem headD_append {ini : List (List Int)} {last last' : List Int} (h : ini ≠ []) :
    ((ini ++ [last]).headD []).length = ((ini ++ [last']).headD []).length := by
  cases ini with
  | nil => exact absurd rfl h
  | cons x l => rfl

/-- Shape of a table and the length of its first row. -/
theorem head_full {limit levels : Nat} {ini : List (List Int)} {last : List Int}
    (h : Shape limit levels (ini ++ [last])) (hl : last.length = limit ∨ ini ≠ []) :
    ((ini ++ [last]).headD []).length = limit := by
  rcases h with h | ⟨ini', last', e, hi, _⟩
  · simp at h
  obtain ⟨rfl, e⟩ := List.append_inj' e rfl
  cases ini with
  | nil =>
    rcases hl with hl | hl
    · exact hl
    · exact absurd rfl hl
  | cons x l => exact hi x (by simp)

/-- One value, and the length of the first row. -/
theorem tableAdd_head {opt : ReducerOpts} {cur : Mode} {data : List (List Int)} {v : Int} {n : Nat}
    (h : Shape opt.limit opt.levels data) (hl : 0 < opt.levels) (hk : (data.headD []).length = Min.min opt.limit n) :
    ((tableAdd opt cur data v).1.headD []).length = Min.min opt.limit (n + 1) := by
  have hs := tableAdd_shape (cur := cur) (v := v) h
  rcases tableAdd_cases opt cur data v h with ⟨e, h1 | h1 | ⟨ini, last, rfl, h1, h2⟩⟩ | ⟨rfl, e, h1, h2⟩ |
      ⟨ini, last, rfl, h1, h2, h3, e⟩ | ⟨ini, last, rfl, h1, e⟩
  · omega
  · rw [e, hk, h1]; simp
  · have := head_full h (.inl h1)
    rw [e]
    simp only
    omega
  · rw [e]
    simp only [List.headD_nil, List.length_nil] at hk
    simp only [List.headD_cons, List.length_cons, List.length_nil]
    omega
  · have g := head_full h (.inl h1)
    rw [e] at hs ⊢
    have := head_full hs (.inr (by simp))
    rw [this]
    omega
  · rw [e] at hs ⊢
    cases ini with
    | nil =>
      simp only [List.nil_append, List.headD_cons, List.length_append, List.length_singleton] at hk ⊢
      omega
    | cons x l =>
      have g := head_full h (.inr (by simp))
      have := head_full hs (.inr (by simp))
      rw [this]
      omega

/-- The running average of a sequence of values, as computed. -/
def avgFold (env : Env) (vs : List Int) : Rat × Nat :=
  vs.foldl (fun p v => (avgStep env p.1 p.2 v, p.2 + 1)) (0, 0)

theorem avgFold_snd (env : Env) (vs : List Int) : (avgFold env vs).2 = vs.length := by
  induction vs using List.reverseRecOn with
  | nil => rfl
  | append_singleton l v ih => simp [avgFold] at *; omega

theorem avgFold_concat (env : Env) (vs : List Int) (v : Int) :
    avgFold env (vs ++ [v]) = (avgStep env (avgFold env vs).1 vs.length v, vs.length + 1) := by
  rw [← avgFold_snd env vs]; simp [avgFold]

/-- Invariant of a reducer that has received values `vs`, extremes `ext`, `cnt` events and total
weight `w` since it was last empty. -/
structure Good (env : Env) (r : Reducer) (vs ext : List Int) (cnt w : Nat) : Prop where
  wf : WF r
  total : r.total = cnt
  bal : r.lossy + r.size = w
  sub : r.data.flatten.Subperm vs
  min : r.min = minI ext
  max : r.max = maxI ext
  avgc : r.averageCount = vs.length
  avg : r.average = (avgFold env vs).1
  ll : 1 ≤ r.opt.levels → vs.length ≤ r.opt.limit → r.data.length ≤ 1 ∧ r.data.flatten.Perm vs
  head : 1 ≤ r.opt.levels → (r.data.headD []).length = Min.min r.opt.limit vs.length

/-- An empty reducer with arbitrary options and current mode. -/
def Fresh (r : Reducer) : Prop := r = r.clear

theorem new_fresh (opt : ReducerOpts) : Fresh (new opt) := by
  unfold Fresh new clear; split_ifs <;> rfl

theorem clear_fresh (r : Reducer) : Fresh r.clear := rfl

theorem good_fresh (env : Env) (r : Reducer) (h : Fresh r) : Good env r [] [] 0 0 := by
  rw [h]
  refine ⟨.inl rfl, rfl, rfl, by simp [clear], rfl, rfl, rfl, rfl, ?_, ?_⟩ <;> intros <;> simp [clear]

theorem good_add_ {env : Env} {r : Reducer} {vs ext : List Int} {cnt w : Nat}
    (h : Good env r vs ext cnt w) (v : Int) :
    Good env (add_ env r v) (vs ++ [v]) (ext ++ [v]) cnt (w + 1) := by
  obtain ⟨wf, total, bal, sub, hmin, hmax, avgc, avg, ll, head⟩ := h
  rw [add_eq]
  refine ⟨tableAdd_shape wf, total, ?_, tableAdd_flatten_subperm wf sub, ?_, ?_, ?_, ?_, ?_, ?_⟩
  · have := tableAdd_size (cur := r.curMode) (v := v) wf
    simp only [size] at *
    omega
  · simp [hmin, minI]
  · simp [hmax, maxI]
  · simp [avgc]
  · rw [avgFold_concat]; simp [avg, avgc]
  · intro hl hlen
    simp only [List.length_append, List.length_singleton] at hlen
    obtain ⟨h1, h2⟩ := ll hl (by simp at hlen; omega)
    have hlim : r.data.flatten.length < r.opt.limit := by rw [h2.length_eq]; simp at hlen; omega
    rcases tableAdd_cases r.opt r.curMode r.data v wf with ⟨e, hc⟩ | ⟨e0, e, _, _⟩ |
      ⟨ini, last, e0, hl1, _, _, e⟩ | ⟨ini, last, e0, hl1, e⟩
    · exfalso
      rcases hc with hc | hc | ⟨ini, last, e0, hl1, _⟩
      · simp only at hl; omega
      · omega
      · rw [e0] at hlim; simp at hlim; omega
    · rw [e]; simp only [List.length_singleton, le_refl, true_and]
      rw [e0] at h2
      simp only [List.flatten_nil, List.nil_perm] at h2
      simp [h2]
    · exfalso; rw [e0] at hlim; simp at hlim; omega
    · rw [e]
      rw [e0] at h1 h2
      simp only [List.length_append, List.length_singleton] at h1 ⊢
      refine ⟨h1, ?_⟩
      have : ini = [] := List.length_eq_zero_iff.1 (by omega)
      subst this
      simp only [List.nil_append, List.flatten_cons, List.flatten_nil, List.append_nil] at h2 ⊢
      exact h2.append_right [v]
  · intro hl
    rw [List.length_append]
    exact tableAdd_head wf hl (head hl)

theorem add_frame (env : Env) (r : Reducer) (v : Int) :
    (add_ env r v).opt = r.opt ∧ (add_ env r v).empty = r.empty ∧
      (add_ env r v).curMode = r.curMode := by
  rw [add_eq]; simp

theorem foldl_frame (env : Env) (vs : List Int) (r : Reducer) :
    (vs.foldl (add_ env) r).opt = r.opt ∧ (vs.foldl (add_ env) r).empty = r.empty ∧
      (vs.foldl (add_ env) r).curMode = r.curMode := by
  induction vs generalizing r with
  | nil => simp
  | cons v vs ih =>
    have h1 := add_frame env r v
    have h2 := ih (add_ env r v)
    simp only [List.foldl_cons]
    exact ⟨h2.1.trans h1.1, h2.2.1.trans h1.2.1, h2.2.2.trans h1.2.2⟩

theorem good_foldl {env : Env} (us : List Int) {r : Reducer} {vs ext : List Int} {cnt w : Nat}
    (h : Good env r vs ext cnt w) :
    Good env (us.foldl (add_ env) r) (vs ++ us) (ext ++ us) cnt (w + us.length) := by
  induction us generalizing r vs ext w with
  | nil => simpa using h
  | cons u us ih =>
    have := ih (good_add_ h u)
    simp only [List.foldl_cons, List.length_cons]
    simpa [Nat.add_assoc, Nat.add_comm, Nat.add_left_comm] using this

theorem good_setEmpty {env : Env} {r : Reducer} {vs ext : List Int} {cnt w : Nat} {b : Bool}
    (h : Good env r vs ext cnt w) : Good env { r with empty := b } vs ext cnt w :=
  ⟨h.wf, h.total, h.bal, h.sub, h.min, h.max, h.avgc, h.avg, h.ll, h.head⟩

theorem good_addTotal {env : Env} {r : Reducer} {vs ext : List Int} {cnt w k : Nat}
    (h : Good env r vs ext cnt w) : Good env { r with total := r.total + k } vs ext (cnt + k) w :=
  ⟨h.wf, by simp [h.total], h.bal, h.sub, h.min, h.max, h.avgc, h.avg, h.ll, h.head⟩

theorem good_addLossy {env : Env} {r : Reducer} {vs ext : List Int} {cnt w k : Nat}
    (h : Good env r vs ext cnt w) : Good env { r with lossy := r.lossy + k } vs ext cnt (w + k) :=
  ⟨h.wf, h.total, by have := h.bal; simp only [size] at *; omega, h.sub, h.min, h.max, h.avgc, h.avg, h.ll, h.head⟩

theorem good_minmax {env : Env} {r : Reducer} {vs ext : List Int} {cnt w : Nat}
    (h : Good env r vs ext cnt w) (v : Int) : Good env (r.minmax v) vs (ext ++ [v]) cnt w :=
  ⟨h.wf, h.total, h.bal, h.sub, by simp [minmax, h.min, minI], by simp [minmax, h.max, maxI],
    h.avgc, h.avg, h.ll, h.head⟩

theorem good_addMany {env : Env} {r : Reducer} {vs ext : List Int} {cnt w : Nat}
    (h : Good env r vs ext cnt w) (us : List Int) (c : Nat) :
    Good env (addMany env r us c) (vs ++ us) (ext ++ us) (cnt + c) (w + Max.max c us.length) := by
  have h1 := good_addTotal (k := c) (good_foldl us (good_setEmpty (b := false) h))
  unfold addMany
  simp only
  split_ifs with hc
  · have h2 := good_addLossy (k := c - us.length) h1
    have e : w + Max.max c us.length = w + us.length + (c - us.length) := by omega
    rw [e]; exact h2
  · have e : Max.max c us.length = us.length := by omega
    rw [e]; exact h1

theorem good_add {env : Env} {r : Reducer} {vs ext : List Int} {cnt w : Nat}
    (h : Good env r vs ext cnt w) (a : AddArg) :
    Good env (add env r a) (vs ++ a.values) (ext ++ (a.values ++ a.extremes)) (cnt + a.count)
      (w + a.weight) := by
  cases a with
  | one v c =>
    have h1 := good_addTotal (k := c) (good_add_ (good_setEmpty (b := false) h) v)
    simp only [add, addOne, AddArg.values, AddArg.extremes, AddArg.count, AddArg.weight,
      List.append_nil, List.length_singleton]
    split_ifs with hc
    · have h2 := good_addLossy (k := c - 1) h1
      have e : w + Max.max c 1 = w + 1 + (c - 1) := by omega
      rw [e]; exact h2
    · have e : Max.max c 1 = 1 := by omega
      rw [e]; exact h1
  | many us c =>
    simpa [AddArg.values, AddArg.extremes, AddArg.count, AddArg.weight, add] using good_addMany h us c
  | init us =>
    have h1 := good_addTotal (k := us.length) (good_setEmpty (b := false) (good_foldl us h))
    simpa [AddArg.values, AddArg.extremes, AddArg.count, AddArg.weight, add, addInit] using h1
  | reduced rd =>
    have h1 := good_addMany h rd.data rd.count
    simp only [add, addReduced, AddArg.values, AddArg.extremes, AddArg.count, AddArg.weight]
    by_cases e1 : rd.min = 0 <;> by_cases e2 : rd.max = 0
    · simpa [e1, e2] using h1
    · simpa [e1, e2] using good_minmax h1 rd.max
    · simpa [e1, e2] using good_minmax h1 rd.min
    · simpa [e1, e2] using good_minmax (good_minmax h1 rd.min) rd.max

theorem add_empty (env : Env) (r : Reducer) (a : AddArg) : (add env r a).empty = false := by
  cases a with
  | one v c =>
    simp only [add, addOne]
    split_ifs <;> simp [(add_frame env _ v).2.1]
  | many us c =>
    simp only [add, addMany]
    split_ifs <;> simp [(foldl_frame env us _).2.1]
  | init us => simp [add, addInit]
  | reduced rd =>
    simp only [add, addReduced, addMany, minmax]
    split_ifs <;> simp [(foldl_frame env rd.data _).2.1]

theorem add_opt (env : Env) (r : Reducer) (a : AddArg) :
    (add env r a).opt = r.opt ∧ (add env r a).curMode = r.curMode := by
  cases a with
  | one v c =>
    simp only [add, addOne]
    split_ifs <;> simp [(add_frame env _ v).1, (add_frame env _ v).2.2]
  | many us c =>
    simp only [add, addMany]
    split_ifs <;> simp [(foldl_frame env us _).1, (foldl_frame env us _).2.2]
  | init us => simp [add, addInit, (foldl_frame env us _).1, (foldl_frame env us _).2.2]
  | reduced rd =>
    simp only [add, addReduced, addMany, minmax]
    split_ifs <;> simp [(foldl_frame env rd.data _).1, (foldl_frame env rd.data _).2.2]

/-- Number of samples a `detach` would return. -/
def keep (r : Reducer) : Nat := (r.data.headD []).length

/-- `reduce` never faults, keeps the invariant and leaves at most one level. -/
theorem good_reduce {env : Env} {r : Reducer} {vs ext : List Int} {cnt w : Nat}
    (h : Good env r vs ext cnt w) :
    ∃ r', reduce env r = .ok r' ∧ Good env r' vs ext cnt w ∧ r'.data.length ≤ 1 ∧
      r'.empty = r.empty ∧ r'.opt = r.opt ∧ r'.lossy = r.lossyCount ∧
      (r'.data.headD []).length = (r.data.headD []).length ∧ r'.min = r.min ∧ r'.max = r.max ∧
      r'.average = r.average ∧ r'.averageCount = r.averageCount ∧ r'.total = r.total := by
  unfold reduce
  by_cases h0 : r.data = []
  · rw [if_pos h0]
    refine ⟨r, rfl, h, by simp [h0], rfl, rfl, by simp [lossyCount, h0], rfl, rfl, rfl, rfl, rfl, rfl⟩
  rw [if_neg h0]
  -- the (possibly) sorted table
  obtain ⟨ini, last, e0, hini, hpos, hle, hlev⟩ : ∃ ini last, r.data = ini ++ [last] ∧
      (∀ x ∈ ini, x.length = r.opt.limit) ∧ 0 < last.length ∧ last.length ≤ r.opt.limit ∧
      ini.length + 1 ≤ r.opt.levels := by
    rcases h.wf with hn | hx
    · exact absurd hn h0
    · exact hx
  set last' : List Int := if r.curMode = .sorting then sortInts last else last with hl'
  have hlp : last'.Perm last := by
    rw [hl']; split_ifs
    · exact sortInts_perm last
    · exact .refl _
  set r1 : Reducer := { r with data := ini ++ [last'] } with hr1
  have er1 : (if r.curMode = .sorting then { r with data := onBack sortInts r.data } else r) = r1 := by
    rw [hr1, hl']
    split_ifs with hm
    · simp [e0]
    · rw [← e0]
  have hshape : Shape r1.opt.limit r1.opt.levels r1.data :=
    .inr ⟨ini, last', rfl, hini, by rw [hlp.length_eq]; exact hpos, by rw [hlp.length_eq]; exact hle, hlev⟩
  have hflat : r1.data.flatten.Perm r.data.flatten := by
    rw [hr1, e0]; simp only [List.flatten_append, List.flatten_cons, List.flatten_nil, List.append_nil]
    exact hlp.append_left _
  have hsize : r1.size = r.size := by
    simp [size, hr1, e0, hlp.length_eq]
  have g1 : Good env r1 vs ext cnt w := by
    refine ⟨hshape, h.total, ?_, hflat.subperm.trans h.sub, h.min, h.max, h.avgc, h.avg, ?_, ?_⟩
    · rw [hsize]; exact h.bal
    · intro a b
      obtain ⟨c, d⟩ := h.ll a b
      refine ⟨?_, hflat.trans d⟩
      rw [e0] at c; simpa [hr1] using c
    · intro a
      rw [← h.head a, hr1, e0]
      cases ini <;> simp [hlp.length_eq]
  have hlossy : r1.lossyCount = r.lossyCount := by
    simp [lossyCount, hr1, e0, back, hlp.length_eq]
  have hhead : (r1.data.headD []).length = (r.data.headD []).length := by
    rw [hr1, e0]; cases ini <;> simp [hlp.length_eq]
  simp only [er1]
  by_cases h1 : r1.data.length = 1
  · rw [if_pos h1]
    refine ⟨r1, rfl, g1, by omega, rfl, rfl, ?_, hhead, rfl, rfl, rfl, rfl, rfl⟩
    rw [← hlossy]; simp [lossyCount, h1]
  rw [if_neg h1]
  have h2 : 2 ≤ r1.data.length := by
    have : r1.data.length = ini.length + 1 := by simp [hr1]
    omega
  obtain ⟨d', e, hl, hlen, hsub⟩ := reduceLoop_start env.nth r1.curMode _ _ r1.data hshape h2
  rw [e]
  simp only [bind_ok]
  refine ⟨_, rfl, ?_, ?_, rfl, rfl, hlossy, ?_, rfl, rfl, rfl, rfl, rfl⟩
  · obtain ⟨row0, rest', rfl⟩ : ∃ a b, d' = a :: b := by
      cases d' with
      | nil => simp at hl; omega
      | cons a b => exact ⟨a, b, rfl⟩
    simp only [List.getD_cons_zero] at hlen hsub
    refine ⟨.inr ⟨[], row0, by simp, by simp, ?_, ?_, ?_⟩, g1.total, ?_, ?_, g1.min, g1.max, g1.avgc, g1.avg, ?_, ?_⟩
    · show 0 < row0.length
      rw [hlen]; show 0 < r.opt.limit; omega
    · exact hlen.le
    · show 0 + 1 ≤ r.opt.levels
      omega
    · have hb := g1.bal
      have : r1.size = r.opt.limit * ini.length + last'.length := by
        have : (ini.map List.length).sum = ini.length * r.opt.limit := by
          have : ini.map List.length = List.replicate ini.length r.opt.limit :=
            List.eq_replicate_iff.2 ⟨by simp, by simpa using hini⟩
          rw [this]; simp
        simp [size, hr1, this, Nat.mul_comm]
      have hl2 : r1.lossyCount = r1.lossy + r.opt.limit * (ini.length - 1) + last'.length := by
        have : ¬ (ini.length + 1 < 2) := by
          have : r1.data.length = ini.length + 1 := by simp [hr1]
          omega
        simp only [lossyCount, hr1, back, List.length_append, List.length_singleton, this, if_false,
          List.getLastD_concat]
        congr 2
      have hi : 1 ≤ ini.length := by
        have : r1.data.length = ini.length + 1 := by simp [hr1]
        omega
      have hm : r.opt.limit * ini.length = r.opt.limit * (ini.length - 1) + r.opt.limit := by
        conv_lhs => rw [show ini.length = (ini.length - 1) + 1 by omega]
        rw [Nat.mul_succ]
      simp only [size, List.take_succ_cons, List.take_zero, List.map_cons, List.map_nil, List.sum_cons,
        List.sum_nil, hlen]
      have : r1.opt.limit = r.opt.limit := rfl
      omega
    · simpa using hsub.trans g1.sub
    · intro a b
      exfalso
      have := (g1.ll a b).1
      omega
    · intro a
      have hi : ini ≠ [] := by
        rintro rfl; simp [hr1] at h1
      have hd := g1.head a
      rw [head_full (last := last') hshape (.inr hi)] at hd
      simpa [hlen] using hd
  · simp
  · rw [← hhead]
    have hd : (r1.data.headD []).length = r1.opt.limit := by
      have hi : ini ≠ [] := by
        rintro rfl; simp [hr1] at h1
      obtain ⟨a, b, rfl⟩ := List.exists_cons_of_ne_nil hi
      simp [hr1, hini]
    rw [hd, ← hlen]
    cases d' <;> simp

end Reducer
end Wrtstat

namespace Wrtstat
namespace Reducer

/-- Invariant in terms of the pending calls. -/
structure GoodA (env : Env) (opt : ReducerOpts) (r : Reducer) (as : List AddArg) : Prop where
  good : Good env r (allValues as) (allExtremes as) (sumCount as) (sumWeight as)
  emp : r.empty = as.isEmpty
  opt_eq : r.opt = (new opt).opt
  cur : opt.mode ≠ .adapt ∨ opt.levels = 0 ∨ opt.limit / opt.levels > magic →
    r.curMode = (new opt).curMode

theorem good_nil_clear {env : Env} {r : Reducer} (h : Good env r [] [] 0 0) (he : r.empty = true) :
    r = r.clear := by
  obtain ⟨wf, total, bal, sub, hmin, hmax, avgc, avg, ll, head⟩ := h
  have hd : r.data = [] := by
    rcases wf with h | ⟨ini, last, e, _, hp, _⟩
    · exact h
    · rw [e] at sub
      have := sub.length_le
      simp only [List.flatten_append, List.length_append, List.flatten_cons, List.flatten_nil,
        List.append_nil, List.length_nil] at this
      omega
  have hl : r.lossy = 0 := by omega
  cases r
  simp only [clear] at *
  simp [he, hd, hl, total, hmin, hmax, avgc, avg, minI, maxI, avgFold]

theorem goodA_new (env : Env) (opt : ReducerOpts) : GoodA env opt (new opt) [] :=
  ⟨good_fresh env _ (new_fresh opt), by unfold new; split_ifs <;> rfl, rfl, fun _ => rfl⟩

theorem goodA_add {env : Env} {opt : ReducerOpts} {r : Reducer} {as : List AddArg}
    (h : GoodA env opt r as) (a : AddArg) : GoodA env opt (add env r a) (as ++ [a]) := by
  refine ⟨?_, ?_, (add_opt env r a).1.trans h.opt_eq, fun hm => (add_opt env r a).2.trans (h.cur hm)⟩
  · have := good_add h.good a
    simpa [allValues, allExtremes, sumCount, sumWeight] using this
  · rw [add_empty]; simp

/-- `reduce` changes the current mode only in adaptive mode. -/
theorem reduce_cur {env : Env} {r r' : Reducer} (h : reduce env r = .ok r')
    (hm : r.opt.mode ≠ .adapt) : r'.curMode = r.curMode := by
  unfold reduce at h
  by_cases h0 : r.data = []
  · rw [if_pos h0] at h; cases h; rfl
  rw [if_neg h0] at h
  simp only at h
  have e1 : ∀ x : List (List Int), (if r.curMode = .sorting then { r with data := x } else r).opt = r.opt := by
    intro x; split_ifs <;> rfl
  have e2 : ∀ x : List (List Int),
      (if r.curMode = .sorting then { r with data := x } else r).curMode = r.curMode := by
    intro x; split_ifs <;> rfl
  split_ifs at h with h1 h2 h3
  · cases h; rfl
  · revert h
    cases hx : reduceLoop env.nth r.curMode _ _ 0 _ (onBack sortInts r.data) with
    | error e => intro h; cases h
    | ok d => intro h; cases h; simp
  · cases h; rfl
  · revert h
    cases hx : reduceLoop env.nth r.curMode _ _ 0 _ r.data with
    | error e => intro h; cases h
    | ok d => intro h; cases h; simp

theorem new_mode (opt : ReducerOpts)
    (h : opt.mode ≠ .adapt ∨ opt.levels = 0 ∨ opt.limit / opt.levels > magic) :
    (new opt).opt.mode ≠ .adapt := by
  unfold new
  split_ifs with h1 h2 h3 h4 <;> simp_all

theorem goodA_reduce {env : Env} {opt : ReducerOpts} {r : Reducer} {as : List AddArg}
    (h : GoodA env opt r as) : ∃ r', reduce env r = .ok r' ∧ GoodA env opt r' as ∧
      r'.data.length ≤ 1 ∧ r'.lossy = r.lossyCount ∧
      (r'.data.headD []).length = (r.data.headD []).length ∧ r'.min = r.min ∧ r'.max = r.max ∧
      r'.average = r.average ∧ r'.averageCount = r.averageCount ∧ r'.total = r.total := by
  obtain ⟨r', e, g, hl, he, ho, hlo, hh, h1, h2, h3, h4, h5⟩ := good_reduce h.good
  refine ⟨r', e, ⟨g, he.trans h.emp, ho.trans h.opt_eq, fun hm => ?_⟩, hl, hlo, hh, h1, h2, h3, h4, h5⟩
  rw [reduce_cur e (by rw [h.opt_eq]; exact new_mode opt hm)]
  exact h.cur hm

theorem goodA_clear {env : Env} {opt : ReducerOpts} {r : Reducer} {as : List AddArg}
    (h : GoodA env opt r as) : GoodA env opt r.clear [] :=
  ⟨good_fresh env _ (clear_fresh r), rfl, h.opt_eq, h.cur⟩

/-- The summary of a window, given its samples and average. -/
def resultOf (r : Reducer) (row : List Int) (a : Int) : AggData :=
  { data := row
    avg := a
    count := r.total
    lossy := r.lossyCount
    max := r.max
    min := r.min }

/-- Everything there is to know about a successful `detach`. -/
theorem detach_spec {env : Env} {opt : ReducerOpts} {r : Reducer} {as : List AddArg}
    (h : GoodA env opt r as) :
    (as = [] ∧ detach env r = .ok (none, r) ∧ r = r.clear) ∨
    (as ≠ [] ∧ ∃ r1, reduce env r = .ok r1 ∧ GoodA env opt r1 as ∧ r1.data.length ≤ 1 ∧
      r1.lossy = r.lossyCount ∧ (r1.data.headD []).length = keep r ∧ r1.average = r.average ∧
      ((∃ a, castInt r.average = .ok a ∧
        detach env r = .ok (some (resultOf r (r1.data.headD []) a), r1.clear)) ∨
       (castInt r.average = .error .ub ∧ detach env r = .error .ub))) := by
  by_cases hs : as = []
  · left
    subst hs
    have he : r.empty = true := by simpa using h.emp
    refine ⟨rfl, by simp [detach, he], good_nil_clear h.good he⟩
  · right
    have he : r.empty = false := by
      rw [h.emp]; cases as with
      | nil => exact absurd rfl hs
      | cons a b => rfl
    obtain ⟨r1, e, g, hl, hlo, hh, h1, h2, h3, h4, h5⟩ := goodA_reduce h
    refine ⟨hs, r1, e, g, hl, hlo, hh, h3, ?_⟩
    unfold detach
    rw [if_neg (by simp [he]), e]
    simp only [bind_ok, h3]
    cases hc : castInt r.average with
    | ok a => left; exact ⟨a, rfl, by simp [bind_ok, resultOf, hlo, h1, h2, h5]⟩
    | error x =>
      right
      have : x = .ub := by
        unfold castInt at hc; simp only at hc; split_ifs at hc <;> cases hc <;> rfl
      subst this
      exact ⟨rfl, rfl⟩

theorem goodA_step {env : Env} {opt : ReducerOpts} {r r' : Reducer} {as : List AddArg}
    (h : GoodA env opt r as) (op : ROp) (hs : step env r op = .ok r') :
    GoodA env opt r' (pendStep as op) := by
  cases op with
  | add a => cases hs; exact goodA_add h a
  | reduce =>
    obtain ⟨r1, e, g, _⟩ := goodA_reduce h
    simp only [step] at hs
    rw [e] at hs; cases hs; exact g
  | clear => cases hs; exact goodA_clear h
  | detach =>
    simp only [step] at hs
    rcases detach_spec h with ⟨rfl, e, _⟩ | ⟨_, r1, _, g, _, _, _, _, ⟨a, _, e⟩ | ⟨_, e⟩⟩
    · rw [e] at hs; cases hs; exact h
    · rw [e] at hs; cases hs; exact goodA_clear g
    · rw [e] at hs; cases hs
  | look =>
    simp only [step] at hs
    cases hx : getReduced env r with
    | ok o => rw [hx] at hs; cases hs; exact h
    | error e => rw [hx] at hs; cases hs

theorem goodA_run_aux {env : Env} {opt : ReducerOpts} (ops : List ROp) {r r' : Reducer}
    {as : List AddArg} (h : GoodA env opt r as) (hs : run env r ops = .ok r') :
    GoodA env opt r' (ops.foldl pendStep as) := by
  induction ops generalizing r as with
  | nil => cases hs; exact h
  | cons op ops ih =>
    unfold run at hs
    rw [List.foldlM_cons] at hs
    cases hx : step env r op with
    | error e => rw [hx] at hs; cases hs
    | ok r1 =>
      rw [hx] at hs
      exact ih (goodA_step h op hx) hs

/-- Every reachable reducer state satisfies the invariant. -/
theorem goodA_run {env : Env} {opt : ReducerOpts} {ops : List ROp} {r : Reducer}
    (hs : run env (new opt) ops = .ok r) : GoodA env opt r (pending ops) :=
  goodA_run_aux ops (goodA_new env opt) hs

/-- A successful `detach` seen from the result. -/
theorem detach_some {env : Env} {opt : ReducerOpts} {r r' : Reducer} {as : List AddArg} {d : AggData}
    (h : GoodA env opt r as) (hd : detach env r = .ok (some d, r')) :
    as ≠ [] ∧ ∃ r1, reduce env r = .ok r1 ∧ GoodA env opt r1 as ∧ r1.data.length ≤ 1 ∧
      r1.lossy = r.lossyCount ∧ (r1.data.headD []).length = keep r ∧ r1.average = r.average ∧
      r' = r1.clear ∧ ∃ a, castInt r.average = .ok a ∧ d = resultOf r (r1.data.headD []) a := by
  rcases detach_spec h with ⟨_, e, _⟩ | ⟨hne, r1, er, g, hl, hlo, hk, ha, ⟨a, hc, e⟩ | ⟨_, e⟩⟩
  · rw [e] at hd; cases hd
  · rw [e] at hd
    cases hd
    exact ⟨hne, r1, er, g, hl, hlo, hk, ha, rfl, a, hc, rfl⟩
  · rw [e] at hd; cases hd

end Reducer
end Wrtstat
