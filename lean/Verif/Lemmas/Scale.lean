/-
Lemmas: histories with every value changed by a function that keeps their order.
-/
import Verif.Spec.Scale
import Verif.Lemmas.Shift
import Verif.Model.Instances

namespace Wrtstat

set_option autoImplicit false

variable {f : Int → Int}

theorem sortInts_map (hf : StrictMono f) (l : List Int) : sortInts (l.map f) = (sortInts l).map f := by
  apply List.Perm.eq_of_pairwise (le := (· ≤ ·)) (fun a b _ _ h1 h2 => le_antisymm h1 h2) (sortInts_sorted _)
  · exact (sortInts_sorted l).map f fun a b h => hf.monotone h
  · exact (sortInts_perm _).trans ((sortInts_perm l).map f).symm

theorem comparing_sorting : NthElement.sorting.Comparing := fun _ hf l _ => sortInts_map hf l

theorem onBack_map {α : Type} (g : α → α) (u v : α → α) (h : ∀ x, v (g x) = g (u x)) (l : List α) :
    onBack v (l.map g) = (onBack u l).map g := by
  induction l with
  | nil => rfl
  | cons x l ih =>
    cases l with
    | nil => simp [onBack, h]
    | cons y l => simp only [List.map_cons, onBack] at ih ⊢; rw [ih]

theorem nthRange_map {E : NthElement} (hE : E.Comparing) (hf : StrictMono f) (d : List Int) (b k : Nat) :
    nthRange E (d.map f) b k = (nthRange E d b k).map (List.map f) := by
  unfold nthRange
  rw [List.length_map]
  split_ifs
  · show Except.ok _ = Except.ok _
    rw [← List.map_take, ← List.map_drop, hE f hf, List.map_append]
  · rfl

theorem deref_map {α β : Type} (g : α → β) (d : List α) (i : Nat) : deref (d.map g) i = (deref d i).map g := by
  unfold deref
  rw [List.getElem?_map]
  cases d[i]? <;> rfl

theorem vat_map {α β : Type} (g : α → β) (d : List α) (i : Nat) : vat (d.map g) i = (vat d i).map g := by
  unfold vat
  rw [List.getElem?_map]
  cases d[i]? <;> rfl

namespace Reducer

theorem nthElement_map {E : NthElement} (hE : E.Comparing) (hf : StrictMono f) (data : List (List Int)) (l i : Nat) :
    nthElement_ E (data.map (List.map f)) l i = (nthElement_ E data l i).map (List.map (List.map f)) := by
  unfold nthElement_
  rw [deref_map, except_bind_map, except_map_bind]
  congr 1
  funext row
  rw [nthRange_map hE hf, except_bind_map, except_map_bind]
  congr 1
  funext row'
  show Except.ok _ = Except.ok _
  rw [List.map_set]

theorem nthIf_map {E : NthElement} (hE : E.Comparing) (hf : StrictMono f) (cur : Mode) (data : List (List Int)) (l i : Nat) :
    nthIf E cur (data.map (List.map f)) l i = (nthIf E cur data l i).map (List.map (List.map f)) := by
  unfold nthIf
  split_ifs
  · exact nthElement_map hE hf data l i
  · rfl

theorem getNth_map {E : NthElement} (hE : E.Comparing) (hf : StrictMono f) (cur : Mode) (data : List (List Int)) (l i : Nat) :
    getNth_ E cur (data.map (List.map f)) l i = (getNth_ E cur data l i).map fun x => (f x.1, x.2.map (List.map f)) := by
  unfold getNth_
  rw [nthIf_map hE hf, except_bind_map, except_map_bind]
  congr 1
  funext d
  rw [deref_map, except_bind_map, except_map_bind]
  congr 1
  funext row
  rw [vat_map, except_bind_map, except_map_bind]
  rfl

theorem setAt0_map (data : List (List Int)) (i : Nat) (x : Int) :
    setAt0 (data.map (List.map f)) i (f x) = (setAt0 data i x).map (List.map (List.map f)) := by
  unfold setAt0
  rw [deref_map, except_bind_map, except_map_bind]
  congr 1
  funext row
  rw [List.length_map]
  split_ifs
  · show Except.ok _ = Except.ok _
    rw [List.map_set, List.map_set]
  · rfl

theorem reduceLoop_map {E : NthElement} (hE : E.Comparing) (hf : StrictMono f) (cur : Mode) (n : Nat) :
    ∀ (k i l : Nat) (data : List (List Int)),
      reduceLoop E cur n k i l (data.map (List.map f)) = (reduceLoop E cur n k i l data).map (List.map (List.map f)) := by
  intro k
  induction k with
  | zero => intro i l data; rfl
  | succ k ih =>
    intro i l data
    have tail : ∀ l', (do
          let (x, data) ← getNth_ E cur (data.map (List.map f)) l i
          let data ← setAt0 data i x
          reduceLoop E cur n k (i + 1) l' data) =
        (do
          let (x, data) ← getNth_ E cur data l i
          let data ← setAt0 data i x
          reduceLoop E cur n k (i + 1) l' data : M _).map (List.map (List.map f)) := by
      intro l'
      rw [getNth_map hE hf, except_bind_map, except_map_bind]
      congr 1
      funext ⟨x, d⟩
      simp only
      rw [setAt0_map, except_bind_map, except_map_bind]
      congr 1
      funext d'
      exact ih _ _ _
    rw [reduceLoop, reduceLoop]
    by_cases h1 : l = n
    · rw [if_pos h1, if_pos h1, nthIf_map hE hf, except_bind_map, except_map_bind]
      congr 1
      funext d
      exact ih _ _ _
    · rw [if_neg h1, if_neg h1]
      by_cases h2 : l = n - 1
      · rw [if_pos h2, if_pos h2, deref_map, except_bind_map, except_map_bind]
        congr 1
        funext row
        rw [List.length_map]
        by_cases h3 : i < row.length
        · rw [if_pos h3, if_pos h3]
          exact tail _
        · rw [if_neg h3, if_neg h3]
          exact ih _ _ _
      · rw [if_neg h2, if_neg h2]
        exact tail _

/-- `r'` is `r` with every value changed, the average excepted. -/
structure RSim (f : Int → Int) (r r' : Reducer) : Prop where
  opt : r'.opt = r.opt
  cur : r'.curMode = r.curMode
  empty : r'.empty = r.empty
  lossy : r'.lossy = r.lossy
  total : r'.total = r.total
  min : Extreme f I64max r.min r'.min
  max : Extreme f I64min r.max r'.max
  data : r'.data = r.data.map (List.map f)

theorem extreme_min (hf : StrictMono f) {m m' v : Int} (h : Extreme f I64max m m') (h1 : InI64 v) (h2 : InI64 (f v)) :
    Extreme f I64max (Min.min m v) (Min.min m' (f v)) := by
  rcases h with rfl | ⟨rfl, rfl⟩
  · exact .inl (hf.monotone.map_min).symm
  · rw [min_eq_right h1.2, min_eq_right h2.2]
    exact .inl rfl

theorem extreme_max (hf : StrictMono f) {m m' v : Int} (h : Extreme f I64min m m') (h1 : InI64 v) (h2 : InI64 (f v)) :
    Extreme f I64min (Max.max m v) (Max.max m' (f v)) := by
  rcases h with rfl | ⟨rfl, rfl⟩
  · exact .inl (hf.monotone.map_max).symm
  · rw [max_eq_right h1.1, max_eq_right h2.1]
    exact .inl rfl

theorem back_map {r r' : Reducer} (h : r'.data = r.data.map (List.map f)) : r'.back = r.back.map f := by
  unfold back
  rw [h, List.getLastD_eq_getLast?, List.getLastD_eq_getLast?, List.getLast?_map]
  cases r.data.getLast? <;> rfl

theorem RSim.minmax (hf : StrictMono f) {r r' : Reducer} (g : RSim f r r') {v : Int} (h1 : InI64 v) (h2 : InI64 (f v)) :
    RSim f (r.minmax v) (r'.minmax (f v)) :=
  ⟨g.opt, g.cur, g.empty, g.lossy, g.total, extreme_min hf g.min h1 h2, extreme_max hf g.max h1 h2, g.data⟩

theorem add_eq_ (env : Env) (r : Reducer) (v : Int) : add_ env r v =
    if r.data = [] ∨ r.back.length = r.opt.limit then
      if r.data.length = r.opt.levels ∨ r.opt.limit = 0 then
        { r with average := avgStep env r.average r.averageCount v, averageCount := r.averageCount + 1,
                 min := Min.min r.min v, max := Max.max r.max v, lossy := r.lossy + 1 }
      else
        { r with average := avgStep env r.average r.averageCount v, averageCount := r.averageCount + 1,
                 min := Min.min r.min v, max := Max.max r.max v,
                 data := (if r.curMode = .sorting then onBack sortInts r.data else r.data) ++ [[v]] }
    else
      { r with average := avgStep env r.average r.averageCount v, averageCount := r.averageCount + 1,
               min := Min.min r.min v, max := Max.max r.max v, data := onBack (· ++ [v]) r.data } := rfl

theorem RSim.add_ {env : Env} (hf : StrictMono f) {r r' : Reducer} (g : RSim f r r') {v : Int} (h1 : InI64 v) (h2 : InI64 (f v)) :
    RSim f (add_ env r v) (add_ env r' (f v)) := by
  have hb := back_map g.data
  have k1 : (r'.data = [] ∨ r'.back.length = r'.opt.limit) ↔ (r.data = [] ∨ r.back.length = r.opt.limit) := by
    rw [hb, g.opt, g.data, List.length_map, List.map_eq_nil_iff]
  have k2 : (r'.data.length = r'.opt.levels ∨ r'.opt.limit = 0) ↔ (r.data.length = r.opt.levels ∨ r.opt.limit = 0) := by
    rw [g.opt, g.data, List.length_map]
  rw [add_eq_, add_eq_]
  by_cases c1 : r.data = [] ∨ r.back.length = r.opt.limit
  · rw [if_pos c1, if_pos (k1.2 c1)]
    by_cases c2 : r.data.length = r.opt.levels ∨ r.opt.limit = 0
    · rw [if_pos c2, if_pos (k2.2 c2)]
      exact ⟨g.opt, g.cur, g.empty, congrArg (· + 1) g.lossy, g.total, extreme_min hf g.min h1 h2, extreme_max hf g.max h1 h2, g.data⟩
    · rw [if_neg c2, if_neg fun h => c2 (k2.1 h)]
      refine ⟨g.opt, g.cur, g.empty, g.lossy, g.total, extreme_min hf g.min h1 h2, extreme_max hf g.max h1 h2, ?_⟩
      simp only
      by_cases c3 : r.curMode = .sorting
      · rw [if_pos c3, if_pos (g.cur.trans c3), g.data, onBack_map (List.map f) sortInts sortInts (fun x => sortInts_map hf x), List.map_append]
        rfl
      · rw [if_neg c3, if_neg fun h => c3 (g.cur.symm.trans h), g.data, List.map_append]
        rfl
  · rw [if_neg c1, if_neg fun h => c1 (k1.1 h)]
    refine ⟨g.opt, g.cur, g.empty, g.lossy, g.total, extreme_min hf g.min h1 h2, extreme_max hf g.max h1 h2, ?_⟩
    simp only
    rw [g.data]
    exact onBack_map (List.map f) (· ++ [v]) (· ++ [f v]) (fun x => by simp) r.data

theorem RSim.fold {env : Env} (hf : StrictMono f) (vs : List Int) : ∀ {r r' : Reducer}, RSim f r r' → (∀ v ∈ vs, InI64 v ∧ InI64 (f v)) →
    RSim f (vs.foldl (Reducer.add_ env) r) ((vs.map f).foldl (Reducer.add_ env) r') := by
  induction vs with
  | nil => intro r r' g _; exact g
  | cons v vs ih =>
    intro r r' g h
    obtain ⟨h1, h2⟩ := h v List.mem_cons_self
    exact ih (g.add_ hf h1 h2) fun v hv => h v (List.mem_cons_of_mem _ hv)

theorem RSim.addMany {env : Env} (hf : StrictMono f) {r r' : Reducer} (g : RSim f r r') (vs : List Int) (c : Nat)
    (h : ∀ v ∈ vs, InI64 v ∧ InI64 (f v)) : RSim f (addMany env r vs c) (addMany env r' (vs.map f) c) := by
  have g1 : RSim f { r with empty := false } { r' with empty := false } := ⟨g.opt, g.cur, rfl, g.lossy, g.total, g.min, g.max, g.data⟩
  have g2 := RSim.fold (env := env) hf vs g1 h
  unfold Reducer.addMany
  simp only [List.length_map]
  split_ifs
  · exact ⟨g2.opt, g2.cur, g2.empty, congrArg (· + _) g2.lossy, congrArg (· + _) g2.total, g2.min, g2.max, g2.data⟩
  · exact ⟨g2.opt, g2.cur, g2.empty, g2.lossy, congrArg (· + _) g2.total, g2.min, g2.max, g2.data⟩

theorem RSim.add {env : Env} (hf : StrictMono f) (h0 : f 0 = 0) {r r' : Reducer} (g : RSim f r r') (x : AddArg)
    (h : ∀ v ∈ x.values ++ x.extremes, InI64 v ∧ InI64 (f v)) : RSim f (add env r x) (add env r' (x.mapV f)) := by
  cases x with
  | one v c =>
    obtain ⟨h1, h2⟩ := h v (by simp [AddArg.values])
    have g1 : RSim f { r with empty := false } { r' with empty := false } := ⟨g.opt, g.cur, rfl, g.lossy, g.total, g.min, g.max, g.data⟩
    have g2 := g1.add_ (env := env) hf h1 h2
    show RSim f (addOne env r v c) (addOne env r' (f v) c)
    unfold addOne
    simp only
    split_ifs
    · exact ⟨g2.opt, g2.cur, g2.empty, congrArg (· + _) g2.lossy, congrArg (· + _) g2.total, g2.min, g2.max, g2.data⟩
    · exact ⟨g2.opt, g2.cur, g2.empty, g2.lossy, congrArg (· + _) g2.total, g2.min, g2.max, g2.data⟩
  | many vs c => exact g.addMany hf vs c fun v hv => h v (List.mem_append_left _ hv)
  | init vs =>
    have g2 := RSim.fold (env := env) hf vs g fun v hv => h v (List.mem_append_left _ hv)
    show RSim f (addInit env r vs) (addInit env r' (vs.map f))
    unfold addInit
    simp only [List.length_map]
    exact ⟨g2.opt, g2.cur, rfl, g2.lossy, congrArg (· + _) g2.total, g2.min, g2.max, g2.data⟩
  | reduced rd =>
    have hz : ∀ v, f v ≠ 0 ↔ v ≠ 0 := fun v => by
      have := hf.injective.eq_iff (a := v) (b := 0)
      rw [h0] at this
      exact not_congr this
    have g1 := g.addMany (env := env) hf rd.data rd.count fun v hv => h v (List.mem_append_left _ hv)
    show RSim f (addReduced env r rd) (addReduced env r' _)
    unfold addReduced
    simp only [hz]
    have key : ∀ {q q' : Reducer} (m : Int), RSim f q q' → (m ≠ 0 → InI64 m ∧ InI64 (f m)) →
        RSim f (if m ≠ 0 then q.minmax m else q) (if m ≠ 0 then q'.minmax (f m) else q') := by
      intro q q' m gq hm
      by_cases hc : m ≠ 0
      · rw [if_pos hc, if_pos hc]
        exact gq.minmax hf (hm hc).1 (hm hc).2
      · rw [if_neg hc, if_neg hc]
        exact gq
    refine key _ (key _ g1 ?_) ?_
    · intro hm
      exact h _ (List.mem_append_right _ (by simp [AddArg.extremes, hm]))
    · intro hm
      exact h _ (List.mem_append_right _ (by simp [AddArg.extremes, hm]))

theorem RSim.clear {r r' : Reducer} (g : RSim f r r') : RSim f r.clear r'.clear :=
  ⟨g.opt, g.cur, rfl, rfl, rfl, .inr ⟨rfl, rfl⟩, .inr ⟨rfl, rfl⟩, rfl⟩

theorem RSim.lossyCount {r r' : Reducer} (g : RSim f r r') : r'.lossyCount = r.lossyCount := by
  have hb := back_map g.data
  unfold Reducer.lossyCount
  rw [g.data, List.length_map, g.lossy, g.opt, hb, List.length_map]

theorem RSim.reduce {env : Env} (hE : env.nth.Comparing) (hf : StrictMono f) {r r' q q' : Reducer} (g : RSim f r r')
    (h : reduce env r = .ok q) (h' : reduce env r' = .ok q') : RSim f q q' := by
  unfold Reducer.reduce at h h'
  by_cases h0 : r.data = []
  · rw [if_pos h0] at h
    rw [if_pos (by rw [g.data, h0]; rfl)] at h'
    cases h; cases h'
    exact g
  rw [if_neg h0] at h
  rw [if_neg (by rw [g.data, List.map_eq_nil_iff]; exact h0)] at h'
  have gs : RSim f (if r.curMode = .sorting then { r with data := onBack sortInts r.data } else r)
      (if r'.curMode = .sorting then { r' with data := onBack sortInts r'.data } else r') := by
    by_cases c3 : r.curMode = .sorting
    · rw [if_pos c3, if_pos (g.cur.trans c3)]
      refine ⟨g.opt, g.cur, g.empty, g.lossy, g.total, g.min, g.max, ?_⟩
      simp only
      rw [g.data]
      exact onBack_map (List.map f) sortInts sortInts (fun x => sortInts_map hf x) _
    · rw [if_neg c3, if_neg fun h => c3 (g.cur.symm.trans h)]
      exact g
  simp only at h h'
  revert h h' gs
  generalize (if r.curMode = .sorting then { r with data := onBack sortInts r.data } else r) = s
  generalize (if r'.curMode = .sorting then { r' with data := onBack sortInts r'.data } else r') = s'
  intro gs h h'
  have hl : s'.data.length = s.data.length := by rw [gs.data, List.length_map]
  by_cases h1 : s.data.length = 1
  · rw [if_pos h1] at h
    rw [if_pos (hl.trans h1)] at h'
    cases h; cases h'
    exact gs
  rw [if_neg h1] at h
  rw [if_neg fun e => h1 (hl.symm.trans e)] at h'
  rw [hl, gs.data, gs.opt, gs.cur, reduceLoop_map hE hf, except_bind_map] at h'
  obtain ⟨d, e, h⟩ := bind_inv h
  rw [e, bind_ok'] at h'
  cases h; cases h'
  exact ⟨rfl, rfl, gs.empty, gs.lossyCount, gs.total, gs.min, gs.max, (List.map_take ..).symm⟩

/-- What is detached. -/
theorem RSim.detach {env : Env} (hE : env.nth.Comparing) (hf : StrictMono f) (h0 : f 0 = 0) {r r' q q' : Reducer} {o o' : Option AggData}
    (g : RSim f r r') (h : detach env r = .ok (o, q)) (h' : detach env r' = .ok (o', q')) :
    RSim f q q' ∧ Option.Rel (Rescaled f) o o' := by
  unfold Reducer.detach at h h'
  rw [g.empty] at h'
  by_cases he : r.empty = true
  · rw [if_pos he] at h h'
    cases h; cases h'
    exact ⟨g, .none⟩
  rw [if_neg he] at h h'
  obtain ⟨r1, e1, h⟩ := bind_inv h
  obtain ⟨a, e2, h⟩ := bind_inv h
  obtain ⟨r1', e1', h'⟩ := bind_inv h'
  obtain ⟨a', e2', h'⟩ := bind_inv h'
  cases h; cases h'
  have g1 := g.reduce hE hf e1 e1'
  refine ⟨g1.clear, .some ⟨rfl, g1.total, g1.lossy, g1.min, g1.max, ?_, h0.symm, h0.symm, h0.symm, h0.symm, h0.symm⟩⟩
  show r1'.data.headD [] = (r1.data.headD []).map f
  rw [g1.data]
  cases r1.data <;> rfl

theorem RSim.new (opt : ReducerOpts) : RSim f (new opt) (new opt) := by
  unfold Reducer.new
  split_ifs <;> exact ⟨rfl, rfl, rfl, rfl, rfl, .inr ⟨rfl, rfl⟩, .inr ⟨rfl, rfl⟩, rfl⟩

end Reducer

/-! ### Percentiles -/

namespace Aggregator

theorem nth_map {E : NthElement} (hE : E.Comparing) (hf : StrictMono f) (perc off : Nat) (d : List Int) :
    nth_ E perc off (d.map f) = (nth_ E perc off d).map fun x => (f x.1, x.2.1, x.2.2.map f) := by
  unfold nth_
  simp only [List.length_map]
  split_ifs
  · rw [deref_map, except_bind_map, except_map_bind]
    rfl
  · rw [nthRange_map hE hf, except_bind_map, except_map_bind]
    congr 1
    funext d'
    rw [deref_map, except_bind_map, except_map_bind]
    rfl

/-- The record with samples and percentiles of `x` changed, and the rest of `d'`. -/
def withV (f : Int → Int) (d' x : AggData) : AggData :=
  { d' with data := x.data.map f, perc50 := f x.perc50, perc80 := f x.perc80, perc95 := f x.perc95, perc99 := f x.perc99,
            perc100 := f x.perc100 }

theorem rescaled_withV {d d' : AggData} (h : Rescaled f d d') : d' = withV f d' d := by
  unfold withV
  rw [← h.data, ← h.perc50, ← h.perc80, ← h.perc95, ← h.perc99, ← h.perc100]

theorem calcPerc_map {E : NthElement} (hE : E.Comparing) (hf : StrictMono f) (d' d : AggData) :
    calcPerc E (withV f d' d) = (calcPerc E d).map (withV f d') := by
  unfold calcPerc
  have e : (withV f d' d).data = d.data.map f := rfl
  simp only [e, List.length_map]
  by_cases h : d.data.length ≠ 0
  · rw [if_pos h, if_pos h]
    simp only [nth_map hE hf, except_map_bind, except_bind_map, deref_map]
    rfl
  · rw [if_neg h, if_neg h]
    rfl

theorem keepIdx_map (keep : Nat → Bool) (l : List Int) : ∀ i, keepIdx keep i (l.map f) = (keepIdx keep i l).map f := by
  induction l with
  | nil => intro i; rfl
  | cons x l ih =>
    intro i
    rw [List.map_cons, keepIdx, keepIdx, ih]
    split_ifs <;> rfl

theorem reduce_map (R : Nat) (d : List Int) : reduce_ R (d.map f) = (reduce_ R d).map (List.map f) := by
  unfold reduce_
  simp only [List.length_map, keepIdx_map]
  by_cases h1 : R = 0 ∨ d.length ≤ R
  · rw [if_pos h1, if_pos h1]
    rfl
  · rw [if_neg h1, if_neg h1]
    by_cases h2 : R * 2 > d.length
    · simp only [if_pos h2, List.length_map]
      split_ifs <;> rfl
    · simp only [if_neg h2, List.length_map]
      split_ifs <;> rfl

theorem finish_map {E : NthElement} (hE : E.Comparing) (hf : StrictMono f) (R : Nat) (d' d : AggData) :
    finish E R (withV f d' d) = (finish E R d).map (withV f d') := by
  unfold finish
  rw [calcPerc_map hE hf, except_bind_map, except_map_bind]
  congr 1
  funext ag
  have e : (withV f d' ag).data = ag.data.map f := rfl
  rw [e, reduce_map, except_bind_map, except_map_bind]
  rfl

theorem rescaled_finish {E : NthElement} (hE : E.Comparing) (hf : StrictMono f) {R : Nat} {d d' x x' : AggData} (g : Rescaled f d d')
    (h : finish E R d = .ok x) (h' : finish E R d' = .ok x') : Rescaled f x x' := by
  obtain ⟨y, hy, hd⟩ := finish_spec E R d
  rw [h] at hy
  cases hy
  rw [rescaled_withV g, finish_map hE hf, h] at h'
  cases h'
  exact ⟨g.ts.trans hd.ts.symm, g.count.trans hd.count.symm, g.lossy.trans hd.lossy.symm, by rw [hd.min]; exact g.min,
    by rw [hd.max]; exact g.max, rfl, rfl, rfl, rfl, rfl, rfl⟩

theorem rescaled_mapM {E : NthElement} (hE : E.Comparing) (hf : StrictMono f) {R : Nat} {l l' : List AggData}
    (g : List.Forall₂ (Rescaled f) l l') : ∀ {x x' : List AggData}, l.mapM (finish E R) = .ok x → l'.mapM (finish E R) = .ok x' →
      List.Forall₂ (Rescaled f) x x' := by
  induction g with
  | nil =>
    intro x x' h h'
    cases h; cases h'
    exact .nil
  | cons hd _ ih =>
    intro x x' h h'
    rw [List.mapM_cons] at h h'
    obtain ⟨y, e1, h⟩ := bind_inv h
    obtain ⟨ys, e2, h⟩ := bind_inv h
    obtain ⟨y', e1', h'⟩ := bind_inv h'
    obtain ⟨ys', e2', h'⟩ := bind_inv h'
    cases h; cases h'
    exact .cons (rescaled_finish hE hf hd e1 e1') (ih e2 e2')

end Aggregator

/-! ### Separator -/

theorem Rescaled.setTs {d d' : AggData} (g : Rescaled f d d') (t : Int) : Rescaled f { d with ts := t } { d' with ts := t } :=
  ⟨rfl, g.count, g.lossy, g.min, g.max, g.data, g.perc50, g.perc80, g.perc95, g.perc99, g.perc100⟩

namespace Separator

/-- `s'` is `s` with every value changed. -/
structure SSim (f : Int → Int) (s s' : Separator) : Prop where
  step : s'.step = s.step
  next : s'.next = s.next
  res : s'.resolution = s.resolution
  red : Reducer.RSim f s.reducer s'.reducer
  list : List.Forall₂ (Rescaled f) s.sepList s'.sepList

variable {env : Env}

theorem SSim.getTs {s s' : Separator} (g : SSim f s s') (clk ts : Int) : s'.getTs clk ts = s.getTs clk ts := by
  unfold Separator.getTs
  rw [g.step, g.res]

theorem toList_rel {o o' : Option AggData} (h : Option.Rel (Rescaled f) o o') (t : Int) :
    List.Forall₂ (Rescaled f) (o.map fun d => { d with ts := t }).toList (o'.map fun d => { d with ts := t }).toList := by
  cases h with
  | none => exact .nil
  | some h => exact .cons (h.setTs t) .nil

theorem sim_sepLoop (hE : env.nth.Comparing) (hf : StrictMono f) (h0 : f 0 = 0) (step t : Int) : ∀ (k : Nat) (next : Int)
    {r r' q q' : Reducer} {l l' : List AggData} {n n' : Int}, (t - next + 1).toNat ≤ k → Reducer.RSim f r r' →
    sepLoop env step t next r = .ok (l, n, q) → sepLoop env step t next r' = .ok (l', n', q') →
    n' = n ∧ Reducer.RSim f q q' ∧ List.Forall₂ (Rescaled f) l l' := by
  intro k
  induction k with
  | zero =>
    intro next r r' q q' l l' n n' hk g h h'
    rw [sepLoop, dif_neg (by omega)] at h h'
    cases h; cases h'
    exact ⟨rfl, g, .nil⟩
  | succ k ih =>
    intro next r r' q q' l l' n n' hk g h h'
    rw [sepLoop] at h h'
    by_cases hn : next ≤ t
    · rw [dif_pos hn] at h h'
      by_cases hs : 0 < step
      · rw [dif_pos hs] at h h'
        obtain ⟨⟨o, r1⟩, e1, h⟩ := bind_inv h
        obtain ⟨⟨l1, n1, r2⟩, e2, h⟩ := bind_inv h
        obtain ⟨⟨o', r1'⟩, e1', h'⟩ := bind_inv h'
        obtain ⟨⟨l1', n1', r2'⟩, e2', h'⟩ := bind_inv h'
        cases h; cases h'
        obtain ⟨g1, ho⟩ := g.detach hE hf h0 e1 e1'
        obtain ⟨a1, a2, a3⟩ := ih (next + step) (by omega) g1 e2 e2'
        exact ⟨a1, a2, List.rel_append (toList_rel ho _) a3⟩
      · rw [dif_neg hs] at h
        cases h
    · rw [dif_neg hn] at h h'
      cases h; cases h'
      exact ⟨rfl, g, .nil⟩

theorem SSim.separate (hE : env.nth.Comparing) (hf : StrictMono f) (h0 : f 0 = 0) {s s' q q' : Separator} (g : SSim f s s')
    {clk ts : Int} {handler force b b' : Bool} {out out' : List AggData} (h : s.separate env clk ts handler force = .ok (b, out, q))
    (h' : s'.separate env clk ts handler force = .ok (b', out', q')) :
    b' = b ∧ List.Forall₂ (Rescaled f) out out' ∧ SSim f q q' := by
  unfold Separator.separate at h h'
  rw [g.getTs] at h'
  obtain ⟨t, e, h⟩ := bind_inv h
  rw [e, bind_ok', g.next] at h'
  by_cases hc : force = false ∧ t < s.next
  · rw [if_pos hc] at h h'
    cases h; cases h'
    exact ⟨rfl, .nil, g⟩
  · rw [if_neg hc] at h h'
    rw [g.step] at h'
    obtain ⟨⟨l, n, r⟩, e1, h⟩ := bind_inv h
    obtain ⟨⟨l', n', r'⟩, e1', h'⟩ := bind_inv h'
    obtain ⟨a1, a2, a3⟩ := sim_sepLoop hE hf h0 s.step t _ s.next (le_refl _) g.red e1 e1'
    cases handler with
    | true =>
      simp only [if_true] at h h'
      cases h; cases h'
      exact ⟨rfl, a3, rfl, a1, g.res, a2, g.list⟩
    | false =>
      simp only [Bool.false_eq_true, if_false] at h h'
      cases h; cases h'
      exact ⟨rfl, .nil, rfl, a1, g.res, a2, List.rel_append g.list a3⟩

theorem SSim.push (hE : env.nth.Comparing) (hf : StrictMono f) (h0 : f 0 = 0) {s s' q q' : Separator} (g : SSim f s s')
    {clk1 clk2 ts : Int} {x : AddArg} {handler b b' : Bool} {out out' : List AggData}
    (hx : ∀ v ∈ x.values ++ x.extremes, InI64 v ∧ InI64 (f v)) (h : s.push env clk1 clk2 ts x handler = .ok (b, out, q))
    (h' : s'.push env clk1 clk2 ts (x.mapV f) handler = .ok (b', out', q')) :
    b' = b ∧ List.Forall₂ (Rescaled f) out out' ∧ SSim f q q' := by
  unfold Separator.push at h h'
  rw [g.getTs] at h'
  obtain ⟨t, e, h⟩ := bind_inv h
  rw [e, bind_ok'] at h'
  obtain ⟨⟨c, o1, s1⟩, e1, h⟩ := bind_inv h
  obtain ⟨⟨c', o1', s1'⟩, e1', h'⟩ := bind_inv h'
  obtain ⟨_, a2, a3⟩ := g.separate hE hf h0 e1 e1'
  simp only at h h'
  rw [a3.next, a3.step] at h'
  by_cases hc : t < s1.next - s1.step
  · rw [if_pos hc] at h h'
    cases h; cases h'
    exact ⟨rfl, a2, a3⟩
  · rw [if_neg hc] at h h'
    cases h; cases h'
    exact ⟨rfl, a2, rfl, rfl, a3.res, a3.red.add hf h0 x hx, a3.list⟩

theorem SSim.forcePop (hE : env.nth.Comparing) (hf : StrictMono f) (h0 : f 0 = 0) {s s' q q' : Separator} (g : SSim f s s')
    {o o' : Option AggData} (h : s.forcePop env = .ok (o, q)) (h' : s'.forcePop env = .ok (o', q')) :
    Option.Rel (Rescaled f) o o' ∧ SSim f q q' := by
  unfold Separator.forcePop Separator.pop at h h'
  have hl := g.list
  generalize hl1 : s.sepList = l at hl h
  generalize hl2 : s'.sepList = l' at hl h'
  cases hl with
  | nil =>
    simp only at h h'
    obtain ⟨⟨d, r⟩, e, h⟩ := bind_inv h
    obtain ⟨⟨d', r'⟩, e', h'⟩ := bind_inv h'
    cases h; cases h'
    obtain ⟨a1, a2⟩ := g.red.detach hE hf h0 e e'
    refine ⟨?_, g.step, g.next, g.res, a1, g.list⟩
    simp only
    rw [g.next, g.step]
    cases a2 with
    | none => exact .none
    | some a => exact .some (a.setTs _)
  | cons hd ht =>
    cases h; cases h'
    exact ⟨.some hd, g.step, g.next, g.res, g.red, ht⟩

end Separator

/-! ### Aggregator -/

namespace Aggregator

structure ASim (f : Int → Int) (a a' : Aggregator) : Prop where
  sep : Separator.SSim f a.sep a'.sep
  out : a'.outSize = a.outSize
  on : a'.enabled = a.enabled
  alive : a'.alive = a.alive
  list : List.Forall₂ (Rescaled f) a.agList a'.agList

variable {env : Env}

theorem ASim.aggregate0 (hE : env.nth.Comparing) (hf : StrictMono f) {a a' q q' : Aggregator} (g : ASim f a a')
    (h : aggregate0_ env.nth a = .ok q) (h' : aggregate0_ env.nth a' = .ok q') : ASim f q q' := by
  unfold aggregate0_ at h h'
  rw [g.out] at h'
  obtain ⟨l, e, h⟩ := bind_inv h
  obtain ⟨l', e', h'⟩ := bind_inv h'
  cases h; cases h'
  exact ⟨⟨g.sep.step, g.sep.next, g.sep.res, g.sep.red, .nil⟩, rfl, g.on, g.alive, List.rel_append g.list (rescaled_mapM hE hf g.sep.list e e')⟩

theorem ASim.withSep {a a' : Aggregator} (g : ASim f a a') {s s' : Separator} (h : Separator.SSim f s s') :
    ASim f { a with sep := s } { a' with sep := s' } := ⟨h, g.out, g.on, g.alive, g.list⟩

theorem ASim.withSep' {a a' : Aggregator} (g : ASim f a a') {s s' : Separator} (h : Separator.SSim f s s') :
    ASim f { a with sep := s } { a' with sep := s', enabled := a.enabled } := ⟨h, g.out, rfl, g.alive, g.list⟩

theorem ASim.add (hE : env.nth.Comparing) (hf : StrictMono f) (h0 : f 0 = 0) {a a' q q' : Aggregator} (g : ASim f a a')
    {clk1 clk2 ts : Int} {x : AddArg} {b b' : Bool} (hx : ∀ v ∈ x.values ++ x.extremes, InI64 v ∧ InI64 (f v))
    (h : a.add env clk1 clk2 ts x = .ok (b, q)) (h' : a'.add env clk1 clk2 ts (x.mapV f) = .ok (b', q')) : b' = b ∧ ASim f q q' := by
  unfold Aggregator.add at h h'
  rw [g.on] at h'
  by_cases he : a.enabled = false
  · rw [if_pos he] at h h'
    cases h; cases h'
    exact ⟨rfl, g⟩
  rw [if_neg he] at h h'
  obtain ⟨⟨ok, s⟩, e, h⟩ := bind_inv h
  obtain ⟨⟨ok', s'⟩, e', h'⟩ := bind_inv h'
  obtain ⟨⟨c, o, s1⟩, e1, e⟩ := bind_inv e
  obtain ⟨⟨c', o', s1'⟩, e1', e'⟩ := bind_inv e'
  cases e; cases e'
  obtain ⟨a1, _, a3⟩ := g.sep.push hE hf h0 hx e1 e1'
  simp only at h h'
  subst a1
  cases ok' with
  | false =>
    simp only [if_true] at h h'
    cases h; cases h'
    exact ⟨rfl, g.withSep' a3⟩
  | true =>
    simp only [Bool.true_eq_false, if_false] at h h'
    obtain ⟨y, e2, h⟩ := bind_inv h
    obtain ⟨y', e2', h'⟩ := bind_inv h'
    cases h; cases h'
    exact ⟨rfl, (g.withSep' a3).aggregate0 hE hf e2 e2'⟩

theorem ASim.push (hE : env.nth.Comparing) (hf : StrictMono f) (h0 : f 0 = 0) {a a' q q' : Aggregator} (g : ASim f a a')
    {clk1 clk2 ts : Int} {x : AddArg} {handler b b' : Bool} {out out' : List AggData}
    (hx : ∀ v ∈ x.values ++ x.extremes, InI64 v ∧ InI64 (f v))
    (h : a.push env clk1 clk2 ts x handler = .ok (b, out, q)) (h' : a'.push env clk1 clk2 ts (x.mapV f) handler = .ok (b', out', q')) :
    b' = b ∧ List.Forall₂ (Rescaled f) out out' ∧ ASim f q q' := by
  unfold Aggregator.push at h h'
  rw [g.on] at h'
  by_cases he : a.enabled = false
  · rw [if_pos he] at h h'
    cases h; cases h'
    exact ⟨rfl, .nil, g⟩
  rw [if_neg he] at h h'
  cases handler with
  | false =>
    rw [if_pos rfl] at h h'
    obtain ⟨⟨ok, y⟩, e, h⟩ := bind_inv h
    obtain ⟨⟨ok', y'⟩, e', h'⟩ := bind_inv h'
    cases h; cases h'
    obtain ⟨a1, a2⟩ := g.add hE hf h0 hx e e'
    exact ⟨a1, .nil, a2⟩
  | true =>
    rw [if_neg (by simp)] at h h'
    obtain ⟨⟨ok, o, s⟩, e, h⟩ := bind_inv h
    obtain ⟨l, e2, h⟩ := bind_inv h
    obtain ⟨⟨ok', o', s'⟩, e', h'⟩ := bind_inv h'
    obtain ⟨l', e2', h'⟩ := bind_inv h'
    cases h; cases h'
    obtain ⟨a1, a2, a3⟩ := g.sep.push hE hf h0 hx e e'
    rw [g.out] at e2'
    exact ⟨a1, rescaled_mapM hE hf a2 e2 e2', g.withSep' a3⟩

/-- What is observed of a run with every value changed. -/
structure OSim (f : Int → Int) (o o' : AObs) : Prop where
  a : ASim f o.a o'.a
  received : List.Forall₂ (Rescaled f) o.received o'.received
  accepted : o'.accepted = o.accepted.map fun e => (e.1, e.2.mapV f)

theorem OSim.exec (hE : env.nth.Comparing) (hf : StrictMono f) (h0 : f 0 = 0) {o o' p p' : AObs} {op : AOp} (g : OSim f o o')
    (hx : ∀ v ∈ op.all, InI64 v ∧ InI64 (f v)) (h : exec env o op = .ok p) (h' : exec env o' (op.mapV f) = .ok p') : OSim f p p' := by
  have hrec : ∀ (ok : Bool) (clk ts : Int) (x : AddArg),
      o'.record ok clk ts (x.mapV f) = (o.record ok clk ts x).map fun e => (e.1, e.2.mapV f) := by
    intro ok clk ts x
    unfold AObs.record
    rw [g.a.on, g.a.sep.step, g.a.sep.res, g.accepted]
    split_ifs <;> simp
  cases op with
  | add clk1 clk2 ts x =>
    obtain ⟨⟨ok, a⟩, e, h⟩ := bind_inv h
    obtain ⟨⟨ok', a'⟩, e', h'⟩ := bind_inv h'
    cases h; cases h'
    obtain ⟨a1, a2⟩ := g.a.add hE hf h0 hx e e'
    subst a1
    exact ⟨a2, g.received, hrec _ _ _ _⟩
  | push clk1 clk2 ts x handler =>
    obtain ⟨⟨ok, out, a⟩, e, h⟩ := bind_inv h
    obtain ⟨⟨ok', out', a'⟩, e', h'⟩ := bind_inv h'
    cases h; cases h'
    obtain ⟨a1, a2, a3⟩ := g.a.push hE hf h0 hx e e'
    subst a1
    exact ⟨a3, List.rel_append g.received a2, hrec _ _ _ _⟩
  | separate clk ts handler force =>
    obtain ⟨⟨ok, out, a⟩, e, h⟩ := bind_inv h
    obtain ⟨⟨ok', out', a'⟩, e', h'⟩ := bind_inv h'
    cases h; cases h'
    obtain ⟨⟨b, l, s⟩, e1, e⟩ := bind_inv e
    obtain ⟨y, e2, e⟩ := bind_inv e
    obtain ⟨⟨b', l', s'⟩, e1', e'⟩ := bind_inv e'
    obtain ⟨y', e2', e'⟩ := bind_inv e'
    cases e; cases e'
    obtain ⟨_, a2, a3⟩ := g.a.sep.separate hE hf h0 e1 e1'
    exact ⟨(g.a.withSep a3).aggregate0 hE hf e2 e2', List.rel_append g.received a2, g.accepted⟩
  | pop =>
    simp only [Aggregator.exec, AOp.mapV, Aggregator.pop] at h h'
    have hl := g.a.list
    generalize hl1 : o.a.agList = l at hl h
    generalize hl2 : o'.a.agList = l' at hl h'
    cases hl with
    | nil =>
      cases h; cases h'
      exact ⟨g.a, by simpa using g.received, g.accepted⟩
    | cons hd ht =>
      cases h; cases h'
      exact ⟨⟨g.a.sep, g.a.out, g.a.on, g.a.alive, ht⟩, List.rel_append g.received (.cons hd .nil), g.accepted⟩
  | forcePop =>
    obtain ⟨⟨d, a⟩, e, h⟩ := bind_inv h
    obtain ⟨⟨d', a'⟩, e', h'⟩ := bind_inv h'
    cases h; cases h'
    obtain ⟨⟨x, s⟩, e1, e⟩ := bind_inv e
    obtain ⟨⟨x', s'⟩, e1', e'⟩ := bind_inv e'
    obtain ⟨a1, a2⟩ := g.a.sep.forcePop hE hf h0 e1 e1'
    cases a1 with
    | none =>
      cases e; cases e'
      exact ⟨g.a.withSep a2, by simpa using g.received, g.accepted⟩
    | some a1 =>
      simp only at e e'
      obtain ⟨y, e2, e⟩ := bind_inv e
      obtain ⟨y', e2', e'⟩ := bind_inv e'
      cases e; cases e'
      rw [g.a.out] at e2'
      exact ⟨g.a.withSep a2, List.rel_append g.received (.cons (rescaled_finish hE hf a1 e2 e2') .nil), g.accepted⟩
  | look =>
    obtain ⟨_, _, h⟩ := bind_inv h
    obtain ⟨_, _, h'⟩ := bind_inv h'
    cases h; cases h'
    exact g
  | enable v =>
    cases h; cases h'
    exact ⟨⟨g.a.sep, g.a.out, rfl, g.a.alive, g.a.list⟩, g.received, g.accepted⟩

theorem OSim.execAll (hE : env.nth.Comparing) (hf : StrictMono f) (h0 : f 0 = 0) (ops : List AOp) : ∀ {o o' p p' : AObs}, OSim f o o' →
    (∀ op ∈ ops, ∀ v ∈ op.all, InI64 v ∧ InI64 (f v)) → execAll env o ops = .ok p → execAll env o' (ops.map (AOp.mapV f)) = .ok p' →
    OSim f p p' := by
  unfold Aggregator.execAll
  induction ops with
  | nil =>
    intro o o' p p' g _ h h'
    cases h; cases h'
    exact g
  | cons op ops ih =>
    intro o o' p p' g hx h h'
    rw [List.map_cons, List.foldlM_cons] at h'
    rw [List.foldlM_cons] at h
    obtain ⟨o1, e1, h⟩ := bind_inv h
    obtain ⟨o1', e1', h'⟩ := bind_inv h'
    exact ih (g.exec hE hf h0 (hx op List.mem_cons_self) e1 e1') (fun x hm => hx x (List.mem_cons_of_mem _ hm)) h h'

end Aggregator

end Wrtstat
