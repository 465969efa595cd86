/-
C143: larger values lower nothing that is told of them.
-/
import Verif.Props.Library
import Verif.Props.Tiers
import Verif.Props.Double

namespace Wrtstat
open Aggregator

set_option autoImplicit false

/-- The second call is the first with larger or equal values. -/
inductive Raised : AddArg → AddArg → Prop
  | one {v v' : Int} (c : Nat) : v ≤ v' → Raised (.one v c) (.one v' c)
  | many {vs vs' : List Int} (c : Nat) : List.Forall₂ (· ≤ ·) vs vs' → Raised (.many vs c) (.many vs' c)
  | init {vs vs' : List Int} : List.Forall₂ (· ≤ ·) vs vs' → Raised (.init vs) (.init vs')
  | reduced {rd rd' : ReducedData} : rd.count = rd'.count → List.Forall₂ (· ≤ ·) rd.data rd'.data → rd.min ≤ rd'.min →
      rd.max ≤ rd'.max → Raised (.reduced rd) (.reduced rd')

/-- The record tells of as much as the other, at the same time, and nothing it tells is higher. -/
structure NotHigher (d d' : AggData) : Prop where
  ts : d.ts = d'.ts
  count : d.count = d'.count
  lossy : d.lossy = d'.lossy
  size : d.data.length = d'.data.length
  min : d.min ≤ d'.min
  max : d.max ≤ d'.max
  avg : d.avg ≤ d'.avg
  p50 : d.perc50 ≤ d'.perc50
  p80 : d.perc80 ≤ d'.perc80
  p95 : d.perc95 ≤ d'.perc95
  p99 : d.perc99 ≤ d'.perc99

/-- The same history with larger or equal values: record by record, nothing told is lower. -/
def C143_FullClaim : Prop :=
  ∀ (env : Env) (opt : AggregatorOpts) (a0 : Aggregator) (clk rand ts : Int) (ops ops' : List AOp) (o o' : AObs), 0 < opt.step →
    Aggregator.new opt clk rand ts = .ok a0 → List.Forall₂ (AOp.Like Raised) ops ops' → execAll env { a := a0 } ops = .ok o →
    execAll env { a := a0 } ops' = .ok o' → List.Forall₂ NotHigher (o.received ++ o.a.agList) (o'.received ++ o'.a.agList)

/-- What is told of one window with these calls. -/
def exRaise (env : Env) (opt : AggregatorOpts) (as : List AddArg) : Option (List AggData) :=
  (Aggregator.new opt 0 0 1000).toOption.bind fun a =>
    (execAll env { a := a } (as.map (fun x => AOp.add 0 0 1003 x) ++ [.add 0 0 1013 (.one 1 1)])).toOption.map
      fun o => o.received ++ o.a.agList

theorem exRaise_some {env : Env} {opt : AggregatorOpts} {as : List AddArg} {l : List AggData} (h : exRaise env opt as = some l) :
    ∃ a o, Aggregator.new opt 0 0 1000 = .ok a ∧
      execAll env { a := a } (as.map (fun x => AOp.add 0 0 1003 x) ++ [.add 0 0 1013 (.one 1 1)]) = .ok o ∧
      o.received ++ o.a.agList = l := by
  unfold exRaise at h
  cases ha : Aggregator.new opt 0 0 1000 with
  | error f => rw [ha] at h; cases h
  | ok a =>
    rw [ha] at h
    obtain ⟨o, e, e2⟩ := obs_of_map h
    exact ⟨a, o, rfl, e, e2⟩

/-- If the claim held, raising the values of one window would not lower a figure of its record. -/
theorem exRaise_claim (hc : C143_FullClaim) {env : Env} {opt : AggregatorOpts} {as as' : List AddArg} (hs : 0 < opt.step)
    (hr : List.Forall₂ Raised as as') {f : AggData → Int} (hf : ∀ d d', NotHigher d d' → f d ≤ f d') {x x' : Int}
    (h : (exRaise env opt as).map (·.map f) = some [x]) (h' : (exRaise env opt as').map (·.map f) = some [x']) : x ≤ x' := by
  cases e : exRaise env opt as with
  | none => rw [e] at h; cases h
  | some l =>
    cases e' : exRaise env opt as' with
    | none => rw [e'] at h'; cases h'
    | some l' =>
      rw [e] at h
      rw [e'] at h'
      injection h with h
      injection h' with h'
      obtain ⟨a, o, k1, k2, rfl⟩ := exRaise_some e
      obtain ⟨a', o', k1', k2', rfl⟩ := exRaise_some e'
      rw [k1] at k1'
      cases k1'
      have hl : List.Forall₂ (AOp.Like Raised) (as.map (fun x => AOp.add 0 0 1003 x) ++ [.add 0 0 1013 (.one 1 1)])
          (as'.map (fun x => AOp.add 0 0 1003 x) ++ [.add 0 0 1013 (.one 1 1)]) := by
        refine List.rel_append ?_ (.cons (.add _ _ _ (.one _ (le_refl _))) .nil)
        clear k2 e k2' e'
        induction hr with
        | nil => exact .nil
        | cons hd _ ih => exact .cons (.add _ _ _ hd) ih
      have g := hc env opt a 0 0 1000 _ _ o o' hs k1 hl k2 k2'
      generalize o.received ++ o.a.agList = l at g h
      generalize o'.received ++ o'.a.agList = l' at g h'
      match l, l', g, h, h' with
      | [d], [d'], .cons hd _, h, h' =>
        injection h with h
        injection h' with h'
        rw [← h, ← h']
        exact hf d d' hd

/-- A conforming `nth_element` that leaves the upper part in ascending order if the sum is even and in descending order otherwise. -/
def NthElement.moody : NthElement where
  run l k := (if l.sum % 2 = 0 then NthElement.sorting else .descending).run l k
  perm l k := (if l.sum % 2 = 0 then NthElement.sorting else .descending).perm l k
  le_nth l k := (if l.sum % 2 = 0 then NthElement.sorting else .descending).le_nth l k
  nth_le l k := (if l.sum % 2 = 0 then NthElement.sorting else .descending).nth_le l k

/-- Three ways a figure falls although values rise: the extreme of a merged record rises from 0, which is not taken, to 1, which is; the
first value rises from 127 to 129, and the average falls by 128 since differences are rounded; and a sample is passed over by an
`nth_element` that leaves larger values in another order. -/
theorem C143_witnesses :
    (exRaise exactEnv exTierOpt [.one 5 1, .reduced { count := 1, data := [9], min := 0, max := 9 }]).map (·.map (·.min)) = some [5] ∧
    (exRaise exactEnv exTierOpt [.one 5 1, .reduced { count := 1, data := [9], min := 1, max := 9 }]).map (·.map (·.min)) = some [1] ∧
    (exRaise Reducer.doubleEnv exTierOpt [.one 127 1, .one (-2 ^ 60) 1]).map (·.map (·.avg)) = some [-2 ^ 59 + 128] ∧
    (exRaise Reducer.doubleEnv exTierOpt [.one 129 1, .one (-2 ^ 60) 1]).map (·.map (·.avg)) = some [-2 ^ 59] ∧
    (exRaise { exactEnv with nth := .moody } (exLib 3 2 .nth 0) [.many [1, 2, 3, 0, 0, 0] 6]).map (·.map (·.perc99)) = some [3] ∧
    (exRaise { exactEnv with nth := .moody } (exLib 3 2 .nth 0) [.many [1, 2, 4, 0, 0, 0] 6]).map (·.map (·.perc99)) = some [2] := by
  refine ⟨?_, ?_, ?_, ?_, ?_, ?_⟩ <;> decide +kernel

theorem C143_refuted : ¬ C143_FullClaim := by
  intro hc
  obtain ⟨_, _, _, _, h, h'⟩ := C143_witnesses
  have := exRaise_claim hc (by decide) (.cons (.many _ (.cons (le_refl _) (.cons (le_refl _) (.cons (by decide) (.cons (le_refl _)
    (.cons (le_refl _) (.cons (le_refl _) .nil))))))) .nil) (fun _ _ g => g.p99) h h'
  omega

/-- The claim fails for the average alone as well, and for the minimum of merged records. -/
theorem C143_refuted_avg : ¬ C143_FullClaim := by
  intro hc
  obtain ⟨_, _, h, h', _, _⟩ := C143_witnesses
  have := exRaise_claim hc (by decide) (.cons (.one 1 (by decide)) (.cons (.one 1 (le_refl _)) .nil)) (fun _ _ g => g.avg) h h'
  omega

theorem C143_refuted_min : ¬ C143_FullClaim := by
  intro hc
  obtain ⟨h, h', _⟩ := C143_witnesses
  have := exRaise_claim hc (by decide) (.cons (.one 1 (le_refl _)) (.cons (.reduced (by rfl) (.cons (by decide) .nil) (by decide)
    (by decide)) .nil)) (fun _ _ g => g.min) h h'
  omega

/-! ### Sorting and selecting -/

theorem insert_above {a x : Int} : ∀ {s s' : List Int}, List.Forall₂ (· ≤ ·) s s' → (a :: s).Pairwise (· ≤ ·) → a ≤ x →
    List.Forall₂ (· ≤ ·) (a :: s) (s'.orderedInsert (· ≤ ·) x) := by
  intro s s' h
  induction h generalizing a with
  | nil => intro _ hx; exact .cons hx .nil
  | @cons b b' t t' hb ht ih =>
    intro hp hx
    rw [List.pairwise_cons] at hp
    rw [List.orderedInsert_cons]
    split_ifs with hc
    · exact .cons hx (.cons hb ht)
    · refine .cons (le_trans (hp.1 b (.head _)) hb) (ih hp.2 ?_)
      omega

theorem insert_below {a' x : Int} : ∀ {s s' : List Int}, List.Forall₂ (· ≤ ·) s s' → (a' :: s').Pairwise (· ≤ ·) → x ≤ a' →
    List.Forall₂ (· ≤ ·) (s.orderedInsert (· ≤ ·) x) (a' :: s') := by
  intro s s' h
  induction h generalizing a' with
  | nil => intro _ hx; exact .cons hx .nil
  | @cons b b' t t' hb ht ih =>
    intro hp hx
    rw [List.pairwise_cons] at hp
    rw [List.orderedInsert_cons]
    split_ifs with hc
    · exact .cons hx (.cons hb ht)
    · refine .cons (by omega) (ih hp.2 (le_trans hx (hp.1 b' (.head _))))

theorem insert_mono {x x' : Int} (hx : x ≤ x') : ∀ {s s' : List Int}, List.Forall₂ (· ≤ ·) s s' → s.Pairwise (· ≤ ·) →
    s'.Pairwise (· ≤ ·) → List.Forall₂ (· ≤ ·) (s.orderedInsert (· ≤ ·) x) (s'.orderedInsert (· ≤ ·) x') := by
  intro s s' h
  induction h with
  | nil => intro _ _; exact .cons hx .nil
  | @cons a a' t t' ha ht ih =>
    intro hs hs'
    have h1 := List.pairwise_cons.1 hs
    have h2 := List.pairwise_cons.1 hs'
    rw [List.orderedInsert_cons, List.orderedInsert_cons]
    split_ifs with c1 c2 c2
    · exact .cons hx (.cons ha ht)
    · exact .cons (le_trans c1 ha) (insert_above ht hs (by omega))
    · exact .cons (by omega) (insert_below ht hs' (by omega))
    · exact .cons ha (ih h1.2 h2.2)

/-- Sorting keeps lists comparable. -/
theorem sort_mono {l l' : List Int} (h : List.Forall₂ (· ≤ ·) l l') : List.Forall₂ (· ≤ ·) (sortInts l) (sortInts l') := by
  induction h with
  | nil => exact .nil
  | @cons a a' t t' ha ht ih =>
    exact insert_mono ha ih (sortInts_sorted t) (sortInts_sorted t')

/-- Rows comparable element by element. -/
abbrev Rows (d d' : List (List Int)) : Prop := List.Forall₂ (List.Forall₂ (· ≤ ·)) d d'

theorem rows_onBack {f f' : List Int → List Int}
    (hf : ∀ l l', List.Forall₂ (· ≤ ·) l l' → List.Forall₂ (· ≤ ·) (f l) (f' l')) {d d' : List (List Int)} (h : Rows d d') :
    Rows (onBack f d) (onBack f' d') := by
  induction h with
  | nil => exact .nil
  | @cons a a' t t' ha ht ih =>
    cases ht with
    | nil => exact .cons (hf _ _ ha) .nil
    | cons hb ht => exact .cons ha ih

theorem rows_last {d d' : List (List Int)} (h : Rows d d') : (d.getLastD []).length = (d'.getLastD []).length := by
  induction h with
  | nil => rfl
  | @cons a a' t t' ha ht ih =>
    cases ht with
    | nil => exact ha.length_eq
    | cons hb ht => exact ih

/-- What there is to know of two reducers in mode `sorting` for their rows to stay comparable. -/
structure RowsOf (r r' : Reducer) : Prop where
  opt : r.opt = r'.opt
  cur : r.curMode = .sorting
  cur' : r'.curMode = .sorting
  rows : Rows r.data r'.data

theorem rows_add_ {env : Env} {r r' : Reducer} {v v' : Int} (g : RowsOf r r') (hv : v ≤ v') :
    RowsOf (Reducer.add_ env r v) (Reducer.add_ env r' v') := by
  obtain ⟨h1, h2, h3, h4⟩ := g
  have hl := rows_last h4
  have hn := h4.length_eq
  have he : r.data = [] ↔ r'.data = [] := by rw [← List.length_eq_zero_iff, ← List.length_eq_zero_iff, hn]
  unfold Reducer.add_ Reducer.minmax
  simp only [Reducer.back] at hl ⊢
  rw [← h1, ← hl, ← hn, h2, h3]
  simp only [he]
  split_ifs
  · exact ⟨rfl, rfl, rfl, h4⟩
  · exact ⟨rfl, rfl, rfl, List.rel_append (rows_onBack (fun _ _ h => sort_mono h) h4) (.cons (.cons hv .nil) .nil)⟩
  · exact ⟨rfl, rfl, rfl, rows_onBack (fun _ _ h => List.rel_append h (.cons hv .nil)) h4⟩

theorem rows_adds {env : Env} {vs vs' : List Int} (hv : List.Forall₂ (· ≤ ·) vs vs') : ∀ {r r' : Reducer}, RowsOf r r' →
    RowsOf (vs.foldl (Reducer.add_ env) r) (vs'.foldl (Reducer.add_ env) r') := by
  induction hv with
  | nil => intro r r' g; exact g
  | cons hd _ ih => intro r r' g; exact ih (rows_add_ g hd)

theorem rows_add {env : Env} {r r' : Reducer} {x x' : AddArg} (g : RowsOf r r') (hx : Raised x x') :
    RowsOf (r.add env x) (r'.add env x') := by
  have many : ∀ {vs vs' : List Int} (c : Nat), List.Forall₂ (· ≤ ·) vs vs' →
      RowsOf (Reducer.addMany env r vs c) (Reducer.addMany env r' vs' c) := by
    intro vs vs' c hv
    have k := rows_adds (env := env) hv (r := { r with empty := false }) (r' := { r' with empty := false }) ⟨g.opt, g.cur, g.cur', g.rows⟩
    simp only [Reducer.addMany, ← hv.length_eq]
    split_ifs
    · exact ⟨k.opt, k.cur, k.cur', k.rows⟩
    · exact ⟨k.opt, k.cur, k.cur', k.rows⟩
  cases hx with
  | one c hv =>
    have k := rows_add_ (env := env) (r := { r with empty := false }) (r' := { r' with empty := false }) ⟨g.opt, g.cur, g.cur', g.rows⟩ hv
    simp only [Reducer.add, Reducer.addOne]
    split_ifs
    · exact ⟨k.opt, k.cur, k.cur', k.rows⟩
    · exact ⟨k.opt, k.cur, k.cur', k.rows⟩
  | many c hv => exact many c hv
  | init hv =>
    have k := rows_adds (env := env) hv g
    exact ⟨k.opt, k.cur, k.cur', k.rows⟩
  | @reduced rd rd' hc hv _ _ =>
    have k := many rd.count hv
    simp only [Reducer.add, Reducer.addReduced, ← hc]
    split_ifs <;> exact ⟨k.opt, k.cur, k.cur', k.rows⟩

theorem deref_rel {α : Type} {R : α → α → Prop} {d d' : List α} (h : List.Forall₂ R d d') {i : Nat} {x x' : α} (e : deref d i = .ok x)
    (e' : deref d' i = .ok x') : R x x' := by
  unfold deref at e e'
  induction h generalizing i with
  | nil => cases e
  | cons hd _ ih =>
    cases i with
    | zero => cases e; cases e'; exact hd
    | succ i => exact ih (by simpa using e) (by simpa using e')

theorem vat_rel {α : Type} {R : α → α → Prop} {d d' : List α} (h : List.Forall₂ R d d') {i : Nat} {x x' : α} (e : vat d i = .ok x)
    (e' : vat d' i = .ok x') : R x x' := by
  unfold vat at e e'
  induction h generalizing i with
  | nil => cases e
  | cons hd _ ih =>
    cases i with
    | zero => cases e; cases e'; exact hd
    | succ i => exact ih (by simpa using e) (by simpa using e')

theorem set_rel {α : Type} {R : α → α → Prop} {d d' : List α} (h : List.Forall₂ R d d') (i : Nat) {x x' : α} (hx : R x x') :
    List.Forall₂ R (d.set i x) (d'.set i x') := by
  induction h generalizing i with
  | nil => exact .nil
  | cons hd ht ih =>
    cases i with
    | zero => exact .cons hx ht
    | succ i => exact .cons hd (ih i)

theorem setAt0_rel {d d' : List (List Int)} (h : Rows d d') {i : Nat} {x x' : Int} (hx : x ≤ x') {q q' : List (List Int)}
    (e : Reducer.setAt0 d i x = .ok q) (e' : Reducer.setAt0 d' i x' = .ok q') : Rows q q' := by
  unfold Reducer.setAt0 at e e'
  obtain ⟨row, k, e⟩ := bind_inv e
  obtain ⟨row', k', e'⟩ := bind_inv e'
  have hr := deref_rel h k k'
  split_ifs at e e'
  cases e; cases e'
  exact set_rel h 0 (set_rel hr i hx)

theorem getNth_rel {E : NthElement} {d d' : List (List Int)} (h : Rows d d') {l i : Nat} {x x' : Int} {q q' : List (List Int)}
    (e : Reducer.getNth_ E .sorting d l i = .ok (x, q)) (e' : Reducer.getNth_ E .sorting d' l i = .ok (x', q')) :
    x ≤ x' ∧ Rows q q' := by
  unfold Reducer.getNth_ Reducer.nthIf at e e'
  rw [if_neg (by decide), bind_ok'] at e e'
  obtain ⟨row, k, e⟩ := bind_inv e
  obtain ⟨y, k2, e⟩ := bind_inv e
  obtain ⟨row', k', e'⟩ := bind_inv e'
  obtain ⟨y', k2', e'⟩ := bind_inv e'
  cases e; cases e'
  exact ⟨vat_rel (deref_rel h k k') k2 k2', h⟩

theorem reduceLoop_rel {E : NthElement} (n : Nat) : ∀ (k i l : Nat) {d d' q q' : List (List Int)}, Rows d d' →
    Reducer.reduceLoop E .sorting n k i l d = .ok q → Reducer.reduceLoop E .sorting n k i l d' = .ok q' → Rows q q' := by
  intro k
  induction k with
  | zero =>
    intro i l d d' q q' h e e'
    cases e; cases e'
    exact h
  | succ k ih =>
    intro i l d d' q q' h e e'
    unfold Reducer.reduceLoop at e e'
    by_cases h1 : l = n
    · rw [if_pos h1] at e e'
      unfold Reducer.nthIf at e e'
      rw [if_neg (by decide), bind_ok'] at e e'
      exact ih _ _ h e e'
    · rw [if_neg h1] at e e'
      by_cases h2 : l = n - 1
      · rw [if_pos h2] at e e'
        obtain ⟨row, k1, e⟩ := bind_inv e
        obtain ⟨row', k1', e'⟩ := bind_inv e'
        rw [← (deref_rel h k1 k1').length_eq] at e'
        by_cases h3 : i < row.length
        · rw [if_pos h3] at e e'
          obtain ⟨⟨x, q1⟩, k2, e⟩ := bind_inv e
          obtain ⟨q2, k3, e⟩ := bind_inv e
          obtain ⟨⟨x', q1'⟩, k2', e'⟩ := bind_inv e'
          obtain ⟨q2', k3', e'⟩ := bind_inv e'
          obtain ⟨hx, hq⟩ := getNth_rel h k2 k2'
          exact ih _ _ (setAt0_rel hq hx k3 k3') e e'
        · rw [if_neg h3] at e e'
          exact ih _ _ h e e'
      · rw [if_neg h2] at e e'
        obtain ⟨⟨x, q1⟩, k2, e⟩ := bind_inv e
        obtain ⟨q2, k3, e⟩ := bind_inv e
        obtain ⟨⟨x', q1'⟩, k2', e'⟩ := bind_inv e'
        obtain ⟨q2', k3', e'⟩ := bind_inv e'
        obtain ⟨hx, hq⟩ := getNth_rel h k2 k2'
        exact ih _ _ (setAt0_rel hq hx k3 k3') e e'

theorem reduce_rel {env : Env} {r r' q q' : Reducer} (g : RowsOf r r') (e : Reducer.reduce env r = .ok q)
    (e' : Reducer.reduce env r' = .ok q') : Rows q.data q'.data := by
  obtain ⟨h1, h2, h3, h4⟩ := g
  have he : r.data = [] ↔ r'.data = [] := by rw [← List.length_eq_zero_iff, ← List.length_eq_zero_iff, h4.length_eq]
  unfold Reducer.reduce at e e'
  simp only [h2, h3, if_true] at e e'
  by_cases h0 : r.data = []
  · rw [if_pos h0] at e
    rw [if_pos (he.1 h0)] at e'
    cases e; cases e'
    exact h4
  · rw [if_neg h0] at e
    rw [if_neg (fun h => h0 (he.2 h))] at e'
    have hs : Rows (onBack sortInts r.data) (onBack sortInts r'.data) := rows_onBack (fun _ _ h => sort_mono h) h4
    rw [← hs.length_eq, ← h1] at e'
    by_cases hn : (onBack sortInts r.data).length = 1
    · rw [if_pos hn] at e e'
      cases e; cases e'
      exact hs
    · rw [if_neg hn] at e e'
      obtain ⟨x, k, e⟩ := bind_inv e
      obtain ⟨x', k', e'⟩ := bind_inv e'
      cases e; cases e'
      have := reduceLoop_rel _ _ _ _ hs k k'
      exact List.forall₂_take 1 this

/-! ### Figures of comparable values -/

theorem allValues_raised {as as' : List AddArg} (h : List.Forall₂ Raised as as') :
    List.Forall₂ (· ≤ ·) (allValues as) (allValues as') := by
  unfold allValues
  induction h with
  | nil => exact .nil
  | cons hd _ ih =>
    rw [List.flatMap_cons, List.flatMap_cons]
    refine List.rel_append ?_ ih
    cases hd with
    | one c hv => exact .cons hv .nil
    | many c hv => exact hv
    | init hv => exact hv
    | reduced _ hv _ _ => exact hv

theorem counts_raised {as as' : List AddArg} (h : List.Forall₂ Raised as as') : sumCount as = sumCount as' ∧ sumWeight as = sumWeight as' := by
  unfold sumCount sumWeight
  induction h with
  | nil => exact ⟨rfl, rfl⟩
  | @cons x x' t t' hd _ ih =>
    have h1 : x.count = x'.count := by
      cases hd with
      | one c hv => rfl
      | many c hv => rfl
      | init hv => exact hv.length_eq
      | reduced hc _ _ _ => exact hc
    have h2 : x.values.length = x'.values.length := by
      have := (allValues_raised (as := [x]) (as' := [x']) (.cons hd .nil)).length_eq
      simpa [allValues] using this
    have h3 : x.weight = x'.weight := by unfold AddArg.weight; rw [h1, h2]
    simp only [List.map_cons, List.sum_cons]
    rw [h1, h3, ih.1, ih.2]
    exact ⟨rfl, rfl⟩

/-- No extreme of a merged record becomes 0, which is not taken, or ceases to be 0. -/
def KeepsZero : AddArg → AddArg → Prop
  | .reduced rd, .reduced rd' => (rd.min = 0 ↔ rd'.min = 0) ∧ (rd.max = 0 ↔ rd'.max = 0)
  | _, _ => True

theorem allExtremes_raised {as as' : List AddArg} (h : List.Forall₂ (fun x x' => Raised x x' ∧ KeepsZero x x') as as') :
    List.Forall₂ (· ≤ ·) (allExtremes as) (allExtremes as') := by
  unfold allExtremes
  induction h with
  | nil => exact .nil
  | cons hd _ ih =>
    rw [List.flatMap_cons, List.flatMap_cons]
    refine List.rel_append ?_ ih
    obtain ⟨hd, hz⟩ := hd
    cases hd with
    | one c hv => exact .cons hv .nil
    | many c hv => simpa [AddArg.values, AddArg.extremes] using hv
    | init hv => simpa [AddArg.values, AddArg.extremes] using hv
    | @reduced rd rd' _ hv h1 h2 =>
      obtain ⟨z1, z2⟩ := hz
      simp only [AddArg.values, AddArg.extremes]
      refine List.rel_append hv (List.rel_append ?_ ?_)
      · by_cases e : rd.min = 0
        · rw [if_neg (by simpa using e), if_neg (by simpa using z1.1 e)]; exact .nil
        · rw [if_pos e, if_pos (fun h => e (z1.2 h))]; exact .cons h1 .nil
      · by_cases e : rd.max = 0
        · rw [if_neg (by simpa using e), if_neg (by simpa using z2.1 e)]; exact .nil
        · rw [if_pos e, if_pos (fun h => e (z2.2 h))]; exact .cons h2 .nil

theorem below_mem {l l' : List Int} (h : List.Forall₂ (· ≤ ·) l l') :
    (∀ v ∈ l', ∃ w ∈ l, w ≤ v) ∧ (∀ v ∈ l, ∃ w ∈ l', v ≤ w) := by
  induction h with
  | nil => simp
  | @cons a a' t t' ha ht ih =>
    constructor
    · intro v hv
      rcases List.mem_cons.1 hv with rfl | hv
      · exact ⟨a, .head _, ha⟩
      · obtain ⟨w, hw, hl⟩ := ih.1 v hv
        exact ⟨w, .tail _ hw, hl⟩
    · intro v hv
      rcases List.mem_cons.1 hv with rfl | hv
      · exact ⟨a', .head _, ha⟩
      · obtain ⟨w, hw, hl⟩ := ih.2 v hv
        exact ⟨w, .tail _ hw, hl⟩

theorem minI_mono {l l' : List Int} (h : List.Forall₂ (· ≤ ·) l l') : minI l ≤ minI l' := by
  obtain ⟨h1, h2⟩ := le_minI.1 (le_refl (minI l))
  refine le_minI.2 ⟨h1, fun v hv => ?_⟩
  obtain ⟨w, hw, hl⟩ := (below_mem h).1 v hv
  exact le_trans (h2 w hw) hl

theorem maxI_mono {l l' : List Int} (h : List.Forall₂ (· ≤ ·) l l') : maxI l ≤ maxI l' := by
  obtain ⟨h1, h2⟩ := maxI_le.1 (le_refl (maxI l'))
  refine maxI_le.2 ⟨h1, fun v hv => ?_⟩
  obtain ⟨w, hw, hl⟩ := (below_mem h).2 v hv
  exact le_trans hl (h2 w hw)

/-- Put in a suitable order, the first samples are below the second. -/
def Dominated (xs ys : List Int) : Prop := ∃ ps qs : List Int, ps.Perm xs ∧ qs.Perm ys ∧ List.Forall₂ (· ≤ ·) ps qs

theorem rank_mono {ps qs : List Int} (h : List.Forall₂ (· ≤ ·) ps qs) {k : Nat} {v w : Int} (hv : IsOrderStat ps k v)
    (hw : IsOrderStat qs k w) : v ≤ w := by
  by_contra hc
  have hle : qs.countP (fun x => decide (x ≤ w)) ≤ ps.countP (fun x => decide (x < v)) := by
    clear hv hw
    induction h with
    | nil => exact le_refl _
    | @cons a a' t t' ha ht ih =>
      rw [List.countP_cons, List.countP_cons]
      by_cases h1 : a' ≤ w
      · have h2 : a < v := by omega
        simp only [h1, h2, decide_true, if_true]
        omega
      · simp only [h1, decide_false, Bool.false_eq_true, if_false]
        omega
  have := hv.2.1
  have := hw.2.2
  omega

theorem stat_perm {xs ys : List Int} (h : xs.Perm ys) {k : Nat} {v : Int} (hv : IsOrderStat ys k v) : IsOrderStat xs k v := by
  obtain ⟨a, b, c⟩ := hv
  exact ⟨h.mem_iff.2 a, by rw [h.countP_eq]; exact b, by rw [h.countP_eq]; exact c⟩

theorem Dominated.percentiles {xs ys : List Int} {p q : Perc} (h : Dominated xs ys) (hp : Percentiles xs p) (hq : Percentiles ys q) :
    p.perc50 ≤ q.perc50 ∧ p.perc80 ≤ q.perc80 ∧ p.perc95 ≤ q.perc95 ∧ p.perc99 ≤ q.perc99 := by
  obtain ⟨ps, qs, h1, h2, h3⟩ := h
  have hl : xs.length = ys.length := by rw [← h1.length_eq, ← h2.length_eq, h3.length_eq]
  have key : ∀ {k : Nat} {v w : Int}, IsOrderStat xs k v → IsOrderStat ys k w → v ≤ w :=
    fun hv hw => rank_mono h3 (stat_perm h1 hv) (stat_perm h2 hw)
  exact ⟨key hp.p50 (by rw [hl]; exact hq.p50), key hp.p80 (by rw [hl]; exact hq.p80), key hp.p95 (by rw [hl]; exact hq.p95),
    key hp.p99 (by rw [hl]; exact hq.p99)⟩

/-- A summary without loss has all the values. -/
theorem Summary.lossless {env : Env} {limit levels : Nat} {as : List AddArg} {d : AggData} (s : Summary env limit levels as d)
    (h : d.lossy = 0) : d.data.Perm (allValues as) := by
  have hsub : d.data.Subperm (allValues as) := List.subperm_ext_iff.2 (fun x _ => s.samples x)
  refine hsub.perm_of_length_le ?_
  have hw : ∀ as : List AddArg, (allValues as).length ≤ sumWeight as := by
    intro as
    induction as with
    | nil => exact le_refl _
    | cons a as ih =>
      have h1 : (allValues (a :: as)).length = a.values.length + (allValues as).length := by
        unfold allValues
        rw [List.flatMap_cons, List.length_append]
      have h2 : sumWeight (a :: as) = a.weight + sumWeight as := by
        unfold sumWeight
        rw [List.map_cons, List.sum_cons]
      have h3 : a.values.length ≤ a.weight := le_max_right _ _
      omega
  have := hw as
  have := s.balance
  omega

/-- What is told of the second record against the first; `Z` stands for the condition on merged extremes, `E` for exact arithmetic and `S`
for rows that are always sorted. -/
structure RaisedRecord (opt : AggregatorOpts) (Z E S : Prop) (d d' : AggData) : Prop where
  ts : d.ts = d'.ts
  count : d.count = d'.count
  lossy : d.lossy = d'.lossy
  size : d.data.length = d'.data.length
  extremes : Z → d.min ≤ d'.min ∧ d.max ≤ d'.max
  avg : E → d.avg ≤ d'.avg
  perc : S ∨ d.lossy = 0 → d.perc50 ≤ d'.perc50 ∧ d.perc80 ≤ d'.perc80 ∧ d.perc95 ≤ d'.perc95 ∧ d.perc99 ≤ d'.perc99
  last : S ∨ d.lossy = 0 → opt.limit ≤ 200 → d.perc100 ≤ d'.perc100
  samples : S ∨ d.lossy = 0 → opt.outSize = 0 ∨ opt.limit ≤ opt.outSize → Dominated d.data d'.data

/-- Reducers that got the same calls, those of the second with larger or equal values. -/
def raiseTwins (env : Env) (opt : AggregatorOpts) (Z : Prop) : Twins env env opt.outSize opt.outSize where
  R r r' := ∃ as as', Reducer.GoodA env opt.toReducerOpts r as ∧ Reducer.GoodA env opt.toReducerOpts r' as' ∧
    List.Forall₂ (fun x x' => Raised x x' ∧ (Z → KeepsZero x x')) as as' ∧ (SortsAlways opt.toReducerOpts → RowsOf r r')
  X x x' := Raised x x' ∧ (Z → KeepsZero x x')
  D d d' := RaisedRecord opt Z (∀ x, env.rnd x = x) (SortsAlways opt.toReducerOpts) d d' ∧ d.toPerc = d'.toPerc ∧
    d.data.length ≤ opt.limit ∧ (SortsAlways opt.toReducerOpts ∨ d.lossy = 0 → Dominated d.data d'.data)
  F d d' := RaisedRecord opt Z (∀ x, env.rnd x = x) (SortsAlways opt.toReducerOpts) d d'
  add {r r' x x'} g hx := by
    obtain ⟨as, as', h1, h2, h3, h4⟩ := g
    exact ⟨as ++ [x], as' ++ [x'], Reducer.goodA_add h1 _, Reducer.goodA_add h2 _, List.rel_append h3 (.cons hx .nil),
      fun h => rows_add (h4 h) hx.1⟩
  detach {r r' q q' o o'} g hd hd' := by
    obtain ⟨as, as', h1, h2, h3, h4⟩ := g
    have hr : List.Forall₂ Raised as as' := h3.imp fun _ _ h => h.1
    cases o with
    | none =>
      rcases Reducer.detach_spec h1 with ⟨ha, e, er⟩ | ⟨_, _, _, _, _, _, _, _, ⟨_, _, e⟩ | ⟨_, e⟩⟩
      · rw [e] at hd
        cases hd
        subst ha
        cases h3
        rcases Reducer.detach_spec h2 with ⟨_, e', er'⟩ | ⟨ha', _⟩
        · rw [e'] at hd'
          cases hd'
          exact ⟨⟨[], [], h1, h2, .nil, h4⟩, .none⟩
        · exact absurd rfl ha'
      · rw [e] at hd; cases hd
      · rw [e] at hd; cases hd
    | some d =>
      have s := summary_of_detach h1 hd
      cases o' with
      | none =>
        rcases Reducer.detach_spec h2 with ⟨ha, _⟩ | ⟨_, _, _, _, _, _, _, _, ⟨_, _, e⟩ | ⟨_, e⟩⟩
        · subst ha
          cases h3
          exact absurd rfl s.nonempty
        · rw [e] at hd'; cases hd'
        · rw [e] at hd'; cases hd'
      | some d' =>
        have s' := summary_of_detach h2 hd'
        obtain ⟨_, r1, er, k1, _, _, _, _, rfl, a, c, rfl⟩ := Reducer.detach_some h1 hd
        obtain ⟨_, r1', er', k1', _, _, _, _, rfl, a', c', rfl⟩ := Reducer.detach_some h2 hd'
        have hv := allValues_raised hr
        obtain ⟨c1, c2⟩ := counts_raised hr
        have hrows : SortsAlways opt.toReducerOpts → Rows r1.data r1'.data := fun h => reduce_rel (h4 h) er er'
        have hsz : (r1.data.headD []).length = (r1'.data.headD []).length := by
          have e1 := s.size
          have e2 := s'.size
          rw [← hv.length_eq] at e2
          exact e1.trans e2.symm
        have hlo : r.lossyCount = r'.lossyCount := by
          have e1 := s.balance
          have e2 := s'.balance
          simp only [Reducer.resultOf] at e1 e2
          omega
        have hcur : ∀ {r1 : Reducer} {as : List AddArg}, Reducer.GoodA env opt.toReducerOpts r1 as → SortsAlways opt.toReducerOpts →
            r1.curMode = .sorting := by
          intro r1 as k h
          rw [k.cur ?_, (new_sorts h).1]
          rcases h with h | h
          · exact .inl (by rw [h]; decide)
          · exact .inr h.2
        have hdom : SortsAlways opt.toReducerOpts ∨ r.lossyCount = 0 → Dominated (r1.data.headD []) (r1'.data.headD []) := by
          rintro (h | h)
          · refine ⟨_, _, .refl _, .refl _, ?_⟩
            have := hrows h
            generalize r1.data = x at this
            generalize r1'.data = y at this
            cases this with
            | nil => exact .nil
            | cons hd _ => exact hd
          · exact ⟨_, _, (s.lossless h).symm, (s'.lossless (hlo.symm.trans h)).symm, hv⟩
        refine ⟨⟨[], [], Reducer.goodA_clear k1, Reducer.goodA_clear k1', .nil, fun h => ⟨by
            show r1.opt = r1'.opt
            rw [k1.opt_eq, k1'.opt_eq], hcur (Reducer.goodA_clear k1) h, hcur (Reducer.goodA_clear k1') h, .nil⟩⟩,
          .some ⟨⟨rfl, ?_, hlo, hsz, fun hz => ?_, fun hE => ?_, fun _ => ⟨le_refl _, le_refl _, le_refl _, le_refl _⟩,
            fun _ _ => le_refl _, fun h _ => hdom h⟩, rfl, s.bound, hdom⟩⟩
        · exact s.count.trans (c1.trans s'.count.symm)
        · have hx : List.Forall₂ (fun x x' => Raised x x' ∧ KeepsZero x x') as as' := h3.imp fun _ _ h => ⟨h.1, h.2 hz⟩
          rw [s.min, s'.min, s.max, s'.max]
          exact ⟨minI_mono (allExtremes_raised hx), maxI_mono (allExtremes_raised hx)⟩
        · by_cases hne : allValues as = []
          · have hne' : allValues as' = [] := by
              rw [hne] at hv
              exact List.length_eq_zero_iff.1 hv.length_eq.symm
            rw [h1.good.avg, hne] at c
            rw [h2.good.avg, hne'] at c'
            rw [c] at c'
            cases c'
            exact le_refl _
          · have hne' : allValues as' ≠ [] := by
              intro h
              rw [h] at hv
              exact hne (List.length_eq_zero_iff.1 hv.length_eq)
            rw [s.avg hE hne, s'.avg hE hne', ← hv.length_eq]
            have hpos : (0 : Int) < (allValues as).length := by
              have := List.length_pos_iff.2 hne
              omega
            have hsum : (allValues as).sum ≤ (allValues as').sum := hv.sum_le_sum
            exact Int.tdiv_le_tdiv hpos hsum
  setTs {d d'} t g := by
    obtain ⟨g, h2, h3, h4⟩ := g
    exact ⟨⟨rfl, g.count, g.lossy, g.size, g.extremes, g.avg, g.perc, g.last, g.samples⟩, h2, h3, h4⟩
  finish {d d' x x'} g e e' := by
    obtain ⟨g, h2, h3, h4⟩ := g
    obtain ⟨y, hy, k⟩ := finish_spec env.nth opt.outSize d
    obtain ⟨y', hy', k'⟩ := finish_spec env.nth opt.outSize d'
    rw [hy] at e
    rw [hy'] at e'
    cases e; cases e'
    have hemp : d.data = [] ↔ d'.data = [] := by rw [← List.length_eq_zero_iff, ← List.length_eq_zero_iff, g.size]
    have hS : ∀ {S : Prop}, S ∨ x.lossy = 0 → S ∨ d.lossy = 0 := by
      intro S h
      rwa [k.lossy] at h
    refine ⟨by rw [k.ts, k'.ts, g.ts], by rw [k.count, k'.count, g.count], by rw [k.lossy, k'.lossy, g.lossy],
      by rw [k.size, k'.size, g.size], fun hz => by rw [k.min, k'.min, k.max, k'.max]; exact g.extremes hz,
      fun hE => by rw [k.avg, k'.avg]; exact g.avg hE, fun h => ?_, fun h h200 => ?_, fun h ho => ?_⟩
    · by_cases hr : d.data = []
      · rw [k.noperc hr, k'.noperc (hemp.1 hr), h2]
        exact ⟨le_refl _, le_refl _, le_refl _, le_refl _⟩
      · exact (h4 (hS h)).percentiles (k.perc hr) (k'.perc (fun h => hr (hemp.2 h)))
    · by_cases hr : d.data = []
      · rw [k.noperc hr, k'.noperc (hemp.1 hr), h2]
      · unfold finish at hy hy'
        obtain ⟨z, ez, hy⟩ := bind_inv hy
        obtain ⟨_, _, hy⟩ := bind_inv hy
        obtain ⟨z', ez', hy'⟩ := bind_inv hy'
        obtain ⟨_, _, hy'⟩ := bind_inv hy'
        cases hy; cases hy'
        have m := C20_small_partial env.nth d z hr (by omega) ez
        have m' := C20_small_partial env.nth d' z' (fun h => hr (hemp.2 h)) (by rw [← g.size]; omega) ez'
        obtain ⟨ps, qs, p1, p2, p3⟩ := h4 (hS h)
        obtain ⟨w, hw, hl⟩ := (below_mem p3).2 _ (p1.mem_iff.2 m.1)
        exact le_trans hl (m'.2 w (p2.mem_iff.1 hw))
    · obtain ⟨ps, qs, p1, p2, p3⟩ := h4 (hS h)
      have f1 := k.full (by omega)
      have f2 := k'.full (by rw [← g.size]; omega)
      exact ⟨ps, qs, p1.trans f1.symm, p2.trans f2.symm, p3⟩
  raw {d d'} g := g.1

theorem like_imp {A B : AddArg → AddArg → Prop} (hi : ∀ x x', A x x' → B x x') {op op' : AOp} (h : AOp.Like A op op') : AOp.Like B op op' := by
  cases h with
  | add c1 c2 ts hx => exact .add c1 c2 ts (hi _ _ hx)
  | push c1 c2 ts b hx => exact .push c1 c2 ts b (hi _ _ hx)
  | separate c ts b f => exact .separate c ts b f
  | pop => exact .pop
  | forcePop => exact .forcePop
  | look => exact .look
  | enable v => exact .enable v

theorem like_and {A B : AddArg → AddArg → Prop} {ops ops' : List AOp} (h : List.Forall₂ (AOp.Like A) ops ops')
    (h' : List.Forall₂ (AOp.Like B) ops ops') : List.Forall₂ (AOp.Like fun x x' => A x x' ∧ B x x') ops ops' := by
  induction h with
  | nil => exact .nil
  | cons hd _ ih =>
    cases h' with
    | cons hd' ht' =>
      refine .cons ?_ (ih ht')
      cases hd with
      | add c1 c2 ts hx => cases hd' with | add _ _ _ hx' => exact .add c1 c2 ts ⟨hx, hx'⟩
      | push c1 c2 ts b hx => cases hd' with | push _ _ _ _ hx' => exact .push c1 c2 ts b ⟨hx, hx'⟩
      | separate c ts b f => exact .separate c ts b f
      | pop => exact .pop
      | forcePop => exact .forcePop
      | look => exact .look
      | enable v => exact .enable v

/-- What holds of all histories: with larger or equal values the records come at the same times with the same counts and losses and as many
samples.  If merged extremes do not become or cease to be 0, no minimum and no maximum is lower.  In exact arithmetic no average is lower.
No percentile from 50 to 99 is lower if rows are always sorted or nothing was lost; neither is `perc100` with no more than 200 samples, and
neither are the samples, taken in order, if they are not thinned when they are delivered. -/
theorem C143_records_partial (env : Env) (opt : AggregatorOpts) (a0 : Aggregator) (ops ops' : List AOp) (o o' : AObs) (hs : 0 < opt.step)
    (hf : Fresh env opt a0) (hl : List.Forall₂ (AOp.Like Raised) ops ops') (h : execAll env { a := a0 } ops = .ok o)
    (h' : execAll env { a := a0 } ops' = .ok o') :
    List.Forall₂ (RaisedRecord opt (List.Forall₂ (AOp.Like KeepsZero) ops ops') (∀ x, env.rnd x = x) (SortsAlways opt.toReducerOpts))
      (o.received ++ o.a.agList) (o'.received ++ o'.a.agList) := by
  have key : List.Forall₂ (AOp.Like (raiseTwins env opt (List.Forall₂ (AOp.Like KeepsZero) ops ops')).X) ops ops' := by
    by_cases hz : List.Forall₂ (AOp.Like KeepsZero) ops ops'
    · exact (like_and hl hz).imp fun _ _ g => like_imp (fun _ _ g => ⟨g.1, fun _ => g.2⟩) g
    · exact hl.imp fun _ _ g => like_imp (fun _ _ g => ⟨g, fun z => absurd z hz⟩) g
  have g0 : (raiseTwins env opt (List.Forall₂ (AOp.Like KeepsZero) ops ops')).O { a := a0 } { a := a0 } := by
    refine (Twins.O.start hs rfl rfl hf hf rfl rfl rfl rfl (fun g g' => ⟨[], [], g, g', .nil, fun hS => ?_⟩))
    have hc : a0.sep.reducer.curMode = .sorting := by
      rw [g.cur ?_, (new_sorts hS).1]
      rcases hS with h | h
      · exact .inl (by rw [h]; decide)
      · exact .inr h.2
    have hd : a0.sep.reducer.data = [] := by
      have := Reducer.good_nil_clear g.good g.emp
      rw [this]
      rfl
    exact ⟨rfl, hc, hc, by rw [hd]; exact .nil⟩
  have g := Twins.O.execAll key g0 h h'
  exact List.rel_append g.received g.a.list

/-- Twelve values in rows of three, thinned to three: two of them rise, and no figure falls. -/
example : (exRaise exactEnv (exLib 3 4 .sorting 0) [.many [7, 2, 9, 4, 1, 8, 3, 6, 5, 0, 11, 10] 12]).map
      (·.map fun d => [(d.count : Int), d.lossy, d.min, d.max, d.avg, d.perc50, d.perc80, d.perc99]) = some [[12, 9, 0, 11, 5, 4, 6, 6]] ∧
    (exRaise exactEnv (exLib 3 4 .sorting 0) [.many [7, 2, 9, 8, 1, 8, 3, 6, 9, 0, 11, 10] 12]).map
      (·.map fun d => [(d.count : Int), d.lossy, d.min, d.max, d.avg, d.perc50, d.perc80, d.perc99]) = some [[12, 9, 0, 11, 6, 8, 9, 9]] := by
  constructor <;> decide +kernel

end Wrtstat
