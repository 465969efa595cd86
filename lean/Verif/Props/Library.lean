/-
C136: the records do not depend on the standard library.
-/
import Verif.Props.Memory
import Verif.Props.Scale
import Verif.Lemmas.FreshWindow

namespace Wrtstat

set_option autoImplicit false

open Aggregator

/-- All that is told of a window but the samples and `perc100`. -/
structure SameTold (d d' : AggData) : Prop where
  counted : SameCounted d d'
  lossy : d'.lossy = d.lossy
  size : d'.data.length = d.data.length
  p50 : d'.perc50 = d.perc50
  p80 : d'.perc80 = d.perc80
  p95 : d'.perc95 = d.perc95
  p99 : d'.perc99 = d.perc99

/-- The claim: the same history run with another implementation of `std::nth_element` gives the same records, up to the order of the
samples. -/
def C136_FullClaim : Prop :=
  ∀ (env : Env) (E : NthElement) (opt : AggregatorOpts) (a0 : Aggregator) (clk rand ts : Int) (ops : List AOp) (o o' : AObs),
    0 < opt.step → Aggregator.new opt clk rand ts = .ok a0 → execAll env { a := a0 } ops = .ok o →
    execAll { env with nth := E } { a := a0 } ops = .ok o' →
    List.Forall₂ (fun d d' => SameTold d d' ∧ d'.perc100 = d.perc100 ∧ d'.data.Perm d.data) (o.received ++ o.a.agList)
      (o'.received ++ o'.a.agList)

/-- An aggregator with the given limit, levels, mode and `outgoing_reduced_size`. -/
def exLib (limit levels : Nat) (m : Mode) (out : Nat) : AggregatorOpts :=
  { limit := limit, levels := levels, mode := m, step := 10, resolution := .seconds, outSize := out }

/-- What is told of one window with these values, with the given `nth_element`. -/
def exTold (E : NthElement) (opt : AggregatorOpts) (vs : List Int) : Option (List AggData) :=
  (Aggregator.new opt 0 0 1000).toOption.bind fun a =>
    (execAll { exactEnv with nth := E } { a := a } [.add 0 0 1003 (.many vs vs.length), .add 0 0 1013 (.one 1 1)]).toOption.map
      fun o => o.received ++ o.a.agList

theorem exTold_some {E : NthElement} {opt : AggregatorOpts} {vs : List Int} {l : List AggData} (h : exTold E opt vs = some l) :
    ∃ a o, Aggregator.new opt 0 0 1000 = .ok a ∧
      execAll { exactEnv with nth := E } { a := a } [.add 0 0 1003 (.many vs vs.length), .add 0 0 1013 (.one 1 1)] = .ok o ∧
      o.received ++ o.a.agList = l := by
  unfold exTold at h
  cases ha : Aggregator.new opt 0 0 1000 with
  | error f => rw [ha] at h; cases h
  | ok a =>
    rw [ha] at h
    change (execAll { exactEnv with nth := E } { a := a } [.add 0 0 1003 (.many vs vs.length), .add 0 0 1013 (.one 1 1)]).toOption.map
      (fun o => o.received ++ o.a.agList) = some l at h
    obtain ⟨o, e, e2⟩ := obs_of_map h
    exact ⟨a, o, rfl, e, e2⟩

/-- A conforming `nth_element` that leaves the lower part in descending order. -/
def NthElement.falling : NthElement where
  run l k := ((sortInts l).take k).reverse ++ (sortInts l).drop k
  perm l k := by
    have h := (List.reverse_perm ((sortInts l).take k)).append_right ((sortInts l).drop k)
    rw [List.take_append_drop] at h
    exact h.trans (sortInts_perm l)
  le_nth l k i hi hk := by
    have hl : (((sortInts l).take k).reverse ++ (sortInts l).drop k).length = (sortInts l).length := by
      simp; omega
    rw [hl] at hk
    have hn : (sortInts l).length = l.length := (sortInts_perm l).length_eq
    have hs := List.pairwise_iff_getElem.1 (sortInts_sorted l)
    rw [List.getElem_append_left (by simp; omega), List.getElem_append_right (by simp), List.getElem_reverse, List.getElem_take,
      List.getElem_drop]
    refine hs _ _ _ _ ?_
    simp; omega
  nth_le l k j hj hk := by
    have hl : (((sortInts l).take k).reverse ++ (sortInts l).drop k).length = (sortInts l).length := by
      simp; omega
    rw [hl] at hk
    have hn : (sortInts l).length = l.length := (sortInts_perm l).length_eq
    have hs := List.pairwise_iff_getElem.1 (sortInts_sorted l)
    rw [List.getElem_append_right (by simp), List.getElem_append_right (by simp; omega), List.getElem_drop, List.getElem_drop]
    rcases Nat.lt_or_ge k j with h | h
    · refine hs _ _ _ _ ?_
      simp; omega
    · have : j = k := by omega
      subst this
      exact le_refl _

/-- Where the claim fails: the samples of a window that is thinned when it is delivered, `perc100` of 201 samples, and the percentiles
of a window that is thinned in mode `nth`. -/
theorem C136_witnesses :
    (exTold .sorting (exLib 8 2 .sorting 2) [1, 2, 3, 4]).map (·.map (·.data)) = some [[1, 3]] ∧
    (exTold .falling (exLib 8 2 .sorting 2) [1, 2, 3, 4]).map (·.map (·.data)) = some [[2, 1]] ∧
    (exTold .sorting (exLib 300 2 .sorting 0) ((List.range 201).map Int.ofNat)).map (·.map (·.perc100)) = some [200] ∧
    (exTold .descending (exLib 300 2 .sorting 0) ((List.range 201).map Int.ofNat)).map (·.map (·.perc100)) = some [199] ∧
    (exTold .sorting (exLib 3 2 .nth 0) [1, 2, 3, 4, 5, 6]).map (·.map (·.perc50)) = some [3] ∧
    (exTold .descending (exLib 3 2 .nth 0) [1, 2, 3, 4, 5, 6]).map (·.map (·.perc50)) = some [2] := by
  refine ⟨?_, ?_, ?_, ?_, ?_, ?_⟩ <;> decide +kernel

theorem exTold_lists {E : NthElement} {opt : AggregatorOpts} {vs : List Int} {α : Type} {f : AggData → α} {x : α}
    (h : (exTold E opt vs).map (·.map f) = some [x]) : ∃ d, exTold E opt vs = some [d] ∧ f d = x := by
  cases e : exTold E opt vs with
  | none => rw [e] at h; cases h
  | some l =>
    rw [e] at h
    injection h with h
    match l, h with
    | [d], h => exact ⟨d, rfl, by injection h⟩

theorem C136_refuted : ¬ C136_FullClaim := by
  intro h
  obtain ⟨_, _, _, _, w1, w2⟩ := C136_witnesses
  obtain ⟨d, e, e2⟩ := exTold_lists w1
  obtain ⟨d', e', e2'⟩ := exTold_lists w2
  obtain ⟨a, o, k1, k2, k3⟩ := exTold_some e
  obtain ⟨a', o', k1', k2', k3'⟩ := exTold_some e'
  rw [k1] at k1'
  cases k1'
  have := h { exactEnv with nth := .sorting } .descending _ a 0 0 1000 _ o o' (by decide) k1 k2 k2'
  rw [k3, k3'] at this
  cases this with
  | cons hd _ =>
    have := hd.1.p50
    rw [e2, e2'] at this
    revert this
    decide

/-! ### If rows are always sorted -/

/-- The reducer never asks for `nth_element`: mode `sorting`, or `adapt` with so few levels that it never leaves it. -/
def SortsAlways (opt : ReducerOpts) : Prop := opt.mode = .sorting ∨ opt.mode = .adapt ∧ (opt.levels = 0 ∨ opt.limit / opt.levels > 16)

theorem new_sorts {opt : ReducerOpts} (h : SortsAlways opt) : (Reducer.new opt).curMode = .sorting ∧ (Reducer.new opt).opt.mode = .sorting := by
  obtain ⟨limit, levels, mode, imode⟩ := opt
  unfold SortsAlways at h
  unfold Reducer.new Reducer.magic
  simp only at h
  rcases h with rfl | ⟨rfl, h⟩
  · simp
  · have : levels = 0 ∨ 16 < limit / levels := h
    simp [this]

theorem reduceLoop_sorting (E E' : NthElement) (n : Nat) : ∀ (k i l : Nat) (data : List (List Int)),
    Reducer.reduceLoop E .sorting n k i l data = Reducer.reduceLoop E' .sorting n k i l data := by
  intro k
  induction k with
  | zero => intro i l data; rfl
  | succ k ih =>
    intro i l data
    unfold Reducer.reduceLoop Reducer.getNth_ Reducer.nthIf
    simp only [ih, reduceCtorEq, if_false]

/-- In mode `sorting` the library does not matter to `reduce`, and the mode stays. -/
theorem reduce_sorting (env : Env) (E : NthElement) (r : Reducer) (h : r.curMode = .sorting) :
    Reducer.reduce { env with nth := E } r = Reducer.reduce env r := by
  unfold Reducer.reduce
  simp only [h, if_true]
  rw [reduceLoop_sorting E env.nth]

theorem detach_sorting (env : Env) (E : NthElement) (r : Reducer) (h : r.curMode = .sorting) :
    Reducer.detach { env with nth := E } r = Reducer.detach env r := by
  unfold Reducer.detach
  rw [reduce_sorting env E r h]

/-- Reducers that are the same and sort always. -/
def libTwins (env : Env) (E : NthElement) (opt : AggregatorOpts) : Twins env { env with nth := E } opt.outSize opt.outSize where
  R r r' := r' = r ∧ r.curMode = .sorting ∧ r.opt.mode = .sorting ∧ ∃ as, Reducer.GoodA env opt.toReducerOpts r as
  X x x' := x' = x
  D d d' := d' = d ∧ d.data.length ≤ opt.limit
  F d d' := SameTold d d' ∧ (opt.limit ≤ 200 → d'.perc100 = d.perc100) ∧
    (opt.outSize = 0 ∨ opt.limit ≤ opt.outSize → d'.data.Perm d.data)
  add {r r' x x'} g hx := by
    obtain ⟨rfl, h1, h2, as, h3⟩ := g
    subst hx
    obtain ⟨k1, k2⟩ := Reducer.add_opt env r' x'
    exact ⟨rfl, k2.trans h1, by rw [k1]; exact h2, _, Reducer.goodA_add h3 _⟩
  detach {r r' q q' o o'} g hd hd' := by
    obtain ⟨rfl, h1, h2, as, h3⟩ := g
    rw [detach_sorting env E r' h1, hd] at hd'
    cases hd'
    cases o with
    | none =>
      rcases Reducer.detach_spec h3 with ⟨_, e, er⟩ | ⟨ha, _, _, _, _, _, _, _, ⟨_, _, e⟩ | ⟨_, e⟩⟩
      · rw [e] at hd
        cases hd
        exact ⟨⟨rfl, h1, h2, as, h3⟩, .none⟩
      · rw [e] at hd; cases hd
      · rw [e] at hd; cases hd
    | some d =>
      have hs := summary_of_detach h3 hd
      obtain ⟨_, r1, er, k1, _, _, _, _, rfl, a, c, rfl⟩ := Reducer.detach_some h3 hd
      refine ⟨⟨rfl, ?_, ?_, [], Reducer.goodA_clear k1⟩, .some ⟨rfl, hs.bound⟩⟩
      · rcases reduce_mode er with h | ⟨_, h⟩
        · exact h.trans h1
        · rw [h2, if_neg (by decide)] at h
          exact h.trans h1
      · show r1.opt.mode = .sorting
        rw [k1.opt_eq, ← h3.opt_eq]
        exact h2
  setTs t g := by
    obtain ⟨rfl, h⟩ := g
    exact ⟨rfl, h⟩
  finish {d d' x x'} g e e' := by
    obtain ⟨rfl, hb⟩ := g
    obtain ⟨y, hy, k⟩ := finish_spec env.nth opt.outSize d'
    obtain ⟨y', hy', k'⟩ := finish_spec E opt.outSize d'
    rw [hy] at e
    have e' : finish E opt.outSize d' = .ok x' := e'
    rw [hy'] at e'
    cases e; cases e'
    have hfull : opt.outSize = 0 ∨ opt.limit ≤ opt.outSize → x'.data.Perm x.data := by
      intro h
      have h : opt.outSize = 0 ∨ d'.data.length ≤ opt.outSize := by omega
      exact (k'.full h).trans (k.full h).symm
    have hc : SameCounted x x' := ⟨by rw [k.ts, k'.ts], by rw [k.count, k'.count], by rw [k.min, k'.min], by rw [k.max, k'.max],
      by rw [k.avg, k'.avg]⟩
    by_cases hr : d'.data = []
    · have q : x'.toPerc = x.toPerc := by rw [k.noperc hr, k'.noperc hr]
      exact ⟨⟨hc, by rw [k.lossy, k'.lossy], by rw [k.size, k'.size], by rw [q], by rw [q], by rw [q], by rw [q]⟩, fun _ => by rw [q], hfull⟩
    · obtain ⟨a1, a2, a3, a4⟩ := percentiles_perm (List.Perm.refl _) (k'.perc hr) (k.perc hr)
      refine ⟨⟨hc, by rw [k.lossy, k'.lossy], by rw [k.size, k'.size], a1, a2, a3, a4⟩, fun h200 => ?_, hfull⟩
      unfold finish at hy hy'
      obtain ⟨z, ez, hy⟩ := bind_inv hy
      obtain ⟨_, _, hy⟩ := bind_inv hy
      obtain ⟨z', ez', hy'⟩ := bind_inv hy'
      obtain ⟨_, _, hy'⟩ := bind_inv hy'
      cases hy; cases hy'
      have m := C20_small_partial env.nth d' z hr (by omega) ez
      have m' := C20_small_partial E d' z' hr (by omega) ez'
      exact le_antisymm (m.2 _ m'.1) (m'.2 _ m.1)
  raw {d d'} g := by
    obtain ⟨rfl, _⟩ := g
    exact ⟨⟨⟨rfl, rfl, rfl, rfl, rfl⟩, rfl, rfl, rfl, rfl, rfl, rfl⟩, fun _ => rfl, fun _ => .refl _⟩

/-- If rows are always sorted, the records of every history tell the same with every library: times, counts, losses, extremes, averages,
numbers of samples and percentiles; `perc100` too if a window has no more than 200 samples, and the samples if they are not thinned
when they are delivered. -/
theorem C136_sorting_partial (env : Env) (E : NthElement) (opt : AggregatorOpts) (a0 : Aggregator) (clk rand ts : Int) (ops : List AOp)
    (o o' : AObs) (hs : 0 < opt.step) (hm : SortsAlways opt.toReducerOpts) (hn : Aggregator.new opt clk rand ts = .ok a0)
    (h : execAll env { a := a0 } ops = .ok o) (h' : execAll { env with nth := E } { a := a0 } ops = .ok o') :
    o'.accepted = o.accepted ∧
    List.Forall₂ (fun d d' => SameTold d d' ∧ (opt.limit ≤ 200 → d'.perc100 = d.perc100) ∧
      (opt.outSize = 0 ∨ opt.limit ≤ opt.outSize → d'.data.Perm d.data)) (o.received ++ o.a.agList) (o'.received ++ o'.a.agList) := by
  have hr : a0.sep.reducer = Reducer.new opt.toReducerOpts := by
    unfold Aggregator.new at hn
    obtain ⟨s, e, hn⟩ := bind_inv hn
    cases hn
    unfold Separator.new at e
    obtain ⟨_, _, e⟩ := bind_inv e
    cases e
    rfl
  have g := Twins.O.execAll (T := libTwins env E opt) (like_refl (X := (libTwins env E opt).X) (fun _ => rfl) ops)
    (Twins.O.start hs rfl rfl (.new hn) (.new hn) rfl rfl rfl rfl (fun g _ => ⟨rfl, by rw [hr]; exact (new_sorts hm).1,
      by rw [hr]; exact (new_sorts hm).2, [], g⟩)) h h'
  refine ⟨?_, List.rel_append g.received g.a.list⟩
  have := g.accepted
  generalize o.accepted = l at this
  generalize o'.accepted = l' at this
  clear g
  induction this with
  | nil => rfl
  | cons hd _ ih => rw [ih, Prod.ext hd.1.symm hd.2]

/-- With a library that leaves the lower part of the samples in descending order instead of one that sorts: the same percentiles, the
same samples in another order. -/
example : (exTold .sorting (exLib 8 2 .sorting 0) [7, 2, 9, 4]).map (·.map fun d => (d.data, [d.perc50, d.perc80, d.perc95, d.perc100])) =
      some [([2, 4, 7, 9], [7, 9, 9, 9])] ∧
    (exTold .falling (exLib 8 2 .sorting 0) [7, 2, 9, 4]).map (·.map fun d => (d.data, [d.perc50, d.perc80, d.perc95, d.perc100])) =
      some [([4, 7, 2, 9], [7, 9, 9, 9])] := by
  constructor <;> decide +kernel

end Wrtstat
