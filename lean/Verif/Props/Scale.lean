/-
C124: a change of the unit of the values changes nothing but the unit.
-/
import Verif.Lemmas.Scale
import Verif.Props.Aggregator

namespace Wrtstat

set_option autoImplicit false

open Aggregator

/-- The claim: with all values multiplied by `k`, every record received is the same, its values multiplied by `k`. -/
def C124_FullClaim : Prop :=
  ∀ (opt : AggregatorOpts) (a0 : Aggregator) (ops : List AOp) (o o' : AObs) (k : Int), 0 < k → 0 < opt.step → Fresh exactEnv opt a0 →
    (∀ op ∈ ops, op.clockOk) → (∀ op ∈ ops, ∀ v ∈ op.all, InI64 v ∧ InI64 (k * v)) →
    execAll exactEnv { a := a0 } ops = .ok o → execAll exactEnv { a := a0 } (ops.map (AOp.mapV (k * ·))) = .ok o' →
    List.Forall₂ (fun d d' => Rescaled (k * ·) d d' ∧ d'.avg = k * d.avg) o.received o'.received

theorem obs_of_map {α : Type} {x : M AObs} {g : AObs → α} {y : α} (h : x.toOption.map g = some y) : ∃ o, x = .ok o ∧ g o = y := by
  cases x with
  | error e => cases h
  | ok o =>
    injection h with h
    exact ⟨o, rfl, h⟩

/-- The average is a whole number: that of 1 and 2 is told as 1, that of 10 and 20 as 15. -/
theorem C124_refuted : ¬ C124_FullClaim := by
  intro h
  have hr : (execAll exactEnv { a := exANew } [.add 0 0 1003 (.many [1, 2] 2), .forcePop]).toOption.map
      (fun o => o.received.map (·.avg)) = some [1] := by decide +kernel
  have hr' : (execAll exactEnv { a := exANew } (([.add 0 0 1003 (.many [1, 2] 2), .forcePop] : List AOp).map (AOp.mapV (10 * ·)))).toOption.map
      (fun o => o.received.map (·.avg)) = some [15] := by decide +kernel
  obtain ⟨o, e1, e2⟩ := obs_of_map hr
  obtain ⟨o', e1', e2'⟩ := obs_of_map hr'
  have := h exAOpt exANew _ o o' 10 (by decide) (by decide) (exANew_fresh _) (by decide) (by decide) e1 e1'
  generalize o.received = l at this e2
  generalize o'.received = l' at this e2'
  cases this with
  | nil => cases e2
  | cons hd ht =>
    simp only [List.map_cons, List.cons.injEq] at e2 e2'
    have := hd.2
    omega

/-- A change that moves zero is another matter: the minimum 0 of a summary handed over stands for none, so that with all values
one higher a minimum is told where there was none. -/
theorem C124_refuted_shift : ∃ (ops : List AOp) (o o' : AObs), (∀ op ∈ ops, op.clockOk) ∧
    (∀ op ∈ ops, ∀ v ∈ op.all, InI64 v ∧ InI64 (v + 1)) ∧ execAll exactEnv { a := exANew } ops = .ok o ∧
    execAll exactEnv { a := exANew } (ops.map (AOp.mapV (· + 1))) = .ok o' ∧
    o.received.map (·.min) = [7] ∧ o'.received.map (·.min) = [1] := by
  have hr : (execAll exactEnv { a := exANew }
      [.add 0 0 1003 (.reduced { count := 2, data := [7, 9], min := 0, max := 9 }), .add 0 0 1003 (.one 7 1), .forcePop]).toOption.map
      (fun o => o.received.map (·.min)) = some [7] := by decide +kernel
  have hr' : (execAll exactEnv { a := exANew } (([.add 0 0 1003 (.reduced { count := 2, data := [7, 9], min := 0, max := 9 }),
      .add 0 0 1003 (.one 7 1), .forcePop] : List AOp).map (AOp.mapV (· + 1)))).toOption.map
      (fun o => o.received.map (·.min)) = some [1] := by decide +kernel
  obtain ⟨o, e1, e2⟩ := obs_of_map hr
  obtain ⟨o', e1', e2'⟩ := obs_of_map hr'
  exact ⟨_, o, o', by decide, by decide, e1, e1', e2, e2'⟩

theorem fresh_sim (f : Int → Int) {env : Env} {opt : AggregatorOpts} {a : Aggregator} (h : Fresh env opt a) : ASim f a a := by
  cases h with
  | new h =>
    unfold Aggregator.new Separator.new at h
    obtain ⟨s, e, h⟩ := bind_inv h
    obtain ⟨t, _, e⟩ := bind_inv e
    cases e; cases h
    exact ⟨⟨rfl, rfl, rfl, Reducer.RSim.new _, .nil⟩, rfl, rfl, rfl, .nil⟩
  | clear _ _ _ h =>
    unfold Aggregator.clear Separator.clear at h
    obtain ⟨s, e, h⟩ := bind_inv h
    obtain ⟨t, _, e⟩ := bind_inv e
    cases e; cases h
    exact ⟨⟨rfl, rfl, rfl, ⟨rfl, rfl, rfl, rfl, rfl, .inr ⟨rfl, rfl⟩, .inr ⟨rfl, rfl⟩, rfl⟩, .nil⟩, rfl, rfl, rfl, .nil⟩

/-- With every value changed by a function that keeps zero and the order, the same events are recorded, and every record received or
still held is the same, samples, percentiles and extremes changed by that function. With any rounding, and with every algorithm
that looks at values by comparing them only. -/
theorem C124_records_partial (env : Env) (hE : env.nth.Comparing) (f : Int → Int) (hf : StrictMono f) (h0 : f 0 = 0)
    (opt : AggregatorOpts) (a0 : Aggregator) (ops : List AOp) (o o' : AObs) (ha : Fresh env opt a0)
    (hv : ∀ op ∈ ops, ∀ v ∈ op.all, InI64 v ∧ InI64 (f v)) (h : execAll env { a := a0 } ops = .ok o)
    (h' : execAll env { a := a0 } (ops.map (AOp.mapV f)) = .ok o') :
    List.Forall₂ (Rescaled f) o.received o'.received ∧ List.Forall₂ (Rescaled f) o.a.agList o'.a.agList ∧
    o'.accepted = o.accepted.map (fun e => (e.1, e.2.mapV f)) ∧ o'.a.sep.nextTime = o.a.sep.nextTime ∧
    o'.a.sep.currentTime = o.a.sep.currentTime := by
  have g := OSim.execAll hE hf h0 ops (o := { a := a0 }) (o' := { a := a0 }) ⟨fresh_sim f ha, .nil, rfl⟩ hv h h'
  refine ⟨g.received, g.a.list, g.accepted, g.a.sep.next, ?_⟩
  show o'.a.sep.next - o'.a.sep.step = o.a.sep.next - o.a.sep.step
  rw [g.a.sep.next, g.a.sep.step]

theorem allValues_mapV (f : Int → Int) (as : List AddArg) : allValues (as.map (AddArg.mapV f)) = (allValues as).map f := by
  unfold allValues
  rw [List.flatMap_map, List.map_flatMap]
  congr 1
  funext a
  cases a with
  | one v c => rfl
  | many vs c => rfl
  | init vs => rfl
  | reduced rd => rfl

theorem eventsIn_mapV (f : Int → Int) (acc : List (Int × AddArg)) (lo hi : Int) :
    eventsIn (acc.map fun e => (e.1, e.2.mapV f)) lo hi = (eventsIn acc lo hi).map (AddArg.mapV f) := by
  unfold eventsIn
  rw [List.filter_map, List.map_map, List.map_map]
  rfl

theorem sum_scale (k : Int) (l : List Int) : (l.map (k * ·)).sum = k * l.sum := by
  induction l with
  | nil => simp
  | cons x l ih => rw [List.map_cons, List.sum_cons, List.sum_cons, ih]; ring

theorem tdiv_scale (k s n : Int) (hk : 0 < k) (hn : 0 < n) : |(k * s).tdiv n - k * s.tdiv n| < k := by
  have pos : ∀ s : Int, 0 ≤ s → |(k * s).tdiv n - k * s.tdiv n| < k := by
    intro s hs
    rw [Int.tdiv_eq_ediv_of_nonneg hs, Int.tdiv_eq_ediv_of_nonneg (by positivity)]
    have h1 := Int.mul_ediv_self_le (x := s) (k := n) hn.ne'
    have h2 := Int.lt_mul_ediv_self_add (x := s) (k := n) hn
    have h3 : k * (s / n) ≤ k * s / n := by
      rw [Int.le_ediv_iff_mul_le hn]
      nlinarith
    have h4 : k * s / n < k * (s / n) + k := by
      rw [Int.ediv_lt_iff_lt_mul hn]
      nlinarith
    rw [abs_lt]
    omega
  rcases le_total 0 s with h | h
  · exact pos s h
  · have := pos (-s) (by omega)
    rw [mul_neg, Int.neg_tdiv, Int.neg_tdiv, mul_neg, ← abs_neg] at this
    have e : -(-(k * s).tdiv n - -(k * s.tdiv n)) = (k * s).tdiv n - k * s.tdiv n := by ring
    rw [e] at this
    exact this

/-- In exact arithmetic the average of values multiplied by `k` is `k` times their average, up to less than `k`. -/
theorem C124_average_partial (env : Env) (hE : env.nth.Comparing) (he : ∀ x, env.rnd x = x) (k : Int) (hk : 0 < k)
    (opt : AggregatorOpts) (a0 : Aggregator) (ops : List AOp) (o o' : AObs) (hs : 0 < opt.step) (ha : Fresh env opt a0)
    (hv : ∀ op ∈ ops, ∀ v ∈ op.all, InI64 v ∧ InI64 (k * v)) (hc : ∀ op ∈ ops, op.clockOk) (hf : ∀ op ∈ ops, op.forced = false)
    (hp : ∀ op ∈ ops, op.handed = false) (h : execAll env { a := a0 } ops = .ok o)
    (h' : execAll env { a := a0 } (ops.map (AOp.mapV (k * ·))) = .ok o') :
    List.Forall₂ (fun d d' => allValues (eventsIn o.accepted d.ts (d.ts + opt.step)) ≠ [] → |d'.avg - k * d.avg| < k)
      (o.received ++ o.a.agList) (o'.received ++ o'.a.agList) := by
  obtain ⟨h1, h2, h3, -⟩ := C124_records_partial env hE (k * ·) (fun a b hab => by simpa using (mul_lt_mul_iff_right₀ hk).2 hab) (by simp) opt a0
    ops o o' ha hv h h'
  have all : List.Forall₂ _ (o.received ++ o.a.agList) (o'.received ++ o'.a.agList) := List.rel_append h1 h2
  have f1 := (C22_fifo env opt a0 ops o hs ha hc hf hp h).2
  have f2 := (C22_fifo env opt a0 _ o' hs ha (by
      intro op hm
      obtain ⟨x, hx, rfl⟩ := List.mem_map.1 hm
      have := hc x hx
      cases x <;> exact this) (by
      intro op hm
      obtain ⟨x, hx, rfl⟩ := List.mem_map.1 hm
      have := hf x hx
      cases x <;> exact this) (by
      intro op hm
      obtain ⟨x, hx, rfl⟩ := List.mem_map.1 hm
      have := hp x hx
      cases x <;> exact this) h').2
  generalize o.received ++ o.a.agList = l at all f1
  generalize o'.received ++ o'.a.agList = l' at all f2
  rw [h3] at f2
  clear h1 h2 h h'
  induction all with
  | nil => exact .nil
  | @cons x y _ _ hd ht ih =>
    refine .cons ?_ (ih (fun d hm => f1 d (List.mem_cons_of_mem _ hm)) (fun d hm => f2 d (List.mem_cons_of_mem _ hm)))
    intro hne
    obtain ⟨raw, s, e⟩ := (f1 _ List.mem_cons_self).2
    obtain ⟨raw', s', e'⟩ := (f2 _ List.mem_cons_self).2
    rw [hd.ts, eventsIn_mapV] at s'
    have hne' : allValues ((eventsIn o.accepted x.ts (x.ts + opt.step)).map (AddArg.mapV (k * ·))) ≠ [] := by
      rw [allValues_mapV]
      simpa using hne
    rw [e.avg, e'.avg, s.avg he hne, s'.avg he hne', allValues_mapV, sum_scale, List.length_map]
    exact tdiv_scale k _ _ hk (by exact_mod_cast List.length_pos_iff.2 hne)

/-- The history of the examples of C22 with the values in thousands. -/
example : (execAll exactEnv { a := exANew } (exAOps.map (AOp.mapV (1000 * ·)))).toOption.map
    (fun o => o.received.map fun d => (d.data, d.perc50, d.min, d.max)) =
      some [([5000, 7000, 9000], 7000, 2000, 9000)] := by decide +kernel

example : exactEnv.nth.Comparing := comparing_sorting

end Wrtstat
