/-
When exactly the claims that the code violates hold: C14, C20, C21, C25.
-/
import Verif.Props.Separator
import Verif.Props.Aggregator
import Verif.Lemmas.RegistryStep

namespace Wrtstat

set_option autoImplicit false

/-! ### C20: the largest sample -/

open Aggregator

/-- A step of `calc_perc` that does not fall behind. -/
theorem nth_range {E : NthElement} {perc off off' : Nat} {d d' : List Int} {x : Int} (ho : off ≤ d.length * perc / 100)
    (h : nth_ E perc off d = .ok (x, off', d')) : off' = d.length * perc / 100 - off ∧ nthRange E d off (d.length * perc / 100) = .ok d' := by
  unfold nth_ at h
  simp only at h
  rw [if_neg (by omega)] at h
  obtain ⟨e, h1, h2⟩ := bind_inv h
  obtain ⟨y, _, h3⟩ := bind_inv h2
  cases h3
  exact ⟨rfl, h1⟩

theorem nthRange_perm {E : NthElement} {b k : Nat} {d d' : List Int} (h : nthRange E d b k = .ok d') :
    d' = d.take b ++ E.run (d.drop b) (k - b) ∧ d'.Perm d := by
  unfold nthRange at h
  split_ifs at h
  cases h
  refine ⟨rfl, ?_⟩
  have := (E.perm (d.drop b) (k - b)).append_left (d.take b)
  rwa [List.take_append_drop] at this

/-- With more than 200 different samples, a conforming `nth_element` makes `perc100` another sample than the largest. -/
theorem C20_large_refuted (ag ag' : AggData) (hn : ag.data.Nodup) (hl : 200 < ag.data.length) (h : calcPerc .descending ag = .ok ag') :
    ¬ IsMaxOf ag'.perc100 ag.data := by
  unfold calcPerc at h
  simp only at h
  rw [if_pos (by omega)] at h
  obtain ⟨⟨p50, o1, d1⟩, h1, h⟩ := bind_inv h
  obtain ⟨⟨p80, o2, d2⟩, h2, h⟩ := bind_inv h
  obtain ⟨⟨p95, o3, d3⟩, h3, h⟩ := bind_inv h
  obtain ⟨⟨p99, o4, d4⟩, h4, h⟩ := bind_inv h
  obtain ⟨p100, h5, h⟩ := bind_inv h
  cases h
  simp only at h1 h2 h3 h4 h5 ⊢
  obtain ⟨e1, r1⟩ := nth_range (Nat.zero_le _) h1
  obtain ⟨_, q1⟩ := nthRange_perm r1
  have l1 := q1.length_eq
  obtain ⟨e2, r2⟩ := nth_range (by rw [l1, e1]; omega) h2
  obtain ⟨_, q2⟩ := nthRange_perm r2
  have l2 := q2.length_eq
  obtain ⟨e3, r3⟩ := nth_range (by rw [l2, e2, l1, e1]; omega) h3
  obtain ⟨_, q3⟩ := nthRange_perm r3
  have l3 := q3.length_eq
  obtain ⟨e4, r4⟩ := nth_range (by rw [l3, e3, l2, e2, l1, e1]; omega) h4
  obtain ⟨s4, _⟩ := nthRange_perm r4
  have p3 : d3.Perm ag.data := q3.trans (q2.trans q1)
  have hlen : d3.length = ag.data.length := p3.length_eq
  have ho3 : o3 ≤ d3.length * 99 / 100 := by rw [l3, e3, l2, e2, l1, e1]; omega
  generalize hk : d3.length * 99 / 100 = k at *
  have hk2 : k + 3 ≤ d3.length := by omega
  generalize hS : sortInts (d3.drop o3) = S at *
  have hSl : S.length = d3.length - o3 := by
    rw [← hS, (sortInts_perm _).length_eq, List.length_drop]
  have hSs : S.Pairwise (· ≤ ·) := by rw [← hS]; exact sortInts_sorted _
  have hSn : S.Nodup := by
    rw [← hS]
    refine (sortInts_perm _).nodup_iff.2 ?_
    exact (p3.nodup_iff.2 hn).sublist (List.drop_sublist _ _)
  have hSm : ∀ v ∈ S, v ∈ ag.data := by
    intro v hv
    rw [← hS] at hv
    exact p3.mem_iff.1 (List.mem_of_mem_drop ((sortInts_perm _).mem_iff.1 hv))
  have hrun : NthElement.descending.run (d3.drop o3) (k - o3) = S.take (k - o3 + 1) ++ (S.drop (k - o3 + 1)).reverse := by
    rw [← hS]
    rfl
  rw [hrun] at s4
  have hx : d4[ag.data.length - 1]? = some p100 := by
    unfold deref at h5
    split at h5
    · cases h5; assumption
    · cases h5
  have hlast : p100 = S[k - o3 + 1]'(by omega) := by
    rw [s4, List.getElem?_append_right (by rw [List.length_take]; omega), List.getElem?_append_right (by simp only [List.length_take]; omega),
      List.getElem?_reverse (by simp only [List.length_take, List.length_drop]; omega), List.getElem?_drop] at hx
    simp only [List.length_take, List.length_drop] at hx
    rw [List.getElem?_eq_getElem (by omega)] at hx
    have := Option.some.inj hx
    rw [← this]
    congr 1
    omega
  intro hmax
  have hmem := hSm _ (List.getElem_mem (l := S) (n := S.length - 1) (by omega))
  have hle := hmax.2 _ hmem
  rw [hlast] at hle
  have hlt := List.pairwise_iff_getElem.1 (hSs.imp₂ (fun a b h1 h2 => lt_of_le_of_ne h1 h2) hSn) (k - o3 + 1) (S.length - 1) (by omega) (by omega) (by omega)
  omega

/-- For different samples, `perc100` is the largest one with every conforming `nth_element` exactly if there are at most 200. -/
theorem C20_exact_partial (ag : AggData) (hne : ag.data ≠ []) (hn : ag.data.Nodup) :
    (∀ (E : NthElement) (ag' : AggData), calcPerc E ag = .ok ag' → IsMaxOf ag'.perc100 ag.data) ↔ ag.data.length ≤ 200 := by
  constructor
  · intro h
    by_contra hl
    obtain ⟨d, p, e, _⟩ := calcPerc_spec .descending ag hne
    exact C20_large_refuted ag _ hn (by omega) e (h _ _ e)
  · intro hl E ag' h
    exact C20_small_partial E ag ag' hne hl h

/-- With 201 different samples there is a conforming `nth_element` that gets it wrong; with 200 there is none. -/
example : ¬ (∀ (E : NthElement) (ag' : AggData), calcPerc E { data := (List.range 201).map Int.ofNat } = .ok ag' →
      IsMaxOf ag'.perc100 ((List.range 201).map Int.ofNat)) ∧
    ∀ (E : NthElement) (ag' : AggData), calcPerc E { data := (List.range 200).map Int.ofNat } = .ok ag' →
      IsMaxOf ag'.perc100 ((List.range 200).map Int.ofNat) := by
  have hn : ∀ n, ((List.range n).map Int.ofNat).Nodup := fun n => List.nodup_range.map fun _ _ h => Int.ofNat.inj h
  refine ⟨fun h => ?_, (C20_exact_partial { data := (List.range 200).map Int.ofNat } (by simp) (hn _)).2 (by simp)⟩
  have := (C20_exact_partial { data := (List.range 201).map Int.ofNat } (by simp) (hn _)).1 h
  simp at this

/-! ### C21: the size after thinning -/

/-- The size is respected exactly if fewer than `2R` samples come in or `R` divides their number. -/
theorem C21_exact_partial (R : Nat) (d k : List Int) (hR : 0 < R) (h : reduce_ R d = .ok k) :
    k.length ≤ R ↔ d.length < 2 * R ∨ d.length % R = 0 := by
  constructor
  · intro hk
    by_contra hc
    rw [not_or] at hc
    obtain ⟨h1, h2⟩ := hc
    unfold reduce_ at h
    rw [if_neg (by omega), if_neg (show ¬ R * 2 > d.length by omega)] at h
    simp only at h
    generalize hn : d.length = N at *
    have hst : 2 ≤ N / R := (Nat.le_div_iff_mul_le hR).2 (by omega)
    have hmod := Nat.div_add_mod N R
    generalize hq : N / R = st at *
    have hlen := keepIdx_length_eq (s := st) (by omega) d 0
    rw [ceilDiv_zero (by omega), Nat.zero_add, hn, Nat.add_zero] at hlen
    have hgt : R + 1 ≤ ceilDiv N st := by
      unfold ceilDiv
      refine (Nat.le_div_iff_mul_le (by omega)).2 ?_
      rw [Nat.succ_mul]
      omega
    rw [if_neg (by omega)] at h
    cases h
    omega
  · exact (C21_size_partial R d k hR h).2.1

example : reduce_ 2 [1, 2, 3, 4, 5] = .ok [1, 3, 5] ∧ ¬ (5 < 2 * 2 ∨ 5 % 2 = 0) := by decide

/-! ### C14: events aligned to time zero -/

open Separator in
/-- An event aligned to time zero is treated as claimed exactly if the clock, which `separate` takes for the time of the event, is still
in the current window or in the first one of all. -/
theorem C14_exact_partial (env : Env) (opt : SeparatorOpts) (clk rand ts0 : Int) (s0 : Separator)
    (ops : List SOp) (o : Obs) (hs : 0 < opt.step) (h0 : Separator.new opt clk rand ts0 = .ok s0)
    (hc : ∀ op ∈ ops, op.clockOk) (h : Separator.execAll env { s := s0 } ops = .ok o)
    (clk1 clk2 ts : Int) (a : AddArg) (handler b : Bool) (out : List AggData) (s' : Separator) (hclk : 0 ≤ clk2)
    (hr : opt.resolution ≠ .none) (hz : align opt.step (meant opt.resolution clk1 ts) = 0)
    (hp : o.s.push env clk1 clk2 ts a handler = .ok (b, out, s')) :
    ((b = true ↔ o.s.currentTime ≤ 0) ∧ (b = false → out = [] ∧ s' = o.s)) ↔
      (align opt.step clk2 < o.s.nextTime ∨ align opt.step clk2 = 0) := by
  obtain ⟨log, g, _⟩ := sgood_execAll hs ops (sgood_new (env := env) h0) hc h
  obtain ⟨hst, hres⟩ := g.step
  obtain ⟨s1, pub, as', eff, hb, hs'⟩ := push_effect (by rw [hst]; exact hs) g.red hp
  rw [hst, hres, hz] at eff hb
  have hT2 : align opt.step (meant opt.resolution clk2 0) = align opt.step clk2 := by
    unfold meant
    rw [if_pos (by tauto)]
  rw [hT2] at eff
  have hs1 : s1.step = opt.step := eff.frame.1.trans hst
  rw [hs1] at hb
  have hTz : align opt.step clk2 < opt.step → align opt.step clk2 = 0 := by
    unfold align
    intro hlt
    have h1 : 0 ≤ clk2.tdiv opt.step := Int.tdiv_nonneg hclk (by omega)
    have h2 : clk2.tdiv opt.step < 1 := by
      by_contra h3
      have := Int.mul_le_mul_of_nonneg_right (show 1 ≤ clk2.tdiv opt.step by omega) (show 0 ≤ opt.step by omega)
      omega
    rw [show clk2.tdiv opt.step = 0 by omega, Int.zero_mul]
  unfold currentTime nextTime
  rw [hst]
  generalize align opt.step clk2 = T at *
  rcases eff.cases with ⟨c1, c2, c3, c4⟩ | ⟨c1, c2, c3, ⟨k, c4, c5⟩, c6, c7⟩
  · subst c3
    refine ⟨fun _ => .inl c1, fun _ => ⟨hb, ?_⟩⟩
    intro hf
    rw [hf] at hs'
    refine ⟨?_, by simpa using hs'⟩
    rw [eff.lists.1, c2]
    simp
  · rw [hst] at c3 c4
    have hk : opt.step ≤ k * opt.step := by
      have := Int.mul_le_mul_of_nonneg_right c5 (show 0 ≤ opt.step by omega)
      omega
    constructor
    · rintro ⟨_, h2⟩
      right
      by_cases hbt : b = true
      · have := hb.1 hbt
        exact hTz (by omega)
      · have hbf : b = false := by simpa using hbt
        have h3 := (h2 hbf).2
        rw [hbf] at hs'
        simp only [Bool.false_eq_true, if_false] at hs'
        rw [hs'] at h3
        rw [h3] at c4
        omega
    · rintro (h2 | h2)
      · omega
      · have hbt : b = true := hb.2 (by omega)
        refine ⟨⟨fun _ => by omega, fun _ => hbt⟩, fun hf => ?_⟩
        rw [hbt] at hf
        cases hf

/-- A new object with the current window `[0,10)`: an event at time 5 is accepted if the clock is at 7 and rejected if it is at 1005. -/
example : (Separator.push exactEnv { exSNew with next := 10 } 0 7 5 (.one 1 1) false).toOption.map (·.1) = some true ∧
    (Separator.push exactEnv { exSNew with next := 10 } 0 1005 5 (.one 1 1) false).toOption.map (·.1) = some false ∧
    (align 10 7 < 10 ∨ align 10 7 = 0) ∧ ¬ (align 10 1005 < 10 ∨ align 10 1005 = 0) := by decide +kernel

/-! ### C25: force_pop with completed windows waiting -/

/-- `force_pop` returns the oldest record there is exactly if no completed window is waiting. -/
theorem C25_exact_partial (env : Env) (opt : AggregatorOpts) (a0 a' : Aggregator) (ops : List AOp) (o : AObs)
    (x : Option AggData) (hs : 0 < opt.step) (h0 : Fresh env opt a0) (hc : ∀ op ∈ ops, op.clockOk) (hf : ∀ op ∈ ops, op.forced = false)
    (ht : ∀ op ∈ ops, op.timeOk opt) (h : Aggregator.execAll env { a := a0 } ops = .ok o) (hx : o.a.forcePop env = .ok (x, a')) :
    ((x = none → o.a.agList = []) ∧ ∀ d, x = some d → ∀ d' ∈ o.a.agList, d.ts ≤ d'.ts) ↔ o.a.agList = [] := by
  have hl : o.a.sep.sepList = [] := keep_execAll hs ops (pgood_fresh hs h0) hc (fresh_keep h0).1 ht h
  obtain ⟨_, h2, _⟩ := C26_force_pop env opt a0 a' ops o x hs h0 hc hf h hx
  obtain ⟨_, h5, _⟩ := h2 hl
  obtain ⟨log, hout, rraw, araw, gs, _, ha, _⟩ := agood_execAll (Q := fun _ _ => True) (ord := false)
    (fun _ _ _ => trivial) hs ops (agood_fresh hs h0) hc hf (by simp) (fun _ _ _ _ => trivial) h
  have hst : o.a.sep.step = opt.step := gs.step.1
  refine ⟨fun hcl => ?_, fun e => ⟨fun _ => e, fun d _ d' hd' => by rw [e] at hd'; cases hd'⟩⟩
  cases x with
  | none => exact hcl.1 rfl
  | some d =>
    have hts := h5 d rfl
    rw [List.eq_nil_iff_forall_not_mem]
    intro d' hd'
    have hle := hcl.2 d rfl d' hd'
    obtain ⟨raw, hraw, hdel⟩ := mem_forall2 ha d' hd'
    have hlog : raw ∈ log := gs.perm.mem_iff.2 (by simp only [List.mem_append]; exact .inl (.inr hraw))
    obtain ⟨_, k, hk, hkt⟩ := gs.recs raw hlog
    rw [hdel.ts, hts, hkt] at hle
    unfold Separator.currentTime at hle
    rw [hst] at hle
    have := Int.mul_le_mul_of_nonneg_right hk (show 0 ≤ opt.step by omega)
    simp only at hle
    omega

/-- In the example a window is waiting, and the claim fails. -/
example : exAObs.a.agList ≠ [] := by decide +kernel

end Wrtstat
