/-
C144: more room for samples, no fewer samples.
-/
import Verif.Props.Raise
import Verif.Props.Loss
import Verif.Props.Memory

namespace Wrtstat
open Aggregator

set_option autoImplicit false

/-! ### What thinning leaves -/

/-- Of more than `R` samples at least three quarters of `R` remain, and of fewer than `2R` at least half. -/
theorem C144_thinned (R n : Nat) (hn : R < n) : 3 * R ≤ 4 * thinned R n + 1 ∧ (n < 2 * R → n ≤ 2 * thinned R n + 1) := by
  unfold thinned
  by_cases h0 : R = 0
  · subst h0
    exact ⟨by omega, fun h => by omega⟩
  rw [if_neg (by omega)]
  by_cases h2 : n < 2 * R
  · rw [if_pos h2]
    have hm : 0 < n - R := by omega
    have hq : 2 ≤ n / (n - R) := (Nat.le_div_iff_mul_le hm).2 (by omega)
    have h3 : n / (n - R) * (n - R) ≤ n := Nat.div_mul_le_self _ _
    have h4 : n < (n / (n - R) + 1) * (n - R) := (Nat.div_lt_iff_lt_mul hm).1 (Nat.lt_succ_self _)
    generalize n / (n - R) = q at *
    have h5 : (n + q - 1) / q * q ≤ n + q - 1 := Nat.div_mul_le_self _ _
    generalize (n + q - 1) / q = c at *
    have hc : 2 * c ≤ n + 1 := by
      rcases Nat.eq_zero_or_pos c with rfl | hpos
      · omega
      · have : (c - 1) * 2 ≤ (c - 1) * q := Nat.mul_le_mul_left _ hq
        have e : c * q = (c - 1) * q + q := by
          rw [← Nat.succ_mul, Nat.succ_eq_add_one, Nat.sub_add_cancel hpos]
        omega
    refine ⟨?_, fun _ => by omega⟩
    rcases Nat.lt_or_ge q 4 with h6 | h6
    · have h7 : q = 2 ∨ q = 3 := by omega
      rcases h7 with rfl | rfl <;> omega
    · rcases Nat.eq_zero_or_pos c with rfl | hpos
      · omega
      · have : (c - 1) * 4 ≤ (c - 1) * q := Nat.mul_le_mul_left _ h6
        have e : c * q = (c - 1) * q + q := by
          rw [← Nat.succ_mul, Nat.succ_eq_add_one, Nat.sub_add_cancel hpos]
        omega
  · rw [if_neg h2]
    refine ⟨?_, fun h => absurd h h2⟩
    have := (C120_remains R n (by omega) hn).2.2 (by omega)
    rw [thinned, if_neg (by omega), if_neg h2] at this
    omega

theorem thinned_le (R n : Nat) : thinned R n ≤ n := by
  obtain ⟨k, e, hsub, _⟩ := reduce_total R (List.replicate n 0)
  have := reduce_length _ _ k e
  have h5 := hsub.length_le
  simp only [List.length_replicate] at this h5
  omega

/-- From at least `2R` samples no more than half remain, rounded up. -/
theorem thinned_half (R n : Nat) (hR : 0 < R) (hn : 2 * R ≤ n) : 2 * thinned R n ≤ n + 1 := by
  rw [thinned, if_neg (by omega), if_neg (by omega)]
  have hq : 2 ≤ n / R := (Nat.le_div_iff_mul_le hR).2 (by omega)
  generalize n / R = q at *
  have h5 : (n + q - 1) / q * q ≤ n + q - 1 := Nat.div_mul_le_self _ _
  generalize (n + q - 1) / q = c at *
  rcases Nat.eq_zero_or_pos c with rfl | hpos
  · omega
  · have : (c - 1) * 2 ≤ (c - 1) * q := Nat.mul_le_mul_left _ hq
    have e : c * q = (c - 1) * q + q := by
      rw [← Nat.succ_mul, Nat.succ_eq_add_one, Nat.sub_add_cancel hpos]
    omega

/-- More samples and a larger size: at least two thirds as many remain. -/
theorem C144_thirds (R R' n n' : Nat) (hR : R' = 0 ∨ 0 < R ∧ R ≤ R') (hn : n ≤ n') : 2 * thinned R n ≤ 3 * thinned R' n' := by
  have hl := thinned_le R n
  by_cases h' : R' = 0 ∨ n' ≤ R'
  · rw [(C120_thinned R' n').2 h']
    omega
  obtain ⟨a1, a2⟩ := C144_thinned R' n' (by omega)
  have a3 := C120_remains R' n' (by omega) (by omega)
  by_cases h : n ≤ R
  · rw [(C120_thinned R n).2 (.inr h)]
    omega
  have b := C120_remains R n (by omega) (by omega)
  by_cases h2 : n < 2 * R
  · omega
  · have b2 := thinned_half R n (by omega) (by omega)
    by_cases h3 : n' < 2 * R'
    · have := a2 h3
      omega
    · omega

/-! ### Records -/

/-- The second options leave more room for samples than the first, in the reducer and on the way out. -/
structure MoreRoom (opt opt' : AggregatorOpts) : Prop where
  limit : opt.limit ≤ opt'.limit
  levels : opt'.levels = 0 → opt.levels = 0
  out : opt'.outSize = 0 ∨ 0 < opt.outSize ∧ opt.outSize ≤ opt'.outSize

/-- The claim: with more room every record carries at least as many samples. -/
def C144_FullClaim : Prop :=
  ∀ (env env' : Env) (opt opt' : AggregatorOpts) (ops : List AOp) (o o' : AObs), OtherMemory env env' opt opt' ops o o' →
    MoreRoom opt opt' →
    List.Forall₂ (fun d d' => d.data.length ≤ d'.data.length) (o.received ++ o.a.agList) (o'.received ++ o'.a.agList)

variable {env env' : Env} {opt opt' : AggregatorOpts} {he : env'.rnd = env.rnd}

theorem room_of_twins {d d' : AggData} (h : (callTwins env env' he opt opt').F d d') (hm : MoreRoom opt opt') :
    2 * d.data.length ≤ 3 * d'.data.length ∧ (opt'.outSize = 0 ∨ opt'.limit ≤ opt'.outSize → d.data.length ≤ d'.data.length) := by
  obtain ⟨raw, raw', p, h⟩ := h
  obtain ⟨as, s, s'⟩ := p.calls
  have g : raw.data.length ≤ raw'.data.length := by
    have := hm.limit
    have := hm.levels
    have b := s.size
    have b' := s'.size
    split_ifs at b b' with h1 h2 h2 <;> simp only at * <;> omega
  have hb : raw'.data.length ≤ opt'.limit := s'.bound
  rcases h with ⟨rfl, rfl⟩ | ⟨e, e'⟩
  · exact ⟨by omega, fun _ => g⟩
  · rw [e.size, e'.size]
    refine ⟨C144_thirds _ _ _ _ hm.out g, fun k => ?_⟩
    rw [(C120_thinned opt'.outSize raw'.data.length).2 (by omega)]
    exact le_trans (thinned_le _ _) g

/-- With more room every record, received or held, carries at least two thirds as many samples. -/
theorem C144_thirds_partial (ops : List AOp) (o o' : AObs) (h : OtherMemory env env' opt opt' ops o o') (hm : MoreRoom opt opt') :
    List.Forall₂ (fun d d' => 2 * d.data.length ≤ 3 * d'.data.length) (o.received ++ o.a.agList) (o'.received ++ o'.a.agList) :=
  List.rel_append (h.twins.received.imp fun _ _ k => (room_of_twins k hm).1) (h.twins.a.list.imp fun _ _ k => (room_of_twins k hm).1)

/-- The claim holds if the larger room is not thinned on the way out. -/
theorem C144_unthinned_partial (ops : List AOp) (o o' : AObs) (h : OtherMemory env env' opt opt' ops o o') (hm : MoreRoom opt opt')
    (hu : opt'.outSize = 0 ∨ opt'.limit ≤ opt'.outSize) :
    List.Forall₂ (fun d d' => d.data.length ≤ d'.data.length) (o.received ++ o.a.agList) (o'.received ++ o'.a.agList) :=
  List.rel_append (h.twins.received.imp fun _ _ k => (room_of_twins k hm).2 hu)
    (h.twins.a.list.imp fun _ _ k => (room_of_twins k hm).2 hu)

/-! ### Fewer samples -/

/-- Eleven values delivered in twos, with a limit of 5 and of 6, and nine values delivered in fours and in fives. -/
theorem C144_witnesses :
    (exRaise exactEnv (exLib 5 3 .sorting 2) [.many [1, 2, 3, 4, 5, 6, 7, 8, 9, 10, 11] 11]).map (·.map (·.data)) = some [[1, 4, 7]] ∧
    (exRaise exactEnv (exLib 6 3 .sorting 2) [.many [1, 2, 3, 4, 5, 6, 7, 8, 9, 10, 11] 11]).map (·.map (·.data)) = some [[1, 6]] ∧
    (exRaise exactEnv (exLib 9 3 .sorting 4) [.many [1, 2, 3, 4, 5, 6, 7, 8, 9] 9]).map (·.map (·.data)) = some [[1, 3, 5, 7, 9]] ∧
    (exRaise exactEnv (exLib 9 3 .sorting 5) [.many [1, 2, 3, 4, 5, 6, 7, 8, 9] 9]).map (·.map (·.data)) = some [[2, 4, 6, 8]] := by
  refine ⟨?_, ?_, ?_, ?_⟩ <;> decide +kernel

/-- If the claim held, the record of one window would not lose samples by more room. -/
theorem exRaise_room (hc : C144_FullClaim) {opt opt' : AggregatorOpts} {as : List AddArg} (hs : 0 < opt.step) (hst : opt'.step = opt.step)
    (hres : opt'.resolution = opt.resolution) (hm : MoreRoom opt opt') {t : Int}
    (hn : (Aggregator.new opt 0 0 1000).toOption.map (fun a => (a.sep.nextTime, a.enabled)) = some (t, true))
    (hn' : (Aggregator.new opt' 0 0 1000).toOption.map (fun a => (a.sep.nextTime, a.enabled)) = some (t, true)) {x x' : List Int}
    (h : (exRaise exactEnv opt as).map (·.map (·.data)) = some [x]) (h' : (exRaise exactEnv opt' as).map (·.map (·.data)) = some [x']) :
    x.length ≤ x'.length := by
  cases e : exRaise exactEnv opt as with
  | none => rw [e] at h; cases h
  | some l =>
    cases e' : exRaise exactEnv opt' as with
    | none => rw [e'] at h'; cases h'
    | some l' =>
      rw [e] at h
      rw [e'] at h'
      injection h with h
      injection h' with h'
      obtain ⟨a, o, k1, k2, rfl⟩ := exRaise_some e
      obtain ⟨a', o', k1', k2', rfl⟩ := exRaise_some e'
      rw [k1] at hn
      rw [k1'] at hn'
      simp only [Except.toOption, Option.map_some, Option.some.injEq, Prod.mk.injEq] at hn hn'
      have g := hc exactEnv exactEnv opt opt' _ o o'
        ⟨rfl, hs, hst, hres, a, a', .new k1, .new k1', by rw [hn.1, hn'.1], by rw [hn.2, hn'.2], k2, k2'⟩ hm
      generalize o.received ++ o.a.agList = l at g h
      generalize o'.received ++ o'.a.agList = l' at g h'
      match l, l', g, h, h' with
      | [d], [d'], .cons hd _, h, h' =>
        injection h with h
        injection h' with h'
        rw [← h, ← h']
        exact hd

/-- A larger limit, with the same size: three samples become two. -/
theorem C144_refuted : ¬ C144_FullClaim := by
  intro hc
  obtain ⟨h, h', _⟩ := C144_witnesses
  have := exRaise_room hc (opt := exLib 5 3 .sorting 2) (opt' := exLib 6 3 .sorting 2) (by decide) rfl rfl
    ⟨by decide, by decide, by decide⟩ (t := 1010) (by decide +kernel) (by decide +kernel) h h'
  revert this
  decide

/-- A larger size, with the same limit: five samples become four. -/
theorem C144_refuted_size : ¬ C144_FullClaim := by
  intro hc
  obtain ⟨_, _, h, h'⟩ := C144_witnesses
  have := exRaise_room hc (opt := exLib 9 3 .sorting 4) (opt' := exLib 9 3 .sorting 5) (by decide) rfl rfl
    ⟨by decide, by decide, by decide⟩ (t := 1010) (by decide +kernel) (by decide +kernel) h h'
  revert this
  decide

/-- Two thirds are reached, three quarters and the half as well. -/
example : (thinned 2 5, thinned 2 6, thinned 3 5, thinned 5 9) = (3, 2, 2, 4) := by decide

end Wrtstat
