import Verif.Lemmas.Detach
import Verif.Spec.Window

namespace Wrtstat

theorem new_limits (opt : ReducerOpts) : (Reducer.new opt).opt.limit = opt.limit ∧
    (Reducer.new opt).opt.levels = opt.levels := by
  unfold Reducer.new; split_ifs <;> exact ⟨rfl, rfl⟩

open Reducer in
theorem avg_exact {env : Env} {vs : List Int} {a : Int} (he : ∀ x, env.rnd x = x) (hne : vs ≠ [])
    (hc : castInt (avgFold env vs).1 = .ok a) : a = vs.sum.tdiv vs.length := by
  have hex := avgFold_exact (env := env) (funext he) vs
  have hpos : 0 < vs.length := List.length_pos_iff.2 hne
  have hq : (avgFold env vs).1 = (vs.sum : Rat) / vs.length := by
    have : (vs.length : Rat) ≠ 0 := by exact_mod_cast hpos.ne'
    rw [eq_div_iff this]; exact hex
  rw [hq] at hc
  by_cases hin : InI64 (vs.sum.tdiv vs.length)
  · rw [castInt_div _ _ hpos hin] at hc
    cases hc; rfl
  · exfalso
    unfold castInt at hc
    simp only [castInt_trunc _ _ hpos, hin, if_false] at hc
    cases hc

open Reducer in
theorem summary_of_detach {env : Env} {opt : ReducerOpts} {r r' : Reducer} {as : List AddArg}
    {d : AggData} (h : GoodA env opt r as) (hd : detach env r = .ok (some d, r')) :
    Summary env opt.limit opt.levels as d := by
  obtain ⟨hne, r1, _, g, hl, hlo, _, _, _, a, hc, rfl⟩ := detach_some h hd
  obtain ⟨ho1, ho2⟩ := new_limits opt
  rw [← g.opt_eq] at ho1 ho2
  have hbal : r.lossyCount + (r1.data.headD []).length = sumWeight as := by
    rw [← hlo, ← g.good.bal]
    congr 1
    unfold size
    match hr : r1.data with
    | [] => simp
    | [x] => simp
    | x :: y :: l => rw [hr] at hl; simp at hl
  have hsub : (r1.data.headD []).Subperm (allValues as) := by
    have hs := g.good.sub
    match hr : r1.data with
    | [] => simp
    | [x] => rw [hr] at hs; simpa using hs
    | x :: y :: l => rw [hr] at hl; simp at hl
  refine ⟨hne, h.good.total, hbal, fun x => hsub.count_le x, ?_, ?_, ?_, h.good.min, h.good.max, ?_⟩
  · have hwf := g.good.wf
    unfold WF Shape at hwf
    simp only [resultOf]
    match hr : r1.data with
    | [] => simp
    | [x] =>
      rw [hr] at hwf
      rcases hwf with h | ⟨ini, last, e, _, _, hle, _⟩
      · cases h
      · have : ini = [] ∧ x = last := by
          cases ini with
          | nil => simp at e; exact ⟨rfl, e⟩
          | cons a b => simp at e
        rw [ho1] at hle
        simpa [this.2] using hle
    | x :: y :: l => rw [hr] at hl; simp at hl
  · simp only [resultOf]
    by_cases h0 : opt.levels = 0
    · rw [if_pos h0]
      rcases g.good.wf with e | ⟨ini, last, _, _, _, _, h3⟩
      · simp [e]
      · omega
    · rw [if_neg h0, g.good.head (by omega), ho1]
  · intro a b
    have hp := (g.good.ll (by omega) (by omega)).2
    simp only [resultOf]
    match hr : r1.data with
    | [] => rw [hr] at hp; simpa using hp
    | [x] => rw [hr] at hp; simpa using hp
    | x :: y :: l => rw [hr] at hl; simp at hl
  · intro he hv
    rw [h.good.avg] at hc
    exact avg_exact he hv hc

theorem summary_ts {env : Env} {limit levels : Nat} {as : List AddArg} {d : AggData} {t : Int}
    (h : Summary env limit levels as d) : Summary env limit levels as { d with ts := t } :=
  ⟨h.nonempty, h.count, h.balance, h.samples, h.bound, h.size, h.complete, h.min, h.max, h.avg⟩

namespace Separator
open Reducer

/-! ### Alignment -/

theorem getTs_eq {step : Int} {res : Resolution} {clk ts : Int} (hs : step ≠ 0) :
    getTsWith step res clk ts = .ok (align step (meant res clk ts)) := by
  unfold getTsWith meant align
  simp only [hs, if_false]
  by_cases h : ts = 0 <;> by_cases h2 : res = .none <;> simp [h, h2]

theorem align_mul {step : Int} (hs : step ≠ 0) (k : Int) : align step (k * step) = k * step := by
  unfold align; rw [Int.mul_tdiv_cancel _ hs]

theorem align_idem {step : Int} (hs : step ≠ 0) (t : Int) : align step (align step t) = align step t := by
  unfold align; rw [Int.mul_tdiv_cancel _ hs]

/-! ### The separation loop -/

theorem detach_nil {env : Env} {opt : ReducerOpts} {r : Reducer} (g : GoodA env opt r []) :
    detach env r = .ok (none, r) := by
  rcases detach_spec g with ⟨_, e, _⟩ | ⟨h, _⟩
  · exact e
  · exact absurd rfl h

/-- With an empty reducer the loop only advances time. -/
theorem sepLoop_empty {env : Env} {opt : ReducerOpts} {step ts : Int} (hs : 0 < step) :
    ∀ (n : Nat) (next : Int) (r : Reducer), (ts - next + 1).toNat ≤ n → GoodA env opt r [] →
      ∃ next', sepLoop env step ts next r = .ok ([], next', r) ∧ ts < next' ∧ next ≤ next' ∧
        (next ≤ ts → next' - step ≤ ts) ∧ (ts < next → next' = next) ∧ ∃ k : Int, next' = next + k * step ∧ 0 ≤ k := by
  intro n
  induction n with
  | zero =>
    intro next r hn g
    unfold sepLoop
    rw [dif_neg (by omega)]
    exact ⟨next, rfl, by omega, le_refl _, by omega, fun _ => rfl, 0, by simp⟩
  | succ n ih =>
    intro next r hn g
    unfold sepLoop
    by_cases h : next ≤ ts
    · rw [dif_pos h, dif_pos hs]
      rw [detach_nil g]
      simp only [bind_ok]
      obtain ⟨next', e, h1, h2, h3, h4, k, h5, h6⟩ := ih (next + step) r (by omega) g
      rw [e]
      simp only [bind_ok]
      refine ⟨next', rfl, h1, by omega, ?_, by omega, k + 1, by rw [h5]; ring, by omega⟩
      intro _
      by_cases h' : next + step ≤ ts
      · exact h3 h'
      · rw [h4 (by omega)]; omega
    · rw [dif_neg h]
      exact ⟨next, rfl, by omega, le_refl _, by omega, fun _ => rfl, 0, by simp⟩

/-- What the loop does in general. -/
theorem sepLoop_spec {env : Env} {opt : ReducerOpts} {step ts next : Int} (hs : 0 < step)
    {r : Reducer} {as : List AddArg} (g : GoodA env opt r as) :
    (ts < next ∧ sepLoop env step ts next r = .ok ([], next, r)) ∨
    (next ≤ ts ∧ ∃ next', ts < next' ∧ next' - step ≤ ts ∧ (∃ k : Int, next' = next + k * step ∧ 1 ≤ k) ∧
      ((∃ e, detach env r = .error e ∧ sepLoop env step ts next r = .error e) ∨
       (as = [] ∧ sepLoop env step ts next r = .ok ([], next', r)) ∨
       (as ≠ [] ∧ ∃ d r', detach env r = .ok (some d, r') ∧ GoodA env opt r' [] ∧
          sepLoop env step ts next r = .ok ([{ d with ts := next - step }], next', r')))) := by
  by_cases h : next ≤ ts
  · right
    refine ⟨h, ?_⟩
    unfold sepLoop
    rw [dif_pos h, dif_pos hs]
    rcases detach_spec g with ⟨hp, e, hcl⟩ | ⟨hne, r1, er, g1, hl, hlo, hk, ha, ⟨a, hc, e⟩ | ⟨_, e⟩⟩
    · subst hp
      obtain ⟨next', e', h1, h2, h3, h4, k, h5, h6⟩ := sepLoop_empty (env := env) (opt := opt) (ts := ts) hs _
        (next + step) r (le_refl _) g
      refine ⟨next', h1, ?_, ⟨k + 1, by rw [h5]; ring, by omega⟩, .inr (.inl ⟨rfl, ?_⟩)⟩
      · by_cases h' : next + step ≤ ts
        · exact h3 h'
        · rw [h4 (by omega)]; omega
      · rw [e]; simp only [bind_ok]; rw [e']; rfl
    · obtain ⟨next', e', h1, h2, h3, h4, k, h5, h6⟩ := sepLoop_empty (env := env) (opt := opt) (ts := ts) hs _
        (next + step) r1.clear (le_refl _) (goodA_clear g1)
      refine ⟨next', h1, ?_, ⟨k + 1, by rw [h5]; ring, by omega⟩, .inr (.inr ⟨hne, _, _, e, goodA_clear g1, ?_⟩)⟩
      · by_cases h' : next + step ≤ ts
        · exact h3 h'
        · rw [h4 (by omega)]; omega
      · rw [e]; simp only [bind_ok]; rw [e']; rfl
    · obtain ⟨next', e', h1, h2, h3, h4, k, h5, h6⟩ := sepLoop_empty (env := env) (opt := opt) (ts := ts) hs _
        (next + step) r1.clear (le_refl _) (goodA_clear g1)
      refine ⟨next', h1, ?_, ⟨k + 1, by rw [h5]; ring, by omega⟩, .inl ⟨_, e, ?_⟩⟩
      · by_cases h' : next + step ≤ ts
        · exact h3 h'
        · rw [h4 (by omega)]; omega
      · rw [e]; rfl
  · left
    refine ⟨by omega, ?_⟩
    unfold sepLoop
    rw [dif_neg h]

end Separator
end Wrtstat
