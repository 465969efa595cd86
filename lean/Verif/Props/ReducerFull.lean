/-
C96: how full a reducer is, and how many samples a summary holds.
-/
import Verif.Lemmas.ReducerFull
import Verif.Props.Reducer

namespace Wrtstat
open Reducer

set_option autoImplicit false

/-- `filled()` says that the reducer holds as many values as it ever can. -/
theorem C96_filled (env : Env) (opt : ReducerOpts) (ops : List ROp) (r : Reducer) (h : run env (new opt) ops = .ok r) :
    r.filled = true ↔ r.size = opt.limit * opt.levels := by
  have g := goodA_run h
  have ho : r.opt.limit = opt.limit ∧ r.opt.levels = opt.levels := by
    rw [g.opt_eq]; unfold new; split_ifs <;> exact ⟨rfl, rfl⟩
  rw [← ho.1, ← ho.2]
  have hw := g.good.wf
  have hb := shape_size_le hw
  unfold filled size
  by_cases h0 : r.opt.levels = 0 ∨ r.opt.limit = 0
  · rw [if_pos h0]
    have : r.opt.limit * r.opt.levels = 0 := by rcases h0 with h | h <;> simp [h]
    rw [this] at hb ⊢
    exact ⟨fun _ => by omega, fun _ => rfl⟩
  rw [if_neg h0]
  rw [not_or] at h0
  rcases hw with hn | ⟨ini, last, e, hi, h1, h2, h3⟩
  · simp only [hn, if_true, Bool.false_eq_true, false_iff, List.map_nil, List.sum_nil]
    exact fun h => absurd (Nat.mul_eq_zero.1 h.symm) (by omega)
  · have hne : r.data ≠ [] := by simp [e]
    rw [if_neg hne, decide_eq_true_iff]
    unfold back
    rw [e, List.map_append, List.sum_append, full_size ini hi]
    simp only [List.length_append, List.length_cons, List.length_nil, List.getLastD_concat, List.map_cons, List.map_nil,
      List.sum_cons, List.sum_nil, Nat.zero_add, Nat.add_zero]
    constructor
    · rintro ⟨h4, h5⟩
      rw [← h4, h5]
      ring
    · intro h
      obtain ⟨k, hk⟩ : ∃ k, r.opt.levels = ini.length + 1 + k := ⟨r.opt.levels - (ini.length + 1), by omega⟩
      rw [hk, Nat.mul_add, Nat.mul_add, Nat.mul_one, Nat.mul_comm r.opt.limit ini.length] at h
      have hk0 : r.opt.limit * k = 0 := by omega
      have : k = 0 := by
        rcases Nat.mul_eq_zero.1 hk0 with h' | h'
        · exact absurd h' h0.2
        · exact h'
      subst this
      omega

/-- Without `reduce()`, `size()` is the number of values added since the reducer was last emptied, up to the limit. -/
theorem C96_size (env : Env) (opt : ReducerOpts) (ops : List ROp) (r : Reducer) (hr : .reduce ∉ ops)
    (h : run env (new opt) ops = .ok r) :
    r.size = min (opt.limit * opt.levels) (allValues (pending ops)).length := by
  have h0 : (new opt).size = min (opt.limit * opt.levels) (allValues []).length := by
    rw [new_fresh opt]
    simp [size, clear, allValues]
  exact stored_run ops hr (goodA_new env opt) h0 h

/-- A summary holds as many samples as there were values, up to `reducer_limit`; none if there are no levels. -/
theorem C96_kept (env : Env) (opt : ReducerOpts) (ops : List ROp) (r r' : Reducer) (d : AggData)
    (h : run env (new opt) ops = .ok r) (hd : detach env r = .ok (some d, r')) :
    d.data.length = if opt.levels = 0 then 0 else min opt.limit (allValues (pending ops)).length := by
  obtain ⟨_, r1, _, _, _, _, hk, _, _, a, _, rfl⟩ := detach_some (goodA_run h) hd
  show (r1.data.headD []).length = _
  rw [hk]
  by_cases hl : opt.levels = 0
  · rw [if_pos hl]
    have g := goodA_run h
    have ho : r.opt.levels = opt.levels := by rw [g.opt_eq]; unfold new; split_ifs <;> rfl
    rcases g.good.wf with hn | ⟨ini, last, _, _, _, _, h3⟩
    · simp [keep, hn]
    · omega
  · rw [if_neg hl]
    have h0 : keep (new opt) = min opt.limit (allValues []).length := by
      rw [new_fresh opt]
      simp [keep, clear, allValues]
    exact head_run (by omega) ops (goodA_new env opt) h0 h

/-- The loss of a summary is the number of units that have no sample. -/
theorem C96_lossy (env : Env) (opt : ReducerOpts) (ops : List ROp) (r r' : Reducer) (d : AggData)
    (h : run env (new opt) ops = .ok r) (hd : detach env r = .ok (some d, r')) (hl : 1 ≤ opt.levels) :
    r.lossyCount = sumWeight (pending ops) - min opt.limit (allValues (pending ops)).length ∧
      d.lossy = sumWeight (pending ops) - min opt.limit (allValues (pending ops)).length := by
  have h1 := C10_lossy_count env opt ops r r' d h hd
  have h2 := C02_balance env opt ops r r' d h hd
  have h3 := C96_kept env opt ops r r' d h hd
  rw [if_neg (by omega)] at h3
  omega

example : exState.size = 6 ∧ exState.filled = true ∧ (allValues exPend).length = 8 ∧ exData.data.length = 3 := by decide +kernel

/-- After `reduce()` a full reducer has room again. -/
example : ∃ r, run exactEnv (new exOpt) [.add (.many [9, 1, 4, 7, 2, 8, 3] 7), .reduce] = .ok r ∧ r.size = 3 ∧ r.filled = false :=
  ⟨_, rfl, by decide +kernel, by decide +kernel⟩

end Wrtstat
