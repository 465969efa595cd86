/-
Property C102: an accepted event is recorded in the window that contains its time.

C12 speaks of the aligned time of an event, which is what the code compares.  Here the time is that of the event itself:
its timestamp, or the reading of the clock if that is 0.  Windows begin where the constructor put the first one, which
with `soiled_start_ts` is no multiple of the step, while times are rounded to multiples of the step: an event from the
end of a step may be recorded in the window before its own.
-/
import Verif.Props.Separator

namespace Wrtstat
open Separator

set_option autoImplicit false

/-- The claim: after any history, an event that `add` or `push` accepts is recorded in a window that contains its time.
The event is in the window that is current afterwards (`C102_recorded`). -/
def C102_FullClaim : Prop :=
  ∀ (env : Env) (opt : SeparatorOpts) (clk rand ts0 : Int) (s0 s' : Separator) (ops : List SOp) (o : Obs)
    (clk1 clk2 ts : Int) (a : AddArg) (handler : Bool) (out : List AggData),
    0 < opt.step → Separator.new opt clk rand ts0 = .ok s0 → (∀ op ∈ ops, op.clockOk) →
    execAll env { s := s0 } ops = .ok o → 0 ≤ clk1 → 0 ≤ clk2 → 0 ≤ ts →
    o.s.push env clk1 clk2 ts a handler = .ok (true, out, s') →
    s'.currentTime ≤ meant opt.resolution clk1 ts ∧ meant opt.resolution clk1 ts < s'.nextTime

/-- For `rand() = 3` and `soiled_start_ts = 7` the windows begin `3 * 3 % 7 = 2` before the multiples of 10. -/
def exSoilOpt : SeparatorOpts := { limit := 3, levels := 2, step := 10, resolution := .seconds, soiled := 7 }

def exSoil : Separator :=
  match Separator.new exSoilOpt 0 3 1000 with
  | .ok s => s
  | .error _ => exSNew

/-- The window current at first is [998, 1008); an event of time 1009 is recorded in it. -/
theorem C102_refuted : ¬ C102_FullClaim := by
  intro h
  have hn : Separator.new exSoilOpt 0 3 1000 = .ok exSoil := by decide +kernel
  cases hp : exSoil.push exactEnv 0 0 1009 (.one 5 2) false with
  | error e =>
    have : (match exSoil.push exactEnv 0 0 1009 (.one 5 2) false with | .ok _ => true | .error _ => false) = true := by
      decide +kernel
    rw [hp] at this; cases this
  | ok p =>
    obtain ⟨b, out, s'⟩ := p
    have hb : (match exSoil.push exactEnv 0 0 1009 (.one 5 2) false with
        | .ok (b, _, s') => decide (b = true ∧ s'.currentTime = 998 ∧ s'.nextTime = 1008) | .error _ => false) = true := by
      decide +kernel
    rw [hp] at hb
    obtain ⟨hb, -, h2⟩ := of_decide_eq_true hb
    subst hb
    have := (h exactEnv exSoilOpt 0 3 1000 exSoil s' [] { s := exSoil } 0 0 1009 (.one 5 2) false out
      (by decide) hn (by simp) rfl (by decide) (by decide) (by decide) hp).2
    rw [h2] at this
    revert this; decide

/-- Where an accepted event is put: the aligned time lies in the window that is current afterwards, which begins a whole
number of steps after the first one. -/
theorem C102_recorded (env : Env) (opt : SeparatorOpts) (clk rand ts0 : Int) (s0 s' : Separator) (ops : List SOp) (o : Obs)
    (clk1 clk2 ts : Int) (a : AddArg) (handler : Bool) (out : List AggData) (hs : 0 < opt.step)
    (h0 : Separator.new opt clk rand ts0 = .ok s0) (hc : ∀ op ∈ ops, op.clockOk)
    (h : execAll env { s := s0 } ops = .ok o) (h2 : 0 ≤ clk2)
    (hp : o.s.push env clk1 clk2 ts a handler = .ok (true, out, s')) :
    s'.currentTime ≤ align opt.step (meant opt.resolution clk1 ts) ∧
    align opt.step (meant opt.resolution clk1 ts) < s'.nextTime ∧ s'.nextTime = s'.currentTime + opt.step ∧
    (∃ k : Nat, s'.currentTime = s0.currentTime + k * opt.step) ∧
    ∃ as, Reducer.GoodA env opt.toReducerOpts s'.reducer (as ++ [a]) := by
  have hst0 : s0.step = opt.step := (sgood_new (env := env) h0).step.1
  obtain ⟨log, g, _⟩ := sgood_execAll hs ops (sgood_new (env := env) h0) hc h
  have hst := g.step.1
  obtain ⟨s1, pub, as', eff, hb, e⟩ := push_effect (by omega) g.red hp
  have hf := eff.frame
  obtain ⟨k0, hk0, hk1⟩ := g.origin
  set A := align o.s.step (meant o.s.resolution clk1 ts) with hA
  have hA' : align opt.step (meant opt.resolution clk1 ts) = A := by rw [hA, hst, g.step.2]
  rw [hA']
  simp only [if_true, true_iff] at hb e
  have hT : A ≤ align o.s.step (meant o.s.resolution clk2 A) := by
    unfold meant
    split
    · rename_i h3
      rw [h3.1]
      unfold align
      have : 0 ≤ clk2.tdiv o.s.step := Int.tdiv_nonneg h2 (by omega)
      exact Int.mul_nonneg this (by omega)
    · rw [hA, align_idem (by omega)]
  have hn : (∃ k : Nat, s1.next = s0.next + k * opt.step) ∧ A < s1.next := by
    rcases eff.cases with ⟨c1, -, c3, -⟩ | ⟨c1, c2, -, ⟨k, c3, c4⟩, -⟩
    · rw [c3]
      refine ⟨⟨k0.toNat, ?_⟩, by omega⟩
      rw [Int.toNat_of_nonneg hk0, hk1]; omega
    · refine ⟨⟨(k0 + k).toNat, ?_⟩, by omega⟩
      rw [Int.toNat_of_nonneg (by omega), c3, hk1, hst, Int.add_mul]; omega
  obtain ⟨⟨k, hk⟩, hlt⟩ := hn
  subst e
  refine ⟨by unfold currentTime; simpa using hb, by unfold nextTime; simpa using hlt, ?_, ⟨k, ?_⟩, as',
    Reducer.goodA_add eff.good a⟩
  · unfold currentTime nextTime; simp only [hf.1, hst]; omega
  · unfold currentTime; simp only [hf.1, hst, hst0, hk]; omega

/-- How far behind its window the aligned time is: the windows begin `org % step` after the multiples of the step. -/
theorem shift_eq {step org w q : Int} {k : Nat} (hw : w = org + k * step) (h1 : w ≤ q * step)
    (h2 : q * step < w + step) : q * step - w = (-org) % step := by
  have e : (-org) % step = (q * step - w) % step := by
    have : q * step - w = -org + (q - k) * step := by rw [hw, Int.sub_mul]; omega
    rw [this, Int.add_mul_emod_self_right]
  rw [e, Int.emod_eq_of_lt (by omega) (by omega)]

theorem neg_emod_eq {step org : Int} (hs : 0 < step) :
    (-org) % step = if org % step = 0 then 0 else step - org % step := by
  have h := Int.emod_nonneg org (show step ≠ 0 by omega)
  have h' := Int.emod_lt_of_pos org hs
  split
  · rename_i h0
    exact Int.emod_eq_zero_of_dvd (Int.dvd_neg.2 (Int.dvd_of_emod_eq_zero h0))
  · have e : -org = (step - org % step) + (-(org / step) - 1) * step := by
      have := Int.emod_add_mul_ediv org step
      have : (-(org / step) - 1) * step = -(step * (org / step)) - step := by ring
      omega
    rw [e, Int.add_mul_emod_self_right, Int.emod_eq_of_lt (by omega) (by omega)]

/-- Exactly when an accepted event lies in the window it is recorded in.  For times that are not negative: when windows
begin at multiples of the step, or when the event is not from the end of a step.  Times before 0 are rounded up, and may
be in the window before the one they are recorded in. -/
theorem C102_exact_partial (env : Env) (opt : SeparatorOpts) (clk rand ts0 : Int) (s0 s' : Separator) (ops : List SOp)
    (o : Obs) (clk1 clk2 ts : Int) (a : AddArg) (handler : Bool) (out : List AggData) (hs : 0 < opt.step)
    (h0 : Separator.new opt clk rand ts0 = .ok s0) (hc : ∀ op ∈ ops, op.clockOk)
    (h : execAll env { s := s0 } ops = .ok o) (h2 : 0 ≤ clk2)
    (hp : o.s.push env clk1 clk2 ts a handler = .ok (true, out, s')) :
    (s'.currentTime ≤ meant opt.resolution clk1 ts ∧ meant opt.resolution clk1 ts < s'.nextTime) ↔
      if 0 ≤ meant opt.resolution clk1 ts then
        s0.currentTime % opt.step = 0 ∨ meant opt.resolution clk1 ts % opt.step < s0.currentTime % opt.step
      else (-meant opt.resolution clk1 ts) % opt.step ≤ (-s0.currentTime) % opt.step := by
  obtain ⟨hl, hr, hn, ⟨k, hk⟩, -⟩ := C102_recorded env opt clk rand ts0 s0 s' ops o clk1 clk2 ts a handler out hs h0 hc h h2 hp
  set t := meant opt.resolution clk1 ts with ht
  unfold align at hl hr
  have hsh := shift_eq hk hl (by omega)
  have hneg := neg_emod_eq (org := s0.currentTime) hs
  have hr0 := Int.emod_nonneg s0.currentTime (show opt.step ≠ 0 by omega)
  have hr1 := Int.emod_lt_of_pos s0.currentTime hs
  split
  · rename_i h0t
    have e : t.tdiv opt.step * opt.step + t % opt.step = t := by
      rw [Int.tdiv_eq_ediv_of_nonneg h0t]
      have := Int.emod_add_mul_ediv t opt.step
      rw [Int.mul_comm (t / opt.step)]; omega
    have d0 := Int.emod_nonneg t (show opt.step ≠ 0 by omega)
    have d1 := Int.emod_lt_of_pos t hs
    generalize t.tdiv opt.step * opt.step = A at *
    generalize t % opt.step = d at *
    generalize s0.currentTime % opt.step = r at *
    rw [hneg] at hsh
    split at hsh <;> omega
  · rename_i h0t
    have e : t.tdiv opt.step * opt.step - (-t) % opt.step = t := by
      have e1 : t.tdiv opt.step = -((-t) / opt.step) := by
        rw [← Int.tdiv_eq_ediv_of_nonneg (show 0 ≤ -t by omega), Int.neg_tdiv, neg_neg]
      have := Int.emod_add_mul_ediv (-t) opt.step
      rw [e1]
      have : -(-t / opt.step) * opt.step = -(opt.step * (-t / opt.step)) := by ring
      omega
    have d0 := Int.emod_nonneg (-t) (show opt.step ≠ 0 by omega)
    generalize t.tdiv opt.step * opt.step = A at *
    generalize (-t) % opt.step = d at *
    generalize (-s0.currentTime) % opt.step = r at *
    omega

/-- Without `soiled_start_ts` the claim holds for all times that are not negative. -/
theorem C102_plain_partial (env : Env) (opt : SeparatorOpts) (clk rand ts0 : Int) (s0 s' : Separator) (ops : List SOp)
    (o : Obs) (clk1 clk2 ts : Int) (a : AddArg) (handler : Bool) (out : List AggData) (hs : 0 < opt.step)
    (hso : opt.soiled = 0) (h0 : Separator.new opt clk rand ts0 = .ok s0) (hc : ∀ op ∈ ops, op.clockOk)
    (h : execAll env { s := s0 } ops = .ok o) (h2 : 0 ≤ clk2) (ht : 0 ≤ meant opt.resolution clk1 ts)
    (hp : o.s.push env clk1 clk2 ts a handler = .ok (true, out, s')) :
    s'.currentTime ≤ meant opt.resolution clk1 ts ∧ meant opt.resolution clk1 ts < s'.nextTime := by
  rw [C102_exact_partial env opt clk rand ts0 s0 s' ops o clk1 clk2 ts a handler out hs h0 hc h h2 hp, if_pos ht]
  left
  unfold Separator.new at h0
  rw [getTs_eq (by omega)] at h0
  simp only [bind_ok, hso, ne_eq, not_true_eq_false, if_false] at h0
  cases h0
  unfold currentTime align
  simp

/-- With `soiled_start_ts` an event is never more than one step off: its time lies in the window it is recorded in or
in the next one. -/
theorem C102_near (env : Env) (opt : SeparatorOpts) (clk rand ts0 : Int) (s0 s' : Separator) (ops : List SOp)
    (o : Obs) (clk1 clk2 ts : Int) (a : AddArg) (handler : Bool) (out : List AggData) (hs : 0 < opt.step)
    (h0 : Separator.new opt clk rand ts0 = .ok s0) (hc : ∀ op ∈ ops, op.clockOk)
    (h : execAll env { s := s0 } ops = .ok o) (h2 : 0 ≤ clk2) (ht : 0 ≤ meant opt.resolution clk1 ts)
    (hp : o.s.push env clk1 clk2 ts a handler = .ok (true, out, s')) :
    s'.currentTime ≤ meant opt.resolution clk1 ts ∧ meant opt.resolution clk1 ts < s'.nextTime + opt.step := by
  obtain ⟨hl, hr, hn, -⟩ := C102_recorded env opt clk rand ts0 s0 s' ops o clk1 clk2 ts a handler out hs h0 hc h h2 hp
  set t := meant opt.resolution clk1 ts with ht
  have e : align opt.step t + t % opt.step = t := by
    unfold align
    rw [Int.tdiv_eq_ediv_of_nonneg (by omega)]
    have := Int.emod_add_mul_ediv t opt.step
    rw [Int.mul_comm (t / opt.step)]; omega
  have d0 := Int.emod_nonneg t (show opt.step ≠ 0 by omega)
  have d1 := Int.emod_lt_of_pos t hs
  omega

/-- Events of the times 1007 and 1009 go into the same window [998, 1008); the first is in it, the second is not. -/
example : (match execAll exactEnv { s := exSoil } [.push 0 0 1007 (.one 5 2) false, .push 0 0 1009 (.one 6 1) false] with
    | .ok o => decide (o.s.currentTime = 998 ∧ o.s.nextTime = 1008 ∧ o.accepted = [(1000, .one 5 2), (1000, .one 6 1)])
    | .error _ => false) = true := by decide +kernel

example : (0 ≤ (1007 : Int)) ∧ ((998 : Int) % 10 = 0 ∨ (1007 : Int) % 10 < 998 % 10) ∧ ¬ ((998 : Int) % 10 = 0 ∨ (1009 : Int) % 10 < 998 % 10) := by
  decide

end Wrtstat
