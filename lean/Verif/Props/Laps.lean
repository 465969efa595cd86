/-
Property C115: how long a call takes.

Whatever the timestamp, a call completes at most one record, but `separate` walks through all the windows up to the timestamp
one by one: a call makes as many laps as there are steps between the start of the current window before it and after it
(`C115_laps_partial`, `C115_count_partial`), which no property of the options bounds (`C115_refuted`).  One assignment would do
the same (`C115_shortcut_partial`).
-/
import Verif.Model.Laps
import Verif.Lemmas.Throwing
import Verif.Lemmas.Quiet
import Verif.Spec.AggregatorSpec
import Verif.Model.Instances

namespace Wrtstat

set_option autoImplicit false

/-! ### Counting changes nothing -/

theorem Separator.sepLoopN_erase (env : Env) (step ts : Int) : ∀ (k : Nat) (next : Int) (r : Reducer), (ts - next + 1).toNat ≤ k →
    (Separator.sepLoopN env step ts next r).map (fun p => p.2) = Separator.sepLoop env step ts next r := by
  intro k
  induction k with
  | zero =>
    intro next r hk
    rw [Separator.sepLoopN, Separator.sepLoop, dif_neg (by omega), dif_neg (by omega)]
    rfl
  | succ k ih =>
    intro next r hk
    rw [Separator.sepLoopN, Separator.sepLoop]
    split_ifs with h1 h2
    · cases hd : r.detach env with
      | error e => rfl
      | ok p =>
        rw [bind_ok', bind_ok']
        simp only
        rw [← ih (next + step) p.2 (by omega)]
        cases Separator.sepLoopN env step ts (next + step) p.2 with
        | error e => rfl
        | ok q => rfl
    · rfl
    · rfl

theorem Separator.separateN_erase (env : Env) (s : Separator) (clk ts : Int) (handler force : Bool) :
    (s.separateN env clk ts handler force).map (fun p => p.2) = s.separate env clk ts handler force := by
  unfold Separator.separateN Separator.separate
  cases s.getTs clk ts with
  | error e => rfl
  | ok t =>
    rw [bind_ok', bind_ok']
    split_ifs with h
    · rfl
    · rw [← Separator.sepLoopN_erase env s.step t _ s.next s.reducer (le_refl _)]
      cases Separator.sepLoopN env s.step t s.next s.reducer with
      | error e => rfl
      | ok q => rfl
    · rw [← Separator.sepLoopN_erase env s.step t _ s.next s.reducer (le_refl _)]
      cases Separator.sepLoopN env s.step t s.next s.reducer with
      | error e => rfl
      | ok q => rfl

theorem Separator.pushN_erase (env : Env) (s : Separator) (clk1 clk2 ts : Int) (x : AddArg) (handler : Bool) :
    (s.pushN env clk1 clk2 ts x handler).map (fun p => p.2) = s.push env clk1 clk2 ts x handler := by
  unfold Separator.pushN Separator.push
  cases s.getTs clk1 ts with
  | error e => rfl
  | ok t =>
    rw [bind_ok', bind_ok', ← Separator.separateN_erase]
    cases s.separateN env clk2 t handler false with
    | error e => rfl
    | ok q =>
      obtain ⟨n, b, out, s1⟩ := q
      simp only [bind_ok', Except.map]
      split_ifs <;> rfl

namespace Aggregator

theorem addN_erase (env : Env) (a : Aggregator) (clk1 clk2 ts : Int) (x : AddArg) :
    (a.addN env clk1 clk2 ts x).map (fun p => p.2) = a.add env clk1 clk2 ts x := by
  unfold addN add Separator.add
  split_ifs with h
  · rfl
  · rw [← Separator.pushN_erase]
    cases a.sep.pushN env clk1 clk2 ts x false with
    | error e => rfl
    | ok q =>
      obtain ⟨n, b, out, s1⟩ := q
      simp only [bind_ok', Except.map]
      cases b with
      | false => rfl
      | true =>
        simp only [Bool.true_eq_false, if_false]
        cases aggregate0_ env.nth { a with sep := s1 } <;> rfl

theorem pushN_erase (env : Env) (a : Aggregator) (clk1 clk2 ts : Int) (x : AddArg) (handler : Bool) :
    (a.pushN env clk1 clk2 ts x handler).map (fun p => p.2) = a.push env clk1 clk2 ts x handler := by
  unfold pushN push
  split_ifs with h h1
  · rfl
  · rw [← addN_erase]
    cases a.addN env clk1 clk2 ts x <;> rfl
  · rw [← Separator.pushN_erase]
    cases a.sep.pushN env clk1 clk2 ts x true with
    | error e => rfl
    | ok q =>
      obtain ⟨n, b, out, s1⟩ := q
      simp only [bind_ok', Except.map]
      cases List.mapM (finish env.nth a.outSize) out <;> rfl

theorem separateN_erase (env : Env) (a : Aggregator) (clk ts : Int) (handler force : Bool) :
    (a.separateN env clk ts handler force).map (fun p => p.2) = a.separate env clk ts handler force := by
  unfold separateN separate
  rw [← Separator.separateN_erase]
  cases a.sep.separateN env clk ts handler force with
  | error e => rfl
  | ok q =>
    obtain ⟨n, b, out, s1⟩ := q
    simp only [bind_ok', Except.map]
    cases aggregate0_ env.nth { a with sep := s1 } <;> rfl

end Aggregator

/-! ### The number of laps -/

theorem Separator.sepLoopN_laps {env : Env} {step ts : Int} : ∀ (k : Nat) (next : Int) (r : Reducer) (n : Nat) (out : List AggData)
    (next' : Int) (r' : Reducer), (ts - next + 1).toNat ≤ k → Separator.sepLoopN env step ts next r = .ok (n, out, next', r') →
    next' = next + n * step ∧ ts < next' ∧ (n ≠ 0 → next' - step ≤ ts ∧ 0 < step) ∧
      (r.empty = true → out = [] ∧ r' = r) ∧ out.length ≤ 1 ∧ (n ≠ 0 → r'.empty = true) ∧ (n = 0 → r' = r ∧ out = []) := by
  intro k
  induction k with
  | zero =>
    intro next r n out next' r' hk h
    rw [Separator.sepLoopN, dif_neg (by omega)] at h
    cases h
    exact ⟨by simp, by omega, fun h => absurd rfl h, fun _ => ⟨rfl, rfl⟩, by simp, fun h => absurd rfl h, fun _ => ⟨rfl, rfl⟩⟩
  | succ k ih =>
    intro next r n out next' r' hk h
    rw [Separator.sepLoopN] at h
    split_ifs at h with h1 h2
    · obtain ⟨⟨o, r1⟩, hd, h⟩ := bind_inv h
      obtain ⟨⟨n1, out1, next1, r2⟩, hl, h⟩ := bind_inv h
      cases h
      obtain ⟨j1, j2, j3, j4, j5, j6, j7⟩ := ih _ _ _ _ _ _ (by omega) hl
      have he : r1.empty = true := Aggregator.detach_empty hd
      obtain ⟨j8, j9⟩ := j4 he
      subst j8 j9
      refine ⟨by rw [j1]; push_cast; ring, j2, fun _ => ⟨?_, h2⟩, fun hr => ?_, by cases o <;> simp, fun _ => he, fun h => (by cases h)⟩
      · by_cases hn : n1 = 0
        · subst hn; rw [j1]; simp; omega
        · exact (j3 hn).1
      · rw [Aggregator.detach_of_empty hr] at hd
        cases hd
        exact ⟨rfl, rfl⟩
    · cases h
      exact ⟨by simp, by omega, fun h => absurd rfl h, fun _ => ⟨rfl, rfl⟩, by simp, fun h => absurd rfl h, fun _ => ⟨rfl, rfl⟩⟩

/-- The laps of one separation. -/
theorem Separator.separateN_laps {env : Env} {s s' : Separator} {clk ts t : Int} {handler force b : Bool} {n : Nat} {out : List AggData}
    (ht : s.getTs clk ts = .ok t) (h : s.separateN env clk ts handler force = .ok (n, b, out, s')) :
    s'.next = s.next + n * s.step ∧ s'.step = s.step ∧ t < s'.next ∧ (n ≠ 0 → s'.next - s.step ≤ t ∧ 0 < s.step) ∧
      out.length + s'.sepList.length ≤ s.sepList.length + 1 ∧ s'.resolution = s.resolution := by
  unfold Separator.separateN at h
  rw [ht, bind_ok'] at h
  split_ifs at h with h1 h2
  · cases h
    exact ⟨by simp, rfl, h1.2, fun h => absurd rfl h, by simp, rfl⟩
  all_goals
    obtain ⟨⟨n1, out1, next1, r1⟩, hl, h⟩ := bind_inv h
    cases h
    obtain ⟨j1, j2, j3, _, j5, _⟩ := Separator.sepLoopN_laps _ _ _ _ _ _ _ (le_refl _) hl
    refine ⟨j1, rfl, j2, j3, ?_, rfl⟩
    simp
    omega

namespace Aggregator
open Separator

theorem aggregate0_facts {E : NthElement} {a a' : Aggregator} (h : aggregate0_ E a = .ok a') :
    a'.sep = { a.sep with sepList := [] } ∧ a'.agList.length = a.agList.length + a.sep.sepList.length := by
  unfold aggregate0_ at h
  obtain ⟨l, hl, h⟩ := bind_inv h
  cases h
  refine ⟨rfl, ?_⟩
  have : ∀ (l l' : List AggData), l.mapM (finish E a.outSize) = .ok l' → l'.length = l.length := by
    intro l
    induction l with
    | nil => intro l' h; cases h; rfl
    | cons d l ih =>
      intro l' h
      rw [List.mapM_cons] at h
      obtain ⟨_, _, h⟩ := bind_inv h
      obtain ⟨l1, h1, h⟩ := bind_inv h
      cases h
      simp [ih _ h1]
  simp [this _ _ hl]

/-- A time from which an aggregator takes an event or a separation to come. -/
def wanted (a : Aggregator) (clk ts : Int) : Int := align a.sep.step (meant a.sep.resolution clk ts)

/-- What one call does: how far the window has moved, the laps it took and the records that were completed. -/
structure Call (a a' : Aggregator) (n : Nat) (out : List AggData) (t : Int) : Prop where
  same : a'.sep.step = a.sep.step
  /-- Every lap moves the window by one step. -/
  moved : a'.sep.nextTime = a.sep.nextTime + n * a.sep.step
  /-- The window has not ended before the time of the call. -/
  reached : t < a'.sep.nextTime
  /-- It moves no further than to the window of that time. -/
  tight : n ≠ 0 → a'.sep.currentTime ≤ t
  /-- One call completes one record at most. -/
  one : out.length + a'.agList.length + a'.sep.sepList.length ≤ a.agList.length + a.sep.sepList.length + 1

theorem mapM_len {E : NthElement} {R : Nat} : ∀ (l l' : List AggData), l.mapM (finish E R) = .ok l' → l'.length = l.length := by
  intro l
  induction l with
  | nil => intro l' h; cases h; rfl
  | cons d l ih =>
    intro l' h
    rw [List.mapM_cons] at h
    obtain ⟨_, _, h⟩ := bind_inv h
    obtain ⟨l1, h1, h⟩ := bind_inv h
    cases h
    simp [ih _ h1]

theorem sepPushN_facts {env : Env} {s s' : Separator} {clk1 clk2 ts : Int} {x : AddArg} {handler ok : Bool} {n : Nat}
    {out : List AggData} (hs : 0 < s.step) (h : s.pushN env clk1 clk2 ts x handler = .ok (n, ok, out, s')) :
    s'.next = s.next + n * s.step ∧ s'.step = s.step ∧
      align s.step (meant s.resolution clk2 (align s.step (meant s.resolution clk1 ts))) < s'.next ∧
      (n ≠ 0 → s'.next - s.step ≤ align s.step (meant s.resolution clk2 (align s.step (meant s.resolution clk1 ts)))) ∧
      out.length + s'.sepList.length ≤ s.sepList.length + 1 := by
  unfold Separator.pushN at h
  rw [getTs_align hs, bind_ok'] at h
  obtain ⟨⟨n1, b, out1, s1⟩, h1, h⟩ := bind_inv h
  obtain ⟨j1, j2, j3, j4, j5, j6⟩ := Separator.separateN_laps (getTs_align hs _ _) h1
  simp only at h
  split_ifs at h <;> cases h <;> exact ⟨j1, j2, j3, fun h => (j4 h).1, j5⟩

end Aggregator

open Aggregator

/-! ### The claim -/

/-- The laps of a call are bounded by the options, whatever timestamps occur. -/
def C115_FullClaim : Prop :=
  ∀ (opt : AggregatorOpts), 0 < opt.step → ∃ B : Nat, ∀ (env : Env) (clk rand ts : Int) (a : Aggregator) (clk1 clk2 ts' : Int)
    (x : AddArg) (handler ok : Bool) (n : Nat) (out : List AggData) (a' : Aggregator), new opt clk rand ts = .ok a →
    a.pushN env clk1 clk2 ts' x handler = .ok (n, ok, out, a') → n ≤ B

/-- `add`: how far the window moves, in how many laps. -/
theorem C115_add_partial (env : Env) (a a' : Aggregator) (clk1 clk2 ts : Int) (x : AddArg) (ok : Bool) (n : Nat)
    (hs : 0 < a.sep.step) (he : a.enabled = true) (h : a.addN env clk1 clk2 ts x = .ok (n, ok, a')) :
    Call a a' n [] (a.wanted clk2 (a.wanted clk1 ts)) := by
  unfold addN at h
  rw [if_neg (by simp [he])] at h
  obtain ⟨⟨n1, b, out1, s1⟩, h1, h⟩ := bind_inv h
  obtain ⟨j1, j2, j3, j4, j5⟩ := sepPushN_facts hs h1
  simp only at h
  split_ifs at h
  · cases h
    refine ⟨j2, j1, j3, fun h => ?_, ?_⟩
    · unfold Separator.currentTime; simp only; rw [j2]; exact j4 h
    · simp; omega
  · obtain ⟨a1, h2, h⟩ := bind_inv h
    cases h
    obtain ⟨k1, k2⟩ := aggregate0_facts h2
    refine ⟨by rw [k1]; exact j2, ?_, ?_, fun h => ?_, ?_⟩
    · unfold Separator.nextTime; rw [k1]; exact j1
    · unfold Separator.nextTime; rw [k1]; exact j3
    · unfold Separator.currentTime; rw [k1]; simp only; rw [j2]; exact j4 h
    · rw [k1, k2]; simp; omega

/-- `push`, with or without handler. -/
theorem C115_laps_partial (env : Env) (a a' : Aggregator) (clk1 clk2 ts : Int) (x : AddArg) (handler ok : Bool) (n : Nat)
    (out : List AggData) (hs : 0 < a.sep.step) (he : a.enabled = true)
    (h : a.pushN env clk1 clk2 ts x handler = .ok (n, ok, out, a')) :
    Call a a' n out (a.wanted clk2 (a.wanted clk1 ts)) := by
  unfold pushN at h
  rw [if_neg (by simp [he])] at h
  split_ifs at h
  · obtain ⟨⟨n1, b, a1⟩, h1, h⟩ := bind_inv h
    cases h
    exact C115_add_partial env a _ clk1 clk2 ts x _ _ hs he h1
  · obtain ⟨⟨n1, b, out1, s1⟩, h1, h⟩ := bind_inv h
    obtain ⟨out2, h2, h⟩ := bind_inv h
    cases h
    obtain ⟨j1, j2, j3, j4, j5⟩ := sepPushN_facts hs h1
    refine ⟨j2, j1, j3, fun h => ?_, ?_⟩
    · unfold Separator.currentTime; simp only; rw [j2]; exact j4 h
    · rw [mapM_len _ _ h2]; simp only; omega

/-- `separate`. -/
theorem C115_separate_partial (env : Env) (a a' : Aggregator) (clk ts : Int) (handler force b : Bool) (n : Nat)
    (out : List AggData) (hs : 0 < a.sep.step) (h : a.separateN env clk ts handler force = .ok (n, b, out, a')) :
    Call a a' n out (a.wanted clk ts) := by
  unfold separateN at h
  obtain ⟨⟨n1, b1, out1, s1⟩, h1, h⟩ := bind_inv h
  obtain ⟨a1, h2, h⟩ := bind_inv h
  cases h
  obtain ⟨j1, j2, j3, j4, j5, _⟩ := Separator.separateN_laps (getTs_align hs _ _) h1
  obtain ⟨k1, k2⟩ := aggregate0_facts h2
  refine ⟨by rw [k1]; exact j2, ?_, ?_, fun h => ?_, ?_⟩
  · unfold Separator.nextTime; rw [k1]; exact j1
  · unfold Separator.nextTime; rw [k1]; exact j3
  · unfold Separator.currentTime; rw [k1]; simp only; rw [j2]; exact (j4 h).1
  · rw [k1, k2]; simp; omega

/-- So the laps are exactly the steps from the end of the window to the time of the call. -/
theorem C115_count_partial (a a' : Aggregator) (n : Nat) (out : List AggData) (t : Int) (c : Call a a' n out t)
    (hs : 0 < a.sep.step) : n = if t < a.sep.nextTime then 0 else ((t - a.sep.nextTime) / a.sep.step + 1).toNat := by
  obtain ⟨he, c1, c2, c3, _⟩ := c
  unfold Separator.currentTime at c3
  rw [he] at c3
  unfold Separator.nextTime at *
  split_ifs with h
  · by_contra h0
    have := c3 h0
    have h1 : (1 : Int) ≤ n := by omega
    nlinarith
  · have h0 : n ≠ 0 := by rintro rfl; simp at c1; omega
    have h3 := c3 h0
    rw [c1] at c2 h3
    have e1 : (t - a.sep.next) / a.sep.step < n := Int.ediv_lt_of_lt_mul hs (by linarith)
    have e2 : (n : Int) - 1 ≤ (t - a.sep.next) / a.sep.step := Int.le_ediv_of_mul_le hs (by linarith)
    omega

/-- A call takes at most `B` laps iff its time is less than `B` steps after the end of the window. -/
theorem C115_exact_partial (env : Env) (a a' : Aggregator) (clk1 clk2 ts : Int) (x : AddArg) (handler ok : Bool) (n : Nat)
    (out : List AggData) (hs : 0 < a.sep.step) (he : a.enabled = true) (B : Nat)
    (h : a.pushN env clk1 clk2 ts x handler = .ok (n, ok, out, a')) :
    n ≤ B ↔ a.wanted clk2 (a.wanted clk1 ts) < a.sep.nextTime + B * a.sep.step := by
  have c := C115_laps_partial env a a' clk1 clk2 ts x handler ok n out hs he h
  obtain ⟨hst, c1, c2, c3, _⟩ := c
  unfold Separator.currentTime at c3
  rw [hst] at c3
  unfold Separator.nextTime at *
  constructor
  · intro hB
    have : (n : Int) * a.sep.step ≤ B * a.sep.step := by
      apply mul_le_mul_of_nonneg_right _ (by omega)
      exact_mod_cast hB
    omega
  · intro hB
    by_contra hlt
    have h3 := c3 (by omega)
    rw [c1] at h3
    have : ((B : Int) + 1) * a.sep.step ≤ n * a.sep.step := by
      apply mul_le_mul_of_nonneg_right _ (by omega)
      exact_mod_cast (by omega : B + 1 ≤ n)
    nlinarith

/-- An aggregator made for time 0 with a step of one. -/
def ExLaps.start : Aggregator :=
  { sep := { reducer := Reducer.new ({} : ReducerOpts), step := 1, next := 1, resolution := .none }, outSize := 0 }

theorem ExLaps.start_new : new { step := 1, resolution := .none, soiled := 0, outSize := 0 } 0 0 0 = .ok ExLaps.start := by
  decide +kernel

/-- The first event may take any number of laps. -/
theorem ExLaps.many (env : Env) (N : Nat) : ∃ ok out a',
    ExLaps.start.pushN env 0 0 N (.one 7 1) true = .ok (N, ok, out, a') := by
  have hl : ∀ (k : Nat) (next : Int), (N : Int) - next + 1 = k → ExLaps.start.sep.reducer.empty = true →
      Separator.sepLoopN env 1 N next ExLaps.start.sep.reducer = .ok (k, [], N + 1, ExLaps.start.sep.reducer) := by
    intro k
    induction k with
    | zero =>
      intro next hk _
      rw [Separator.sepLoopN, dif_neg (by omega)]
      have : next = N + 1 := by omega
      rw [this]
    | succ k ih =>
      intro next hk he
      rw [Separator.sepLoopN, dif_pos (by push_cast at hk; omega), dif_pos (by decide), Aggregator.detach_of_empty he, bind_ok']
      simp only
      rw [ih (next + 1) (by push_cast at hk; omega) he, bind_ok']
      rfl
  have hg : ∀ clk t : Int, ExLaps.start.sep.getTs clk t = .ok t := by
    intro clk t
    unfold Separator.getTs Separator.getTsWith
    simp [ExLaps.start]
  have hp : ∃ ok out s', ExLaps.start.sep.pushN env 0 0 N (.one 7 1) true = .ok (N, ok, out, s') ∧ out = [] := by
    unfold Separator.pushN
    rw [hg, bind_ok']
    unfold Separator.separateN
    rw [hg, bind_ok']
    by_cases h0 : (N : Int) < 1
    · rw [if_pos ⟨rfl, h0⟩, bind_ok']
      have : N = 0 := by omega
      subst this
      simp only
      split_ifs <;> exact ⟨_, _, _, rfl, rfl⟩
    · rw [if_neg (by simp [ExLaps.start]; omega)]
      have := hl N 1 (by omega) (by decide +kernel)
      rw [show ExLaps.start.sep.step = 1 from rfl, show ExLaps.start.sep.next = 1 from rfl, this]
      simp only [bind_ok', if_true]
      split_ifs <;> exact ⟨_, _, _, rfl, rfl⟩
  obtain ⟨ok, out, s', hp, rfl⟩ := hp
  unfold pushN
  rw [if_neg (by decide), if_neg (by decide), hp, bind_ok']
  exact ⟨_, _, _, rfl⟩

theorem C115_refuted : ¬ C115_FullClaim := by
  intro H
  obtain ⟨B, hB⟩ := H { step := 1, resolution := .none, soiled := 0, outSize := 0 } (by decide)
  obtain ⟨ok, out, a', h⟩ := ExLaps.many exactEnv (B + 1)
  have := hB exactEnv 0 0 0 ExLaps.start 0 0 _ _ _ _ _ _ _ ExLaps.start_new h
  omega

/-! ### Histories -/

/-- The laps of an operation. -/
def Aggregator.opLaps (env : Env) (a : Aggregator) : AOp → M Nat
  | .add clk1 clk2 ts x => (a.addN env clk1 clk2 ts x).map fun p => p.1
  | .push clk1 clk2 ts x handler => (a.pushN env clk1 clk2 ts x handler).map fun p => p.1
  | .separate clk ts handler force => (a.separateN env clk ts handler force).map fun p => p.1
  | _ => .ok 0

/-- The laps of a history. -/
def Aggregator.lapsAll (env : Env) : AObs → List AOp → M Nat
  | _, [] => .ok 0
  | o, op :: ops => do
    let n ← o.a.opLaps env op
    let o ← exec env o op
    let m ← lapsAll env o ops
    .ok (n + m)

theorem opLaps_exec {env : Env} {o o1 : AObs} {op : AOp} (hs : 0 < o.a.sep.step) (h : exec env o op = .ok o1) :
    ∃ n, o.a.opLaps env op = .ok n ∧ o1.a.sep.next = o.a.sep.next + n * o.a.sep.step ∧ o1.a.sep.step = o.a.sep.step := by
  cases op with
  | add clk1 clk2 ts x =>
    simp only [exec] at h
    obtain ⟨⟨ok, a⟩, h1, h⟩ := bind_inv h
    cases h
    rw [← addN_erase] at h1
    obtain ⟨⟨n, ok', a'⟩, h2, h3⟩ := Aggregator.map_ok h1
    cases h3
    refine ⟨n, by simp only [opLaps, h2]; rfl, ?_⟩
    by_cases he : o.a.enabled = true
    · have c := C115_add_partial env _ _ clk1 clk2 ts x _ n hs he h2
      exact ⟨c.moved, c.same⟩
    · unfold addN at h2
      rw [if_pos (by simpa using he)] at h2
      cases h2
      exact ⟨by simp, rfl⟩
  | push clk1 clk2 ts x handler =>
    simp only [exec] at h
    obtain ⟨⟨ok, out, a⟩, h1, h⟩ := bind_inv h
    cases h
    rw [← pushN_erase] at h1
    obtain ⟨⟨n, ok', out', a'⟩, h2, h3⟩ := Aggregator.map_ok h1
    cases h3
    refine ⟨n, by simp only [opLaps, h2]; rfl, ?_⟩
    by_cases he : o.a.enabled = true
    · have c := C115_laps_partial env _ _ clk1 clk2 ts x _ _ n _ hs he h2
      exact ⟨c.moved, c.same⟩
    · unfold pushN at h2
      rw [if_pos (by simpa using he)] at h2
      cases h2
      exact ⟨by simp, rfl⟩
  | separate clk ts handler force =>
    simp only [exec] at h
    obtain ⟨⟨ok, out, a⟩, h1, h⟩ := bind_inv h
    cases h
    rw [← separateN_erase] at h1
    obtain ⟨⟨n, ok', out', a'⟩, h2, h3⟩ := Aggregator.map_ok h1
    cases h3
    have c := C115_separate_partial env _ _ clk ts _ _ _ n _ hs h2
    exact ⟨n, by simp only [opLaps, h2]; rfl, c.moved, c.same⟩
  | pop =>
    refine ⟨0, rfl, ?_⟩
    simp only [exec] at h
    cases h
    unfold pop
    cases o.a.agList <;> simp
  | forcePop =>
    refine ⟨0, rfl, ?_⟩
    simp only [exec] at h
    obtain ⟨⟨d, a⟩, h1, h⟩ := bind_inv h
    cases h
    unfold forcePop at h1
    obtain ⟨⟨d1, s1⟩, h2, h1⟩ := bind_inv h1
    have hsep : s1.next = o.a.sep.next ∧ s1.step = o.a.sep.step := by
      unfold Separator.forcePop at h2
      cases hl : o.a.sep.sepList with
      | nil =>
        simp only [Separator.pop, hl] at h2
        obtain ⟨⟨d2, r2⟩, _, h2⟩ := bind_inv h2
        cases h2
        exact ⟨rfl, rfl⟩
      | cons d2 l2 =>
        simp only [Separator.pop, hl] at h2
        cases h2
        exact ⟨rfl, rfl⟩
    cases d1 with
    | none => cases h1; simpa using hsep
    | some d1 =>
      simp only at h1
      obtain ⟨ag, _, h1⟩ := bind_inv h1
      cases h1
      simpa using hsep
  | look =>
    refine ⟨0, rfl, ?_⟩
    simp only [exec] at h
    obtain ⟨_, _, h⟩ := bind_inv h
    cases h
    simp
  | enable v =>
    refine ⟨0, rfl, ?_⟩
    simp only [exec] at h
    cases h
    simp [enable]

/-- All the laps of a history are the steps by which the window has moved: what is walked through once is not walked through
again. -/
theorem C115_total_partial (env : Env) (a : Aggregator) (ops : List AOp) (o : AObs) (hs : 0 < a.sep.step)
    (h : execAll env { a := a } ops = .ok o) :
    ∃ n : Nat, lapsAll env { a := a } ops = .ok n ∧ o.a.sep.nextTime = a.sep.nextTime + n * a.sep.step := by
  have key : ∀ (ops : List AOp) (o o' : AObs), 0 < o.a.sep.step → execAll env o ops = .ok o' →
      ∃ n : Nat, lapsAll env o ops = .ok n ∧ o'.a.sep.next = o.a.sep.next + n * o.a.sep.step := by
    intro ops
    induction ops with
    | nil => intro o o' _ h; cases h; exact ⟨0, rfl, by simp⟩
    | cons op ops ih =>
      intro o o' hs h
      unfold execAll at h
      rw [List.foldlM_cons] at h
      obtain ⟨o1, h1, h⟩ := bind_inv h
      obtain ⟨n, e1, e2, e3⟩ := opLaps_exec hs h1
      obtain ⟨m, e4, e5⟩ := ih o1 o' (by rw [e3]; exact hs) h
      refine ⟨n + m, ?_, ?_⟩
      · rw [lapsAll, e1, bind_ok', h1, bind_ok', e4, bind_ok']
      · rw [e5, e2, e3]; push_cast; ring
  exact key ops { a := a } o hs h

/-- The loop as one assignment: the same records, the same window, the same reducer. -/
theorem C115_shortcut_partial (env : Env) (step ts next : Int) (r : Reducer) (hs : 0 < step) :
    Separator.sepLoop env step ts next r =
      if ts < next then .ok ([], next, r)
      else (do
        let (d, r) ← r.detach env
        .ok ((d.map fun d => { d with ts := next - step }).toList, next + ((ts - next) / step + 1) * step, r)) := by
  rw [Separator.sepLoop]
  by_cases h : ts < next
  · rw [if_pos h, dif_neg (by omega)]
  rw [if_neg h, dif_pos (by omega), dif_pos hs]
  cases hd : r.detach env with
  | error e => rfl
  | ok p =>
    obtain ⟨d, r1⟩ := p
    rw [bind_ok', bind_ok']
    simp only
    rw [sepLoop_after hs (Aggregator.detach_empty hd) _ _ (le_refl _), bind_ok', after_step hs (by omega)]
    unfold Aggregator.after
    rw [if_neg h]
    simp

/-- A hundred seconds without events, in microseconds and with windows of a second. -/
example : (match (do
    let a ← new { step := 1000000, resolution := .microseconds, soiled := 0, outSize := 0 } 0 0 1700000000000000
    let (n1, _, _, a) ← a.pushN exactEnv 0 0 1700000000500000 (.one 5 1) true
    let (n2, ok, out, _) ← a.pushN exactEnv 0 0 1700000100500000 (.one 6 1) true
    .ok (n1, n2, ok, out.map fun d => (d.ts, d.count)) : M (Nat × Nat × Bool × List (Int × Nat))) with
    | .ok p => decide (p = (0, 100, true, [(1700000000000000, 1)]))
    | .error _ => false) = true := by decide +kernel

end Wrtstat
