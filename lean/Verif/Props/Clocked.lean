/-
C158: a window ends when its time is over.
-/
import Verif.Lemmas.Unit
import Verif.Props.RegistryLate

namespace Wrtstat

set_option autoImplicit false

open Aggregator

/-- What is done to an aggregator by those who take the time from the clock, as meters do and `pushout`.  The times are nanoseconds; the time of the
event is read by the meter, the two others, if at all, by the separator. -/
inductive Clocked where
  | add (ns ns1 ns2 : Nat) (x : AddArg)
  | push (ns ns1 ns2 : Nat) (x : AddArg) (handler : Bool)
  | tick (ns : Nat) (handler force : Bool)
  | pop
  | forcePop
  | enable (v : Bool)

/-- In terms of what is told to the aggregator: meters tell `now(resolution)`, `pushout` tells nothing. -/
def Clocked.told (res : Resolution) : Clocked → AOp
  | .add ns ns1 ns2 x => .add (nowOf res ns1) (nowOf res ns2) (nowOf res ns) x
  | .push ns ns1 ns2 x hd => .push (nowOf res ns1) (nowOf res ns2) (nowOf res ns) x hd
  | .tick ns hd f => .separate (nowOf res ns) 0 hd f
  | .pop => .pop
  | .forcePop => .forcePop
  | .enable v => .enable v

/-- The claim: whatever was recorded, there is a time from which on a tick ends the windows of all of it. -/
def C158_Claim (res : Resolution) : Prop :=
  ∀ (env : Env) (opt : AggregatorOpts) (ns0 : Nat) (rand : Int) (a0 : Aggregator) (ops : List Clocked) (o : AObs), 0 < opt.step →
    opt.resolution = res → Aggregator.new opt (nowOf res ns0) rand (nowOf res ns0) = .ok a0 →
    execAll env { a := a0 } (ops.map (Clocked.told res)) = .ok o →
    ∃ ns : Nat, ∀ ns' : Nat, ns ≤ ns' → ∀ o', exec env o ((Clocked.tick ns' false false).told res) = .ok o' →
      ∀ e ∈ o.accepted, e.1 < o'.a.sep.currentTime

def C158_FullClaim : Prop := ∀ res, C158_Claim res

theorem nowOf_nonneg (res : Resolution) (ns : Nat) : 0 ≤ nowOf res ns := by
  cases res <;> simp only [nowOf, nowT] <;> first | exact Int.tdiv_nonneg (by omega) (by decide) | exact le_refl _

theorem told_clockOk (res : Resolution) (ops : List Clocked) : ∀ op ∈ ops.map (Clocked.told res), op.clockOk := by
  intro op hop
  obtain ⟨c, -, rfl⟩ := List.mem_map.1 hop
  cases c <;> simp only [Clocked.told, AOp.clockOk] <;> first | exact ⟨nowOf_nonneg _ _, nowOf_nonneg _ _⟩ | exact trivial | exact nowOf_nonneg _ _

theorem align_unbounded {step : Int} (res : Resolution) (hres : res ≠ .none) (hs : 0 < step) (B : Int) :
    ∃ ns : Nat, ∀ ns' : Nat, ns ≤ ns' → B ≤ align step (nowOf res ns') := by
  refine ⟨(1000000000 * (B.natAbs + step.natAbs)), fun ns' h => ?_⟩
  have key : ∀ u : Int, 0 < u → u ≤ 1000000000 → B ≤ align step (Int.tdiv ns' u) := by
    intro u hu hu'
    have h1 : B + step ≤ Int.tdiv ns' u := by
      rw [Int.tdiv_eq_ediv_of_nonneg (by omega), Int.le_ediv_iff_mul_le hu]
      have : (1000000000 : Int) * ((B.natAbs : Int) + step.natAbs) ≤ ns' := by exact_mod_cast h
      have h2 : (B + step) * u ≤ ((B.natAbs : Int) + step.natAbs) * 1000000000 := by
        calc (B + step) * u ≤ ((B.natAbs : Int) + step.natAbs) * u := Int.mul_le_mul_of_nonneg_right (by omega) (by omega)
          _ ≤ _ := Int.mul_le_mul_of_nonneg_left hu' (by omega)
      omega
    have h3 : 0 ≤ Int.tdiv (ns' : Int) u := Int.tdiv_nonneg (by omega) (by omega)
    unfold align
    rw [Int.tdiv_eq_ediv_of_nonneg h3]
    have := Int.lt_ediv_add_one_mul_self (Int.tdiv (ns' : Int) u) hs
    have e : (Int.tdiv (ns' : Int) u / step + 1) * step = Int.tdiv (ns' : Int) u / step * step + step := by ring
    omega
  cases res with
  | none => exact absurd rfl hres
  | seconds => exact key 1000000000 (by decide) (by decide)
  | milliseconds => exact key 1000000 (by decide) (by decide)
  | microseconds => exact key 1000 (by decide) (by decide)
  | nanoseconds => exact key 1 (by decide) (by decide)

/-- With a clock it holds. -/
theorem C158_ends_partial (res : Resolution) (hres : res ≠ .none) : C158_Claim res := by
  intro env opt ns0 rand a0 ops o hs hr hn h
  obtain ⟨_, _, _, _, g⟩ := pgood_execAll (Q := fun _ _ => True) (fun _ _ _ => trivial) hs _ (pgood_fresh hs (Fresh.new (env := env) hn))
    (told_clockOk res ops) (fun _ _ _ _ _ _ => trivial) h
  obtain ⟨B, hB⟩ : ∃ B : Int, ∀ e ∈ o.accepted, e.1 ≤ B := by
    generalize o.accepted = l
    induction l with
    | nil => exact ⟨0, by simp⟩
    | cons e l ih =>
      obtain ⟨B, hB⟩ := ih
      refine ⟨max B e.1, fun e' he' => ?_⟩
      rcases List.mem_cons.1 he' with rfl | he'
      · exact le_max_right _ _
      · exact (hB e' he').trans (le_max_left _ _)
  obtain ⟨ns, hns⟩ := align_unbounded res hres hs (B + opt.step + 1)
  refine ⟨ns, fun ns' hle o' hx e he => ?_⟩
  have hh := horizon_exec hs g (.separate (nowOf res ns') 0 false false) trivial hx
  have hc : o'.a.sep.currentTime = (o.horizon.next opt (.separate (nowOf res ns') 0 false false)).cur := congrArg Horizon.cur hh
  have hm : meant opt.resolution (nowOf res ns') 0 = nowOf res ns' := by simp [meant, hr, hres]
  have := hB e he
  have hT := hns ns' hle
  rw [hc]
  simp only [Horizon.next, hm]
  generalize align opt.step (nowOf res ns') = T at *
  have e1 : o.horizon.cur = o.a.sep.currentTime := rfl
  rw [e1]
  split
  · have := lt_windowOf (org := o.a.sep.currentTime) (t := T) hs
    show e.1 < windowOf o.a.sep.currentTime opt.step T
    omega
  · rename_i hlt
    show e.1 < o.a.sep.currentTime
    omega

theorem none_horizon {opt : AggregatorOpts} (ops : List Clocked) : ∀ s : Horizon, s.cur = 0 →
    opt.resolution = .none → ((ops.map (Clocked.told .none)).foldl (Horizon.next opt) s).cur = 0 ∧
      ((∀ e ∈ s.acc, e.1 = 0) → ∀ e ∈ ((ops.map (Clocked.told .none)).foldl (Horizon.next opt) s).acc, e.1 = 0) ∧
      (s.en = true → (∀ op ∈ ops, op ≠ .enable false) → ((ops.map (Clocked.told .none)).foldl (Horizon.next opt) s).acc =
        s.acc ++ ops.filterMap fun op => ((op.told .none).payload.map fun x => ((0 : Int), x))) := by
  induction ops with
  | nil => intro s h0 _; exact ⟨h0, fun h => h, fun _ _ => by simp⟩
  | cons op ops ih =>
    intro s h0 hr
    have ha : align opt.step 0 = 0 := by simp [align]
    have hm : ∀ c, meant Resolution.none c 0 = 0 := by intro c; simp [meant]
    have hw : windowOf 0 opt.step 0 = 0 := by simp [windowOf]
    have k : (s.next opt (op.told .none)).cur = 0 ∧
        ((∀ e ∈ s.acc, e.1 = 0) → ∀ e ∈ (s.next opt (op.told .none)).acc, e.1 = 0) ∧ (s.en = true → op ≠ .enable false → (s.next opt (op.told .none)).en = true ∧
        (s.next opt (op.told .none)).acc = s.acc ++ ((op.told .none).payload.map fun x => ((0 : Int), x)).toList) := by
      cases op with
      | add ns ns1 ns2 x =>
        simp only [Clocked.told, Horizon.next, nowOf, hr, hm, ha, h0, le_refl, and_true, hw, AOp.payload]
        by_cases he : s.en = true
        · simp only [he, if_true, true_and]
          refine ⟨fun h e hm => ?_, fun _ _ => rfl⟩
          rcases List.mem_append.1 hm with hm | hm
          · exact h e hm
          · rw [List.mem_singleton.1 hm]
        · simp [he, h0]
      | push ns ns1 ns2 x hd =>
        simp only [Clocked.told, Horizon.next, nowOf, hr, hm, ha, h0, le_refl, and_true, hw, AOp.payload]
        by_cases he : s.en = true
        · simp only [he, if_true, true_and]
          refine ⟨fun h e hm => ?_, fun _ _ => rfl⟩
          rcases List.mem_append.1 hm with hm | hm
          · exact h e hm
          · rw [List.mem_singleton.1 hm]
        · simp [he, h0]
      | tick ns hd f => simp [Clocked.told, Horizon.next, hr, hm, ha, h0, hw, AOp.payload]
      | pop => simp [Clocked.told, Horizon.next, h0, AOp.payload]
      | forcePop => simp [Clocked.told, Horizon.next, h0, AOp.payload]
      | enable v => cases v <;> simp [Clocked.told, Horizon.next, h0, AOp.payload]
    obtain ⟨i1, i3, i2⟩ := ih (s.next opt (op.told .none)) k.1 hr
    rw [List.map_cons, List.foldl_cons]
    refine ⟨i1, fun hz => i3 (k.2.1 hz), fun he hne => ?_⟩
    obtain ⟨k1, k2⟩ := k.2.2 he (hne op (by simp))
    rw [i2 k1 (fun x hx => hne x (by simp [hx])), k2, List.append_assoc]
    congr 1
    cases h : (op.told .none).payload <;> simp [h]

/-- Without one, all that meters tell is recorded at time 0, no tick ends the window, and without force no record is ever made. -/
theorem C158_none (env : Env) (opt : AggregatorOpts) (ns0 : Nat) (rand : Int) (a0 : Aggregator) (ops : List Clocked) (o : AObs)
    (hs : 0 < opt.step) (h0 : opt.soiled = 0) (hr : opt.resolution = .none)
    (hn : Aggregator.new opt (nowOf .none ns0) rand (nowOf .none ns0) = .ok a0)
    (h : execAll env { a := a0 } (ops.map (Clocked.told .none)) = .ok o) :
    o.a.sep.currentTime = 0 ∧
    ((∀ op ∈ ops, op ≠ .enable false) → o.accepted = ops.filterMap fun op => ((op.told .none).payload.map fun x => ((0 : Int), x))) ∧
    ((∀ op ∈ ops, (op.told .none).forced = false) → o.made = []) := by
  have hf := Fresh.new (env := env) hn
  obtain ⟨e1, e2⟩ := new_begins hs h0 hn
  have ht : ∀ op ∈ ops.map (Clocked.told .none), op.timeOk opt := by
    intro op hop
    obtain ⟨c, -, rfl⟩ := List.mem_map.1 hop
    cases c <;> simp only [Clocked.told, AOp.timeOk] <;> exact .inl hr
  have hh := horizon_execAll hs _ (pgood_fresh hs hf) (told_clockOk _ ops) ht h
  have hc0 : ({ a := a0 } : AObs).horizon.cur = 0 := by
    show a0.sep.currentTime = 0
    rw [e2, hr]
    simp [meant, nowOf, align]
  obtain ⟨k1, k3, k2⟩ := none_horizon ops _ hc0 hr
  rw [← hh] at k1 k2 k3
  have acc : (∀ op ∈ ops, op ≠ .enable false) → o.accepted = ops.filterMap fun op => ((op.told .none).payload.map fun x => ((0 : Int), x)) :=
    fun hne => (k2 e1 hne).trans (List.nil_append _)
  have cur : o.a.sep.currentTime = 0 := k1
  refine ⟨cur, acc, fun hfo => ?_⟩
  have hp := C151_windows env opt a0 _ o hs hf (told_clockOk _ ops) (by
    intro op hop
    obtain ⟨c, hc, rfl⟩ := List.mem_map.1 hop
    exact hfo c hc) h
  have hz : busyWindows a0.sep.currentTime opt.step o.a.sep.currentTime o.accepted = [] := by
    unfold busyWindows
    rw [List.filter_eq_nil_iff.2]
    · rfl
    · intro e he
      rw [cur, k3 (fun e h => by cases h) e he]
      simp
  rw [hz] at hp
  simpa using hp.eq_nil

namespace ExClocked

def opt (res : Resolution) : AggregatorOpts := { step := 10, resolution := res, limit := 4, levels := 1, outSize := 0 }

/-- An aggregator made at second 1000. -/
def a0 (res : Resolution) : Aggregator :=
  match Aggregator.new (opt res) (nowOf res 1000000000000) 0 (nowOf res 1000000000000) with
  | .ok a => a
  | .error _ => exANew

/-- Events at 1003 s and 1024 s, and a tick at 1040 s. -/
def ops : List Clocked := [.add 1003000000000 0 0 (.one 5 1), .push 1024500000000 0 0 (.one 7 1) false, .tick 1040000000000 false false, .pop]

theorem new_ok (res : Resolution) : Aggregator.new (opt res) (nowOf res 1000000000000) 0 (nowOf res 1000000000000) = .ok (a0 res) := by
  cases res <;> rfl

/-- By the second there are two records, one of them received; without a resolution there is none. -/
example : (execAll exactEnv { a := a0 .seconds } (ops.map (Clocked.told .seconds))).toOption.map
      (fun o => (o.accepted, o.received.map (·.ts), o.made.map (·.ts))) =
      some ([(1000, .one 5 1), (1020, .one 7 1)], [1000], [1000, 1020]) ∧
    (execAll exactEnv { a := a0 .none } (ops.map (Clocked.told .none))).toOption.map
      (fun o => (o.accepted, o.received.map (·.ts), o.made.map (·.ts), o.a.sep.currentTime)) =
      some ([(0, .one 5 1), (0, .one 7 1)], [], [], 0) := by
  decide +kernel

end ExClocked

open ExClocked in
/-- One meter, one event. -/
theorem C158_not_none : ¬ C158_Claim .none := by
  intro h
  have r : (execAll exactEnv { a := a0 .none } ((ops.take 1).map (Clocked.told .none))).toOption.map
      (fun o => (o.accepted, (exec exactEnv o (.separate 0 0 false false)).toOption.map (fun o => o.a.sep.currentTime))) =
      some ([(0, .one 5 1)], some 0) := by decide +kernel
  cases e : execAll exactEnv { a := a0 .none } ((ops.take 1).map (Clocked.told .none)) with
  | error f => rw [e] at r; cases r
  | ok o =>
    rw [e] at r
    simp only [Except.toOption, Option.map_some, Option.some.injEq, Prod.mk.injEq] at r
    obtain ⟨r1, r2⟩ := r
    obtain ⟨ns, hns⟩ := h exactEnv (opt .none) 1000000000000 0 (a0 .none) (ops.take 1) o (by decide) rfl (new_ok .none) e
    cases e' : exec exactEnv o (.separate 0 0 false false) with
    | error f => rw [e'] at r2; cases r2
    | ok o' =>
      rw [e'] at r2
      simp only [Option.map_some, Option.some.injEq] at r2
      have := hns ns (le_refl _) o' e' (0, .one 5 1) (by rw [r1]; simp)
      rw [r2] at this
      exact absurd this (by decide)

theorem C158_refuted : ¬ C158_FullClaim := fun h => C158_not_none (h .none)

/-- It holds for the resolutions that have a clock, and for no other. -/
theorem C158_exact_partial (res : Resolution) : C158_Claim res ↔ res ≠ .none := by
  refine ⟨?_, C158_ends_partial res⟩
  rintro h rfl
  exact C158_not_none h

/-- What `now` tells when it is asked for no resolution, or for a number that is none of them. -/
theorem C158_no_clock (ns r : Int) : nowOf .none ns = 0 ∧
    (nowNumber r ns = 0 ∨ ∃ res : Resolution, res ≠ .none ∧ r = res.number ∧ nowNumber r ns = nowOf res ns) ∧
    ((∀ res : Resolution, res ≠ .none → r ≠ res.number) → nowNumber r ns = 0) := by
  refine ⟨rfl, ?_, ?_⟩
  · unfold nowNumber
    split_ifs with h1 h2 h3 h4
    · exact .inr ⟨.nanoseconds, by decide, h1, rfl⟩
    · exact .inr ⟨.microseconds, by decide, h2, rfl⟩
    · exact .inr ⟨.milliseconds, by decide, h3, rfl⟩
    · exact .inr ⟨.seconds, by decide, h4, rfl⟩
    · exact .inl rfl
  · intro h
    unfold nowNumber
    have h1 : r ≠ 1000000000 := h .nanoseconds (by decide)
    have h2 : r ≠ 1000000 := h .microseconds (by decide)
    have h3 : r ≠ 1000 := h .milliseconds (by decide)
    have h4 : r ≠ 1 := h .seconds (by decide)
    rw [if_neg h1, if_neg h2, if_neg h3, if_neg h4]

example : nowNumber 60 5000000000 = 0 ∧ nowNumber 1000 5000000000 = 5000 ∧ nowOf .seconds 5999999999 = 5 := by decide

end Wrtstat
