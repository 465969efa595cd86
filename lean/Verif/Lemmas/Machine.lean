/-
64-bit counters are the counters of the other model modulo 2^64.
-/
import Verif.Model.Machine
import Verif.Spec.ReducerSpec
import Verif.Lemmas.Percentile
import Mathlib.Tactic.Common

namespace Wrtstat

set_option autoImplicit false

theorem w64_add_left (a b : Nat) : w64 (w64 a + b) = w64 (a + b) := Nat.mod_add_mod a (2 ^ 64) b

theorem w64_add_right (a b : Nat) : w64 (a + w64 b) = w64 (a + b) := Nat.add_mod_mod a b (2 ^ 64)

theorem w64_small {a : Nat} (h : a < 2 ^ 64) : w64 a = a := Nat.mod_eq_of_lt h

/-- Two runs fail alike, or both end and the results are related. -/
def MRel {α β : Type} (R : α → β → Prop) : M α → M β → Prop
  | .ok a, .ok b => R a b
  | .error e, .error f => e = f
  | _, _ => False

section MRel
variable {α β γ δ : Type} {R : α → β → Prop} {S : γ → δ → Prop}

theorem MRel.ok {a : α} {b : β} (h : R a b) : MRel R (.ok a) (.ok b) := h

theorem MRel.bind {x : M α} {y : M β} {f : α → M γ} {g : β → M δ} (h : MRel R x y) (hf : ∀ a b, R a b → MRel S (f a) (g b)) :
    MRel S (x >>= f) (y >>= g) := by
  cases x <;> cases y
  · exact h
  · exact h.elim
  · exact h.elim
  · exact hf _ _ h

theorem MRel.mono {R' : α → β → Prop} {x : M α} {y : M β} (h : MRel R x y) (hf : ∀ a b, R a b → R' a b) : MRel R' x y := by
  cases x <;> cases y
  · exact h
  · exact h.elim
  · exact h.elim
  · exact hf _ _ h

theorem MRel.of_ok {x : M α} {y : M β} {a : α} (h : MRel R x y) (hx : x = .ok a) : ∃ b, y = .ok b ∧ R a b := by
  subst hx
  cases y with
  | error e => exact h.elim
  | ok b => exact ⟨b, rfl, h⟩

theorem MRel.eq {x : M α} {y : M β} {f : α → β} (h : MRel (fun a b => b = f a) x y) : y = x.map f := by
  cases x <;> cases y
  · exact congrArg Except.error (Eq.symm h)
  · exact h.elim
  · exact h.elim
  · exact congrArg Except.ok h

theorem MRel.self {x : M α} : MRel (fun a b => b = a) x x := by
  cases x <;> exact rfl

theorem MRel.mapM {l : List α} {f : α → M γ} {g : β → M δ} {k : α → β} {m : γ → δ} (hf : ∀ a, MRel (fun c d => d = m c) (f a) (g (k a))) :
    MRel (fun c d => d = c.map m) (l.mapM f) ((l.map k).mapM g) := by
  induction l with
  | nil => exact rfl
  | cons a l ih =>
    rw [List.map_cons, List.mapM_cons, List.mapM_cons]
    refine (hf a).bind fun c d hd => ih.bind fun cs ds hds => ?_
    rw [hd, hds]
    exact rfl

end MRel

namespace Reducer

/-- The machine's reducer is the other one modulo 2^64, which has seen at most `n` values. -/
def RelW (n : Nat) (r r' : Reducer) : Prop := r' = r.wrap ∧ r.averageCount ≤ n

theorem avgStepW_eq {env : Env} {a : Rat} {n : Nat} {v : Int} (h : n + 1 < 2 ^ 64) : avgStepW env a n v = avgStep env a n v := by
  unfold avgStepW avgStep
  rw [w64_small h, Nat.cast_succ]

/-- The part of `add_` after the average. -/
def place (inc : Nat → Nat) (r : Reducer) (v : Int) : Reducer :=
  if r.data = [] ∨ r.back.length = r.opt.limit then
    if r.data.length = r.opt.levels ∨ r.opt.limit = 0 then
      { r with lossy := inc r.lossy }
    else
      let d := if r.curMode = .sorting then onBack sortInts r.data else r.data
      { r with data := d ++ [[v]] }
  else
    { r with data := onBack (· ++ [v]) r.data }

theorem place_wrap (r : Reducer) (v : Int) : place (fun n => w64 (n + 1)) r.wrap v = (place (· + 1) r v).wrap := by
  unfold place
  by_cases h1 : r.data = [] ∨ r.back.length = r.opt.limit
  · rw [if_pos h1, if_pos (by exact h1)]
    by_cases h2 : r.data.length = r.opt.levels ∨ r.opt.limit = 0
    · rw [if_pos h2, if_pos (by exact h2)]
      simp only [wrap, w64_add_left]
    · rw [if_neg h2, if_neg (by exact h2)]
      rfl
  · rw [if_neg h1, if_neg (by exact h1)]
    rfl

theorem addValW_wrap {env : Env} {r : Reducer} {v : Int} (h : r.averageCount + 1 < 2 ^ 64) : addW_ env r.wrap v = (add_ env r v).wrap := by
  have e1 : avgStepW env r.wrap.average r.wrap.averageCount v = avgStep env r.average r.averageCount v := avgStepW_eq h
  have e2 : w64 (r.wrap.averageCount + 1) = r.averageCount + 1 := w64_small h
  show place (fun n => w64 (n + 1)) (minmax { r.wrap with average := avgStepW env r.wrap.average r.wrap.averageCount v, averageCount := w64 (r.wrap.averageCount + 1) } v) v = _
  rw [e1, e2]
  exact place_wrap (minmax { r with average := avgStep env r.average r.averageCount v, averageCount := r.averageCount + 1 } v) v

theorem addVal_averageCount {env : Env} {r : Reducer} {v : Int} : (add_ env r v).averageCount = r.averageCount + 1 := by
  show (place (· + 1) (minmax { r with average := avgStep env r.average r.averageCount v, averageCount := r.averageCount + 1 } v) v).averageCount = _
  unfold place
  split_ifs <;> rfl

theorem foldW {env : Env} (vs : List Int) : ∀ {r : Reducer}, r.averageCount + vs.length < 2 ^ 64 →
    vs.foldl (addW_ env) r.wrap = (vs.foldl (add_ env) r).wrap ∧ (vs.foldl (add_ env) r).averageCount = r.averageCount + vs.length := by
  induction vs with
  | nil => intro r _; exact ⟨rfl, rfl⟩
  | cons v vs ih =>
    intro r h
    rw [List.length_cons] at h
    rw [List.foldl_cons, List.foldl_cons, addValW_wrap (by omega)]
    have := ih (r := add_ env r v) (by rw [addVal_averageCount]; omega)
    rw [addVal_averageCount] at this
    exact ⟨this.1, by rw [this.2, List.length_cons]; omega⟩

/-- The number of values in the payload of a call. -/
def nvals : AddArg → Nat
  | .one _ _ => 1
  | .many vs _ => vs.length
  | .init vs => vs.length
  | .reduced rd => rd.data.length

theorem minmax_wrap (r : Reducer) (v : Int) : r.wrap.minmax v = (r.minmax v).wrap := rfl

theorem addManyW_wrap {env : Env} {r : Reducer} {vs : List Int} {c : Nat} (h : r.averageCount + vs.length < 2 ^ 64) :
    addManyW env r.wrap vs c = (addMany env r vs c).wrap ∧ (addMany env r vs c).averageCount = r.averageCount + vs.length := by
  have := foldW (env := env) vs (r := { r with empty := false }) h
  have e : ({ r.wrap with empty := false } : Reducer) = ({ r with empty := false } : Reducer).wrap := rfl
  unfold addManyW addMany
  rw [e, this.1]
  generalize vs.foldl (add_ env) { r with empty := false } = q at this
  constructor
  · simp only [wrap]
    split_ifs
    · simp only [w64_add_left]
    · simp only [w64_add_left]
  · have := this.2
    simp only
    split_ifs <;> exact this

theorem addW_wrap {env : Env} {r : Reducer} {x : AddArg} (h : r.averageCount + nvals x < 2 ^ 64) :
    addW env r.wrap x = (add env r x).wrap ∧ (add env r x).averageCount = r.averageCount + nvals x := by
  cases x with
  | one v c =>
    have h1 := addValW_wrap (env := env) (r := { r with empty := false }) (v := v) h
    have h2 := addVal_averageCount (env := env) (r := { r with empty := false }) (v := v)
    have e : ({ r.wrap with empty := false } : Reducer) = ({ r with empty := false } : Reducer).wrap := rfl
    show addOneW env r.wrap v c = (addOne env r v c).wrap ∧ (addOne env r v c).averageCount = _
    unfold addOneW addOne
    rw [e, h1]
    generalize add_ env { r with empty := false } v = q at h2
    constructor
    · simp only [wrap]
      split_ifs
      · simp only [w64_add_left]
      · simp only [w64_add_left]
    · simp only
      split_ifs <;> exact h2
  | many vs c => exact addManyW_wrap h
  | init vs =>
    have := foldW (env := env) vs h
    show addInitW env r.wrap vs = (addInit env r vs).wrap ∧ (addInit env r vs).averageCount = _
    unfold addInitW addInit
    rw [this.1]
    refine ⟨?_, this.2⟩
    simp only [wrap, w64_add_left]
  | reduced rd =>
    have := addManyW_wrap (env := env) (c := rd.count) h
    show addReducedW env r.wrap rd = (addReduced env r rd).wrap ∧ (addReduced env r rd).averageCount = _
    unfold addReducedW addReduced
    rw [this.1]
    generalize addMany env r rd.data rd.count = q at this
    constructor
    · simp only [minmax_wrap]
      split_ifs <;> rfl
    · have := this.2
      simp only [minmax]
      split_ifs <;> exact this

theorem lossyCountW_wrap (r : Reducer) : r.wrap.lossyCountW = w64 r.lossyCount := by
  unfold lossyCountW lossyCount
  by_cases h : r.data.length < 2
  · rw [if_pos h, if_pos (by exact h)]
    rfl
  · rw [if_neg h, if_neg (by exact h)]
    show w64 (w64 (w64 r.lossy + w64 (r.opt.limit * (r.data.length - 2))) + r.back.length) = _
    rw [w64_add_left, Nat.add_assoc, w64_add_left, Nat.add_left_comm, w64_add_left, Nat.add_left_comm, ← Nat.add_assoc]

/-- The part of `reduce` after the last row is sorted. -/
def reduceTail (env : Env) (count : Reducer → Nat) (r : Reducer) : M Reducer :=
  if r.data.length = 1 then .ok r
  else do
    let r := { r with lossy := count r }
    let n := r.data.length
    let data ← reduceLoop env.nth r.curMode n r.opt.limit 0 n r.data
    let cur := if r.opt.mode = .adapt then
        (if r.opt.limit / n > magic then Mode.sorting else Mode.nth)
      else r.curMode
    .ok { r with data := data.take 1, curMode := cur }

theorem reduceTail_wrap {env : Env} {n : Nat} {r : Reducer} (hn : r.averageCount ≤ n) :
    MRel (RelW n) (reduceTail env lossyCount r) (reduceTail env lossyCountW r.wrap) := by
  unfold reduceTail
  by_cases h : r.data.length = 1
  · rw [if_pos h, if_pos (by exact h)]
    exact ⟨rfl, hn⟩
  · rw [if_neg h, if_neg (by exact h), lossyCountW_wrap]
    refine MRel.bind MRel.self fun a b hb => ?_
    subst hb
    exact ⟨rfl, hn⟩

theorem reduceW_wrap {env : Env} {n : Nat} {r : Reducer} (hn : r.averageCount ≤ n) : MRel (RelW n) (reduce env r) (reduceW env r.wrap) := by
  show MRel _ (if r.data = [] then .ok r else reduceTail env lossyCount (if r.curMode = .sorting then { r with data := onBack sortInts r.data } else r))
    (if r.wrap.data = [] then .ok r.wrap else
      reduceTail env lossyCountW (if r.wrap.curMode = .sorting then { r.wrap with data := onBack sortInts r.wrap.data } else r.wrap))
  by_cases h1 : r.data = []
  · rw [if_pos h1, if_pos (by exact h1)]
    exact ⟨rfl, hn⟩
  rw [if_neg h1, if_neg (show ¬ r.wrap.data = [] from h1)]
  by_cases h2 : r.curMode = .sorting
  · rw [if_pos h2, if_pos (show r.wrap.curMode = .sorting from h2)]
    exact reduceTail_wrap (r := { r with data := onBack sortInts r.data }) hn
  · rw [if_neg h2, if_neg (show ¬ r.wrap.curMode = .sorting from h2)]
    exact reduceTail_wrap hn

/-- A summary and what is left, modulo 2^64. -/
def RelD (n : Nat) (x y : Option AggData × Reducer) : Prop := y.1 = x.1.map AggData.wrap ∧ RelW n x.2 y.2

theorem detachW_wrap {env : Env} {n : Nat} {r : Reducer} (hn : r.averageCount ≤ n) : MRel (RelD n) (detach env r) (detachW env r.wrap) := by
  unfold detach detachW
  have e0 : r.wrap.empty = r.empty := rfl
  rw [e0]
  split_ifs
  · exact ⟨rfl, rfl, hn⟩
  refine (reduceW_wrap hn).bind fun a b hb => ?_
  obtain ⟨rfl, hb⟩ := hb
  refine MRel.bind MRel.self fun x y hy => ?_
  subst hy
  exact ⟨rfl, rfl, Nat.zero_le _⟩

theorem getReducedW_wrap {env : Env} {r : Reducer} : MRel (fun x y => y = x.map AggData.wrap) (getReduced env r) (getReducedW env r.wrap) := by
  unfold getReduced getReducedW
  have e : r.wrap.clone = r.clone.wrap := rfl
  rw [e]
  refine (detachW_wrap (r := r.clone) (Nat.le_refl _)).bind fun a b hb => ?_
  exact hb.1

/-- The number of values an operation records. -/
def opVals : ROp → Nat
  | .add x => nvals x
  | _ => 0

theorem stepW_wrap {env : Env} {n : Nat} {r : Reducer} {op : ROp} (hn : r.averageCount ≤ n) (hx : n + opVals op < 2 ^ 64) :
    MRel (RelW (n + opVals op)) (step env r op) (stepW env r.wrap op) := by
  cases op with
  | add x =>
    have hx : n + nvals x < 2 ^ 64 := hx
    have := addW_wrap (env := env) (r := r) (x := x) (by omega)
    refine ⟨this.1, ?_⟩
    rw [this.2]
    show _ ≤ n + nvals x
    omega
  | reduce => exact reduceW_wrap hn
  | clear => exact ⟨rfl, Nat.zero_le _⟩
  | detach =>
    refine MRel.bind (detachW_wrap hn) fun a b hb => ?_
    exact hb.2
  | look =>
    refine MRel.bind getReducedW_wrap fun a b hb => ?_
    exact ⟨rfl, hn⟩

theorem runW_wrap {env : Env} (ops : List ROp) : ∀ {n : Nat} {r : Reducer}, r.averageCount ≤ n → n + (ops.map opVals).sum < 2 ^ 64 →
    MRel (RelW (n + (ops.map opVals).sum)) (run env r ops) (runW env r.wrap ops) := by
  unfold run runW
  induction ops with
  | nil => intro n r hn _; exact ⟨rfl, hn⟩
  | cons op ops ih =>
    intro n r hn hx
    rw [List.map_cons, List.sum_cons] at hx ⊢
    rw [List.foldlM_cons, List.foldlM_cons]
    refine (stepW_wrap hn (by omega)).bind fun p q hq => ?_
    obtain ⟨rfl, hq⟩ := hq
    rw [← Nat.add_assoc] at hx ⊢
    exact ih hq hx

end Reducer

namespace Separator
open Reducer

/-- The machine's separator is the other one modulo 2^64, which has seen at most `n` values since the last record. -/
def RelW (n : Nat) (s s' : Separator) : Prop := s' = s.wrap ∧ s.reducer.averageCount ≤ n

theorem sepLoopW_wrap {env : Env} {n : Nat} {step ts : Int} : ∀ (k : Nat) (next : Int) {r : Reducer}, (ts - next + 1).toNat ≤ k → r.averageCount ≤ n →
    MRel (fun x y => y.1 = x.1.map AggData.wrap ∧ y.2.1 = x.2.1 ∧ Reducer.RelW n x.2.2 y.2.2)
      (sepLoop env step ts next r) (sepLoopW env step ts next r.wrap) := by
  intro k
  induction k with
  | zero =>
    intro next r hk hn
    rw [sepLoop, sepLoopW, dif_neg (by omega), dif_neg (by omega)]
    exact ⟨rfl, rfl, rfl, hn⟩
  | succ k ih =>
    intro next r hk hn
    rw [sepLoop, sepLoopW]
    by_cases h1 : next ≤ ts
    · rw [dif_pos h1, dif_pos h1]
      by_cases h2 : 0 < step
      · rw [dif_pos h2, dif_pos h2]
        refine (detachW_wrap hn).bind fun a b hb => ?_
        obtain ⟨hb1, hb2, hb3⟩ := hb
        simp only [hb2]
        refine (ih (next + step) (by omega) hb3).bind fun c d hd => ?_
        obtain ⟨hd1, hd2, hd3⟩ := hd
        refine ⟨?_, hd2, hd3⟩
        simp only [hd1, hb1]
        cases a.1 <;> rfl
      · rw [dif_neg h2, dif_neg h2]
        exact rfl
    · rw [dif_neg h1, dif_neg h1]
      exact ⟨rfl, rfl, rfl, hn⟩

/-- A flag, records and a separator, modulo 2^64. -/
def RelS (n : Nat) (x y : Bool × List AggData × Separator) : Prop := y.1 = x.1 ∧ y.2.1 = x.2.1.map AggData.wrap ∧ RelW n x.2.2 y.2.2

theorem separateW_wrap {env : Env} {n : Nat} {s : Separator} {clk ts : Int} {handler force : Bool} (hn : s.reducer.averageCount ≤ n) :
    MRel (RelS n) (s.separate env clk ts handler force) (s.wrap.separateW env clk ts handler force) := by
  unfold separate separateW
  refine MRel.bind (x := s.getTs clk ts) MRel.self fun t t' ht => ?_
  subst ht
  by_cases h : force = false ∧ t' < s.next
  · rw [if_pos h, if_pos (by exact h)]
    exact ⟨rfl, rfl, rfl, hn⟩
  · rw [if_neg h, if_neg (by exact h)]
    refine (sepLoopW_wrap _ s.next (Nat.le_refl _) hn).bind fun a b hb => ?_
    obtain ⟨hb1, hb2, hb3, hb4⟩ := hb
    cases handler
    · refine ⟨rfl, rfl, ?_, hb4⟩
      simp only [wrap, hb1, hb2, hb3, List.map_append]
    · refine ⟨rfl, hb1, ?_, hb4⟩
      simp only [wrap, hb2, hb3]

theorem pushW_wrap {env : Env} {n : Nat} {s : Separator} {clk1 clk2 ts : Int} {x : AddArg} {handler : Bool} (hn : s.reducer.averageCount ≤ n)
    (hx : n + nvals x < 2 ^ 64) : MRel (RelS (n + nvals x)) (s.push env clk1 clk2 ts x handler) (s.wrap.pushW env clk1 clk2 ts x handler) := by
  unfold push pushW
  refine MRel.bind (x := s.getTs clk1 ts) MRel.self fun t t' ht => ?_
  subst ht
  refine (separateW_wrap hn).bind fun a b hb => ?_
  obtain ⟨_, hb2, hb3, hb4⟩ := hb
  obtain ⟨a1, a2, q⟩ := a
  obtain ⟨b1, b2, q'⟩ := b
  simp only at hb2 hb3 hb4 ⊢
  subst hb2 hb3
  by_cases h : t' < q.next - q.step
  · rw [if_pos h, if_pos (by exact h)]
    exact ⟨rfl, rfl, rfl, by simp only; omega⟩
  · rw [if_neg h, if_neg (by exact h)]
    have := addW_wrap (env := env) (r := q.reducer) (x := x) (by omega)
    refine ⟨rfl, rfl, ?_, ?_⟩
    · have e : q.wrap.reducer.addW env x = (q.reducer.add env x).wrap := this.1
      simp only [e]
      rfl
    · simp only [this.2]
      omega

theorem addW_wrap {env : Env} {n : Nat} {s : Separator} {clk1 clk2 ts : Int} {x : AddArg} (hn : s.reducer.averageCount ≤ n)
    (hx : n + nvals x < 2 ^ 64) : MRel (fun p q => q.1 = p.1 ∧ RelW (n + nvals x) p.2 q.2) (s.add env clk1 clk2 ts x) (s.wrap.addW env clk1 clk2 ts x) := by
  unfold add addW
  refine (pushW_wrap hn hx).bind fun a b hb => ?_
  exact ⟨hb.1, hb.2.2⟩

theorem forcePopW_wrap {env : Env} {n : Nat} {s : Separator} (hn : s.reducer.averageCount ≤ n) :
    MRel (fun p q => q.1 = p.1.map AggData.wrap ∧ RelW n p.2 q.2) (s.forcePop env) (s.wrap.forcePopW env) := by
  unfold forcePop forcePopW pop
  obtain ⟨r, step, next, res, l⟩ := s
  cases l with
  | cons d l => exact ⟨rfl, rfl, hn⟩
  | nil =>
    refine (detachW_wrap (r := r) hn).bind fun a b hb => ?_
    obtain ⟨hb1, hb2, hb3⟩ := hb
    refine ⟨?_, ?_, hb3⟩
    · simp only [hb1]
      cases a.1 <;> rfl
    · simp only [hb2, wrap]

theorem getCurrentW_wrap {env : Env} {s : Separator} : MRel (fun x y => y = x.map AggData.wrap) (s.getCurrent env) (s.wrap.getCurrentW env) := by
  unfold getCurrent getCurrentW
  refine MRel.bind (getReducedW_wrap (r := s.reducer)) fun a b hb => ?_
  subst hb
  cases a <;> exact rfl

end Separator

namespace Aggregator
open Reducer

/-- The machine's aggregator is the other one modulo 2^64, which has seen at most `n` values since the last record. -/
def RelW (n : Nat) (a a' : Aggregator) : Prop := a' = a.wrap ∧ a.sep.reducer.averageCount ≤ n

theorem finish_wrap (E : NthElement) (k : Nat) (d : AggData) : MRel (fun x y => y = x.wrap) (finish E k d) (finish E k d.wrap) := by
  unfold finish
  refine MRel.bind (R := fun x y => y = x.wrap) ?_ fun a b hb => ?_
  · unfold calcPerc
    simp only
    by_cases h : d.data.length ≠ 0
    · rw [if_pos h, if_pos (by exact h)]
      refine MRel.bind (x := nth_ E 50 0 d.data) MRel.self fun a b hb => ?_
      subst hb
      refine MRel.bind MRel.self fun a b hb => ?_
      subst hb
      refine MRel.bind MRel.self fun a b hb => ?_
      subst hb
      refine MRel.bind MRel.self fun a b hb => ?_
      subst hb
      refine MRel.bind MRel.self fun a b hb => ?_
      subst hb
      exact rfl
    · rw [if_neg h, if_neg (by exact h)]
      exact rfl
  · subst hb
    refine MRel.bind (x := reduce_ k a.data) MRel.self fun c d hd => ?_
    subst hd
    exact rfl

theorem aggregate0_wrap {E : NthElement} {n : Nat} {a : Aggregator} (hn : a.sep.reducer.averageCount ≤ n) :
    MRel (RelW n) (aggregate0_ E a) (aggregate0_ E a.wrap) := by
  unfold aggregate0_
  refine MRel.bind (R := fun c d => d = c.map AggData.wrap) (MRel.mapM (l := a.sep.sepList) (finish_wrap E a.outSize)) fun c d hd => ?_
  refine ⟨?_, hn⟩
  subst hd
  simp only [wrap, Separator.wrap, List.map_append, List.map_nil]

theorem addW_wrap {env : Env} {n : Nat} {a : Aggregator} {clk1 clk2 ts : Int} {x : AddArg} (hn : a.sep.reducer.averageCount ≤ n)
    (hx : n + nvals x < 2 ^ 64) : MRel (fun p q => q.1 = p.1 ∧ RelW (n + nvals x) p.2 q.2) (a.add env clk1 clk2 ts x) (a.wrap.addW env clk1 clk2 ts x) := by
  unfold add addW
  by_cases h : a.enabled = false
  · rw [if_pos h, if_pos (by exact h)]
    exact ⟨rfl, rfl, by simp only; omega⟩
  rw [if_neg h, if_neg (by exact h)]
  refine (Separator.addW_wrap (s := a.sep) hn hx).bind fun p q hq => ?_
  obtain ⟨ok, s⟩ := p
  obtain ⟨ok', s'⟩ := q
  obtain ⟨h1, h2, h3⟩ := hq
  simp only at h1 h2 h3 ⊢
  subst h1 h2
  by_cases h : ok' = false
  · rw [if_pos h, if_pos h]
    exact ⟨rfl, rfl, h3⟩
  rw [if_neg h, if_neg h]
  refine MRel.bind (aggregate0_wrap (a := { a with sep := s }) h3) fun c d hd => ?_
  exact ⟨rfl, hd⟩

/-- A flag, records and an aggregator, modulo 2^64. -/
def RelA (n : Nat) (x y : Bool × List AggData × Aggregator) : Prop := y.1 = x.1 ∧ y.2.1 = x.2.1.map AggData.wrap ∧ RelW n x.2.2 y.2.2

theorem pushW_wrap {env : Env} {n : Nat} {a : Aggregator} {clk1 clk2 ts : Int} {x : AddArg} {handler : Bool} (hn : a.sep.reducer.averageCount ≤ n)
    (hx : n + nvals x < 2 ^ 64) : MRel (RelA (n + nvals x)) (a.push env clk1 clk2 ts x handler) (a.wrap.pushW env clk1 clk2 ts x handler) := by
  unfold push pushW
  by_cases h : a.enabled = false
  · rw [if_pos h, if_pos (by exact h)]
    exact ⟨rfl, rfl, rfl, by simp only; omega⟩
  rw [if_neg h, if_neg (show ¬ a.wrap.enabled = false from h)]
  cases handler with
  | false =>
    rw [if_pos rfl, if_pos rfl]
    refine (addW_wrap hn hx).bind fun p q hq => ?_
    exact ⟨hq.1, rfl, hq.2⟩
  | true =>
    rw [if_neg (by decide), if_neg (by decide)]
    refine (Separator.pushW_wrap (s := a.sep) hn hx).bind fun p q hq => ?_
    obtain ⟨h1, h2, h3, h4⟩ := hq
    simp only [h2]
    refine MRel.bind (R := fun c d => d = c.map AggData.wrap) (MRel.mapM (finish_wrap env.nth a.outSize)) fun c d hd => ?_
    refine ⟨h1, hd, ?_, h4⟩
    simp only [h3, wrap]

theorem separateW_wrap {env : Env} {n : Nat} {a : Aggregator} {clk ts : Int} {handler force : Bool} (hn : a.sep.reducer.averageCount ≤ n) :
    MRel (RelA n) (a.separate env clk ts handler force) (a.wrap.separateW env clk ts handler force) := by
  unfold separate separateW
  refine (Separator.separateW_wrap (s := a.sep) hn).bind fun p q hq => ?_
  obtain ⟨h1, h2, h3, h4⟩ := hq
  simp only [h3]
  refine MRel.bind (aggregate0_wrap (a := { a with sep := p.2.2 }) h4) fun c d hd => ?_
  exact ⟨h1, h2, hd⟩

theorem forcePopW_wrap {env : Env} {n : Nat} {a : Aggregator} (hn : a.sep.reducer.averageCount ≤ n) :
    MRel (fun p q => q.1 = p.1.map AggData.wrap ∧ RelW n p.2 q.2) (a.forcePop env) (a.wrap.forcePopW env) := by
  unfold forcePop forcePopW
  refine (Separator.forcePopW_wrap (s := a.sep) hn).bind fun p q hq => ?_
  obtain ⟨o, s⟩ := p
  obtain ⟨o', s'⟩ := q
  obtain ⟨h1, h2, h3⟩ := hq
  simp only at h1 h2 h3 ⊢
  subst h1 h2
  cases o with
  | none => exact ⟨rfl, rfl, h3⟩
  | some d =>
    refine MRel.bind (finish_wrap env.nth a.outSize d) fun c e he => ?_
    subst he
    exact ⟨rfl, rfl, h3⟩

theorem aggregateCurrentW_wrap {env : Env} {a : Aggregator} : MRel (fun x y => y = x.map AggData.wrap) (a.aggregateCurrent env) (a.wrap.aggregateCurrentW env) := by
  unfold aggregateCurrent aggregateCurrentW
  refine MRel.bind (Separator.getCurrentW_wrap (s := a.sep)) fun p q hq => ?_
  subst hq
  cases p with
  | none => exact rfl
  | some d =>
    refine MRel.bind (finish_wrap env.nth a.outSize d) fun c e he => ?_
    subst he
    exact rfl

/-- The number of values an operation records. -/
def opVals : AOp → Nat
  | .add _ _ _ x => nvals x
  | .push _ _ _ x _ => nvals x
  | _ => 0

/-- The machine's run is the other one modulo 2^64. -/
def RelO (n : Nat) (o o' : AObs) : Prop := o' = AObs.wrap o ∧ o.a.sep.reducer.averageCount ≤ n

theorem execW_wrap {env : Env} {n : Nat} {o : AObs} {op : AOp} (hn : o.a.sep.reducer.averageCount ≤ n) (hx : n + opVals op < 2 ^ 64) :
    MRel (RelO (n + opVals op)) (exec env o op) (execW env (AObs.wrap o) op) := by
  cases op with
  | add clk1 clk2 ts x =>
    refine MRel.bind (addW_wrap (a := o.a) hn hx) fun p q hq => ?_
    obtain ⟨h1, h2, h3⟩ := hq
    refine ⟨?_, h3⟩
    simp only [h1, h2, AObs.wrap]
    rfl
  | push clk1 clk2 ts x handler =>
    refine MRel.bind (pushW_wrap (a := o.a) hn hx) fun p q hq => ?_
    obtain ⟨h1, h2, h3, h4⟩ := hq
    refine ⟨?_, h4⟩
    simp only [h1, h2, h3, AObs.wrap, List.map_append]
    rfl
  | separate clk ts handler force =>
    refine MRel.bind (separateW_wrap (a := o.a) hn) fun p q hq => ?_
    obtain ⟨h1, h2, h3, h4⟩ := hq
    refine ⟨?_, h4⟩
    simp only [h2, h3, AObs.wrap, List.map_append]
  | pop =>
    obtain ⟨⟨sep, k, en, l, al⟩, rec, acc⟩ := o
    cases l with
    | nil =>
      refine ⟨?_, hn⟩
      simp only [AObs.wrap, wrap, List.map_nil, Option.toList_none, List.append_nil]
    | cons d l =>
      refine ⟨?_, hn⟩
      simp only [AObs.wrap, wrap, List.map_cons, Option.toList_some, List.map_append, List.map_nil]
  | forcePop =>
    refine MRel.bind (forcePopW_wrap (a := o.a) hn) fun p q hq => ?_
    obtain ⟨h1, h2, h3⟩ := hq
    refine ⟨?_, h3⟩
    simp only [h1, h2, AObs.wrap, List.map_append]
    cases p.1 <;> rfl
  | look =>
    refine MRel.bind (aggregateCurrentW_wrap (a := o.a)) fun p q hq => ?_
    exact ⟨rfl, hn⟩
  | enable v => exact ⟨rfl, hn⟩

theorem execAllW_wrap {env : Env} (ops : List AOp) : ∀ {n : Nat} {o : AObs}, o.a.sep.reducer.averageCount ≤ n → n + (ops.map opVals).sum < 2 ^ 64 →
    MRel (fun x y => y = AObs.wrap x) (execAll env o ops) (execAllW env (AObs.wrap o) ops) := by
  unfold execAll execAllW
  induction ops with
  | nil => intro n o _ _; exact rfl
  | cons op ops ih =>
    intro n o hn hx
    rw [List.map_cons, List.sum_cons] at hx
    rw [List.foldlM_cons, List.foldlM_cons]
    refine (execW_wrap hn (by omega)).bind fun p q hq => ?_
    obtain ⟨rfl, hq⟩ := hq
    exact ih hq (by omega)

end Aggregator
end Wrtstat
