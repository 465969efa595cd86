/-
Facts about the model with 64-bit times: an operation is defined, and does what it does with unbounded times, iff the end of
the current window is representable afterwards.
-/
import Verif.Model.MachineTime
import Verif.Lemmas.AggregatorInv

namespace Wrtstat

set_option autoImplicit false

/-- `m'` is defined with result `x` iff `m` is, and `x` satisfies `P`. -/
def Agree {α : Type} (P : α → Prop) (m' m : M α) : Prop := ∀ x, m' = .ok x ↔ m = .ok x ∧ P x

theorem Agree.of_eq {α : Type} {P : α → Prop} {m : M α} (h : ∀ x, m = .ok x → P x) : Agree P m m :=
  fun x => ⟨fun e => ⟨e, h x e⟩, fun e => e.1⟩

theorem bind_ok_iff {α β : Type} {a : M α} {f : α → M β} {x : β} : (a >>= f) = .ok x ↔ ∃ y, a = .ok y ∧ f y = .ok x := by
  cases a with
  | error e => exact ⟨fun h => (by cases h), fun ⟨y, h, _⟩ => (by cases h)⟩
  | ok y => exact ⟨fun h => ⟨y, rfl, h⟩, fun ⟨z, hz, h⟩ => by cases hz; exact h⟩

theorem Agree.bind {α β : Type} {P : α → Prop} {Q : β → Prop} {a' a : M α} {f' f : α → M β} (h : Agree P a' a)
    (hf : ∀ y, a = .ok y → P y → Agree Q (f' y) (f y)) (hn : ∀ y x, a = .ok y → ¬ P y → f y = .ok x → ¬ Q x) :
    Agree Q (a' >>= f') (a >>= f) := by
  intro x
  rw [bind_ok_iff, bind_ok_iff]
  constructor
  · rintro ⟨y, e, hx⟩
    obtain ⟨e, hp⟩ := (h y).1 e
    obtain ⟨hx, hq⟩ := (hf y e hp x).1 hx
    exact ⟨⟨y, e, hx⟩, hq⟩
  · rintro ⟨⟨y, e, hx⟩, hq⟩
    by_cases hp : P y
    · exact ⟨y, (h y).2 ⟨e, hp⟩, (hf y e hp x).2 ⟨hx, hq⟩⟩
    · exact absurd hq (hn y x e hp hx)

theorem fit_ok {x : Int} (h : InI64 x) : fit x = .ok x := if_pos h

theorem fit_bad {x : Int} (h : ¬ InI64 x) : fit x = .error .ub := if_neg h

theorem tdiv_toward_zero {step n : Int} (hs : 0 < step) :
    (0 ≤ n → 0 ≤ n.tdiv step ∧ n.tdiv step ≤ n ∧ 0 ≤ n.tdiv step * step ∧ n.tdiv step * step ≤ n) ∧
    (n ≤ 0 → n.tdiv step ≤ 0 ∧ n ≤ n.tdiv step ∧ n.tdiv step * step ≤ 0 ∧ n ≤ n.tdiv step * step) := by
  have pos : ∀ m : Int, 0 ≤ m → 0 ≤ m.tdiv step ∧ m.tdiv step ≤ m ∧ 0 ≤ m.tdiv step * step ∧ m.tdiv step * step ≤ m := by
    intro m hm
    have h1 : 0 ≤ m.tdiv step := Int.tdiv_nonneg hm hs.le
    have h2 : m.tdiv step * step ≤ m := by
      rw [Int.tdiv_eq_ediv_of_nonneg hm]; exact Int.ediv_mul_le m hs.ne'
    have h3 : m.tdiv step * 1 ≤ m.tdiv step * step := Int.mul_le_mul_of_nonneg_left hs h1
    exact ⟨h1, by omega, Int.mul_nonneg h1 hs.le, h2⟩
  refine ⟨pos n, fun hn => ?_⟩
  have := pos (-n) (by omega)
  rw [Int.neg_tdiv, Int.neg_mul] at this
  omega

theorem inI64_between {x y : Int} (h : InI64 x) (h1 : 0 ≤ x → 0 ≤ y ∧ y ≤ x) (h2 : x ≤ 0 → y ≤ 0 ∧ x ≤ y) : InI64 y := by
  unfold InI64 I64min I64max at *
  rcases le_total 0 x with hx | hx
  · have := h1 hx; omega
  · have := h2 hx; omega

namespace Separator

theorem getTsWithT_eq {step clk ts : Int} {resolution : Resolution} (hs : 0 < step) (hc : InI64 clk) (ht : InI64 ts) :
    getTsWithT step resolution clk ts = getTsWith step resolution clk ts ∧
    ∃ t, getTsWith step resolution clk ts = .ok t ∧ InI64 t := by
  unfold getTsWithT getTsWith
  simp only
  rw [if_neg hs.ne', if_neg hs.ne']
  set n := if ts ≠ 0 ∨ resolution = .none then ts else clk with hn
  have hi : InI64 n := by rw [hn]; split <;> assumption
  obtain ⟨b1, b2⟩ := tdiv_toward_zero (n := n) hs
  have i1 : InI64 (n.tdiv step) := inI64_between hi (fun h => ⟨(b1 h).1, (b1 h).2.1⟩) (fun h => ⟨(b2 h).1, (b2 h).2.1⟩)
  have i2 : InI64 (n.tdiv step * step) := inI64_between hi (fun h => (b1 h).2.2) (fun h => (b2 h).2.2)
  rw [fit_ok i1]
  exact ⟨fit_ok i2, _, rfl, i2⟩

/-- The bounds of the current window are representable. -/
def Fits (s : Separator) : Prop := I64min ≤ s.next - s.step ∧ s.next ≤ I64max

theorem Fits.cur {s : Separator} (h : s.Fits) (hs : 0 < s.step) : InI64 (s.next - s.step) :=
  ⟨h.1, by have := h.2; omega⟩

theorem stampT_eq {step next : Int} (h : InI64 (next - step)) (o : Option AggData) :
    stampT step next o = .ok (o.map fun d => { d with ts := next - step }) := by
  cases o with
  | none => rfl
  | some d => unfold stampT; rw [fit_ok h]; rfl

theorem sepLoop_mono {env : Env} {step ts : Int} : ∀ (k : Nat) (next : Int) (r : Reducer), (ts - next + 1).toNat ≤ k →
    ∀ x, sepLoop env step ts next r = .ok x → next ≤ x.2.1 := by
  intro k
  induction k with
  | zero =>
    intro next r hk x hx
    rw [sepLoop, dif_neg (by omega)] at hx
    cases hx; exact le_refl _
  | succ k ih =>
    intro next r hk x hx
    rw [sepLoop] at hx
    split_ifs at hx with h1 h2
    · obtain ⟨⟨o, r1⟩, -, hx⟩ := bind_ok_iff.1 hx
      obtain ⟨⟨out, n, r2⟩, hy, hx⟩ := bind_ok_iff.1 hx
      have := ih (next + step) r1 (by omega) _ hy
      cases hx
      simp only at this ⊢
      omega
    · cases hx; exact le_refl _

theorem sepLoopT_agree {env : Env} {step ts : Int} (hs : 0 < step) : ∀ (k : Nat) (next : Int) (r : Reducer),
    (ts - next + 1).toNat ≤ k → I64min ≤ next - step → next ≤ I64max →
    Agree (fun x => x.2.1 ≤ I64max) (sepLoopT env step ts next r) (sepLoop env step ts next r) := by
  intro k
  induction k with
  | zero =>
    intro next r hk h1 h2
    rw [sepLoop, sepLoopT, dif_neg (by omega), dif_neg (by omega)]
    exact .of_eq fun x hx => by cases hx; exact h2
  | succ k ih =>
    intro next r hk h1 h2
    rw [sepLoop, sepLoopT]
    split_ifs with hn
    · refine Agree.bind (P := fun _ => True) (.of_eq fun _ _ => trivial) (fun y _ _ => ?_) (fun _ _ _ h => absurd trivial h)
      obtain ⟨o, r1⟩ := y
      simp only
      rw [stampT_eq ⟨h1, by omega⟩]
      by_cases hm : next + step ≤ I64max
      · rw [fit_ok ⟨by unfold I64min at *; omega, hm⟩]
        refine Agree.bind (ih (next + step) r1 (by omega) (by omega) hm) (fun y hy hp => ?_) (fun y x hy hp hx => ?_)
        · exact .of_eq fun x hx => by cases hx; exact hp
        · cases hx; exact hp
      · rw [fit_bad (fun h => hm h.2)]
        intro x
        refine ⟨fun h => (by cases h), fun ⟨h, hx⟩ => ?_⟩
        obtain ⟨y, hy, h⟩ := bind_ok_iff.1 h
        have := sepLoop_mono _ _ _ (Nat.le_refl _) _ hy
        cases h
        have hx' : y.2.1 ≤ I64max := hx
        omega
    · exact .of_eq fun x hx => by cases hx; exact h2

theorem separate_mono {env : Env} {s : Separator} {clk ts : Int} {handler force : Bool} {x : Bool × List AggData × Separator}
    (h : s.separate env clk ts handler force = .ok x) : s.next ≤ x.2.2.next ∧ x.2.2.step = s.step := by
  unfold separate at h
  obtain ⟨t, -, h⟩ := bind_ok_iff.1 h
  split_ifs at h
  · cases h; exact ⟨le_refl _, rfl⟩
  · obtain ⟨y, hy, h⟩ := bind_ok_iff.1 h
    have := sepLoop_mono _ _ _ (Nat.le_refl _) _ hy
    cases h; exact ⟨this, rfl⟩
  · obtain ⟨y, hy, h⟩ := bind_ok_iff.1 h
    have := sepLoop_mono _ _ _ (Nat.le_refl _) _ hy
    cases h; exact ⟨this, rfl⟩

theorem separateT_agree {env : Env} {s : Separator} {clk ts : Int} (handler force : Bool) (hs : 0 < s.step) (hf : s.Fits)
    (hc : InI64 clk) (ht : InI64 ts) :
    Agree (fun x => x.2.2.next ≤ I64max) (s.separateT env clk ts handler force) (s.separate env clk ts handler force) := by
  unfold separateT separate getTsT getTs
  obtain ⟨e, t, et, ti⟩ := getTsWithT_eq (resolution := s.resolution) hs hc ht
  rw [e, et]
  simp only [bind_ok]
  split_ifs
  · exact .of_eq fun x hx => by cases hx; exact hf.2
  all_goals
    refine Agree.bind (sepLoopT_agree hs _ _ _ (Nat.le_refl _) hf.1 hf.2) (fun y hy hp => ?_) (fun y x hy hp hx => ?_)
    · exact .of_eq fun x hx => by cases hx; exact hp
    · cases hx; exact hp

theorem push_mono {env : Env} {s : Separator} {clk1 clk2 ts : Int} {a : AddArg} {handler : Bool}
    {x : Bool × List AggData × Separator} (h : s.push env clk1 clk2 ts a handler = .ok x) :
    s.next ≤ x.2.2.next ∧ x.2.2.step = s.step := by
  unfold push at h
  obtain ⟨t, -, h⟩ := bind_ok_iff.1 h
  obtain ⟨y, hy, h⟩ := bind_ok_iff.1 h
  have := separate_mono hy
  obtain ⟨b, out, s'⟩ := y
  simp only at h
  split_ifs at h <;> cases h <;> exact this

theorem pushT_agree {env : Env} {s : Separator} {clk1 clk2 ts : Int} (a : AddArg) (handler : Bool) (hs : 0 < s.step)
    (hf : s.Fits) (hc1 : InI64 clk1) (hc2 : InI64 clk2) (ht : InI64 ts) :
    Agree (fun x => x.2.2.next ≤ I64max) (s.pushT env clk1 clk2 ts a handler) (s.push env clk1 clk2 ts a handler) := by
  unfold pushT push getTsT getTs
  obtain ⟨e, t, et, ti⟩ := getTsWithT_eq (resolution := s.resolution) hs hc1 ht
  rw [e, et]
  simp only [bind_ok]
  refine Agree.bind (separateT_agree handler false hs hf hc2 ti) (fun y hy hp => ?_) (fun y x hy hp hx => ?_)
  · obtain ⟨h1, h2⟩ := separate_mono hy
    obtain ⟨b, out, s'⟩ := y
    simp only at h1 h2 hp ⊢
    have hf' := hf.1
    rw [fit_ok ⟨by omega, by omega⟩]
    simp only [bind_ok]
    exact .of_eq fun x hx => by split_ifs at hx <;> cases hx <;> exact hp
  · obtain ⟨b, out, s'⟩ := y
    simp only at hx
    split_ifs at hx <;> cases hx <;> exact hp

theorem addT_agree {env : Env} {s : Separator} {clk1 clk2 ts : Int} (a : AddArg) (hs : 0 < s.step)
    (hf : s.Fits) (hc1 : InI64 clk1) (hc2 : InI64 clk2) (ht : InI64 ts) :
    Agree (fun x => x.2.next ≤ I64max) (s.addT env clk1 clk2 ts a) (s.add env clk1 clk2 ts a) := by
  unfold addT add
  refine Agree.bind (pushT_agree a false hs hf hc1 hc2 ht) (fun y hy hp => ?_) (fun y x hy hp hx => ?_)
  · exact .of_eq fun x hx => by cases hx; exact hp
  · cases hx; exact hp

theorem forcePopT_eq {env : Env} {s : Separator} (hs : 0 < s.step) (hf : s.Fits) : s.forcePopT env = s.forcePop env := by
  unfold forcePopT forcePop pop
  cases s.sepList with
  | cons d l => rfl
  | nil =>
    simp only
    cases s.reducer.detach env with
    | error e => rfl
    | ok y => simp only [bind_ok]; rw [stampT_eq (hf.cur hs)]; rfl

theorem getCurrentT_eq {env : Env} {s : Separator} (hs : 0 < s.step) (hf : s.Fits) : s.getCurrentT env = s.getCurrent env := by
  unfold getCurrentT getCurrent
  cases s.reducer.getReduced env with
  | error e => rfl
  | ok y => simp only [bind_ok]; rw [stampT_eq (hf.cur hs)]

theorem forcePop_next {env : Env} {s : Separator} {x : Option AggData × Separator} (h : s.forcePop env = .ok x) :
    x.2.next = s.next ∧ x.2.step = s.step := by
  unfold forcePop pop at h
  cases hl : s.sepList with
  | cons d l => rw [hl] at h; cases h; exact ⟨rfl, rfl⟩
  | nil =>
    rw [hl] at h
    obtain ⟨y, -, h⟩ := bind_ok_iff.1 h
    cases h; exact ⟨rfl, rfl⟩

end Separator

namespace Aggregator

/-- The times of an operation are values of `time_type`. -/
def AOp.inI64 : AOp → Prop
  | .add c1 c2 ts _ => InI64 c1 ∧ InI64 c2 ∧ InI64 ts
  | .push c1 c2 ts _ _ => InI64 c1 ∧ InI64 c2 ∧ InI64 ts
  | .separate c ts _ _ => InI64 c ∧ InI64 ts
  | _ => True

theorem aggregate0_next {E : NthElement} {a a' : Aggregator} (h : aggregate0_ E a = .ok a') :
    a'.sep.next = a.sep.next ∧ a'.sep.step = a.sep.step := by
  unfold aggregate0_ at h
  obtain ⟨l, -, h⟩ := bind_ok_iff.1 h
  cases h; exact ⟨rfl, rfl⟩

theorem add_mono {env : Env} {a : Aggregator} {clk1 clk2 ts : Int} {x : AddArg} {y : Bool × Aggregator}
    (h : a.add env clk1 clk2 ts x = .ok y) : a.sep.next ≤ y.2.sep.next ∧ y.2.sep.step = a.sep.step := by
  unfold add at h
  split_ifs at h
  · cases h; exact ⟨le_refl _, rfl⟩
  · obtain ⟨⟨ok, s⟩, hs, h⟩ := bind_ok_iff.1 h
    unfold Separator.add at hs
    obtain ⟨z, hz, hs⟩ := bind_ok_iff.1 hs
    have := Separator.push_mono hz
    cases hs
    simp only at h
    split_ifs at h
    · cases h; exact this
    · obtain ⟨w, hw, h⟩ := bind_ok_iff.1 h
      obtain ⟨e1, e2⟩ := aggregate0_next hw
      cases h
      simp only at e1 e2 ⊢
      rw [e1, e2]; exact this

theorem addT_agree {env : Env} {a : Aggregator} {clk1 clk2 ts : Int} (x : AddArg) (hs : 0 < a.sep.step) (hf : a.sep.Fits)
    (hc1 : InI64 clk1) (hc2 : InI64 clk2) (ht : InI64 ts) :
    Agree (fun y => y.2.sep.next ≤ I64max) (a.addT env clk1 clk2 ts x) (a.add env clk1 clk2 ts x) := by
  unfold addT add
  split_ifs
  · exact .of_eq fun y hy => by cases hy; exact hf.2
  · refine Agree.bind (Separator.addT_agree x hs hf hc1 hc2 ht) (fun y hy hp => ?_) (fun y z hy hp hz => ?_)
    · refine .of_eq fun z hz => ?_
      simp only at hz
      split_ifs at hz
      · cases hz; exact hp
      · obtain ⟨w, hw, hz⟩ := bind_ok_iff.1 hz
        cases hz
        rw [show w.sep.next = y.2.next from (aggregate0_next hw).1]; exact hp
    · simp only at hz
      split_ifs at hz
      · cases hz; exact hp
      · obtain ⟨w, hw, hz⟩ := bind_ok_iff.1 hz
        cases hz
        rw [show w.sep.next = y.2.next from (aggregate0_next hw).1]; exact hp

theorem exec_mono {env : Env} {o o' : AObs} {op : AOp} (h : exec env o op = .ok o') :
    o.a.sep.next ≤ o'.a.sep.next ∧ o'.a.sep.step = o.a.sep.step := by
  cases op with
  | add c1 c2 ts x =>
    obtain ⟨y, hy, h⟩ := bind_ok_iff.1 h
    cases h; exact add_mono hy
  | push c1 c2 ts x hd =>
    obtain ⟨y, hy, h⟩ := bind_ok_iff.1 h
    cases h
    unfold push at hy
    split_ifs at hy
    · cases hy; exact ⟨le_refl _, rfl⟩
    · obtain ⟨z, hz, hy⟩ := bind_ok_iff.1 hy
      cases hy; exact add_mono hz
    · obtain ⟨z, hz, hy⟩ := bind_ok_iff.1 hy
      obtain ⟨w, -, hy⟩ := bind_ok_iff.1 hy
      cases hy; exact Separator.push_mono hz
  | separate c ts hd f =>
    obtain ⟨y, hy, h⟩ := bind_ok_iff.1 h
    cases h
    unfold separate at hy
    obtain ⟨z, hz, hy⟩ := bind_ok_iff.1 hy
    obtain ⟨w, hw, hy⟩ := bind_ok_iff.1 hy
    obtain ⟨e1, e2⟩ := aggregate0_next hw
    cases hy
    simp only at e1 e2 ⊢
    rw [e1, e2]; exact Separator.separate_mono hz
  | pop =>
    unfold exec pop at h
    cases hl : o.a.agList <;> rw [hl] at h <;> cases h <;> exact ⟨le_refl _, rfl⟩
  | forcePop =>
    obtain ⟨y, hy, h⟩ := bind_ok_iff.1 h
    cases h
    unfold forcePop at hy
    obtain ⟨⟨d, s⟩, hz, hy⟩ := bind_ok_iff.1 hy
    obtain ⟨e1, e2⟩ := Separator.forcePop_next hz
    cases d with
    | none => cases hy; exact ⟨e1.symm.le, e2⟩
    | some d =>
      obtain ⟨w, -, hy⟩ := bind_ok_iff.1 hy
      cases hy; exact ⟨e1.symm.le, e2⟩
  | look =>
    obtain ⟨y, -, h⟩ := bind_ok_iff.1 h
    cases h; exact ⟨le_refl _, rfl⟩
  | enable v => cases h; exact ⟨le_refl _, rfl⟩

theorem execT_agree {env : Env} {o : AObs} {op : AOp} (hs : 0 < o.a.sep.step) (hf : o.a.sep.Fits) (ht : op.inI64) :
    Agree (fun o' => o'.a.sep.next ≤ I64max) (execT env o op) (exec env o op) := by
  cases op with
  | add c1 c2 ts x =>
    obtain ⟨h1, h2, h3⟩ := ht
    refine Agree.bind (addT_agree x hs hf h1 h2 h3) (fun y hy hp => ?_) (fun y z hy hp hz => ?_)
    · exact .of_eq fun z hz => by cases hz; exact hp
    · cases hz; exact hp
  | push c1 c2 ts x hd =>
    obtain ⟨h1, h2, h3⟩ := ht
    have : Agree (fun y => y.2.2.sep.next ≤ I64max) (o.a.pushT env c1 c2 ts x hd) (o.a.push env c1 c2 ts x hd) := by
      unfold pushT push
      split_ifs
      · exact .of_eq fun z hz => by cases hz; exact hf.2
      · refine Agree.bind (addT_agree x hs hf h1 h2 h3) (fun y hy hp => ?_) (fun y z hy hp hz => ?_)
        · exact .of_eq fun z hz => by cases hz; exact hp
        · cases hz; exact hp
      · refine Agree.bind (Separator.pushT_agree x true hs hf h1 h2 h3) (fun y hy hp => ?_) (fun y z hy hp hz => ?_)
        · refine .of_eq fun z hz => ?_
          obtain ⟨w, -, hz⟩ := bind_ok_iff.1 hz
          cases hz; exact hp
        · obtain ⟨w, -, hz⟩ := bind_ok_iff.1 hz
          cases hz; exact hp
    refine Agree.bind this (fun y hy hp => ?_) (fun y z hy hp hz => ?_)
    · exact .of_eq fun z hz => by cases hz; exact hp
    · cases hz; exact hp
  | separate c ts hd f =>
    obtain ⟨h1, h2⟩ := ht
    have : Agree (fun y => y.2.2.sep.next ≤ I64max) (o.a.separateT env c ts hd f) (o.a.separate env c ts hd f) := by
      unfold separateT separate
      refine Agree.bind (Separator.separateT_agree hd f hs hf h1 h2) (fun y hy hp => ?_) (fun y z hy hp hz => ?_)
      · refine .of_eq fun z hz => ?_
        obtain ⟨w, hw, hz⟩ := bind_ok_iff.1 hz
        cases hz
        rw [show w.sep.next = y.2.2.next from (aggregate0_next hw).1]; exact hp
      · obtain ⟨w, hw, hz⟩ := bind_ok_iff.1 hz
        cases hz
        rw [show w.sep.next = y.2.2.next from (aggregate0_next hw).1]; exact hp
    refine Agree.bind this (fun y hy hp => ?_) (fun y z hy hp hz => ?_)
    · exact .of_eq fun z hz => by cases hz; exact hp
    · cases hz; exact hp
  | pop =>
    refine .of_eq fun z hz => ?_
    change exec env o .pop = .ok z at hz
    unfold exec pop at hz
    cases hl : o.a.agList <;> rw [hl] at hz <;> cases hz <;> exact hf.2
  | forcePop =>
    have : o.a.forcePopT env = o.a.forcePop env := by unfold forcePopT forcePop; rw [Separator.forcePopT_eq hs hf]; rfl
    unfold execT exec
    simp only
    rw [this]
    refine .of_eq fun z hz => ?_
    obtain ⟨⟨d, a'⟩, hy, hz⟩ := bind_ok_iff.1 hz
    cases hz
    unfold forcePop at hy
    obtain ⟨⟨d, s⟩, hw, hy⟩ := bind_ok_iff.1 hy
    have e1 := (Separator.forcePop_next hw).1
    cases d with
    | none => cases hy; exact e1.le.trans hf.2
    | some d =>
      obtain ⟨w, -, hy⟩ := bind_ok_iff.1 hy
      cases hy; exact e1.le.trans hf.2
  | look =>
    have : o.a.aggregateCurrentT env = o.a.aggregateCurrent env := by
      unfold aggregateCurrentT aggregateCurrent; rw [Separator.getCurrentT_eq hs hf]; rfl
    unfold execT exec
    simp only
    rw [this]
    refine .of_eq fun z hz => ?_
    obtain ⟨y, -, hz⟩ := bind_ok_iff.1 hz
    cases hz; exact hf.2
  | enable v => exact .of_eq fun z hz => by cases hz; exact hf.2

theorem execAll_mono {env : Env} (ops : List AOp) : ∀ {o o' : AObs}, execAll env o ops = .ok o' →
    o.a.sep.next ≤ o'.a.sep.next ∧ o'.a.sep.step = o.a.sep.step := by
  induction ops with
  | nil => intro o o' h; cases h; exact ⟨le_refl _, rfl⟩
  | cons op ops ih =>
    intro o o' h
    unfold execAll at h
    rw [List.foldlM_cons] at h
    obtain ⟨o1, h1, h⟩ := bind_ok_iff.1 h
    obtain ⟨m1, e1⟩ := exec_mono h1
    obtain ⟨m2, e2⟩ := ih h
    exact ⟨m1.trans m2, e2.trans e1⟩

theorem execAllT_agree {env : Env} (ops : List AOp) : ∀ {o : AObs}, 0 < o.a.sep.step → o.a.sep.Fits → (∀ op ∈ ops, op.inI64) →
    Agree (fun o' => o'.a.sep.next ≤ I64max) (execAllT env o ops) (execAll env o ops) := by
  induction ops with
  | nil => intro o hs hf _; exact .of_eq fun z hz => by cases hz; exact hf.2
  | cons op ops ih =>
    intro o hs hf ht
    unfold execAllT execAll
    rw [List.foldlM_cons, List.foldlM_cons]
    refine Agree.bind (execT_agree hs hf (ht op (by simp))) (fun y hy hp => ?_) (fun y z hy hp hz => ?_)
    · obtain ⟨m, e⟩ := exec_mono hy
      exact ih (by rw [e]; exact hs) ⟨by have := hf.1; rw [e]; omega, hp⟩ fun q hq => ht q (by simp [hq])
    · have := (execAll_mono ops hz).1
      intro h; exact hp (this.trans h)

end Aggregator
end Wrtstat
