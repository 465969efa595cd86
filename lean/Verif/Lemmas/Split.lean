/-
Lemmas: one call in place of two with the same time.
-/
import Verif.Lemmas.Feed
import Verif.Lemmas.RegistryStep

namespace Wrtstat

set_option autoImplicit false

variable {env : Env}

/-- What a separation leaves: the same step, and a window that ends after the time asked for. -/
theorem Separator.separate_settled {s s' : Separator} {clk ts : Int} {handler b : Bool} {out : List AggData}
    (h : s.separate env clk ts handler false = .ok (b, out, s')) :
    s'.step = s.step ∧ s'.resolution = s.resolution ∧
      ∀ R, Separator.separate env { s' with reducer := R } clk ts handler false = .ok (false, [], { s' with reducer := R }) := by
  obtain ⟨t, h1, h⟩ := bind_inv h
  have key : ∀ s' : Separator, s'.step = s.step → s'.resolution = s.resolution → t < s'.next →
      ∀ R, Separator.separate env { s' with reducer := R } clk ts handler false = .ok (false, [], { s' with reducer := R }) := by
    intro s' e1 e2 hn R
    have e3 : Separator.getTs { s' with reducer := R } clk ts = .ok t := by
      unfold getTs at h1 ⊢
      simp only
      rw [e1, e2]
      exact h1
    rw [separate, e3, bind_ok', if_pos ⟨rfl, hn⟩]
  by_cases hc : false = false ∧ t < s.next
  · rw [if_pos hc] at h
    cases h
    exact ⟨rfl, rfl, key _ rfl rfl hc.2⟩
  · rw [if_neg hc] at h
    obtain ⟨⟨l, n, r⟩, h2, h⟩ := bind_inv h
    have hn : t < n := by
      have : ∀ (k : Nat) (next : Int) (r : Reducer) (l : List AggData) (n : Int) (r' : Reducer), (t - next + 1).toNat ≤ k →
          sepLoop env s.step t next r = .ok (l, n, r') → t < n := by
        intro k
        induction k with
        | zero =>
          intro next r l n r' hk h
          rw [sepLoop, dif_neg (by omega)] at h
          cases h
          omega
        | succ k ih =>
          intro next r l n r' hk h
          rw [sepLoop] at h
          split_ifs at h with hn hs
          · obtain ⟨⟨o, r1⟩, _, h⟩ := bind_inv h
            obtain ⟨⟨o2, n2, r2⟩, h3, h⟩ := bind_inv h
            cases h
            exact ih _ _ _ _ _ (by omega) h3
          · cases h
            omega
      exact this _ _ _ _ _ _ (le_refl _) h2
    cases handler with
    | true => simp only [if_true] at h; cases h; exact ⟨rfl, rfl, key _ rfl rfl hn⟩
    | false => simp only [Bool.false_eq_true, if_false] at h; cases h; exact ⟨rfl, rfl, key _ rfl rfl hn⟩

/-- `push` with any change of the reducer in place of a call of `add`. -/
def Separator.pushF (env : Env) (s : Separator) (clk1 clk2 ts : Int) (f : Reducer → Reducer) (handler : Bool) :
    M (Bool × List AggData × Separator) := do
  let ts ← s.getTs clk1 ts
  let (_, out, s) ← s.separate env clk2 ts handler false
  if ts < s.next - s.step then .ok (false, out, s)
  else .ok (true, out, { s with reducer := f s.reducer })

def Separator.addF (env : Env) (s : Separator) (clk1 clk2 ts : Int) (f : Reducer → Reducer) : M (Bool × Separator) := do
  let (b, _, s) ← s.pushF env clk1 clk2 ts f false
  .ok (b, s)

def Aggregator.addF (env : Env) (a : Aggregator) (clk1 clk2 ts : Int) (f : Reducer → Reducer) : M (Bool × Aggregator) :=
  if a.enabled = false then .ok (true, a)
  else do
    let (ok, sep) ← a.sep.addF env clk1 clk2 ts f
    let a := { a with sep := sep }
    if ok = false then .ok (false, a)
    else do
      let a ← aggregate0_ env.nth a
      .ok (true, a)

def Aggregator.pushF (env : Env) (a : Aggregator) (clk1 clk2 ts : Int) (f : Reducer → Reducer) (handler : Bool) :
    M (Bool × List AggData × Aggregator) :=
  if a.enabled = false then .ok (true, [], a)
  else if handler = false then do
    let (ok, a) ← a.addF env clk1 clk2 ts f
    .ok (ok, [], a)
  else do
    let (ok, out, sep) ← a.sep.pushF env clk1 clk2 ts f true
    let out ← out.mapM (finish env.nth a.outSize)
    .ok (ok, out, { a with sep := sep })

theorem Aggregator.push_pushF (a : Aggregator) (clk1 clk2 ts : Int) (x : AddArg) (handler : Bool) :
    a.push env clk1 clk2 ts x handler = a.pushF env clk1 clk2 ts (fun r => Reducer.add env r x) handler := rfl

/-- The second of two calls with the same time. -/
theorem Separator.pushF_twice {s s' : Separator} {clk1 clk2 ts : Int} {f g : Reducer → Reducer} {handler ok : Bool} {out : List AggData}
    (h : s.pushF env clk1 clk2 ts f handler = .ok (ok, out, s')) :
    ∃ s'', s.pushF env clk1 clk2 ts (fun r => g (f r)) handler = .ok (ok, out, s'') ∧ (ok = false → s'' = s') ∧ s''.sepList = s'.sepList ∧
      (∃ R, s'' = { s' with reducer := R }) ∧
      ∀ l, Separator.pushF env { s' with sepList := l } clk1 clk2 ts g handler = .ok (ok, [], { s'' with sepList := l }) := by
  obtain ⟨t, h1, h⟩ := bind_inv h
  obtain ⟨⟨b, out1, s1⟩, h2, h⟩ := bind_inv h
  obtain ⟨e1, e2, e3⟩ := separate_settled h2
  have hts : ∀ s' : Separator, s'.step = s1.step → s'.resolution = s1.resolution → s'.getTs clk1 ts = .ok t := by
    intro s' f1 f2
    unfold getTs at h1 ⊢
    rw [f1, f2, e1, e2]
    exact h1
  have hsep : ∀ (R : Reducer) (l : List AggData), Separator.separate env { s1 with reducer := R, sepList := l } clk2 t handler false =
      .ok (false, [], { s1 with reducer := R, sepList := l }) := by
    intro R l
    have e3 := e3 R
    unfold separate at e3 ⊢
    obtain ⟨t', g1, g⟩ := bind_inv e3
    have g1' : Separator.getTs { s1 with reducer := R, sepList := l } clk2 t = .ok t' := g1
    rw [g1', bind_ok']
    by_cases hc : false = false ∧ t' < s1.next
    · rw [if_pos hc]
    · rw [if_neg hc] at g
      obtain ⟨⟨l2, n, r⟩, _, g⟩ := bind_inv g
      cases handler with
      | true => simp only [if_true] at g; cases g
      | false => simp only [Bool.false_eq_true, if_false] at g; cases g
  simp only at h
  by_cases hl : t < s1.next - s1.step
  · rw [if_pos hl] at h
    simp only [Except.ok.injEq, Prod.mk.injEq] at h
    obtain ⟨rfl, rfl, rfl⟩ := h
    refine ⟨s1, ?_, fun _ => rfl, rfl, ⟨s1.reducer, rfl⟩, fun l => ?_⟩
    · rw [pushF, h1, bind_ok', h2, bind_ok']
      simp only
      rw [if_pos hl]
    · rw [pushF, hts { s1 with sepList := l } rfl rfl, bind_ok', hsep s1.reducer l, bind_ok']
      simp only
      rw [if_pos hl]
  · rw [if_neg hl] at h
    cases h
    refine ⟨{ s1 with reducer := g (f s1.reducer) }, ?_, fun h => (by cases h), rfl, ⟨_, rfl⟩, fun l => ?_⟩
    · rw [pushF, h1, bind_ok', h2, bind_ok']
      simp only
      rw [if_neg hl]
    · show Separator.pushF env { s1 with reducer := f s1.reducer, sepList := l } clk1 clk2 ts g handler = _
      rw [pushF, hts { s1 with reducer := f s1.reducer, sepList := l } rfl rfl, bind_ok', hsep (f s1.reducer) l, bind_ok']
      simp only
      rw [if_neg hl]

/-- Whether a call is completed does not depend on what it adds. -/
theorem Aggregator.pushF_ok {a a' : Aggregator} {clk1 clk2 ts : Int} {f g : Reducer → Reducer} {handler ok : Bool} {out : List AggData}
    (h : a.pushF env clk1 clk2 ts f handler = .ok (ok, out, a')) :
    ∃ ok out a', a.pushF env clk1 clk2 ts g handler = .ok (ok, out, a') := by
  have hsep : ∀ {s s' : Separator} {handler ok : Bool} {out : List AggData}, s.pushF env clk1 clk2 ts f handler = .ok (ok, out, s') →
      ∃ s'', s.pushF env clk1 clk2 ts g handler = .ok (ok, out, s'') ∧ s''.sepList = s'.sepList := by
    intro s s' handler ok out h
    obtain ⟨t, h1, h⟩ := bind_inv h
    obtain ⟨⟨b, out1, s1⟩, h2, h⟩ := bind_inv h
    simp only at h
    by_cases hl : t < s1.next - s1.step
    · rw [if_pos hl] at h
      cases h
      refine ⟨_, ?_, rfl⟩
      rw [Separator.pushF, h1, bind_ok', h2, bind_ok']
      simp only
      rw [if_pos hl]
    · rw [if_neg hl] at h
      cases h
      refine ⟨{ s1 with reducer := g s1.reducer }, ?_, rfl⟩
      rw [Separator.pushF, h1, bind_ok', h2, bind_ok']
      simp only
      rw [if_neg hl]
  unfold pushF at h
  by_cases he : a.enabled = false
  · exact ⟨true, [], a, by rw [pushF, if_pos he]⟩
  rw [if_neg he] at h
  cases handler with
  | true =>
    simp only [Bool.true_eq_false, if_false] at h
    obtain ⟨⟨ok1, out1, s1⟩, h1, h⟩ := bind_inv h
    obtain ⟨out2, h2, h⟩ := bind_inv h
    obtain ⟨s'', e1, _⟩ := hsep h1
    refine ⟨ok1, out2, { a with sep := s'' }, ?_⟩
    rw [pushF, if_neg he, if_neg (by simp), e1, bind_ok']
    simp only
    rw [h2, bind_ok']
  | false =>
    rw [if_pos rfl] at h
    obtain ⟨⟨ok0, a0⟩, h0, h⟩ := bind_inv h
    rw [addF, if_neg he] at h0
    obtain ⟨⟨ok1, s1⟩, h1, h0⟩ := bind_inv h0
    obtain ⟨⟨ok2, out2, s2⟩, h2, h1⟩ := bind_inv h1
    cases h1
    obtain ⟨s'', e1, e3⟩ := hsep h2
    have hadd : a.sep.addF env clk1 clk2 ts g = .ok (ok1, s'') := by rw [Separator.addF, e1, bind_ok']
    simp only at h0
    cases ok1 with
    | false =>
      refine ⟨false, [], { a with sep := s'' }, ?_⟩
      rw [pushF, if_neg he, if_pos rfl, addF, if_neg he, hadd, bind_ok']
      rfl
    | true =>
      rw [if_neg (by simp)] at h0
      obtain ⟨a3, h3, h0⟩ := bind_inv h0
      obtain ⟨l, h4, h3⟩ := bind_inv h3
      refine ⟨true, [], { a with sep := { s'' with sepList := [] }, agList := a.agList ++ l }, ?_⟩
      rw [pushF, if_neg he, if_pos rfl, addF, if_neg he, hadd, bind_ok']
      simp only [Bool.true_eq_false, if_false]
      rw [aggregate0_]
      simp only
      simp only at h4
      rw [e3, h4, bind_ok', bind_ok', bind_ok']

theorem Aggregator.pushF_twice {a a' : Aggregator} {clk1 clk2 ts : Int} {f g : Reducer → Reducer} {handler ok : Bool} {out : List AggData}
    (h : a.pushF env clk1 clk2 ts f handler = .ok (ok, out, a')) :
    ∃ a'', a.pushF env clk1 clk2 ts (fun r => g (f r)) handler = .ok (ok, out, a'') ∧ a'.pushF env clk1 clk2 ts g handler = .ok (ok, [], a'') := by
  unfold pushF at h
  by_cases he : a.enabled = false
  · rw [if_pos he] at h
    cases h
    exact ⟨a, by rw [pushF, if_pos he], by rw [pushF, if_pos he]⟩
  rw [if_neg he] at h
  cases handler with
  | true =>
    simp only [Bool.true_eq_false, if_false] at h
    obtain ⟨⟨ok1, out1, s1⟩, h1, h⟩ := bind_inv h
    obtain ⟨out2, h2, h⟩ := bind_inv h
    cases h
    obtain ⟨s'', e1, _, _, _, e2⟩ := Separator.pushF_twice h1
    refine ⟨{ a with sep := s'' }, ?_, ?_⟩
    · rw [pushF, if_neg he, if_neg (by simp), e1, bind_ok']
      simp only
      rw [h2, bind_ok']
    · have e2 := e2 s1.sepList
      rw [pushF, if_neg he, if_neg (by simp)]
      have e2' : Separator.pushF env s1 clk1 clk2 ts g true = _ := e2
      simp only
      rw [e2', bind_ok']
      simp only [List.mapM_nil]
      have : ({ s'' with sepList := s1.sepList } : Separator) = s'' := by
        have := ‹s''.sepList = s1.sepList›
        rw [← this]
      rw [this]
      rfl
  | false =>
    rw [if_pos rfl] at h
    obtain ⟨⟨ok0, a0⟩, h0, h⟩ := bind_inv h
    cases h
    rw [addF, if_neg he] at h0
    obtain ⟨⟨ok1, s1⟩, h1, h0⟩ := bind_inv h0
    obtain ⟨⟨ok2, out2, s2⟩, h2, h1⟩ := bind_inv h1
    cases h1
    obtain ⟨s'', e1, e2, e3, ⟨R, e4⟩, e5⟩ := Separator.pushF_twice h2
    have hadd : a.sep.addF env clk1 clk2 ts (fun r => g (f r)) = .ok (ok1, s'') := by rw [Separator.addF, e1, bind_ok']
    simp only at h0
    cases ok1 with
    | false =>
      rw [if_pos rfl] at h0
      cases h0
      have hs := e2 rfl
      subst hs
      refine ⟨{ a with sep := s'' }, ?_, ?_⟩
      · rw [pushF, if_neg he, if_pos rfl, addF, if_neg he, hadd, bind_ok']
        rfl
      · have e5 : Separator.pushF env s'' clk1 clk2 ts g false = _ := e5 s''.sepList
        rw [pushF, if_neg he, if_pos rfl, addF, if_neg he, Separator.addF]
        simp only
        rw [e5, bind_ok']
        rfl
    | true =>
      rw [if_neg (by simp)] at h0
      obtain ⟨a3, h3, h0⟩ := bind_inv h0
      cases h0
      obtain ⟨l, h4, h3⟩ := bind_inv h3
      cases h3
      refine ⟨{ a with sep := { s'' with sepList := [] }, agList := a.agList ++ l }, ?_, ?_⟩
      · rw [pushF, if_neg he, if_pos rfl, addF, if_neg he, hadd, bind_ok']
        simp only [Bool.true_eq_false, if_false]
        rw [aggregate0_]
        simp only
        rw [e3, h4, bind_ok', bind_ok', bind_ok']
      · have e5 : Separator.pushF env { s1 with sepList := [] } clk1 clk2 ts g false = _ := e5 []
        rw [pushF, if_neg he, if_pos rfl, addF, if_neg he, Separator.addF]
        simp only
        rw [e5, bind_ok', bind_ok']
        simp only [Bool.true_eq_false, if_false]
        rw [aggregate0_]
        simp only [List.mapM_nil]
        simp only [pure, Except.pure, bind_ok', List.append_nil]

end Wrtstat
