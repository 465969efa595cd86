/-
Lemmas: exceptions pass through handlers that do not catch them.
-/
import Verif.Lemmas.ThrowingOnce

namespace Wrtstat
namespace Aggregator

set_option autoImplicit false

/-- Operations that fetch a record: it is received though no handler is called. -/
def AOp.fetches : AOp → Bool
  | .pop => true
  | .forcePop => true
  | _ => false

/-- Between `l` and `l'` the handler was called with a list on which it throws. -/
def Raised (H : THandler) (l l' : List AggData) : Prop := ∃ q, l <+: q ∧ q ≠ l ∧ q <+: l' ∧ (H q).throws = true

/-- From `o` to `o'` the handler was called with the records received, and threw if and only if `th`. -/
def Passed (H : THandler) (o o' : AObs) (th : Bool) : Prop :=
  o.received <+: o'.received ∧ (th = true ↔ Raised H o.received o'.received)

theorem raised_refl {H : THandler} {l : List AggData} : ¬ Raised H l l := by
  rintro ⟨q, h1, h2, h3, _⟩
  exact h2 (h3.eq_of_length (le_antisymm h3.length_le h1.length_le))

theorem passed_same {H : THandler} {o o' : AObs} (h : o'.received = o.received) : Passed H o o' false :=
  ⟨by rw [h], by rw [h]; simp [raised_refl]⟩

theorem raised_trans {H : THandler} {l1 l2 l3 : List AggData} (h12 : l1 <+: l2) (h23 : l2 <+: l3) :
    Raised H l1 l3 ↔ Raised H l1 l2 ∨ Raised H l2 l3 := by
  constructor
  · rintro ⟨q, a, b, c, d⟩
    rcases List.prefix_or_prefix_of_prefix c h23 with h | h
    · exact .inl ⟨q, a, b, h, d⟩
    · by_cases hq : q = l2
      · exact .inl ⟨q, a, b, by rw [hq], d⟩
      · exact .inr ⟨q, h, hq, c, d⟩
  · rintro (⟨q, a, b, c, d⟩ | ⟨q, a, b, c, d⟩)
    · exact ⟨q, a, b, c.trans h23, d⟩
    · refine ⟨q, h12.trans a, fun e => b ?_, c, d⟩
      subst e
      exact h12.eq_of_length (le_antisymm h12.length_le a.length_le)

theorem passed_trans {H : THandler} {o1 o2 o3 : AObs} {t : Bool} (h : Passed H o1 o2 false) (h' : Passed H o2 o3 t) :
    Passed H o1 o3 t := by
  refine ⟨h.1.trans h'.1, ?_⟩
  rw [raised_trans h.1 h'.1, h'.2]
  have := h.2
  simp only [Bool.false_eq_true, false_iff] at this
  simp [this]

theorem seqX_passed {H : THandler} {f : AObs → AOp → M (AObs × Bool)} (l : List AOp)
    (hf : ∀ op ∈ l, ∀ o p, f o op = .ok p → Passed H o p.1 p.2) : ∀ {o : AObs} {p : AObs × Bool}, seqX f false l o = .ok p →
      Passed H o p.1 p.2 := by
  induction l with
  | nil => intro o p e; cases e; exact passed_same rfl
  | cons op l ih =>
    intro o p e
    rw [seqX] at e
    obtain ⟨⟨o1, th⟩, h1, e⟩ := bind_inv e
    have g := hf op (by simp) o _ h1
    simp only at e g
    cases th with
    | true => simp only [and_self, if_true] at e; cases e; exact g
    | false =>
      simp only [Bool.false_eq_true, false_and, if_false] at e
      exact passed_trans g (ih (fun op' h' => hf op' (by simp [h'])) e)

theorem exec_silent {env : Env} {o o' : AObs} {op : AOp} (hf : op.fetches = false) (hh : op.handed = false)
    (h : exec env o op = .ok o') : o'.received = o.received := by
  cases op with
  | add => obtain ⟨p, _, h2⟩ := bind_inv h; cases h2; rfl
  | push clk1 clk2 ts x handler =>
    obtain ⟨⟨ok, out, a⟩, h1, h2⟩ := bind_inv h
    cases h2
    cases handler with
    | true => cases hh
    | false =>
      unfold push at h1
      split_ifs at h1 with h3 h4
      · cases h1; simp
      · obtain ⟨p, _, h5⟩ := bind_inv h1; cases h5; simp
      · exact absurd rfl h4
  | separate clk ts handler force =>
    obtain ⟨⟨ok, out, a⟩, h1, h2⟩ := bind_inv h
    cases h2
    cases handler with
    | true => cases hh
    | false =>
      obtain ⟨⟨b, out', s⟩, h3, h4⟩ := bind_inv h1
      obtain ⟨a', _, h5⟩ := bind_inv h4
      cases h5
      have := sep_out_nil' h3
      simp [this]
  | pop => cases hf
  | forcePop => cases hf
  | look => obtain ⟨p, _, h2⟩ := bind_inv h; cases h2; rfl
  | enable => cases h; rfl

/-- Handlers that catch nothing and fetch no records: a call throws if and only if a handler called during it does. -/
theorem passed_execX {env : Env} {H : THandler} (hc : ∀ l, (H l).catches = false) (hf : ∀ l, ∀ op ∈ (H l).ops, op.fetches = false)
    (k : Nat) :
    (∀ op o p, op.fetches = false → execX env H k o op = .ok p → Passed H o p.1 p.2) ∧
    (∀ raw ts o p, loopX env H raw k ts o = .ok p → Passed H o p.1 p.2) := by
  induction k with
  | zero =>
    refine ⟨fun op o p _ h => ?_, fun raw ts o p h => ?_⟩
    · rw [execX] at h; cases h
    · rw [loopX] at h; cases h
  | succ k ih =>
    refine ⟨fun op o p hfo h => ?_, fun raw ts o p h => ?_⟩
    · have plain : op.handed = false → (do let o ← exec env o op; .ok (o, false) : M (AObs × Bool)) = .ok p → Passed H o p.1 p.2 := by
        intro hh h
        obtain ⟨o1, h1, h⟩ := bind_inv h
        cases h
        exact passed_same (exec_silent hfo hh h1)
      cases op with
      | push clk1 clk2 ts x handler =>
        cases handler with
        | false => exact plain rfl (by rw [execX] at h; exact h; simp; simp)
        | true =>
          rw [execX] at h
          split_ifs at h with he
          · cases h; exact passed_same rfl
          · obtain ⟨t, h1, h⟩ := bind_inv h
            obtain ⟨t', h2, h⟩ := bind_inv h
            obtain ⟨⟨o1, th⟩, h3, h⟩ := bind_inv h
            have g1 := ih.2 false t' o _ h3
            cases th with
            | true => simp only [if_true] at h; cases h; exact g1
            | false =>
              simp only [Bool.false_eq_true, if_false] at h
              split_ifs at h
              · cases h; exact g1
              · cases h; exact g1
      | separate clk ts handler force =>
        cases handler with
        | false => exact plain rfl (by rw [execX] at h; exact h; simp; simp)
        | true =>
          rw [execX] at h
          obtain ⟨t, h1, h⟩ := bind_inv h
          obtain ⟨⟨o1, th⟩, h3, h⟩ := bind_inv h
          have g1 := ih.2 true t o _ h3
          cases th with
          | true => simp only [if_true] at h; cases h; exact g1
          | false =>
            simp only [Bool.false_eq_true, if_false] at h
            obtain ⟨a, h4, h⟩ := bind_inv h
            cases h
            exact g1
      | add => exact plain rfl (by rw [execX] at h; exact h; simp; simp)
      | pop => cases hfo
      | forcePop => cases hfo
      | look => exact plain rfl (by rw [execX] at h; exact h; simp; simp)
      | enable => exact plain rfl (by rw [execX] at h; exact h; simp; simp)
    · rw [loopX] at h
      split_ifs at h with hn
      · obtain ⟨⟨d, r⟩, h1, h⟩ := bind_inv h
        simp only at h
        cases d with
        | none =>
          simp only [bind_ok', Bool.false_eq_true, if_false] at h
          have := ih.2 raw ts _ p h
          exact this
        | some d =>
          simp only at h
          obtain ⟨⟨o1, th⟩, h2, h⟩ := bind_inv h
          obtain ⟨d', h3, h2⟩ := bind_inv h2
          obtain ⟨⟨o2, th2⟩, h4, h2⟩ := bind_inv h2
          cases h2
          rw [hc] at h4
          have g := seqX_passed (H := H) _ (fun op hop o p h => ih.1 op o p (hf _ op hop) h) h4
          simp only at g h
          -- the call of the handler
          have g3 : Passed H o o2 (th2 || (H (o.received ++ [d'])).throws) := by
            refine ⟨(List.prefix_append _ _).trans g.1, ?_⟩
            rw [raised_trans (List.prefix_append _ _) g.1, ← g.2, Bool.or_eq_true, or_comm]
            refine or_congr_left ?_
            constructor
            · intro h
              exact ⟨_, List.prefix_append _ _, by simp, List.prefix_refl _, h⟩
            · rintro ⟨q, a, b, c, e⟩
              obtain ⟨z, rfl⟩ := a
              have hz := (List.prefix_append_right_inj _).1 c
              rcases List.prefix_cons_iff.1 hz with h | ⟨q', rfl, h⟩
              · exact absurd (by rw [h, List.append_nil]) b
              · rw [List.prefix_nil.1 h] at e
                exact e
          cases hth : (th2 || (H (o.received ++ [d'])).throws) with
          | true =>
            rw [hth] at h g3
            simp only [if_true] at h
            cases h
            exact g3
          | false =>
            rw [hth] at h g3
            simp only [Bool.false_eq_true, if_false] at h
            have := ih.2 raw ts _ p h
            exact passed_trans g3 this
      · cases h; exact passed_same rfl

end Aggregator
end Wrtstat
