/-
Lemmas: a call that does not throw has given the handler no record on which it throws.
-/
import Verif.Lemmas.ThrowingOut

namespace Wrtstat

set_option autoImplicit false

variable {env : Env}

theorem Separator.sepLoopX_quiet {step ts : Int} {f : AggData → M AggData} {thr : AggData → Bool} :
    ∀ (n : Nat) {next next1 : Int} {r r1 : Reducer} {out : List AggData}, (ts - next + 1).toNat ≤ n →
    sepLoopX env step ts (fun d => do let d ← f d; .ok (d, thr d)) next r = .ok (false, out, next1, r1) → ∀ d ∈ out, thr d = false := by
  intro n
  induction n with
  | zero =>
    intro next next1 r r1 out hn h
    rw [sepLoopX, dif_neg (by omega)] at h
    cases h
    simp
  | succ n ih =>
    intro next next1 r r1 out hn h
    rw [sepLoopX] at h
    split_ifs at h with h1 hs
    · obtain ⟨⟨d, r2⟩, h2, h⟩ := bind_inv h
      obtain ⟨⟨t1, o1⟩, h3, h⟩ := bind_inv h
      simp only at h
      cases t1 with
      | true => simp only [if_true] at h; cases h
      | false =>
        simp only [Bool.false_eq_true, if_false] at h
        obtain ⟨⟨t2, o2, n2, r3⟩, h4, h⟩ := bind_inv h
        cases h
        have hr := ih (by omega) h4
        intro x hx
        rcases List.mem_append.1 hx with hx | hx
        · cases d with
          | none => cases h3; cases hx
          | some d =>
            obtain ⟨⟨d1, t3⟩, h5, h3⟩ := bind_inv h3
            obtain ⟨d2, _, h6⟩ := bind_inv h5
            cases h6
            simp only [Except.ok.injEq, Prod.mk.injEq] at h3
            rw [← h3.2, List.mem_singleton] at hx
            rw [hx, h3.1]
        · exact hr x hx
    · cases h; simp

theorem Aggregator.pushX_quiet {a a1 : Aggregator} {clk1 clk2 ts : Int} {x : AddArg} {thr : AggData → Bool} {b : Bool}
    {out : List AggData} (h : a.pushX env clk1 clk2 ts x thr = .ok (some b, out, a1)) : ∀ d ∈ out, thr d = false := by
  unfold pushX at h
  by_cases he : a.enabled = false
  · rw [if_pos he] at h; cases h; simp
  rw [if_neg he] at h
  obtain ⟨t, h1, h⟩ := bind_inv h
  obtain ⟨t', h2, h⟩ := bind_inv h
  obtain ⟨⟨th, out1, next, r⟩, h3, h⟩ := bind_inv h
  simp only at h
  cases th with
  | true => simp only [if_true] at h; cases h
  | false =>
    have hq := Separator.sepLoopX_quiet _ (le_refl _) h3
    simp only [Bool.false_eq_true, if_false] at h
    split_ifs at h
    · cases h; exact hq
    · cases h; exact hq

theorem AggMap.pushX_quiet {opt : MultiOpts} {s s1 : AggMap} {name : Name} {v : ReducedData} {clk rand clk1 clk2 : Int}
    {thr : PushReq → Bool} {b : Bool} {l : List PushReq}
    (h : s.pushX env opt name v clk rand clk1 clk2 thr = .ok (some b, l, s1)) : ∀ r ∈ l, thr r = false := by
  obtain ⟨a, h1, h⟩ := bind_inv h
  obtain ⟨⟨res', out, a1⟩, h2, h⟩ := bind_inv h
  cases h
  intro r hr
  obtain ⟨d, hd, rfl⟩ := List.mem_map.1 hr
  exact Aggregator.pushX_quiet h2 d hd

theorem Multi.pushX_quiet {m m1 : Multi} {p : PushArg} {thr : PushReq → Bool} {b : Bool} {l : List PushReq}
    (h : m.pushX env p thr = .ok (some b, l, m1)) : ∀ r ∈ l, thr r = false := by
  obtain ⟨pos, h1, h⟩ := bind_inv h
  obtain ⟨s, h2, h⟩ := bind_inv h
  obtain ⟨⟨res', l', s1⟩, h3, h⟩ := bind_inv h
  cases h
  exact AggMap.pushX_quiet h3

/-- One push hands over at most one record. -/
theorem Aggregator.pushX_one {a a1 : Aggregator} {clk1 clk2 ts : Int} {x : AddArg} {thr : AggData → Bool} {res : Option Bool}
    {out : List AggData} (h : a.pushX env clk1 clk2 ts x thr = .ok (res, out, a1)) : out.length ≤ 1 := by
  unfold pushX at h
  by_cases he : a.enabled = false
  · rw [if_pos he] at h; cases h; simp
  rw [if_neg he] at h
  obtain ⟨t, h1, h⟩ := bind_inv h
  obtain ⟨t', h2, h⟩ := bind_inv h
  obtain ⟨⟨th, out1, next, r⟩, h3, h⟩ := bind_inv h
  have hout : out = out1 := by
    simp only at h
    split_ifs at h <;> (cases h; rfl)
  subst hout
  rw [Separator.sepLoopX] at h3
  split_ifs at h3 with hn hs
  · obtain ⟨⟨d, r2⟩, g1, g⟩ := bind_inv h3
    have he2 := detach_empty g1
    obtain ⟨⟨t1, o1⟩, g2, g⟩ := bind_inv g
    have ho1 : o1.length ≤ 1 := by
      cases d with
      | none => cases g2; simp
      | some d =>
        obtain ⟨⟨d1, t3⟩, _, g3⟩ := bind_inv g2
        cases g3; simp
    simp only at g
    split_ifs at g
    · cases g; exact ho1
    · rw [Separator.sepLoopX_empty hs he2 _ _ (le_refl _), bind_ok'] at g
      cases g
      simpa using ho1
  · cases h3; simp

theorem Multi.pushX_one {m m1 : Multi} {p : PushArg} {thr : PushReq → Bool} {res : Option Bool} {l : List PushReq}
    (h : m.pushX env p thr = .ok (res, l, m1)) : l.length ≤ 1 := by
  obtain ⟨pos, h1, h⟩ := bind_inv h
  obtain ⟨s, h2, h⟩ := bind_inv h
  obtain ⟨⟨res', l', s1⟩, h3, h⟩ := bind_inv h
  cases h
  obtain ⟨a, h4, h5⟩ := bind_inv h3
  obtain ⟨⟨res2, out, a1⟩, h6, h7⟩ := bind_inv h5
  cases h7
  simpa using Aggregator.pushX_one h6

/-- Where a `multi_push` stops. -/
theorem Multi.multiPushX_stop {thr : Thrower} : ∀ (ps : List PushArg) (past : List PushReq) (m m1 : Multi) (t : Bool) (l : List PushReq),
    multiPushX env thr past ps m = .ok (t, l, m1) →
    (t = false → ∀ q, q <+: l → q ≠ [] → thr (past ++ q) = false) ∧
    (t = true → l ≠ [] ∧ thr (past ++ l) = true ∧ ∀ q, q <+: l → q ≠ [] → q ≠ l → thr (past ++ q) = false) := by
  intro ps
  induction ps with
  | nil =>
    intro past m m1 t l h
    cases h
    exact ⟨fun _ q hq hne => absurd (List.prefix_nil.1 hq) hne, fun h => (by cases h)⟩
  | cons p ps ih =>
    intro past m m1 t l h
    rw [multiPushX] at h
    obtain ⟨⟨res, l1, m'⟩, h1, h⟩ := bind_inv h
    have hone := pushX_one h1
    simp only at h
    cases res with
    | none =>
      rw [if_pos rfl] at h
      cases h
      obtain ⟨ok, m2, e1, e2, e3⟩ := pushX_spec h1
      obtain ⟨⟨r, rfl, f2⟩, _⟩ := e3 rfl
      refine ⟨fun h => (by cases h), fun _ => ⟨by simp, f2, fun q hq hne hne' => ?_⟩⟩
      rcases List.prefix_cons_iff.1 hq with h | ⟨q', rfl, h⟩
      · exact absurd h hne
      · exact absurd (by rw [List.prefix_nil.1 h]) hne'
    | some b =>
      rw [if_neg (by simp)] at h
      obtain ⟨⟨t', l2, m3⟩, h2, h⟩ := bind_inv h
      cases h
      have hq := pushX_quiet h1
      obtain ⟨j2, j3⟩ := ih _ _ _ _ _ h2
      have split : ∀ q, q <+: l1 ++ l2 → q ≠ [] → thr (past ++ q) = false ∨ ∃ q', q' <+: l2 ∧ q' ≠ [] ∧ q = l1 ++ q' := by
        intro q hpre hne
        by_cases hz1 : l1 = []
        · subst hz1
          exact .inr ⟨q, by simpa using hpre, hne, rfl⟩
        · obtain ⟨r, hr⟩ := List.length_eq_one_iff.1 (le_antisymm hone (List.length_pos_iff.2 hz1))
          rw [hr] at hpre hq ⊢
          rcases List.prefix_cons_iff.1 hpre with h | ⟨q', rfl, h⟩
          · exact absurd h hne
          · by_cases hz : q' = []
            · exact .inl (by rw [hz]; exact hq r (by simp))
            · exact .inr ⟨q', by simpa using h, hz, rfl⟩
      refine ⟨fun ht q hpre hne => ?_, fun ht => ?_⟩
      · rcases split q hpre hne with h | ⟨q', h, hne', rfl⟩
        · exact h
        · rw [← List.append_assoc]
          exact j2 ht q' h hne'
      · obtain ⟨i1, i2, i3⟩ := j3 ht
        refine ⟨by simp [i1], by rw [← List.append_assoc]; exact i2, fun q hpre hne hne' => ?_⟩
        rcases split q hpre hne with h | ⟨q', h, hne'', rfl⟩
        · exact h
        · rw [← List.append_assoc]
          exact i3 q' h hne'' (fun e => hne' (by rw [e]))

/-- A meter function that returned has given the handler no record on which it throws. -/
theorem Wrt.callX_quiet {w w1 : Wrt} {p : WPusher} {clk1 clk2 ts v : Int} {count : Nat} {thr : Name × AggData → Bool}
    {l : List (Name × AggData)} (h : w.callX env p clk1 clk2 ts v count thr = .ok (false, l, w1)) : ∀ r ∈ l, thr r = false := by
  unfold callX at h
  cases hf : w.reg.find p.rp.ref with
  | none => rw [hf] at h; cases h; simp
  | some a =>
    rw [hf] at h
    simp only at h
    by_cases hc : p.rp.p.token = true ∧ a.alive = true ∧ p.rp.p.handler = true
    · rw [if_pos hc] at h
      obtain ⟨⟨ok, out, a1⟩, h1, h⟩ := bind_inv h
      simp only [Except.ok.injEq, Prod.mk.injEq] at h
      obtain ⟨hok, rfl, rfl⟩ := h
      cases ok with
      | none => simp at hok
      | some b =>
        have hq := Aggregator.pushX_quiet h1
        intro r hr
        obtain ⟨d, hd, hr⟩ := List.mem_flatMap.1 hr
        have := hq d hd
        rw [List.any_eq_false] at this
        have hdel : Wrt.deliver { reg := w.reg.update p.rp.ref a1, handler := w.handler } p.h d = w.deliver p.h d := by
          unfold deliver Registry.getName
          rfl
        rw [hdel] at hr
        simpa using this r hr
    · rw [if_neg hc] at h
      obtain ⟨⟨l1, w2⟩, h1, h⟩ := bind_inv h
      cases h
      obtain ⟨⟨out, r⟩, h2, h3⟩ := bind_inv h1
      cases h3
      have hout : out = [] := by
        unfold Registry.call at h2
        rw [hf] at h2
        simp only at h2
        obtain ⟨⟨out1, a1⟩, h4, h5⟩ := bind_inv h2
        cases h5
        unfold Aggregator.Pusher.call at h4
        by_cases hta : p.rp.p.token = true ∧ a.alive = true
        · rw [if_pos hta] at h4
          obtain ⟨⟨ok, out2, a2⟩, h6, h7⟩ := bind_inv h4
          cases h7
          have hh : p.rp.p.handler = false := by
            cases hh : p.rp.p.handler with
            | false => rfl
            | true => exact absurd ⟨hta.1, hta.2, hh⟩ hc
          rw [hh] at h6
          exact push_no_handler h6
        · rw [if_neg hta] at h4; cases h4; rfl
      subst hout
      simp

end Wrtstat
