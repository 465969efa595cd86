/-
Handlers that throw, in `multi_aggregator` and `wrtstat`: what calls left by an exception have done.
-/
import Verif.Model.ThrowingOut
import Verif.Lemmas.Throwing
import Verif.Lemmas.MultiMt
import Verif.Lemmas.ConcLog

namespace Wrtstat

set_option autoImplicit false

/-- What the handler is given, what is left, and when it threw. -/
theorem handOut_spec (thr : Thrower) : ∀ (l past h rest : List (Name × AggData)) (t : Bool), handOut thr past l = (h, rest, t) →
    h ++ rest = l ∧
      (t = false → rest = [] ∧ ∀ q, q <+: l → q ≠ [] → thr (past ++ q) = false) ∧
      (t = true → h ≠ [] ∧ thr (past ++ h) = true ∧ ∀ q, q <+: h → q ≠ [] → q ≠ h → thr (past ++ q) = false) := by
  intro l
  induction l with
  | nil =>
    intro past h rest t e
    cases e
    exact ⟨rfl, fun _ => ⟨rfl, fun q hq hne => absurd (List.prefix_nil.1 hq) hne⟩, fun h => (by cases h)⟩
  | cons r l ih =>
    intro past h rest t e
    rw [handOut] at e
    by_cases hr : thr (past ++ [r]) = true
    · rw [if_pos hr] at e
      cases e
      refine ⟨rfl, fun h => (by cases h), fun _ => ⟨by simp, hr, fun q hq hne hne' => ?_⟩⟩
      rcases List.prefix_cons_iff.1 hq with h | ⟨q', rfl, h⟩
      · exact absurd h hne
      · rw [List.prefix_nil] at h
        exact absurd (by rw [h]) hne'
    · rw [if_neg hr] at e
      simp only [Prod.mk.injEq] at e
      obtain ⟨rfl, rfl, rfl⟩ := e
      obtain ⟨k1, k2, k3⟩ := ih (past ++ [r]) _ _ _ rfl
      have hr' : thr (past ++ [r]) = false := by simpa using hr
      refine ⟨by rw [List.cons_append, k1], fun ht => ⟨(k2 ht).1, fun q hq hne => ?_⟩, fun ht => ?_⟩
      · rcases List.prefix_cons_iff.1 hq with h | ⟨q', rfl, h⟩
        · exact absurd h hne
        · by_cases hq' : q' = []
          · rw [hq']; exact hr'
          · have := (k2 ht).2 q' h hq'
            simpa using this
      · obtain ⟨j1, j2, j3⟩ := k3 ht
        refine ⟨by simp, by simpa using j2, fun q hq hne hne' => ?_⟩
        rcases List.prefix_cons_iff.1 hq with h | ⟨q', rfl, h⟩
        · exact absurd h hne
        · by_cases hq' : q' = []
          · rw [hq']; exact hr'
          · have := j3 q' h hq' (fun e => hne' (by rw [e]))
            simpa using this

namespace AggMap

open Multi (about)

variable {env : Env} {force : Bool} {thr : Thrower}

/-- An exception leaves the loop between two names. -/
theorem popLoopX_spec : ∀ (ns : List Name) (past : List PushReq) (m m' : AggMap) (l : List PushReq) (t : Bool),
    popLoopX env force thr past ns m = .ok (l, t, m') →
    ∃ ns1 ns2, ns = ns1 ++ ns2 ∧ popLoop env force true ns1 m = .ok (l, m') ∧
      (t = false → ns2 = [] ∧ ∀ q, q <+: l → q ≠ [] → thr (past ++ q) = false) ∧
      (t = true → l ≠ [] ∧ thr (past ++ l) = true ∧ ∀ q, q <+: l → q ≠ [] → q ≠ l → thr (past ++ q) = false) := by
  intro ns
  induction ns with
  | nil =>
    intro past m m' l t h
    cases h
    exact ⟨[], [], rfl, rfl, fun _ => ⟨rfl, fun q hq hne => absurd (List.prefix_nil.1 hq) hne⟩, fun h => (by cases h)⟩
  | cons n ns ih =>
    intro past m m' l t h
    rw [popLoopX] at h
    cases hl : m.lookup n with
    | none =>
      rw [hl] at h
      obtain ⟨ns1, ns2, e, k1, k2, k3⟩ := ih _ _ _ _ _ h
      refine ⟨n :: ns1, ns2, by rw [e]; rfl, ?_, k2, k3⟩
      rw [popLoop, hl]
      exact k1
    | some a =>
      rw [hl] at h
      obtain ⟨⟨d, a1⟩, h1, h⟩ := bind_inv h
      simp only at h
      cases d with
      | none =>
        simp only at h
        obtain ⟨ns1, ns2, e, k1, k2, k3⟩ := ih _ _ _ _ _ h
        refine ⟨n :: ns1, ns2, by rw [e]; rfl, ?_, k2, k3⟩
        rw [popLoop, hl]
        simp only
        rw [h1, bind_ok']
        simp only [Option.isSome_none, Bool.false_eq_true, false_and, if_false]
        rw [k1]
        rfl
      | some d =>
        simp only at h
        by_cases hr : thr (past ++ [(n, d)]) = true
        · rw [if_pos hr] at h
          cases h
          refine ⟨[n], ns, rfl, ?_, fun h => (by cases h), fun _ => ⟨by simp, hr, fun q hq hne hne' => ?_⟩⟩
          · rw [popLoop, hl]
            simp only
            rw [h1, bind_ok']
            simp [popLoop, bind_ok']
          · rcases List.prefix_cons_iff.1 hq with h | ⟨q', rfl, h⟩
            · exact absurd h hne
            · rw [List.prefix_nil] at h
              exact absurd (by rw [h]) hne'
        · rw [if_neg hr] at h
          obtain ⟨⟨l1, t1, m1⟩, h2, h⟩ := bind_inv h
          cases h
          obtain ⟨ns1, ns2, e, k1, k2, k3⟩ := ih _ _ _ _ _ h2
          have hr' : thr (past ++ [(n, d)]) = false := by simpa using hr
          refine ⟨n :: ns1, ns2, by rw [e]; rfl, ?_, fun ht => ⟨(k2 ht).1, fun q hq hne => ?_⟩, fun ht => ?_⟩
          · rw [popLoop, hl]
            simp only
            rw [h1, bind_ok']
            simp only [Bool.true_eq_false, and_false, if_false]
            rw [k1]
            rfl
          · rcases List.prefix_cons_iff.1 hq with h | ⟨q', rfl, h⟩
            · exact absurd h hne
            · by_cases hq' : q' = []
              · rw [hq']; exact hr'
              · have := (k2 ht).2 q' h hq'
                simpa using this
          · obtain ⟨_, j2, j3⟩ := k3 ht
            refine ⟨by simp, by simpa using j2, fun q hq hne hne' => ?_⟩
            rcases List.prefix_cons_iff.1 hq with h | ⟨q', rfl, h⟩
            · exact absurd h hne
            · by_cases hq' : q' = []
              · rw [hq']; exact hr'
              · have := j3 q' h hq' (fun e => hne' (by rw [e]))
                simpa using this

/-- Name by name: untouched, or popped with its record handed over. -/
structure PoppedX (env : Env) (force t : Bool) (m m' : AggMap) (l : List PushReq) : Prop where
  keys : m'.map Prod.fst = m.map Prod.fst
  absent : ∀ name, m.lookup name = none → m'.lookup name = none ∧ about name l = []
  present : ∀ name a, m.lookup name = some a → (t = true ∧ m'.lookup name = some a ∧ about name l = []) ∨
    ∃ d a', popOne env force a = .ok (d, a') ∧ m'.lookup name = some a' ∧ about name l = d.toList

theorem PoppedX.mono {t : Bool} {m m' : AggMap} {l : List PushReq} (h : PoppedX env force t m m' l) : PoppedX env force true m m' l :=
  ⟨h.keys, h.absent, fun name a ha => (h.present name a ha).imp (fun h => ⟨rfl, h.2⟩) id⟩

theorem PoppedX.refl (m : AggMap) : PoppedX env force true m m [] :=
  ⟨rfl, fun _ h => ⟨h, rfl⟩, fun _ _ h => .inl ⟨rfl, h, rfl⟩⟩

theorem popAllX_spec {ord : IterOrder} {past : List PushReq} {m m' : AggMap} {l : List PushReq} {t : Bool}
    (hn : (m.map Prod.fst).Nodup) (h : popAllX env force thr past ord m = .ok (l, t, m')) : PoppedX env force t m m' l := by
  have hp := ord.perm (m.map Prod.fst)
  obtain ⟨ns1, ns2, e, k1, k2, k3⟩ := popLoopX_spec _ _ _ _ _ _ h
  have hnd := hp.nodup_iff.2 hn
  rw [e] at hnd
  obtain ⟨j1, j2⟩ := popLoop_spec _ (List.nodup_append.1 hnd).1 k1
  refine ⟨j1, fun name hx => ?_, fun name a ha => ?_⟩
  · have := (j2 name).1 (.inr hx)
    rw [hx] at this
    exact this
  · by_cases hm : name ∈ ns1
    · exact .inr ((j2 name).2 hm a ha)
    · refine .inl ⟨?_, ?_⟩
      · cases t with
        | true => rfl
        | false =>
          rw [(k2 rfl).1, List.append_nil] at e
          rw [← e, hp.mem_iff, ← lookup_none] at hm
          rw [hm] at ha
          cases ha
      · have := (j2 name).1 (.inl hm)
        rw [ha] at this
        exact this

end AggMap

namespace Multi

variable {env : Env} {force : Bool} {thr : Thrower}

/-- Where a handler stops: it throws on no list shorter than what it was given, and on that if it stopped. -/
theorem popShardsX_stop {ord : IterOrder} : ∀ (ss : List AggMap) (past : List PushReq) (ss' : List AggMap) (l : List PushReq) (t : Bool),
    popShardsX env force thr ord past ss = .ok (l, t, ss') →
    (t = false → ∀ q, q <+: l → q ≠ [] → thr (past ++ q) = false) ∧
    (t = true → l ≠ [] ∧ thr (past ++ l) = true ∧ ∀ q, q <+: l → q ≠ [] → q ≠ l → thr (past ++ q) = false) := by
  intro ss
  induction ss with
  | nil =>
    intro past ss' l t h
    cases h
    exact ⟨fun _ q hq hne => absurd (List.prefix_nil.1 hq) hne, fun h => (by cases h)⟩
  | cons s ss ih =>
    intro past ss' l t h
    rw [popShardsX] at h
    obtain ⟨⟨l1, t1, s1⟩, h1, h⟩ := bind_inv h
    simp only at h
    obtain ⟨_, _, _, _, k2, k3⟩ := AggMap.popLoopX_spec _ _ _ _ _ _ h1
    cases t1 with
    | true =>
      simp only [if_true] at h
      cases h
      exact ⟨fun h => (by cases h), k3⟩
    | false =>
      simp only [Bool.false_eq_true, if_false] at h
      obtain ⟨⟨l2, t2, ss2⟩, h2, h⟩ := bind_inv h
      cases h
      obtain ⟨j2, j3⟩ := ih _ _ _ _ h2
      have k2 := (k2 rfl).2
      have split : ∀ q, q <+: l1 ++ l2 → q ≠ [] → thr (past ++ q) = false ∨ ∃ q', q' <+: l2 ∧ q' ≠ [] ∧ q = l1 ++ q' := by
        intro q hq hne
        rcases List.prefix_or_prefix_of_prefix hq (List.prefix_append l1 l2) with h | ⟨z, rfl⟩
        · exact .inl (k2 q h hne)
        · by_cases hz : z = []
          · subst hz
            rw [List.append_nil] at hne ⊢
            exact .inl (k2 l1 (List.prefix_refl _) hne)
          · exact .inr ⟨z, (List.prefix_append_right_inj _).1 hq, hz, rfl⟩
      refine ⟨fun ht q hq hne => ?_, fun ht => ?_⟩
      · rcases split q hq hne with h | ⟨q', h, hne', rfl⟩
        · exact h
        · rw [← List.append_assoc]
          exact j2 ht q' h hne'
      · obtain ⟨i1, i2, i3⟩ := j3 ht
        refine ⟨by simp [i1], by rw [← List.append_assoc]; exact i2, fun q hq hne hne' => ?_⟩
        rcases split q hq hne with h | ⟨q', h, hne'', rfl⟩
        · exact h
        · rw [← List.append_assoc]
          exact i3 q' h hne'' (fun e => hne' (by rw [e]))

theorem popShardsX_spec {ord : IterOrder} : ∀ (ss : List AggMap) (past : List PushReq) (ss' : List AggMap) (l : List PushReq) (t : Bool),
    (∀ s ∈ ss, (s.map Prod.fst).Nodup) → popShardsX env force thr ord past ss = .ok (l, t, ss') →
    ss'.length = ss.length ∧ (∀ name, (∀ s ∈ ss, name ∉ s.map Prod.fst) → about name l = []) ∧
    ∀ (i : Nat) (s : AggMap), ss[i]? = some s → ∃ li s', AggMap.PoppedX env force t s s' li ∧ ss'[i]? = some s' ∧
      ∀ name, (∀ (j : Nat) (t : AggMap), ss[j]? = some t → j ≠ i → name ∉ t.map Prod.fst) → about name l = about name li := by
  intro ss
  induction ss with
  | nil => intro past ss' l t _ h; cases h; exact ⟨rfl, fun _ _ => rfl, by simp⟩
  | cons s ss ih =>
    intro past ss' l t hn h
    rw [popShardsX] at h
    obtain ⟨⟨l1, t1, s1⟩, h1, h⟩ := bind_inv h
    simp only at h
    have p1 := AggMap.popAllX_spec (hn s (by simp)) h1
    cases t1 with
    | true =>
      simp only [if_true] at h
      cases h
      refine ⟨by simp, fun name hx => (p1.absent name (AggMap.lookup_none.2 (hx s (by simp)))).2, fun i u hi => ?_⟩
      cases i with
      | zero =>
        simp only [List.getElem?_cons_zero, Option.some.injEq] at hi
        subst hi
        exact ⟨l, s1, p1, rfl, fun _ _ => rfl⟩
      | succ i =>
        simp only [List.getElem?_cons_succ] at hi
        refine ⟨[], u, AggMap.PoppedX.refl u, by simpa using hi, fun name hx => ?_⟩
        exact (p1.absent name (AggMap.lookup_none.2 (hx 0 s (by simp) (by omega)))).2
    | false =>
      simp only [Bool.false_eq_true, if_false] at h
      obtain ⟨⟨l2, t2, ss2⟩, h2, h⟩ := bind_inv h
      cases h
      obtain ⟨k1, k2, k3⟩ := ih _ _ _ _ (fun s hs => hn s (by simp [hs])) h2
      have p1' : AggMap.PoppedX env force t2 s s1 l1 := by
        cases t2 with
        | true => exact p1.mono
        | false => exact p1
      refine ⟨by simp [k1], ?_, ?_⟩
      · intro name hx
        rw [about_append, k2 name (fun s hs => hx s (by simp [hs])), List.append_nil]
        exact (p1.absent name (AggMap.lookup_none.2 (hx s (by simp)))).2
      · intro i u hi
        cases i with
        | zero =>
          simp only [List.getElem?_cons_zero, Option.some.injEq] at hi
          subst hi
          refine ⟨l1, s1, p1', rfl, fun name hx => ?_⟩
          rw [about_append, k2 name, List.append_nil]
          intro u hu
          obtain ⟨j, hj⟩ := List.mem_iff_getElem?.1 hu
          exact hx (j + 1) u (by simpa using hj) (by omega)
        | succ i =>
          simp only [List.getElem?_cons_succ] at hi
          obtain ⟨li, s', e1, e2, e3⟩ := k3 i u hi
          refine ⟨li, s', e1, by simpa using e2, fun name hx => ?_⟩
          rw [about_append, e3 name (fun j u hj hne => hx (j + 1) u (by simpa using hj) (by omega))]
          rw [(p1.absent name (AggMap.lookup_none.2 (hx 0 s (by simp) (by omega)))).2, List.nil_append]

/-- Name by name, as `popAll_spec`. -/
theorem popAllX_spec {m m' : Multi} (hi : MInv m) (hz : 0 < m.opt.hashSize) {ord : IterOrder} {l : List PushReq} {t : Bool}
    (h : m.popAllX env force thr ord = .ok (l, t, m')) :
    MInv m' ∧ m'.opt = m.opt ∧ ∀ name,
      (m.find name = none → m'.find name = none ∧ about name l = []) ∧
      (∀ a, m.find name = some a → (t = true ∧ m'.find name = some a ∧ about name l = []) ∨
        ∃ d a', AggMap.popOne env force a = .ok (d, a') ∧ m'.find name = some a' ∧ about name l = d.toList) := by
  obtain ⟨⟨l', t', ss⟩, h1, h⟩ := bind_inv h
  cases h
  obtain ⟨k1, k2, k3⟩ := popShardsX_spec m.shards _ _ _ _ hi.nodup h1
  have back : ∀ (i : Nat) (t : AggMap), ss[i]? = some t → ∃ s, m.shards[i]? = some s ∧ t.map Prod.fst = s.map Prod.fst := by
    intro i t ht
    have hlt : i < m.shards.length := by rw [← k1]; exact (List.getElem?_eq_some_iff.1 ht).1
    obtain ⟨li, s', e1, e2, _⟩ := k3 i _ (List.getElem?_eq_getElem hlt)
    rw [ht] at e2
    cases e2
    exact ⟨_, List.getElem?_eq_getElem hlt, e1.keys⟩
  have hi' : MInv { m with shards := ss } := by
    refine ⟨by simp [k1, hi.len], ?_, ?_⟩
    · intro t ht
      obtain ⟨i, hit⟩ := List.mem_iff_getElem?.1 ht
      obtain ⟨s, hs, e⟩ := back i t hit
      rw [e]
      exact hi.nodup s (List.mem_of_getElem? hs)
    · intro i t hit n hn
      obtain ⟨s, hs, e⟩ := back i t hit
      rw [e] at hn
      exact hi.home i s hs n hn
  refine ⟨hi', rfl, fun name => ?_⟩
  have hlt : m.hash name % m.opt.hashSize < m.shards.length := by
    rw [hi.len]
    exact Nat.mod_lt _ hz
  have hs := List.getElem?_eq_getElem hlt
  obtain ⟨li, s', e1, e2, e3⟩ := k3 _ _ hs
  have e3' := e3 name (fun j t hj hne hm => hne (hi.home j t hj name hm).symm)
  rw [e3', hi.find_eq rfl hs, hi'.find_eq rfl e2]
  exact ⟨e1.absent name, e1.present name⟩

end Multi

/-! ### Calls that record -/

open Aggregator (after after_step detach_of_empty sepLoop_after detach_empty)

/-- The loop, with a handler that may throw. -/
theorem Separator.sepLoopX_empty {env : Env} {step ts : Int} (hs : 0 < step) {give : AggData → M (AggData × Bool)} {r : Reducer}
    (he : r.empty = true) : ∀ (n : Nat) (next : Int), (ts - next + 1).toNat ≤ n →
    sepLoopX env step ts give next r = .ok (false, [], after step ts next, r) := by
  intro n
  induction n with
  | zero =>
    intro next hn
    rw [sepLoopX, dif_neg (by omega)]
    unfold after
    rw [if_pos (by omega)]
  | succ n ih =>
    intro next hn
    rw [sepLoopX]
    split_ifs with h
    · rw [detach_of_empty he, bind_ok']
      simp only [bind_ok', Bool.false_eq_true, if_false]
      rw [ih (next + step) (by omega), bind_ok', after_step hs h]
      rfl
    · unfold after
      rw [if_pos (by omega)]

theorem Separator.sepLoopX_spec {env : Env} {step ts next next1 : Int} {f : AggData → M AggData} {thr : AggData → Bool}
    {r r1 : Reducer} {t : Bool} {out : List AggData}
    (h : sepLoopX env step ts (fun d => do let d ← f d; .ok (d, thr d)) next r = .ok (t, out, next1, r1)) :
    ∃ l, sepLoop env step ts next r = .ok (l, after step ts next, r1) ∧ l.mapM f = .ok out ∧
      (t = false → next1 = after step ts next) ∧
      (t = true → 0 < step ∧ r1.empty = true ∧ next ≤ ts ∧ next1 = next ∧ ∃ d, out = [d] ∧ thr d = true) := by
  rw [sepLoopX] at h
  split_ifs at h with hn hs
  · obtain ⟨⟨d, r2⟩, h1, h⟩ := bind_inv h
    have he := detach_empty h1
    simp only at h
    have hsl : sepLoop env step ts next r =
        .ok ((d.map fun d => { d with ts := next - step }).toList, after step ts next, r2) := by
      rw [sepLoop, dif_pos hn, dif_pos hs, h1, bind_ok']
      simp only
      rw [sepLoop_after hs he _ _ (le_refl _), bind_ok', after_step hs hn]
      simp
    cases d with
    | none =>
      simp only [bind_ok', Bool.false_eq_true, if_false] at h
      rw [sepLoopX_empty hs he _ _ (le_refl _), bind_ok', after_step hs hn] at h
      cases h
      exact ⟨_, hsl, rfl, fun _ => rfl, fun h => (by cases h)⟩
    | some d =>
      obtain ⟨⟨t1, o1⟩, h2, h⟩ := bind_inv h
      obtain ⟨⟨d1, t2⟩, h3, h2⟩ := bind_inv h2
      cases h2
      obtain ⟨d2, h4, h3⟩ := bind_inv h3
      cases h3
      have hm : (Option.map (fun d : AggData => { d with ts := next - step }) (some d)).toList.mapM f = .ok [d1] := by
        have h4' : f { d with ts := next - step } = .ok d1 := h4
        simp only [Option.map_some, Option.toList_some, List.mapM_cons, List.mapM_nil]
        rw [h4']
        rfl
      simp only at h
      by_cases ht : thr d1 = true
      · rw [if_pos ht] at h
        cases h
        exact ⟨_, hsl, hm, fun h => (by cases h), fun _ => ⟨hs, he, hn, rfl, d1, rfl, ht⟩⟩
      · rw [if_neg ht] at h
        rw [sepLoopX_empty hs he _ _ (le_refl _), bind_ok', after_step hs hn] at h
        cases h
        exact ⟨_, hsl, by simpa using hm, fun _ => rfl, fun h => (by cases h)⟩
  · cases h
    have e : after step ts next = next := by unfold after; rw [if_pos (by omega)]
    refine ⟨[], ?_, rfl, fun _ => e.symm, fun h => (by cases h)⟩
    rw [sepLoop, dif_neg hn, e]

namespace Aggregator

variable {env : Env}

theorem push_of_loop {a : Aggregator} {clk1 clk2 ts t t' n : Int} {x : AddArg} {l out : List AggData} {r : Reducer}
    (he : a.enabled = true) (h1 : a.sep.getTs clk1 ts = .ok t) (h2 : a.sep.getTs clk2 t = .ok t')
    (h3 : Separator.sepLoop env a.sep.step t' a.sep.next a.sep.reducer = .ok (l, n, r))
    (h4 : l.mapM (finish env.nth a.outSize) = .ok out) :
    a.push env clk1 clk2 ts x true =
      if t < n - a.sep.step then .ok (false, out, { a with sep := { a.sep with next := n, reducer := r } })
      else .ok (true, out, { a with sep := { a.sep with next := n, reducer := r.add env x } }) := by
  obtain ⟨b, hsep⟩ := separate_of_loop (force := false) h2 h3
  rw [push, if_neg (by simp [he]), if_neg (by simp), Separator.push, h1, bind_ok', hsep, bind_ok']
  simp only
  by_cases hlate : t < n - a.sep.step
  · rw [if_pos hlate, if_pos hlate, bind_ok']
    simp only
    rw [h4, bind_ok']
  · rw [if_neg hlate, if_neg hlate, bind_ok']
    simp only
    rw [h4, bind_ok']

/-- A push that threw, made again, ends as it would have ended without exception. -/
theorem pushX_spec {a a1 : Aggregator} {clk1 clk2 ts : Int} {x : AddArg} {thr : AggData → Bool} {res : Option Bool}
    {out : List AggData} (h : a.pushX env clk1 clk2 ts x thr = .ok (res, out, a1)) :
    ∃ ok a2, a.push env clk1 clk2 ts x true = .ok (ok, out, a2) ∧ a1.sep.step = a.sep.step ∧ a1.enabled = a.enabled ∧
      (∀ b, res = some b → b = ok ∧ a1 = a2) ∧
      (res = none → (∃ d, out = [d] ∧ thr d = true) ∧ a1.push env clk1 clk2 ts x true = .ok (ok, [], a2)) := by
  unfold pushX at h
  by_cases he : a.enabled = false
  · rw [if_pos he] at h
    cases h
    refine ⟨true, a, ?_, rfl, rfl, fun b hb => ⟨(by cases hb; rfl), rfl⟩, fun h => (by cases h)⟩
    rw [push, if_pos he]
  rw [if_neg he] at h
  have hen : a.enabled = true := by simpa using he
  obtain ⟨t, h1, h⟩ := bind_inv h
  obtain ⟨t', h2, h⟩ := bind_inv h
  obtain ⟨⟨th, out1, next, r⟩, h3, h⟩ := bind_inv h
  obtain ⟨l, e1, e2, e3, e4⟩ := Separator.sepLoopX_spec h3
  have e5 := push_of_loop (x := x) hen h1 h2 e1 e2
  simp only at h
  cases th with
  | true =>
    rw [if_pos rfl] at h
    cases h
    obtain ⟨hs, f1, f2, f3, d, f4, f5⟩ := e4 rfl
    have e6 : Aggregator.push env { a with sep := { a.sep with next := next, reducer := r } } clk1 clk2 ts x true = _ :=
      push_of_loop (a := { a with sep := { a.sep with next := next, reducer := r } }) (out := []) hen h1 h2
        (sepLoop_after hs f1 _ _ (le_refl _)) rfl
    simp only [f3] at e6
    by_cases hlate : t < after a.sep.step t' a.sep.next - a.sep.step
    · rw [if_pos hlate] at e5 e6
      exact ⟨_, _, e5, rfl, rfl, fun b hb => (by cases hb), fun _ => ⟨⟨d, f4, f5⟩, by rw [f3]; exact e6⟩⟩
    · rw [if_neg hlate] at e5 e6
      exact ⟨_, _, e5, rfl, rfl, fun b hb => (by cases hb), fun _ => ⟨⟨d, f4, f5⟩, by rw [f3]; exact e6⟩⟩
  | false =>
    rw [if_neg (by simp)] at h
    have f3 := e3 rfl
    subst f3
    by_cases hlate : t < after a.sep.step t' a.sep.next - a.sep.step
    · rw [if_pos hlate] at e5 h
      cases h
      exact ⟨_, _, e5, rfl, rfl, fun b hb => ⟨(by cases hb; rfl), rfl⟩, fun h => (by cases h)⟩
    · rw [if_neg hlate] at e5 h
      cases h
      exact ⟨_, _, e5, rfl, rfl, fun b hb => ⟨(by cases hb; rfl), rfl⟩, fun h => (by cases h)⟩

end Aggregator

/-- The same for a map of aggregators. -/
theorem AggMap.pushX_spec {env : Env} {opt : MultiOpts} {s s1 : AggMap} {name : Name} {v : ReducedData} {clk rand clk1 clk2 : Int}
    {thr : PushReq → Bool} {res : Option Bool} {l : List PushReq}
    (h : s.pushX env opt name v clk rand clk1 clk2 thr = .ok (res, l, s1)) :
    ∃ ok s2, s.push env opt name v clk rand clk1 clk2 true = .ok (ok, l, s2) ∧
      (∀ b, res = some b → b = ok ∧ s1 = s2) ∧
      (res = none → (∃ r, l = [r] ∧ thr r = true) ∧ s1.push env opt name v clk rand clk1 clk2 true = .ok (ok, [], s2)) := by
  obtain ⟨a, h1, h⟩ := bind_inv h
  obtain ⟨⟨res', out, a1⟩, h2, h⟩ := bind_inv h
  cases h
  obtain ⟨ok, a2, e1, _, _, e2, e3⟩ := Aggregator.pushX_spec h2
  refine ⟨ok, s.put name a2, ?_, fun b hb => ?_, fun hn => ?_⟩
  · rw [AggMap.push, h1, bind_ok', e1, bind_ok']
    simp
  · obtain ⟨f1, f2⟩ := e2 b hb
    exact ⟨f1, by rw [f2]⟩
  · obtain ⟨⟨d, f1, f2⟩, f3⟩ := e3 hn
    refine ⟨⟨(name, d.asReduced), by rw [f1]; rfl, f2⟩, ?_⟩
    have : AggMap.orNew opt ((s.put name a1).lookup name) clk rand v.ts = .ok a1 := by
      rw [AggMap.lookup_put, if_pos rfl]
      rfl
    rw [AggMap.push, this, bind_ok', f3, bind_ok']
    simp [AggMap.put_put]

namespace Multi

variable {env : Env}

theorem pushX_spec {m m1 : Multi} {p : PushArg} {thr : PushReq → Bool} {res : Option Bool} {l : List PushReq}
    (h : m.pushX env p thr = .ok (res, l, m1)) :
    ∃ ok m2, m.push env p.name p.v p.clk p.rand p.clk1 p.clk2 true = .ok (ok, l, m2) ∧
      (∀ b, res = some b → b = ok ∧ m1 = m2) ∧
      (res = none → (∃ r, l = [r] ∧ thr r = true) ∧
        m1.push env p.name p.v p.clk p.rand p.clk1 p.clk2 true = .ok (ok, [], m2)) := by
  obtain ⟨pos, h1, h⟩ := bind_inv h
  obtain ⟨s, h2, h⟩ := bind_inv h
  obtain ⟨⟨res', l', s1⟩, h3, h⟩ := bind_inv h
  cases h
  obtain ⟨ok, s2, e1, e2, e3⟩ := AggMap.pushX_spec h3
  refine ⟨ok, { m with shards := m.shards.set pos s2 }, ?_, fun b hb => ?_, fun hn => ?_⟩
  · rw [Multi.push, h1, bind_ok', h2, bind_ok', e1, bind_ok']
  · obtain ⟨f1, f2⟩ := e2 b hb
    exact ⟨f1, by rw [f2]⟩
  · obtain ⟨f1, f2⟩ := e3 hn
    refine ⟨f1, ?_⟩
    have h1' : Multi.getPos { m with shards := m.shards.set pos s1 } p.name = .ok pos := h1
    have h2' : Multi.shard { m with shards := m.shards.set pos s1 } pos = .ok s1 := by
      unfold shard at h2 ⊢
      cases hs : m.shards[pos]? with
      | none => rw [hs] at h2; cases h2
      | some u =>
        have hpos : pos < m.shards.length := (List.getElem?_eq_some_iff.1 hs).1
        simp only
        rw [List.getElem?_set_self hpos]
    rw [Multi.push, h1', bind_ok', h2', bind_ok']
    simp only
    rw [f2, bind_ok']
    simp

theorem multiPush_append (ps1 ps2 : List PushArg) : ∀ (m : Multi), multiPush env true (ps1 ++ ps2) m =
    (do let (l1, m) ← multiPush env true ps1 m
        let (l2, m) ← multiPush env true ps2 m
        .ok (l1 ++ l2, m)) := by
  induction ps1 with
  | nil =>
    intro m
    rw [List.nil_append, multiPush, bind_ok']
    simp only [List.nil_append]
    cases multiPush env true ps2 m with
    | error e => rfl
    | ok p => rfl
  | cons p ps1 ih =>
    intro m
    rw [List.cons_append, multiPush, multiPush]
    cases h : m.push env p.name p.v p.clk p.rand p.clk1 p.clk2 true with
    | error e => rfl
    | ok q =>
      obtain ⟨ok, l, m1⟩ := q
      rw [bind_ok', bind_ok']
      simp only
      rw [ih]
      cases h1 : multiPush env true ps1 m1 with
      | error e => rfl
      | ok q1 =>
        obtain ⟨l1, m2⟩ := q1
        rw [bind_ok', bind_ok']
        simp only
        cases h2 : multiPush env true ps2 m2 with
        | error e => rw [bind_ok']; simp only; rw [h2]; rfl
        | ok q2 => rw [bind_ok', bind_ok', bind_ok']; simp only; rw [h2, bind_ok', List.append_assoc]

/-- A `multi_push` left by an exception has pushed the requests before one; this one, pushed again, ends as it would have. -/
theorem multiPushX_spec {thr : Thrower} : ∀ (ps : List PushArg) (past : List PushReq) (m m1 : Multi) (t : Bool) (l : List PushReq),
    multiPushX env thr past ps m = .ok (t, l, m1) →
    (t = false → multiPush env true ps m = .ok (l, m1)) ∧
    (t = true → ∃ ps1 p ps2 l1 m0 r ok m2, ps = ps1 ++ p :: ps2 ∧ multiPush env true ps1 m = .ok (l1, m0) ∧ l = l1 ++ [r] ∧
      thr (past ++ l) = true ∧ m0.push env p.name p.v p.clk p.rand p.clk1 p.clk2 true = .ok (ok, [r], m2) ∧
      m1.push env p.name p.v p.clk p.rand p.clk1 p.clk2 true = .ok (ok, [], m2)) := by
  intro ps
  induction ps with
  | nil =>
    intro past m m1 t l h
    cases h
    exact ⟨fun _ => rfl, fun h => (by cases h)⟩
  | cons p ps ih =>
    intro past m m1 t l h
    rw [multiPushX] at h
    obtain ⟨⟨res, l1, m'⟩, h1, h⟩ := bind_inv h
    obtain ⟨ok, m2, e1, e2, e3⟩ := pushX_spec h1
    simp only at h
    cases res with
    | none =>
      rw [if_pos rfl] at h
      cases h
      obtain ⟨⟨r, f1, f2⟩, f3⟩ := e3 rfl
      subst f1
      exact ⟨fun h => (by cases h), fun _ => ⟨[], p, ps, [], m, r, ok, m2, rfl, rfl, rfl, f2, e1, f3⟩⟩
    | some b =>
      rw [if_neg (by simp)] at h
      obtain ⟨⟨t', l2, m3⟩, h2, h⟩ := bind_inv h
      cases h
      obtain ⟨f1, rfl⟩ := e2 b rfl
      obtain ⟨k1, k2⟩ := ih _ _ _ _ _ h2
      refine ⟨fun ht => ?_, fun ht => ?_⟩
      · rw [multiPush, e1, bind_ok']
        simp only
        rw [k1 ht, bind_ok']
      · obtain ⟨ps1, p', ps2, l3, m0, r, ok', m4, g1, g2, g3, g4, g5, g6⟩ := k2 ht
        refine ⟨p :: ps1, p', ps2, l1 ++ l3, m0, r, ok', m4, by rw [g1]; rfl, ?_, by rw [g3, List.append_assoc], ?_, g5, g6⟩
        · rw [multiPush, e1, bind_ok']
          simp only
          rw [g2, bind_ok']
        · rw [← List.append_assoc]
          exact g4

end Multi

/-! ### Meters -/

namespace Registry

theorem update_update (r : Registry) (k : Nat) (a b : Aggregator) : (r.update k a).update k b = r.update k b := by
  unfold update
  simp only [List.map_map]
  congr 1
  apply List.map_congr_left
  intro o _
  cases o with
  | none => rfl
  | some c =>
    simp only [Function.comp, Option.map_some]
    by_cases h : c.ref = k <;> simp [h]

end Registry

namespace Wrt

variable {env : Env}

theorem callX_spec {w w1 : Wrt} {p : WPusher} {clk1 clk2 ts v : Int} {count : Nat} {thr : Name × AggData → Bool} {t : Bool}
    {l : List (Name × AggData)} (h : w.callX env p clk1 clk2 ts v count thr = .ok (t, l, w1)) :
    ∃ w2, w.call env p clk1 clk2 ts v count = .ok (l, w2) ∧ (t = false → w1 = w2) ∧
      (t = true → (∃ r, l = [r] ∧ thr r = true) ∧ w1.call env p clk1 clk2 ts v count = .ok ([], w2)) := by
  unfold callX at h
  cases hf : w.reg.find p.rp.ref with
  | none =>
    rw [hf] at h
    cases h
    refine ⟨w, ?_, fun _ => rfl, fun h => (by cases h)⟩
    rw [call, Registry.call, hf]
    rfl
  | some a =>
    rw [hf] at h
    simp only at h
    by_cases hc : p.rp.p.token = true ∧ a.alive = true ∧ p.rp.p.handler = true
    · rw [if_pos hc] at h
      obtain ⟨⟨ok, out, a1⟩, h1, h⟩ := bind_inv h
      cases h
      obtain ⟨ok2, a2, e1, e2, _, e3, e4⟩ := Aggregator.pushX_spec h1
      refine ⟨{ w with reg := w.reg.update p.rp.ref a2 }, ?_, fun ht => ?_, fun ht => ?_⟩
      · rw [call, Registry.call, hf]
        simp only
        rw [Aggregator.Pusher.call, if_pos ⟨hc.1, hc.2.1⟩, hc.2.2, e1, bind_ok', bind_ok', bind_ok']
        rfl
      · cases ok with
        | none => simp at ht
        | some b => rw [(e3 b rfl).2]
      · have hn : ok = none := by simpa using ht
        obtain ⟨⟨d, f1, f2⟩, f3⟩ := e4 hn
        subst f1
        refine ⟨?_, ?_⟩
        · have hd : ∀ w' : Wrt, w'.reg.dict = w.reg.dict → w'.deliver p.h d = w.deliver p.h d := by
            intro w' hw
            unfold deliver Registry.getName
            rw [hw]
          simp only [List.flatMap_cons, List.flatMap_nil, List.append_nil]
          rw [hd { reg := w.reg.update p.rp.ref a1, handler := w.handler } rfl]
          rw [List.any_eq_true] at f2
          obtain ⟨r, hr, hthr⟩ := f2
          refine ⟨r, ?_, hthr⟩
          unfold deliver at hr ⊢
          cases hh : p.h with
          | none => rw [hh] at hr; simp at hr
          | byId id =>
            rw [hh] at hr
            simp only at hr ⊢
            split_ifs at hr ⊢ with hg
            · simp at hr
            · rw [List.mem_singleton.1 hr]
          | byName n =>
            rw [hh] at hr
            rw [List.mem_singleton.1 hr]
        · have hfind : (w.reg.update p.rp.ref a1).find p.rp.ref = some a1 := by
            rw [Registry.find_update, if_pos rfl, hf]
            rfl
          have hal : a1.alive = true := by
            obtain ⟨_, r, n, rfl⟩ : a1.alive = a.alive ∧ ∃ r n, a1 = { a with sep := { a.sep with next := n, reducer := r } } := by
              unfold Aggregator.pushX at h1
              by_cases he : a.enabled = false
              · rw [if_pos he] at h1; subst hn; cases h1
              rw [if_neg he] at h1
              obtain ⟨_, _, h1⟩ := bind_inv h1
              obtain ⟨_, _, h1⟩ := bind_inv h1
              obtain ⟨⟨th, o, n, r⟩, _, h1⟩ := bind_inv h1
              simp only at h1
              split_ifs at h1
              · cases h1; exact ⟨rfl, _, _, rfl⟩
              · cases h1; cases hn
              · cases h1; cases hn
            exact hc.2.1
          rw [call, Registry.call]
          simp only
          rw [hfind]
          simp only
          rw [Aggregator.Pusher.call, if_pos ⟨hc.1, hal⟩, hc.2.2, f3, bind_ok', bind_ok', bind_ok']
          simp [Registry.update_update]
    · rw [if_neg hc] at h
      obtain ⟨⟨l1, w2⟩, h1, h⟩ := bind_inv h
      cases h
      exact ⟨_, h1, fun _ => rfl, fun h => (by cases h)⟩

theorem callOptX_spec {w w1 : Wrt} {p : Option WPusher} {clk1 clk2 ts v : Int} {count : Nat} {thr : Name × AggData → Bool} {t : Bool}
    {l : List (Name × AggData)} (h : w.callOptX env p clk1 clk2 ts v count thr = .ok (t, l, w1)) :
    ∃ w2, w.callOpt env p clk1 clk2 ts v count = .ok (l, w2) ∧ (t = false → w1 = w2) ∧
      (t = true → (∃ r, l = [r] ∧ thr r = true) ∧ w1.callOpt env p clk1 clk2 ts v count = .ok ([], w2)) := by
  cases p with
  | none => cases h; exact ⟨_, rfl, fun _ => rfl, fun h => (by cases h)⟩
  | some p => exact callX_spec h

end Wrt

end Wrtstat
