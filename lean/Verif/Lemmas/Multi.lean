/-
The sharded map and the lives of its names.
-/
import Verif.Lemmas.Wrtstat
import Verif.Spec.MultiSpec

namespace Wrtstat

set_option autoImplicit false

open Multi (about)

theorem about_append {α : Type} (name : Name) (l l' : List (Name × α)) :
    about name (l ++ l') = about name l ++ about name l' := by
  simp [about]

theorem about_map {α : Type} (name n : Name) (l : List α) :
    about name (l.map fun d => (n, d)) = if n = name then l else [] := by
  unfold about
  by_cases h : n = name
  · rw [if_pos h, List.filter_eq_self.2 (by simp [h]), List.map_map]
    simp [Function.comp_def]
  · rw [if_neg h, List.filter_eq_nil_iff.2 (by simp [h])]
    rfl

theorem about_map' {α β : Type} (name n : Name) (f : β → α) (l : List β) :
    about name (l.map fun d => (n, f d)) = if n = name then l.map f else [] := by
  rw [← about_map, List.map_map]
  rfl

namespace AggMap

theorem lookup_none {m : AggMap} {n : Name} : m.lookup n = none ↔ n ∉ m.map Prod.fst := by
  rw [List.lookup_eq_none_iff]
  simp only [List.mem_map, not_exists, not_and]
  constructor
  · intro h p hp e
    have := h p hp
    simp [e] at this
  · intro h p hp
    simp only [bne_iff_ne, ne_eq]
    exact fun e => h p hp e.symm

theorem lookup_put (m : AggMap) (n n' : Name) (a : Aggregator) :
    (m.put n a).lookup n' = if n' = n then some a else m.lookup n' := by
  unfold put
  by_cases h : n ∈ m.map Prod.fst
  · rw [if_pos h]
    induction m with
    | nil => simp at h
    | cons p m ih =>
      obtain ⟨k, b⟩ := p
      simp only [List.map_cons, List.mem_cons] at h
      by_cases hk : k = n
      · subst hk
        simp only [List.map_cons, if_true, List.lookup_cons]
        by_cases hn : n' = k
        · simp [hn]
        · have : (n' == k) = false := by simp [hn]
          simp only [this, if_neg hn]
          -- the rest
          clear ih h
          induction m with
          | nil => rfl
          | cons q m ih =>
            obtain ⟨k2, b2⟩ := q
            by_cases h2 : k2 = k
            · subst h2
              simp only [List.map_cons, if_true, List.lookup_cons, this]
              exact ih
            · simp only [List.map_cons, if_neg h2, List.lookup_cons]
              rw [ih]
      · have h' : n ∈ m.map Prod.fst := h.resolve_left (fun e => hk e.symm)
        simp only [List.map_cons, if_neg hk, List.lookup_cons]
        by_cases hn : n' = k
        · subst hn
          simp [hk]
        · have : (n' == k) = false := by simp [hn]
          simp only [this]
          exact ih h'
  · rw [if_neg h]
    simp only [List.lookup_cons]
    by_cases hn : n' = n
    · simp [hn]
    · have : (n' == n) = false := by simp [hn]
      simp [this, hn]

theorem keys_put (m : AggMap) (n : Name) (a : Aggregator) :
    (m.put n a).map Prod.fst = if n ∈ m.map Prod.fst then m.map Prod.fst else n :: m.map Prod.fst := by
  unfold put
  by_cases h : n ∈ m.map Prod.fst
  · rw [if_pos h, if_pos h, List.map_map]
    apply List.map_congr_left
    intro p _
    simp only [Function.comp]
    by_cases hp : p.1 = n
    · simp [hp]
    · simp [hp]
  · rw [if_neg h, if_neg h]
    rfl

theorem mem_keys_put (m : AggMap) (n n' : Name) (a : Aggregator) :
    n' ∈ (m.put n a).map Prod.fst ↔ n' = n ∨ n' ∈ m.map Prod.fst := by
  rw [keys_put]
  by_cases h : n ∈ m.map Prod.fst
  · rw [if_pos h]
    constructor
    · exact .inr
    · rintro (rfl | h')
      · exact h
      · exact h'
  · rw [if_neg h, List.mem_cons]

theorem nodup_put {m : AggMap} (n : Name) (a : Aggregator) (h : (m.map Prod.fst).Nodup) :
    ((m.put n a).map Prod.fst).Nodup := by
  rw [keys_put]
  by_cases hn : n ∈ m.map Prod.fst
  · rwa [if_pos hn]
  · rw [if_neg hn]
    exact List.nodup_cons.2 ⟨hn, h⟩

theorem lookup_del (m : AggMap) (n n' : Name) : (m.del n).2.lookup n' = if n' = n then none else m.lookup n' := by
  have key : ∀ m : AggMap, List.lookup n' (m.filter fun p => p.1 ≠ n) = if n' = n then none else m.lookup n' := by
    intro m
    induction m with
    | nil => simp
    | cons p m ih =>
      obtain ⟨k, b⟩ := p
      by_cases hk : k = n
      · subst hk
        rw [List.filter_cons_of_neg (by simp), ih, List.lookup_cons]
        by_cases hn : n' = k
        · simp [hn]
        · have : (n' == k) = false := by simp [hn]
          simp [hn, this]
      · rw [List.filter_cons_of_pos (by simpa using hk), List.lookup_cons, List.lookup_cons, ih]
        by_cases hn : n' = k
        · subst hn; simp [hk]
        · have : (n' == k) = false := by simp [hn]
          simp [this]
  unfold del
  cases h : m.lookup n with
  | none =>
    by_cases hn : n' = n
    · subst hn; rw [if_pos rfl]; exact h
    · rw [if_neg hn]
  | some a => exact key m

theorem del_fst (m : AggMap) (n : Name) : (m.del n).1 = (m.lookup n).isSome := by
  unfold del
  cases m.lookup n <;> rfl

theorem del_keys (m : AggMap) (n : Name) : ((m.del n).2.map Prod.fst).Sublist (m.map Prod.fst) := by
  unfold del
  cases m.lookup n with
  | none => exact List.Sublist.refl _
  | some a => exact (List.filter_sublist).map _

variable {env : Env} {force handler : Bool}

theorem popLoop_spec (ns : List Name) : ∀ {m m' : AggMap} {l : List PushReq}, ns.Nodup →
    popLoop env force handler ns m = .ok (l, m') →
    m'.map Prod.fst = m.map Prod.fst ∧ ∀ name,
      (name ∉ ns ∨ m.lookup name = none → m'.lookup name = m.lookup name ∧ about name l = []) ∧
      (name ∈ ns → ∀ a, m.lookup name = some a → ∃ d a', popOne env force a = .ok (d, a') ∧
        m'.lookup name = some a' ∧ about name l = d.toList) := by
  induction ns with
  | nil =>
    intro m m' l _ h
    cases h
    exact ⟨rfl, fun name => ⟨fun _ => ⟨rfl, rfl⟩, fun h => absurd h (by simp)⟩⟩
  | cons n ns ih =>
    intro m m' l hn h
    obtain ⟨hn1, hn2⟩ := List.nodup_cons.1 hn
    unfold popLoop at h
    cases hl : m.lookup n with
    | none =>
      rw [hl] at h
      obtain ⟨k1, k2⟩ := ih hn2 h
      refine ⟨k1, fun name => ⟨fun hx => (k2 name).1 ?_, fun hx a ha => (k2 name).2 ?_ a ha⟩⟩
      · rcases hx with hx | hx
        · exact .inl fun hm => hx (by simp [hm])
        · exact .inr hx
      · rcases List.mem_cons.1 hx with rfl | hx
        · rw [hl] at ha; cases ha
        · exact hx
    | some a =>
      rw [hl] at h
      obtain ⟨⟨d, a1⟩, h1, h⟩ := bind_inv h
      simp only at h
      by_cases hc : d.isSome = true ∧ handler = false
      · rw [if_pos hc] at h; cases h
      rw [if_neg hc] at h
      obtain ⟨⟨l1, m1⟩, h2, h⟩ := bind_inv h
      cases h
      obtain ⟨k1, k2⟩ := ih hn2 h2
      have hmem : n ∈ m.map Prod.fst := by
        by_contra hx
        rw [lookup_none.2 hx] at hl
        cases hl
      refine ⟨by rw [k1, keys_put, if_pos hmem], fun name => ?_⟩
      rw [about_append, about_map]
      by_cases hname : n = name
      · subst hname
        obtain ⟨j1, j2⟩ := (k2 n).1 (.inl hn1)
        rw [lookup_put, if_pos rfl] at j1
        refine ⟨?_, ?_⟩
        · rintro (hx | hx)
          · exact absurd (List.mem_cons_self) hx
          · rw [hl] at hx; cases hx
        · intro _ b hb
          rw [hl] at hb
          cases hb
          refine ⟨d, a1, h1, j1, ?_⟩
          rw [if_pos rfl, j2, List.append_nil]
      · rw [if_neg hname, List.nil_append]
        have hne : ¬ name = n := fun e => hname e.symm
        have hlk : (m.put n a1).lookup name = m.lookup name := by rw [lookup_put, if_neg hne]
        obtain ⟨j1, j2⟩ := k2 name
        rw [hlk] at j1 j2
        refine ⟨fun hx => j1 ?_, fun hx => j2 ?_⟩
        · rcases hx with hx | hx
          · exact .inl fun hm => hx (by simp [hm])
          · exact .inr hx
        · exact (List.mem_cons.1 hx).resolve_left hne

theorem popAll_spec {ord : IterOrder} {m m' : AggMap} {l : List PushReq} (hn : (m.map Prod.fst).Nodup)
    (h : popAll env force handler ord m = .ok (l, m')) :
    m'.map Prod.fst = m.map Prod.fst ∧ ∀ name,
      (m.lookup name = none → m'.lookup name = none ∧ about name l = []) ∧
      (∀ a, m.lookup name = some a → ∃ d a', popOne env force a = .ok (d, a') ∧
        m'.lookup name = some a' ∧ about name l = d.toList) := by
  have hp := ord.perm (m.map Prod.fst)
  obtain ⟨k1, k2⟩ := popLoop_spec _ (hp.nodup_iff.2 hn) h
  refine ⟨k1, fun name => ⟨fun hx => ?_, fun a ha => (k2 name).2 ?_ a ha⟩⟩
  · have := (k2 name).1 (.inr hx)
    rw [hx] at this
    exact this
  · by_contra hx
    rw [hp.mem_iff, ← lookup_none] at hx
    rw [hx] at ha
    cases ha

end AggMap

namespace Multi

open Single
open Aggregator (AObs AOp)

variable {env : Env} {force handler : Bool}

theorem popShards_spec {ord : IterOrder} (ss : List AggMap) : ∀ {ss' : List AggMap} {l : List PushReq},
    (∀ s ∈ ss, (s.map Prod.fst).Nodup) → popShards env force handler ord ss = .ok (l, ss') →
    ss'.length = ss.length ∧ (∀ name, (∀ s ∈ ss, name ∉ s.map Prod.fst) → about name l = []) ∧
    ∀ (i : Nat) (s : AggMap), ss[i]? = some s → ∃ li s', s.popAll env force handler ord = .ok (li, s') ∧ ss'[i]? = some s' ∧
      ∀ name, (∀ (j : Nat) (t : AggMap), ss[j]? = some t → j ≠ i → name ∉ t.map Prod.fst) → about name l = about name li := by
  induction ss with
  | nil => intro ss' l _ h; cases h; exact ⟨rfl, fun _ _ => rfl, by simp⟩
  | cons s ss ih =>
    intro ss' l hn h
    obtain ⟨⟨l1, s1⟩, h1, h⟩ := bind_inv h
    obtain ⟨⟨l2, ss2⟩, h2, h⟩ := bind_inv h
    cases h
    obtain ⟨k1, k2, k3⟩ := ih (fun s hs => hn s (by simp [hs])) h2
    have hs := hn s (by simp)
    obtain ⟨p1, p2⟩ := AggMap.popAll_spec hs h1
    refine ⟨by simp [k1], ?_, ?_⟩
    · intro name hx
      rw [about_append, k2 name (fun s hs => hx s (by simp [hs])), List.append_nil]
      exact ((p2 name).1 (AggMap.lookup_none.2 (hx s (by simp)))).2
    · intro i t hi
      cases i with
      | zero =>
        simp only [List.getElem?_cons_zero, Option.some.injEq] at hi
        subst hi
        refine ⟨l1, s1, h1, rfl, fun name hx => ?_⟩
        rw [about_append, k2 name, List.append_nil]
        intro t ht
        obtain ⟨j, hj⟩ := List.mem_iff_getElem?.1 ht
        exact hx (j + 1) t (by simpa using hj) (by omega)
      | succ i =>
        simp only [List.getElem?_cons_succ] at hi
        obtain ⟨li, s', e1, e2, e3⟩ := k3 i t hi
        refine ⟨li, s', e1, by simpa using e2, fun name hx => ?_⟩
        rw [about_append, e3 name (fun j t hj hne => hx (j + 1) t (by simpa using hj) (by omega))]
        rw [((p2 name).1 (AggMap.lookup_none.2 (hx 0 s (by simp) (by omega)))).2, List.nil_append]

/-- Shape of the object: every name lives in the shard of its hash. -/
structure MInv (m : Multi) : Prop where
  len : m.shards.length = m.opt.hashSize
  nodup : ∀ s ∈ m.shards, (s.map Prod.fst).Nodup
  home : ∀ (i : Nat) (s : AggMap), m.shards[i]? = some s → ∀ n ∈ s.map Prod.fst, m.hash n % m.opt.hashSize = i

theorem minv_new (hash : Name → Nat) (opt : MultiOpts) : MInv (Multi.new hash opt) := by
  refine ⟨by simp [Multi.new], ?_, ?_⟩
  · intro s hs
    simp only [Multi.new, List.mem_replicate] at hs
    simp [hs.2]
  · intro i s hi n hn
    have := List.mem_of_getElem? hi
    simp only [Multi.new, List.mem_replicate] at this
    rw [this.2] at hn
    simp at hn

theorem MInv.find_eq {m : Multi} (h : MInv m) {pos : Nat} {s : AggMap} {name : Name}
    (hp : pos = m.hash name % m.opt.hashSize) (hs : m.shards[pos]? = some s) : m.find name = s.lookup name := by
  subst hp
  unfold find
  cases hl : s.lookup name with
  | none =>
    rw [List.findSome?_eq_none_iff]
    intro t ht
    rw [AggMap.lookup_none]
    intro hm
    obtain ⟨j, hj⟩ := List.mem_iff_getElem?.1 ht
    have := h.home j t hj name hm
    subst this
    rw [hs] at hj
    cases hj
    exact AggMap.lookup_none.1 hl hm
  | some a =>
    obtain ⟨i, hi, _, hlt, e⟩ : ∃ i, ∃ (hi : i < m.shards.length), m.shards[i] = s ∧
        (∀ j (hj : j < m.shards.length), j < i → m.shards[j].lookup name = none) ∧ i = m.hash name % m.opt.hashSize := by
      obtain ⟨hi, e⟩ := List.getElem?_eq_some_iff.1 hs
      refine ⟨_, hi, e, ?_, rfl⟩
      intro j hj hlt
      rw [AggMap.lookup_none]
      intro hm
      have := h.home j _ (List.getElem?_eq_getElem hj) name hm
      omega
    obtain ⟨l1, s', l2, e1, e2, e3⟩ : ∃ l1 s' l2, m.shards = l1 ++ s' :: l2 ∧ s' = s ∧ ∀ t ∈ l1, t.lookup name = none := by
      refine ⟨m.shards.take i, m.shards[i], m.shards.drop (i + 1), ?_, by assumption, ?_⟩
      · rw [← List.drop_eq_getElem_cons hi, List.take_append_drop]
      · intro t ht
        obtain ⟨j, hj, rfl⟩ := List.mem_take_iff_getElem.1 ht
        exact hlt j (by omega) (by omega)
    rw [List.findSome?_eq_some_iff]
    exact ⟨l1, s', l2, e1, by rw [e2, hl], e3⟩

/-- What a push does, name by name. -/
theorem push_spec {m m' : Multi} (hi : MInv m) {p : PushArg} {ok : Bool} {l : List PushReq}
    (h : m.push env p.name p.v p.clk p.rand p.clk1 p.clk2 handler = .ok (ok, l, m')) :
    MInv m' ∧ m'.opt = m.opt ∧ ∃ (a : Aggregator) (out : List AggData) (a' : Aggregator),
      AggMap.orNew m.opt (m.find p.name) p.clk p.rand p.v.ts = .ok a ∧
      a.push env p.clk1 p.clk2 p.v.ts (.reduced p.v) true = .ok (ok, out, a') ∧
      l = out.map (fun d => (p.name, d.asReduced)) ∧
      ∀ name, m'.find name = if name = p.name then some a' else m.find name := by
  obtain ⟨pos, h1, h⟩ := bind_inv h
  obtain ⟨s, h2, h⟩ := bind_inv h
  obtain ⟨⟨ok', l', s'⟩, h3, h⟩ := bind_inv h
  cases h
  unfold getPos at h1
  by_cases hz : m.opt.hashSize = 0
  · rw [if_pos hz] at h1; cases h1
  rw [if_neg hz] at h1
  simp only [Except.ok.injEq] at h1
  unfold shard at h2
  cases hs : m.shards[pos]? with
  | none => rw [hs] at h2; cases h2
  | some t =>
    rw [hs] at h2
    cases h2
    obtain ⟨a, e1, h3⟩ := bind_inv h3
    obtain ⟨⟨ok'', out, a'⟩, e2, h3⟩ := bind_inv h3
    simp only at h3
    by_cases hc : out ≠ [] ∧ handler = false
    · rw [if_pos hc] at h3; cases h3
    rw [if_neg hc] at h3
    cases h3
    have hpos : pos < m.shards.length := (List.getElem?_eq_some_iff.1 hs).1
    have hset : (m.shards.set pos (s.put p.name a'))[pos]? = some (s.put p.name a') := by
      rw [List.getElem?_set_self hpos]
    have hi' : MInv { m with shards := m.shards.set pos (s.put p.name a') } := by
      refine ⟨by simp [hi.len], ?_, ?_⟩
      · intro t ht
        rcases List.mem_or_eq_of_mem_set ht with ht | rfl
        · exact hi.nodup t ht
        · exact AggMap.nodup_put _ _ (hi.nodup s (List.mem_of_getElem? hs))
      · intro i t hit n hn
        simp only [List.getElem?_set] at hit
        by_cases hip : pos = i
        · subst hip
          simp only [if_true, hpos, Option.some.injEq] at hit
          subst hit
          rw [AggMap.mem_keys_put] at hn
          rcases hn with rfl | hn
          · exact h1
          · exact hi.home pos s hs n hn
        · rw [if_neg hip] at hit
          exact hi.home i t hit n hn
    refine ⟨hi', rfl, a, out, a', ?_, e2, rfl, ?_⟩
    · rw [hi.find_eq h1.symm hs]
      exact e1
    · intro name
      obtain ⟨t, ht⟩ : ∃ t, m.shards[m.hash name % m.opt.hashSize]? = some t := by
        refine ⟨_, List.getElem?_eq_getElem ?_⟩
        rw [hi.len]
        exact Nat.mod_lt _ (Nat.pos_of_ne_zero hz)
      rw [hi.find_eq rfl ht]
      by_cases hpp : pos = m.hash name % m.opt.hashSize
      · subst hpp
        rw [hs] at ht
        cases ht
        rw [hi'.find_eq rfl hset, AggMap.lookup_put]
      · have hne : name ≠ p.name := by
          rintro rfl
          exact hpp h1.symm
        rw [if_neg hne]
        apply hi'.find_eq rfl
        simp only [List.getElem?_set, if_neg hpp]
        exact ht

theorem del_spec {m m' : Multi} (hi : MInv m) {n : Name} {b : Bool} (h : m.del n = .ok (b, m')) :
    MInv m' ∧ m'.opt = m.opt ∧ b = (m.find n).isSome ∧
      ∀ name, m'.find name = if name = n then none else m.find name := by
  obtain ⟨pos, h1, h⟩ := bind_inv h
  obtain ⟨s, h2, h⟩ := bind_inv h
  cases h
  unfold getPos at h1
  by_cases hz : m.opt.hashSize = 0
  · rw [if_pos hz] at h1; cases h1
  rw [if_neg hz] at h1
  simp only [Except.ok.injEq] at h1
  unfold shard at h2
  cases hs : m.shards[pos]? with
  | none => rw [hs] at h2; cases h2
  | some t =>
    rw [hs] at h2
    cases h2
    have hpos : pos < m.shards.length := (List.getElem?_eq_some_iff.1 hs).1
    have hset : (m.shards.set pos (s.del n).2)[pos]? = some (s.del n).2 := by
      rw [List.getElem?_set_self hpos]
    have hi' : MInv { m with shards := m.shards.set pos (s.del n).2 } := by
      refine ⟨by simp [hi.len], ?_, ?_⟩
      · intro t ht
        rcases List.mem_or_eq_of_mem_set ht with ht | rfl
        · exact hi.nodup t ht
        · exact (hi.nodup s (List.mem_of_getElem? hs)).sublist (AggMap.del_keys s n)
      · intro i t hit k hk
        simp only [List.getElem?_set] at hit
        by_cases hip : pos = i
        · subst hip
          simp only [if_true, hpos, Option.some.injEq] at hit
          subst hit
          exact hi.home pos s hs k ((AggMap.del_keys s n).subset hk)
        · rw [if_neg hip] at hit
          exact hi.home i t hit k hk
    refine ⟨hi', rfl, ?_, ?_⟩
    · rw [AggMap.del_fst, hi.find_eq h1.symm hs]
    · intro name
      obtain ⟨t, ht⟩ : ∃ t, m.shards[m.hash name % m.opt.hashSize]? = some t := by
        refine ⟨_, List.getElem?_eq_getElem ?_⟩
        rw [hi.len]
        exact Nat.mod_lt _ (Nat.pos_of_ne_zero hz)
      rw [hi.find_eq rfl ht]
      by_cases hpp : pos = m.hash name % m.opt.hashSize
      · subst hpp
        rw [hs] at ht
        cases ht
        rw [hi'.find_eq rfl hset, AggMap.lookup_del]
      · have hne : name ≠ n := by
          rintro rfl
          exact hpp h1.symm
        rw [if_neg hne]
        apply hi'.find_eq rfl
        simp only [List.getElem?_set, if_neg hpp]
        exact ht

theorem popAll_spec {m m' : Multi} (hi : MInv m) (hz : 0 < m.opt.hashSize) {ord : IterOrder} {l : List PushReq}
    (h : m.popAll env force handler ord = .ok (l, m')) :
    MInv m' ∧ m'.opt = m.opt ∧ ∀ name,
      (m.find name = none → m'.find name = none ∧ about name l = []) ∧
      (∀ a, m.find name = some a → ∃ d a', AggMap.popOne env force a = .ok (d, a') ∧
        m'.find name = some a' ∧ about name l = d.toList) := by
  obtain ⟨⟨l', ss⟩, h1, h⟩ := bind_inv h
  cases h
  obtain ⟨k1, k2, k3⟩ := popShards_spec m.shards hi.nodup h1
  have back : ∀ (i : Nat) (t : AggMap), ss[i]? = some t → ∃ s, m.shards[i]? = some s ∧ t.map Prod.fst = s.map Prod.fst := by
    intro i t ht
    have hlt : i < m.shards.length := by rw [← k1]; exact (List.getElem?_eq_some_iff.1 ht).1
    obtain ⟨li, s', e1, e2, _⟩ := k3 i _ (List.getElem?_eq_getElem hlt)
    rw [ht] at e2
    cases e2
    exact ⟨_, List.getElem?_eq_getElem hlt, (AggMap.popAll_spec (hi.nodup _ (List.getElem_mem hlt)) e1).1⟩
  have hi' : MInv { m with shards := ss } := by
    refine ⟨by simp [k1, hi.len], ?_, ?_⟩
    · intro t ht
      obtain ⟨i, hit⟩ := List.mem_iff_getElem?.1 ht
      obtain ⟨s, hs, e⟩ := back i t hit
      rw [e]
      exact hi.nodup s (List.mem_of_getElem? hs)
    · intro i t hit n hn
      obtain ⟨s, hs, e⟩ := back i t hit
      rw [e] at hn
      exact hi.home i s hs n hn
  refine ⟨hi', rfl, fun name => ?_⟩
  have hlt : m.hash name % m.opt.hashSize < m.shards.length := by
    rw [hi.len]
    exact Nat.mod_lt _ hz
  have hs := List.getElem?_eq_getElem hlt
  obtain ⟨li, s', e1, e2, e3⟩ := k3 _ _ hs
  obtain ⟨_, p2⟩ := AggMap.popAll_spec (hi.nodup _ (List.getElem_mem hlt)) e1
  have e3' := e3 name (fun j t hj hne hm => hne (hi.home j t hj name hm).symm)
  rw [e3', hi.find_eq rfl hs, hi'.find_eq rfl e2]
  exact p2 name

/-- The object and the log agree with the life of a name. -/
structure Agrees (name : Name) (f : Option Aggregator) (dl : List PushReq) (an : List (Name × Bool)) (no : NObs) : Prop where
  agg : f = no.life.map fun ao => ao.a
  delivered : about name dl = no.delivered
  answers : about name an = no.answers

theorem push_agrees {m : Multi} {p : PushArg} {a a' : Aggregator} {out : List AggData} {ok seen : Bool}
    {dl : List PushReq} {an : List (Name × Bool)} {no : NObs} (hn : Agrees p.name (m.find p.name) dl an no)
    (h1 : AggMap.orNew m.opt (m.find p.name) p.clk p.rand p.v.ts = .ok a)
    (h2 : a.push env p.clk1 p.clk2 p.v.ts (.reduced p.v) true = .ok (ok, out, a')) :
    ∃ no', nexec env m.opt.toAggregatorOpts no (.push p.v p.clk p.rand p.clk1 p.clk2 seen) = .ok no' ∧
      Agrees p.name (some a') (dl ++ out.map fun d => (p.name, d.asReduced))
        (an ++ if seen then [(p.name, ok)] else []) no' := by
  obtain ⟨ao, e1, e2⟩ : ∃ ao, born m.opt.toAggregatorOpts no.life p.clk p.rand p.v.ts = .ok ao ∧ ao.a = a := by
    rw [hn.agg] at h1
    cases hl : no.life with
    | some ao => rw [hl] at h1; cases h1; exact ⟨ao, rfl, rfl⟩
    | none =>
      rw [hl] at h1
      simp only [AggMap.orNew, Option.map_none] at h1
      refine ⟨{ a := a }, ?_, rfl⟩
      simp only [born, h1]
      rfl
  subst e2
  refine ⟨_, by simp only [nexec, e1, bind_ok', h2, Aggregator.exec]; rfl, ?_⟩
  · refine ⟨rfl, ?_, ?_⟩
    · rw [about_append, about_map', if_pos rfl, hn.delivered]
    · rw [about_append, hn.answers]
      cases seen
      · rfl
      · simp [about]

theorem agrees_other {name : Name} {m m' : Multi} {dl l : List PushReq} {an an' : List (Name × Bool)} {no : NObs}
    (hn : Agrees name (m.find name) dl an no) (hf : m'.find name = m.find name) (hl : about name l = [])
    (ha : about name an' = []) : Agrees name (m'.find name) (dl ++ l) (an ++ an') no := by
  refine ⟨by rw [hf, hn.agg], ?_, ?_⟩
  · rw [about_append, hl, List.append_nil, hn.delivered]
  · rw [about_append, ha, List.append_nil, hn.answers]

theorem multiPush_agrees {name : Name} (ps : List PushArg) : ∀ {m m' : Multi} {l dl : List PushReq} {an : List (Name × Bool)}
    {no : NObs}, MInv m → multiPush env handler ps m = .ok (l, m') → Agrees name (m.find name) dl an no →
    MInv m' ∧ m'.opt = m.opt ∧
      ∃ no', nexecAll env m.opt.toAggregatorOpts no ((MOp.multiPush ps handler).forName name) = .ok no' ∧
        Agrees name (m'.find name) (dl ++ l) an no' := by
  induction ps with
  | nil =>
    intro m m' l dl an no hi h hn
    cases h
    exact ⟨hi, rfl, no, rfl, by rw [List.append_nil]; exact hn⟩
  | cons p ps ih =>
    intro m m' l dl an no hi h hn
    obtain ⟨⟨ok, l1, m1⟩, h1, h⟩ := bind_inv h
    obtain ⟨⟨l2, m2⟩, h2, h⟩ := bind_inv h
    cases h
    obtain ⟨hi1, ho1, a, out, a', e1, e2, e3, e4⟩ := push_spec hi h1
    by_cases hp : p.name = name
    · subst hp
      obtain ⟨no1, k1, k2⟩ := push_agrees (seen := false) hn e1 e2
      rw [← e3] at k2
      have k2' : Agrees p.name (m1.find p.name) (dl ++ l1) an no1 := by
        rw [e4, if_pos rfl]
        simpa using k2
      obtain ⟨hi2, ho2, no2, k3, k4⟩ := ih hi1 h2 k2'
      refine ⟨hi2, ho2.trans ho1, no2, ?_, by rw [← List.append_assoc]; exact k4⟩
      rw [ho1] at k3
      unfold nexecAll at k3 ⊢
      simp only [MOp.forName] at k3 ⊢
      rw [List.filter_cons_of_pos (by simp), List.map_cons, List.foldlM_cons, k1]
      exact k3
    · have k2' : Agrees name (m1.find name) (dl ++ l1) an no := by
        have := agrees_other (m' := m1) (l := l1) (an' := []) hn (by rw [e4, if_neg (Ne.symm hp)])
          (by rw [e3, about_map', if_neg hp]) rfl
        simpa using this
      obtain ⟨hi2, ho2, no2, k3, k4⟩ := ih hi1 h2 k2'
      refine ⟨hi2, ho2.trans ho1, no2, ?_, by rw [← List.append_assoc]; exact k4⟩
      rw [ho1] at k3
      simp only [MOp.forName] at k3 ⊢
      rw [List.filter_cons_of_neg (by simpa using hp)]
      exact k3

theorem popOne_exec {ao : AObs} {d : Option AggData} {a' : Aggregator} (h : AggMap.popOne env force ao.a = .ok (d, a')) :
    Aggregator.exec env ao (if force then .forcePop else .pop) =
      .ok { a := a', received := ao.received ++ d.toList, accepted := ao.accepted } := by
  unfold AggMap.popOne at h
  cases force with
  | true =>
    simp only [if_true] at h ⊢
    simp only [Aggregator.exec, h, bind_ok']
  | false =>
    simp only [Bool.false_eq_true, if_false, Except.ok.injEq] at h ⊢
    simp only [Aggregator.exec, h]

/-- Every operation is, for every name, what it says. -/
theorem mexec_agrees {o o' : MObs} {op : MOp} {name : Name} {no : NObs} (hi : MInv o.m) (hz : 0 < o.m.opt.hashSize)
    (h : mexec env o op = .ok o') (hn : Agrees name (o.m.find name) o.delivered o.answers no) :
    MInv o'.m ∧ o'.m.opt = o.m.opt ∧
      ∃ no', nexecAll env o.m.opt.toAggregatorOpts no (op.forName name) = .ok no' ∧
        Agrees name (o'.m.find name) o'.delivered o'.answers no' := by
  cases op with
  | push p handler =>
    obtain ⟨⟨ok, l1, m1⟩, h1, h⟩ := bind_inv h
    cases h
    obtain ⟨hi1, ho1, a, out, a', e1, e2, e3, e4⟩ := push_spec hi h1
    refine ⟨hi1, ho1, ?_⟩
    by_cases hp : p.name = name
    · subst hp
      obtain ⟨no1, k1, k2⟩ := push_agrees (seen := true) hn e1 e2
      rw [← e3] at k2
      refine ⟨no1, ?_, ?_⟩
      · simp only [MOp.forName, if_true, nexecAll, List.foldlM_cons, List.foldlM_nil, k1, bind_ok']
        rfl
      · simp only
        rw [e4, if_pos rfl]
        exact k2
    · refine ⟨no, by simp only [MOp.forName, if_neg hp]; rfl, ?_⟩
      exact agrees_other hn (by rw [e4, if_neg (Ne.symm hp)])
        (by rw [e3, about_map', if_neg hp]) (by simp [about, hp])
  | multiPush ps handler =>
    obtain ⟨⟨l1, m1⟩, h1, h⟩ := bind_inv h
    cases h
    exact multiPush_agrees ps hi h1 hn
  | del n =>
    obtain ⟨⟨b, m1⟩, h1, h⟩ := bind_inv h
    cases h
    obtain ⟨hi1, ho1, e1, e2⟩ := del_spec hi h1
    refine ⟨hi1, ho1, ?_⟩
    by_cases hp : n = name
    · subst hp
      refine ⟨{ no with life := none, answers := no.answers ++ [no.life.isSome] }, ?_, ?_, hn.delivered, ?_⟩
      · simp only [MOp.forName, if_true, nexecAll, List.foldlM_cons, List.foldlM_nil, nexec, bind_ok']
        rfl
      · rw [e2, if_pos rfl]; rfl
      · simp only
        rw [about_append, hn.answers, e1, hn.agg]
        simp [about]
    · refine ⟨no, by simp only [MOp.forName, if_neg hp]; rfl, ?_⟩
      have := agrees_other (m' := m1) (l := []) (an' := [(n, b)]) hn (by rw [e2, if_neg (Ne.symm hp)]) rfl (by simp [about, hp])
      simpa using this
  | pushout force handler ord =>
    obtain ⟨⟨l, m1⟩, h1, h⟩ := bind_inv h
    cases h
    obtain ⟨hi1, ho1, e1⟩ := popAll_spec hi hz h1
    refine ⟨hi1, ho1, ?_⟩
    obtain ⟨e2, e3⟩ := e1 name
    simp only [MOp.forName, nexecAll, List.foldlM_cons, List.foldlM_nil, nexec]
    cases hl : no.life with
    | none =>
      have hf : o.m.find name = none := by rw [hn.agg, hl]; rfl
      obtain ⟨k1, k2⟩ := e2 hf
      refine ⟨no, rfl, ?_, ?_, hn.answers⟩
      · rw [k1, hl]; rfl
      · rw [about_append, k2, List.append_nil, hn.delivered]
    | some ao =>
      have hf : o.m.find name = some ao.a := by rw [hn.agg, hl]; rfl
      obtain ⟨d, a', k1, k2, k3⟩ := e3 _ hf
      have := popOne_exec k1
      simp only [this, bind_ok']
      refine ⟨_, rfl, ?_, ?_, hn.answers⟩
      · rw [k2]; rfl
      · rw [about_append, k3, hn.delivered]
        simp

theorem mexecAll_agrees (ops : List MOp) : ∀ {o o' : MObs} {name : Name} {no : NObs}, MInv o.m → 0 < o.m.opt.hashSize →
    mexecAll env o ops = .ok o' → Agrees name (o.m.find name) o.delivered o.answers no →
    MInv o'.m ∧ o'.m.opt = o.m.opt ∧
      ∃ no', nexecAll env o.m.opt.toAggregatorOpts no (forName name ops) = .ok no' ∧
        Agrees name (o'.m.find name) o'.delivered o'.answers no' := by
  induction ops with
  | nil => intro o o' name no hi _ h hn; cases h; exact ⟨hi, rfl, no, rfl, hn⟩
  | cons op ops ih =>
    intro o o' name no hi hz h hn
    unfold mexecAll at h
    simp only [List.foldlM_cons] at h
    obtain ⟨o1, h1, h2⟩ := bind_inv h
    obtain ⟨hi1, ho1, no1, k1, k2⟩ := mexec_agrees hi hz h1 hn
    obtain ⟨hi2, ho2, no2, k3, k4⟩ := ih hi1 (by rw [ho1]; exact hz) h2 k2
    refine ⟨hi2, ho2.trans ho1, no2, ?_, k4⟩
    rw [ho1] at k3
    unfold nexecAll forName at *
    rw [List.flatMap_cons, List.foldlM_append, k1]
    exact k3

theorem agrees_new (hash : Name → Nat) (opt : MultiOpts) (name : Name) :
    Agrees name ((Multi.new hash opt).find name) [] [] {} := by
  refine ⟨?_, rfl, rfl⟩
  unfold find
  rw [List.findSome?_eq_none_iff.2]
  · rfl
  · intro s hs
    simp only [Multi.new, List.mem_replicate] at hs
    rw [hs.2]
    rfl

/-! ### Lives -/

/-- The aggregator operations in the life of a name. -/
def LifeOp : AOp → Prop
  | .push _ _ _ _ h => h = true
  | .pop => True
  | .forcePop => True
  | _ => False

/-- Clock readings of a step of a life are not negative. -/
def _root_.Wrtstat.Single.NOp.clockOk : NOp → Prop
  | .push _ _ _ c1 c2 _ => 0 ≤ c1 ∧ 0 ≤ c2
  | _ => True

/-- An aggregator is what its operations since it was built have made of it. -/
theorem life_exec {opt : AggregatorOpts} (ops : List NOp) : ∀ {no no' : NObs},
    (∀ ao, no.life = some ao → ∃ clk rand ts a0 aops, Aggregator.new opt clk rand ts = .ok a0 ∧
      Aggregator.execAll env { a := a0 } aops = .ok ao ∧ ∀ op ∈ aops, LifeOp op ∧ op.clockOk) →
    (∀ op ∈ ops, op.clockOk) → nexecAll env opt no ops = .ok no' →
    ∀ ao, no'.life = some ao → ∃ clk rand ts a0 aops, Aggregator.new opt clk rand ts = .ok a0 ∧
      Aggregator.execAll env { a := a0 } aops = .ok ao ∧ ∀ op ∈ aops, LifeOp op ∧ op.clockOk := by
  induction ops with
  | nil => intro no no' hl _ h; cases h; exact hl
  | cons op ops ih =>
    intro no no' hl hc h
    unfold nexecAll at h
    simp only [List.foldlM_cons] at h
    obtain ⟨no1, h1, h2⟩ := bind_inv h
    refine ih ?_ (fun x hx => hc x (by simp [hx])) h2
    intro ao1 hao1
    have one : ∀ {ao ao' : AObs} {x : AOp}, (∃ clk rand ts a0 aops, Aggregator.new opt clk rand ts = .ok a0 ∧
        Aggregator.execAll env { a := a0 } aops = .ok ao ∧ ∀ op ∈ aops, LifeOp op ∧ op.clockOk) →
        Aggregator.exec env ao x = .ok ao' → LifeOp x → x.clockOk → ∃ clk rand ts a0 aops, Aggregator.new opt clk rand ts = .ok a0 ∧
        Aggregator.execAll env { a := a0 } aops = .ok ao' ∧ ∀ op ∈ aops, LifeOp op ∧ op.clockOk := by
      rintro ao ao' x ⟨clk, rand, ts, a0, aops, e1, e2, e3⟩ hx hlx hcx
      refine ⟨clk, rand, ts, a0, aops ++ [x], e1, ?_, ?_⟩
      · unfold Aggregator.execAll at e2 ⊢
        rw [List.foldlM_append, e2]
        simp only [bind_ok', List.foldlM_cons, List.foldlM_nil, hx]
        rfl
      · intro op hop
        rcases List.mem_append.1 hop with h | h
        · exact e3 op h
        · rw [List.mem_singleton.1 h]
          exact ⟨hlx, hcx⟩
    cases op with
    | push v clk rand c1 c2 seen =>
      obtain ⟨ao, g1, h1⟩ := bind_inv h1
      obtain ⟨⟨ok, out, a2⟩, g2, h1⟩ := bind_inv h1
      obtain ⟨ao', g3, h1⟩ := bind_inv h1
      cases h1
      cases hao1
      refine one ?_ g3 rfl (hc _ (List.mem_cons_self))
      cases hlife : no.life with
      | some ao0 =>
        rw [hlife] at g1
        cases g1
        exact hl _ hlife
      | none =>
        rw [hlife] at g1
        unfold born at g1
        cases hnew : Aggregator.new opt clk rand v.ts with
        | error e => rw [hnew] at g1; cases g1
        | ok a0 =>
          rw [hnew] at g1
          cases g1
          exact ⟨clk, rand, v.ts, a0, [], hnew, rfl, by simp⟩
    | del =>
      cases h1
      cases hao1
    | pop force =>
      cases hlife : no.life with
      | none =>
        simp only [nexec, hlife] at h1
        cases h1
        rw [hlife] at hao1
        cases hao1
      | some ao0 =>
        simp only [nexec, hlife] at h1
        obtain ⟨ao', g1, h1⟩ := bind_inv h1
        cases h1
        cases hao1
        refine one (hl _ hlife) g1 ?_ ?_
        · cases force <;> exact trivial
        · cases force <;> exact trivial

/-! ### What waits in a life -/

/-- Nothing waits in the lists of the aggregator, and it is enabled. -/
def Clean (a : Aggregator) : Prop := a.agList = [] ∧ a.sep.sepList = [] ∧ a.enabled = true

theorem clean_new (env : Env) {opt : AggregatorOpts} {clk rand ts : Int} {a : Aggregator} (h : Aggregator.new opt clk rand ts = .ok a) :
    Clean a := by
  have k := Aggregator.fresh_keep (env := env) (.new h)
  refine ⟨k.2, k.1, ?_⟩
  obtain ⟨s, _, h⟩ := bind_inv h
  cases h
  rfl

theorem sep_keep {s s' : Separator} {clk ts : Int} {force b : Bool} {out : List AggData}
    (h : s.separate env clk ts true force = .ok (b, out, s')) : s'.sepList = s.sepList := by
  obtain ⟨t, _, h⟩ := bind_inv h
  by_cases hf : force = false ∧ t < s.next
  · rw [if_pos hf] at h
    cases h
    rfl
  · rw [if_neg hf] at h
    obtain ⟨⟨o, n, r⟩, _, h⟩ := bind_inv h
    cases h
    rfl

theorem clean_exec {ao ao' : AObs} {op : AOp} (hc : Clean ao.a) (hl : LifeOp op) (h : Aggregator.exec env ao op = .ok ao') :
    Clean ao'.a := by
  obtain ⟨c1, c2, c3⟩ := hc
  cases op with
  | push k1 k2 ts x handler =>
    cases hl
    obtain ⟨⟨ok, out, a'⟩, h1, h⟩ := bind_inv h
    cases h
    unfold Aggregator.push at h1
    rw [if_neg (by simp [c3]), if_neg (by simp)] at h1
    obtain ⟨⟨ok1, out1, s'⟩, h2, h1⟩ := bind_inv h1
    obtain ⟨l, _, h1⟩ := bind_inv h1
    cases h1
    refine ⟨c1, ?_, c3⟩
    obtain ⟨t, _, h2⟩ := bind_inv h2
    obtain ⟨⟨b, o, s1⟩, h3, h2⟩ := bind_inv h2
    have := sep_keep h3
    simp only at h2
    by_cases ht : t < s1.next - s1.step
    · rw [if_pos ht] at h2
      cases h2
      exact this.trans c2
    · rw [if_neg ht] at h2
      cases h2
      exact this.trans c2
  | pop =>
    simp only [Aggregator.exec, Aggregator.pop, c1] at h
    cases h
    exact ⟨c1, c2, c3⟩
  | forcePop =>
    obtain ⟨⟨d, a'⟩, h1, h⟩ := bind_inv h
    cases h
    obtain ⟨⟨d1, s'⟩, h2, h1⟩ := bind_inv h1
    unfold Separator.forcePop Separator.pop at h2
    rw [c2] at h2
    obtain ⟨⟨d2, r⟩, _, h2⟩ := bind_inv h2
    cases h2
    cases d2 with
    | none => cases h1; exact ⟨c1, c2, c3⟩
    | some d =>
      obtain ⟨ag, _, h1⟩ := bind_inv h1
      cases h1
      exact ⟨c1, c2, c3⟩
  | add | separate | look | enable => exact hl.elim

theorem clean_execAll (aops : List AOp) : ∀ {ao ao' : AObs}, Clean ao.a → (∀ op ∈ aops, LifeOp op) →
    Aggregator.execAll env ao aops = .ok ao' → Clean ao'.a := by
  induction aops with
  | nil => intro ao ao' hc _ h; cases h; exact hc
  | cons op aops ih =>
    intro ao ao' hc hl h
    unfold Aggregator.execAll at h
    rw [List.foldlM_cons] at h
    obtain ⟨ao1, h1, h⟩ := bind_inv h
    exact ih (clean_exec hc (hl op (by simp)) h1) (fun x hx => hl x (by simp [hx])) h

/-- The books of a life: nothing waits, and every event is in a record received or pending. -/
structure Books (env : Env) (opt : AggregatorOpts) (ao : AObs) (gR : List (List (Int × AddArg)))
    (pend : List (Int × AddArg)) : Prop where
  clean : Clean ao.a
  good : Aggregator.PGood env opt (Report env opt) ao gR [] [] pend

theorem books_of_life {opt : AggregatorOpts} (hs : 0 < opt.step) {clk rand ts : Int} {a0 : Aggregator} {aops : List AOp}
    {ao : AObs} (h0 : Aggregator.new opt clk rand ts = .ok a0) (h : Aggregator.execAll env { a := a0 } aops = .ok ao)
    (hl : ∀ op ∈ aops, LifeOp op ∧ op.clockOk) : ∃ gR pend, Books env opt ao gR pend := by
  have hc : Clean ao.a := clean_execAll aops (clean_new env h0) (fun op ho => (hl op ho).1) h
  obtain ⟨gR, gA, gS, cur, g⟩ := Aggregator.pgood_execAll (Q := Report env opt) (fun _ _ h => h) hs aops
    (Aggregator.pgood_fresh hs (.new h0)) (fun op ho => (hl op ho).2)
    (fun op ho hsh => by
      have := (hl op ho).1
      cases op <;> simp_all [LifeOp, AOp.sepHandler]) h
  have e1 : gA = [] := by
    have := g.wait
    rw [hc.1] at this
    cases this
    rfl
  have e2 : gS = [] := by
    have := g.sep.recs
    rw [hc.2.1] at this
    cases this
    rfl
  subst e1 e2
  exact ⟨gR, cur, hc, g⟩

/-- `force_pop` in a life: the pending events, all of them, or null if there are none. -/
theorem books_force {opt : AggregatorOpts} {ao : AObs} {gR : List (List (Int × AddArg))}
    {pend : List (Int × AddArg)} {x : Option AggData} {a' : Aggregator} (b : Books env opt ao gR pend)
    (h : ao.a.forcePop env = .ok (x, a')) :
    (x = none ↔ pend = []) ∧ (∀ d, x = some d → d.ts = ao.a.sep.currentTime ∧ Report env opt (pend.map Prod.snd) d) ∧
      a'.sep.reducer.totalCount = 0 ∧
      Books env opt { a := a', received := ao.received ++ x.toList, accepted := ao.accepted }
        (gR ++ if pend = [] then [] else [pend]) [] := by
  obtain ⟨hc, g⟩ := b
  have hc' : Clean a' := by
    refine clean_exec (env := env) (op := .forcePop) (ao := ao)
      (ao' := { a := a', received := ao.received ++ x.toList, accepted := ao.accepted }) hc trivial ?_
    simp only [Aggregator.exec, h, bind_ok']
  have hst : ao.a.sep.step = opt.step := g.sep.step.1
  obtain ⟨c1, c2, c3⟩ := hc
  unfold Aggregator.forcePop Separator.forcePop Separator.pop at h
  rw [c2] at h
  simp only at h
  rcases Reducer.detach_spec g.sep.red with ⟨e, e', _⟩ | ⟨hne, r1, er, g1, _, _, _, _, ⟨y, _, e⟩ | ⟨_, e⟩⟩
  · rw [e'] at h
    cases h
    have hp : pend = [] := by simpa using e
    subst hp
    have ht := g.sep.red.good.total
    refine ⟨by simp, by simp, ht, hc', ?_⟩
    simpa using g
  · have hsum := summary_of_detach g.sep.red e
    rw [e] at h
    simp only [bind_ok', Option.map_some] at h
    obtain ⟨d', ed, hdel⟩ := Aggregator.finish_spec env.nth ao.a.outSize
      { Reducer.resultOf ao.a.sep.reducer (r1.data.headD []) y with ts := ao.a.sep.next - ao.a.sep.step }
    simp only at ed
    rw [ed] at h
    cases h
    have hp : pend ≠ [] := by simpa using hne
    rw [g.out] at hdel
    have hrep : Report env opt (pend.map Prod.snd) d' := ⟨_, summary_ts hsum, hdel⟩
    have hts : d'.ts = ao.a.sep.next - opt.step := by rw [← hst]; exact hdel.ts
    refine ⟨by simp [hp], ?_, rfl, hc', ?_⟩
    · intro d hd
      cases hd
      exact ⟨by rw [hts, Separator.currentTime, hst], hrep⟩
    · rw [if_neg hp]
      refine ⟨g.out, ⟨g.sep.step, Reducer.goodA_clear g1, by simp, ?_⟩, ?_, ?_, ?_⟩
      · rw [c2]; exact .nil
      · refine List.rel_append g.rec_ (.cons ⟨hrep, ?_⟩ .nil)
        intro z hz
        have := g.sep.win z hz
        rw [hts]
        omega
      · rw [c1]; exact .nil
      · have := g.perm
        simpa using this
  · rw [e] at h; cases h

/-- The records of the current life, as handed over: without percentiles, or whole. -/
def HandedOver (dl rec : List AggData) : Prop :=
  ∃ pre l, dl = pre ++ l ∧ List.Forall₂ (fun d x => x = d ∨ x = d.asReduced) rec l

theorem handed_append {dl rec l' rec' : List AggData} (h : HandedOver dl rec)
    (h' : List.Forall₂ (fun d x => x = d ∨ x = d.asReduced) rec' l') : HandedOver (dl ++ l') (rec ++ rec') := by
  obtain ⟨pre, l, rfl, h1⟩ := h
  exact ⟨pre, l ++ l', by rw [List.append_assoc], List.rel_append h1 h'⟩

theorem handed_map (l : List AggData) :
    List.Forall₂ (fun d x => x = d ∨ x = d.asReduced) l (l.map AggData.asReduced) := by
  induction l with
  | nil => exact .nil
  | cons d l ih => exact .cons (.inr rfl) ih

theorem handed_same (l : List AggData) : List.Forall₂ (fun d x => x = d ∨ x = d.asReduced) l l := by
  induction l with
  | nil => exact .nil
  | cons d l ih => exact .cons (.inl rfl) ih

theorem handed_life {opt : AggregatorOpts} (ops : List NOp) : ∀ {no no' : NObs},
    (∀ ao, no.life = some ao → HandedOver no.delivered ao.received) → nexecAll env opt no ops = .ok no' →
    ∀ ao, no'.life = some ao → HandedOver no'.delivered ao.received := by
  induction ops with
  | nil => intro no no' hl h; cases h; exact hl
  | cons op ops ih =>
    intro no no' hl h
    unfold nexecAll at h
    simp only [List.foldlM_cons] at h
    obtain ⟨no1, h1, h2⟩ := bind_inv h
    refine ih ?_ h2
    intro ao1 hao1
    cases op with
    | push v clk rand c1 c2 seen =>
      obtain ⟨ao, g1, h1⟩ := bind_inv h1
      obtain ⟨⟨ok, out, a2⟩, g2, h1⟩ := bind_inv h1
      obtain ⟨ao', g3, h1⟩ := bind_inv h1
      cases h1
      cases hao1
      simp only [Aggregator.exec, g2, bind_ok', Except.ok.injEq] at g3
      subst g3
      refine handed_append ?_ ?_
      · cases hlife : no.life with
        | some ao0 =>
          rw [hlife] at g1
          cases g1
          exact hl _ hlife
        | none =>
          rw [hlife] at g1
          unfold born at g1
          cases hnew : Aggregator.new opt clk rand v.ts with
          | error e => rw [hnew] at g1; cases g1
          | ok a0 =>
            rw [hnew] at g1
            cases g1
            exact ⟨no.delivered, [], by simp, .nil⟩
      · exact handed_map out
    | del => cases h1; cases hao1
    | pop force =>
      cases hlife : no.life with
      | none =>
        simp only [nexec, hlife] at h1
        cases h1
        rw [hlife] at hao1
        cases hao1
      | some ao0 =>
        simp only [nexec, hlife] at h1
        obtain ⟨ao', g1, h1⟩ := bind_inv h1
        cases h1
        simp only [Option.some.injEq] at hao1
        subst hao1
        obtain ⟨l, hl'⟩ : ∃ l, ao'.received = ao0.received ++ l := by
          cases force with
          | true =>
            obtain ⟨⟨d, a'⟩, _, g1⟩ := bind_inv g1
            cases g1
            exact ⟨_, rfl⟩
          | false =>
            simp only [Bool.false_eq_true, if_false, Aggregator.exec] at g1
            cases g1
            exact ⟨_, rfl⟩
        rw [hl', List.drop_left]
        exact handed_append (hl _ hlife) (handed_same l)

theorem clean_life {opt : AggregatorOpts} (ops : List NOp) : ∀ {no no' : NObs},
    (∀ ao, no.life = some ao → Clean ao.a) → nexecAll env opt no ops = .ok no' → ∀ ao, no'.life = some ao → Clean ao.a := by
  induction ops with
  | nil => intro no no' hl h; cases h; exact hl
  | cons op ops ih =>
    intro no no' hl h
    unfold nexecAll at h
    simp only [List.foldlM_cons] at h
    obtain ⟨no1, h1, h2⟩ := bind_inv h
    refine ih ?_ h2
    intro ao1 hao1
    cases op with
    | push v clk rand c1 c2 seen =>
      obtain ⟨ao, g1, h1⟩ := bind_inv h1
      obtain ⟨⟨ok, out, a2⟩, g2, h1⟩ := bind_inv h1
      obtain ⟨ao', g3, h1⟩ := bind_inv h1
      cases h1
      cases hao1
      refine clean_exec (op := .push c1 c2 v.ts (.reduced v) true) ?_ rfl g3
      cases hlife : no.life with
      | some ao0 =>
        rw [hlife] at g1
        cases g1
        exact hl _ hlife
      | none =>
        rw [hlife] at g1
        unfold born at g1
        cases hnew : Aggregator.new opt clk rand v.ts with
        | error e => rw [hnew] at g1; cases g1
        | ok a0 =>
          rw [hnew] at g1
          cases g1
          exact clean_new env hnew
    | del => cases h1; cases hao1
    | pop force =>
      cases hlife : no.life with
      | none =>
        simp only [nexec, hlife] at h1
        cases h1
        rw [hlife] at hao1
        cases hao1
      | some ao0 =>
        simp only [nexec, hlife] at h1
        obtain ⟨ao', g1, h1⟩ := bind_inv h1
        cases h1
        simp only [Option.some.injEq] at hao1
        subst hao1
        refine clean_exec (hl _ hlife) ?_ g1
        cases force <;> exact trivial

end Multi
end Wrtstat
