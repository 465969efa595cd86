/-
C146: what the hash map of the older sources delivers about a name.
-/
import Verif.Props.Legacy

namespace Wrtstat

set_option autoImplicit false

open Multi
open Aggregator (AObs AOp Fresh)

namespace Legacy

/-- What a push does, name by name. -/
theorem hashPush_spec {env : Env} {handler : Bool} {m m' : Multi} (hi : MInv m) {p : PushArg} {ok : Bool} {out : List AggData}
    (h : hashPush env m p handler = .ok (ok, out, m')) :
    MInv m' ∧ m'.opt = m.opt ∧ ∃ (a a' : Aggregator),
      AggMap.orNew m.opt (m.find p.name) p.clk p.rand p.v.ts = .ok a ∧
      a.push env p.clk1 p.clk2 p.v.ts (.reduced p.v) handler = .ok (ok, out, a') ∧
      ∀ name, m'.find name = if name = p.name then some a' else m.find name := by
  obtain ⟨pos, h1, h⟩ := bind_inv h
  obtain ⟨s, h2, h⟩ := bind_inv h
  obtain ⟨⟨ok', l', s'⟩, h3, h⟩ := bind_inv h
  cases h
  unfold getPos at h1
  by_cases hz : m.opt.hashSize = 0
  · rw [if_pos hz] at h1; cases h1
  rw [if_neg hz] at h1
  simp only [Except.ok.injEq] at h1
  unfold shard at h2
  cases hs : m.shards[pos]? with
  | none => rw [hs] at h2; cases h2
  | some t =>
    rw [hs] at h2
    cases h2
    obtain ⟨a, e1, h3⟩ := bind_inv h3
    obtain ⟨⟨ok'', out', a'⟩, e2, h3⟩ := bind_inv h3
    cases h3
    rw [push_eq] at e2
    have hpos : pos < m.shards.length := (List.getElem?_eq_some_iff.1 hs).1
    have hset : (m.shards.set pos (s.put p.name a'))[pos]? = some (s.put p.name a') := by
      rw [List.getElem?_set_self hpos]
    have hi' : MInv { m with shards := m.shards.set pos (s.put p.name a') } := by
      refine ⟨by simp [hi.len], ?_, ?_⟩
      · intro t ht
        rcases List.mem_or_eq_of_mem_set ht with ht | rfl
        · exact hi.nodup t ht
        · exact AggMap.nodup_put _ _ (hi.nodup s (List.mem_of_getElem? hs))
      · intro i t hit n hn
        simp only [List.getElem?_set] at hit
        by_cases hip : pos = i
        · subst hip
          simp only [if_true, hpos, Option.some.injEq] at hit
          subst hit
          rw [AggMap.mem_keys_put] at hn
          rcases hn with rfl | hn
          · exact h1
          · exact hi.home pos s hs n hn
        · rw [if_neg hip] at hit
          exact hi.home i t hit n hn
    refine ⟨hi', rfl, a, a', ?_, e2, ?_⟩
    · rw [hi.find_eq h1.symm hs]
      exact e1
    · intro name
      obtain ⟨t, ht⟩ : ∃ t, m.shards[m.hash name % m.opt.hashSize]? = some t := by
        refine ⟨_, List.getElem?_eq_getElem ?_⟩
        rw [hi.len]
        exact Nat.mod_lt _ (Nat.pos_of_ne_zero hz)
      rw [hi.find_eq rfl ht]
      by_cases hpp : pos = m.hash name % m.opt.hashSize
      · subst hpp
        rw [hs] at ht
        cases ht
        rw [hi'.find_eq rfl hset, AggMap.lookup_put]
      · have hne : name ≠ p.name := by
          rintro rfl
          exact hpp h1.symm
        rw [if_neg hne]
        apply hi'.find_eq rfl
        simp only [List.getElem?_set, if_neg hpp]
        exact ht

/-- The pushes under a name, as operations on one aggregator. -/
def pushesOf (name : Name) (ps : List (PushArg × Bool)) : List AOp :=
  (ps.filter fun p => p.1.name = name).map fun p => .push p.1.clk1 p.1.clk2 p.1.v.ts (.reduced p.1.v) p.2

/-- What someone who looks at one name has seen, against an aggregator of their own. -/
def Seen (env : Env) (opt : MultiOpts) (name : Name) (ps : List (PushArg × Bool)) (o : HObs) : Prop :=
  (pushesOf name ps = [] ∧ about name o.delivered = [] ∧ o.m.find name = none) ∨
  ∃ p0, (ps.filter fun p => p.1.name = name).head? = some p0 ∧ ∃ a0 ao,
    Aggregator.new opt.toAggregatorOpts p0.1.clk p0.1.rand p0.1.v.ts = .ok a0 ∧
    Aggregator.execAll env { a := a0 } (pushesOf name ps) = .ok ao ∧ about name o.delivered = ao.received ∧ o.m.find name = some ao.a

theorem pushesOf_append (name : Name) (ps qs : List (PushArg × Bool)) : pushesOf name (ps ++ qs) = pushesOf name ps ++ pushesOf name qs := by
  simp [pushesOf]

theorem seen_step {env : Env} {opt : MultiOpts} {name : Name} {ps : List (PushArg × Bool)} {o o' : HObs} (hi : MInv o.m)
    (ho : o.m.opt = opt) (hs : Seen env opt name ps o) (p : PushArg × Bool) (h : hexec env o p = .ok o') :
    MInv o'.m ∧ o'.m.opt = opt ∧ Seen env opt name (ps ++ [p]) o' := by
  obtain ⟨⟨ok, out, m'⟩, h1, h⟩ := bind_inv h
  cases h
  obtain ⟨k1, k2, a, a', e1, e2, e3⟩ := hashPush_spec hi h1
  refine ⟨k1, k2.trans ho, ?_⟩
  unfold Seen
  rw [pushesOf_append]
  simp only [about_append]
  by_cases hn : p.1.name = name
  · subst hn
    have hab : about p.1.name (out.map fun d => (p.1.name, d)) = out := by
      simp [about, List.filter_map, Function.comp_def]
    have hpu : pushesOf p.1.name [p] = [.push p.1.clk1 p.1.clk2 p.1.v.ts (.reduced p.1.v) p.2] := by simp [pushesOf]
    rw [hab, hpu, e3, if_pos rfl]
    right
    rcases hs with ⟨s1, s2, s3⟩ | ⟨p0, hp0, a0, ao, s1, s2, s3, s4⟩
    · rw [s3, ho] at e1
      refine ⟨p, ?_, a, AObs.mk a' ([] ++ out) (AObs.record { a := a } ok p.1.clk1 p.1.v.ts (.reduced p.1.v)), e1, ?_, ?_, rfl⟩
      · have : ps.filter (fun q => q.1.name = p.1.name) = [] := List.map_eq_nil_iff.1 s1
        rw [List.filter_append, this]
        simp
      · rw [s1]
        show (Aggregator.exec env { a := a } _ >>= fun o => pure o) = .ok _
        simp only [Aggregator.exec, e2]
        rfl
      · rw [s2]
    · rw [s4] at e1
      cases e1
      refine ⟨p0, by rw [List.filter_append, List.head?_append, hp0]; rfl, a0,
        AObs.mk a' (ao.received ++ out) (ao.record ok p.1.clk1 p.1.v.ts (.reduced p.1.v)), s1, ?_, ?_, rfl⟩
      · show List.foldlM _ _ _ = _
        rw [List.foldlM_append]
        have s2' : List.foldlM (Aggregator.exec env) { a := a0 } (pushesOf p.1.name ps) = .ok ao := s2
        rw [s2']
        show (Aggregator.exec env ao _ >>= fun o => pure o) = .ok _
        simp only [Aggregator.exec, e2]
        rfl
      · rw [s3]
  · have hab : about name (out.map fun d => (p.1.name, d)) = [] := by
      simp [about, List.filter_map, Function.comp_def, hn]
    have hpu : pushesOf name [p] = [] := by simp [pushesOf, hn]
    rw [hab, hpu, e3, if_neg (fun h => hn h.symm), List.append_nil, List.append_nil]
    rcases hs with hs | ⟨p0, hp0, s⟩
    · exact Or.inl hs
    · exact Or.inr ⟨p0, by rw [List.filter_append, List.head?_append, hp0]; rfl, s⟩

theorem seen_all {env : Env} {opt : MultiOpts} {name : Name} (qs : List (PushArg × Bool)) :
    ∀ {ps : List (PushArg × Bool)} {o o' : HObs}, MInv o.m → o.m.opt = opt → Seen env opt name ps o →
      hexecAll env o qs = .ok o' → Seen env opt name (ps ++ qs) o' := by
  induction qs with
  | nil =>
    intro ps o o' _ _ hs h
    cases h
    rwa [List.append_nil]
  | cons q qs ih =>
    intro ps o o' hi ho hs h
    obtain ⟨o1, h1, h2⟩ := bind_inv h
    obtain ⟨k1, k2, k3⟩ := seen_step hi ho hs q h1
    have := ih k1 k2 k3 h2
    rwa [List.append_assoc] at this

end Legacy

open Legacy

/-- Name by name the hash map is an aggregator built at the first push: all pushes under the name go to it, with their own handlers, and
nothing of another name reaches it. -/
theorem C146_sharded (env : Env) (hash : Name → Nat) (opt : MultiOpts) (ps : List (PushArg × Bool)) (o : HObs)
    (h : hexecAll env { m := Multi.new hash opt } ps = .ok o) (name : Name) :
    (pushesOf name ps = [] ∧ about name o.delivered = [] ∧ o.m.find name = none) ∨
    ∃ p0, (ps.filter fun p => p.1.name = name).head? = some p0 ∧ ∃ a0 ao,
      Aggregator.new opt.toAggregatorOpts p0.1.clk p0.1.rand p0.1.v.ts = .ok a0 ∧
      Aggregator.execAll env { a := a0 } (pushesOf name ps) = .ok ao ∧ about name o.delivered = ao.received ∧
      o.m.find name = some ao.a := by
  have h0 : (Multi.new hash opt).find name = none := by
    unfold Multi.find Multi.new
    rw [List.findSome?_eq_none_iff]
    intro s hs
    rw [(List.mem_replicate.1 hs).2]
    rfl
  have := seen_all (opt := opt) (name := name) ps (ps := []) (minv_new hash opt) rfl (Or.inl ⟨rfl, rfl, h0⟩) h
  rwa [List.nil_append] at this

/-- What a handler is given, and what waits, is the whole report of a window of the name: the percentiles too, which the newer object
leaves out (`C40_refuted`). -/
theorem C146_report (env : Env) (hash : Name → Nat) (opt : MultiOpts) (ps : List (PushArg × Bool)) (o : HObs) (hs : 0 < opt.step)
    (hc : ∀ p ∈ ps, 0 ≤ p.1.clk1 ∧ 0 ≤ p.1.clk2) (h : hexecAll env { m := Multi.new hash opt } ps = .ok o) (name : Name)
    (hne : ∃ p ∈ ps, p.1.name = name) :
    ∃ p0 a0 ao, (ps.filter fun p => p.1.name = name).head? = some p0 ∧
      Aggregator.new opt.toAggregatorOpts p0.1.clk p0.1.rand p0.1.v.ts = .ok a0 ∧
      Aggregator.execAll env { a := a0 } (pushesOf name ps) = .ok ao ∧ o.m.find name = some ao.a ∧
      ∀ d ∈ about name o.delivered ++ ao.a.agList, (∃ k : Nat, d.ts = a0.sep.currentTime + k * opt.step) ∧
        Report env opt.toAggregatorOpts (eventsIn ao.accepted d.ts (d.ts + opt.step)) d := by
  rcases C146_sharded env hash opt ps o h name with ⟨h1, _, _⟩ | ⟨p0, k0, a0, ao, k1, k2, k3, k4⟩
  · obtain ⟨p, hp, e⟩ := hne
    have : p ∈ ps.filter (fun q => q.1.name = name) := List.mem_filter.2 ⟨hp, by simpa using e⟩
    rw [List.map_eq_nil_iff.1 h1] at this
    cases this
  · refine ⟨p0, a0, ao, k0, k1, k2, k4, ?_⟩
    rw [k3]
    have hop : ∀ op ∈ pushesOf name ps, ∃ p ∈ ps, op = .push p.1.clk1 p.1.clk2 p.1.v.ts (.reduced p.1.v) p.2 := by
      intro op hop
      obtain ⟨p, hp, rfl⟩ := List.mem_map.1 hop
      exact ⟨p, (List.mem_filter.1 hp).1, rfl⟩
    refine C26_delivered env opt.toAggregatorOpts a0 (pushesOf name ps) ao hs (.new k1) ?_ ?_ ?_ k2
    · intro op ho
      obtain ⟨p, hp, rfl⟩ := hop op ho
      exact hc p hp
    · intro op ho
      obtain ⟨p, hp, rfl⟩ := hop op ho
      rfl
    · intro op ho
      obtain ⟨p, hp, rfl⟩ := hop op ho
      rfl

/-- Without a handler nothing is handed over. -/
theorem C146_silent (env : Env) (hash : Name → Nat) (opt : MultiOpts) (ps : List (PushArg × Bool)) (o : HObs)
    (h : hexecAll env { m := Multi.new hash opt } ps = .ok o) (name : Name) (hq : ∀ p ∈ ps, p.1.name = name → p.2 = false) :
    about name o.delivered = [] := by
  rcases C146_sharded env hash opt ps o h name with ⟨_, h2, _⟩ | ⟨p0, k0, a0, ao, k1, k2, k3, k4⟩
  · exact h2
  · rw [k3]
    have hop : ∀ op ∈ pushesOf name ps, ∃ c1 c2 ts x, op = .push c1 c2 ts x false := by
      intro op hop
      obtain ⟨p, hp, rfl⟩ := List.mem_map.1 hop
      obtain ⟨hp, e⟩ := List.mem_filter.1 hp
      rw [hq p hp (by simpa using e)]
      exact ⟨_, _, _, _, rfl⟩
    have key : ∀ (ops : List AOp) (o0 o1 : AObs), (∀ op ∈ ops, ∃ c1 c2 ts x, op = .push c1 c2 ts x false) →
        Aggregator.execAll env o0 ops = .ok o1 → o1.received = o0.received := by
      intro ops
      induction ops with
      | nil => intro o0 o1 _ h; cases h; rfl
      | cons op ops ih =>
        intro o0 o1 hall h
        obtain ⟨o', h1, h2⟩ := bind_inv h
        rw [ih o' o1 (fun op ho => hall op (.tail _ ho)) h2]
        obtain ⟨c1, c2, ts, x, rfl⟩ := hall op (.head _)
        obtain ⟨⟨ok, out, a⟩, h3, h1⟩ := bind_inv h1
        cases h1
        unfold Aggregator.push at h3
        by_cases he : o0.a.enabled = false
        · rw [if_pos he] at h3
          cases h3
          simp
        · rw [if_neg he, if_pos rfl] at h3
          obtain ⟨⟨_, _⟩, _, h3⟩ := bind_inv h3
          cases h3
          simp
    exact key _ _ _ hop k2

theorem Aggregator.push_waiting {env : Env} {a a' : Aggregator} {c1 c2 ts : Int} {x : AddArg} {h ok : Bool} {out : List AggData}
    (e : a.push env c1 c2 ts x h = .ok (ok, out, a')) : a.agList <+: a'.agList := by
  unfold Aggregator.push at e
  by_cases he : a.enabled = false
  · rw [if_pos he] at e
    cases e
    exact List.prefix_rfl
  rw [if_neg he] at e
  by_cases hh : h = false
  · rw [if_pos hh] at e
    obtain ⟨⟨_, _⟩, e1, e⟩ := bind_inv e
    cases e
    unfold Aggregator.add at e1
    rw [if_neg he] at e1
    obtain ⟨⟨ok', sep⟩, _, e1⟩ := bind_inv e1
    cases ok' with
    | false => cases e1; exact List.prefix_rfl
    | true =>
      obtain ⟨a1, e2, e1⟩ := bind_inv e1
      cases e1
      obtain ⟨l, _, e2⟩ := bind_inv e2
      cases e2
      exact List.prefix_append _ _
  · rw [if_neg hh] at e
    obtain ⟨⟨_, _, _⟩, _, e⟩ := bind_inv e
    obtain ⟨_, _, e⟩ := bind_inv e
    cases e
    exact List.prefix_rfl

/-- A record that a push without a handler completed stays: no later push hands it over or drops it. -/
theorem C146_stranded (env : Env) (hash : Name → Nat) (opt : MultiOpts) (ps qs : List (PushArg × Bool)) (o o' : HObs)
    (h : hexecAll env { m := Multi.new hash opt } ps = .ok o) (h' : hexecAll env o qs = .ok o') (name : Name) (a : Aggregator)
    (ha : o.m.find name = some a) : ∃ a', o'.m.find name = some a' ∧ a.agList <+: a'.agList := by
  have inv : ∀ (qs : List (PushArg × Bool)) (o o' : HObs), MInv o.m → hexecAll env o qs = .ok o' →
      MInv o'.m ∧ ∀ a, o.m.find name = some a → ∃ a', o'.m.find name = some a' ∧ a.agList <+: a'.agList := by
    intro qs
    induction qs with
    | nil => intro o o' hi h; cases h; exact ⟨hi, fun a ha => ⟨a, ha, List.prefix_rfl⟩⟩
    | cons q qs ih =>
      intro o o' hi h
      obtain ⟨o1, h1, h2⟩ := bind_inv h
      obtain ⟨⟨ok, out, m'⟩, h4, h3⟩ := bind_inv h1
      cases h3
      obtain ⟨k1, _, b, b', e1, e2, e3⟩ := hashPush_spec hi h4
      obtain ⟨i1, i2⟩ := ih _ o' k1 h2
      refine ⟨i1, fun a ha => ?_⟩
      by_cases hn : name = q.1.name
      · subst hn
        rw [ha] at e1
        cases e1
        obtain ⟨a', f1, f2⟩ := i2 b' (by rw [e3, if_pos rfl])
        exact ⟨a', f1, (Aggregator.push_waiting e2).trans f2⟩
      · exact i2 a (by rw [e3, if_neg hn]; exact ha)
  exact (inv qs o o' (inv ps _ o (minv_new hash opt) h).1 h').2 a ha

/-- A map of no shards divides by zero. -/
theorem C146_no_shards (env : Env) (hash : Name → Nat) (opt : MultiOpts) (hz : opt.hashSize = 0) (p : PushArg × Bool)
    (ps : List (PushArg × Bool)) : hexecAll env { m := Multi.new hash opt } (p :: ps) = .error .divByZero := by
  have : hexec env { m := Multi.new hash opt } p = .error .divByZero := by
    unfold hexec hashPush Multi.getPos
    rw [if_pos (show (Multi.new hash opt).opt.hashSize = 0 from hz)]
    rfl
  show (hexec env _ p >>= fun o => hexecAll env o ps) = _
  rw [this]
  rfl

namespace ExMulti

/-- Two names; the second push of one of them has no handler, so its record waits. -/
def hps : List (PushArg × Bool) :=
  [(arg na 1003 [5]), (arg nb 1004 [8, 6]), (arg na 1005 [7]), (arg na 1012 [9])].map (fun p => (p, true)) ++
  [(arg nb 1021 [1], false), (arg nb 1033 [2], true), (arg na 990 [4], true)]

end ExMulti

open ExMulti in
example : Passes (hexecAll exactEnv { m := Multi.new (fun n => n.length) opt } hps) (fun o =>
    decide (o.delivered.map (fun p => (p.1, p.2.ts, p.2.count)) = [(na, 1000, 2), (nb, 1020, 1)]) &&
    decide (o.delivered.map (fun p => (p.2.data, p.2.perc50, p.2.perc100)) = [([5, 7], 7, 7), ([1], 1, 1)]) &&
    decide (((o.m.find nb).map fun a => a.agList.map fun d => (d.ts, d.data)) = some [(1000, [6, 8])]) &&
    decide (o.answers = [(na, true), (nb, true), (na, true), (na, true), (nb, true), (nb, true), (na, false)])) = true := by
  decide +kernel

end Wrtstat
