/-
Properties of the multi-aggregator: C39, C40, C41.
-/
import Verif.Lemmas.MultiTotal
import Verif.Model.Instances

namespace Wrtstat

set_option autoImplicit false

open Multi Single
open Aggregator (AObs AOp)

/-- Clock readings are not negative. -/
def Multi.MOp.clockOk : MOp → Prop
  | .push p _ => 0 ≤ p.clk1 ∧ 0 ≤ p.clk2
  | .multiPush ps _ => ∀ p ∈ ps, 0 ≤ p.clk1 ∧ 0 ≤ p.clk2
  | _ => True

/-! ### Examples -/

namespace ExMulti

def opt : MultiOpts := { step := 10, resolution := .seconds, limit := 4, levels := 1, outSize := 0, hashSize := 3 }

def na : Name := ['a']
def nb : Name := ['b']

def red (ts : Int) (d : List Int) : ReducedData :=
  { data := d, avg := 0, count := d.length, lossy := 0, min := 0, max := 0, ts := ts }

def arg (n : Name) (ts : Int) (d : List Int) : PushArg := { name := n, v := red ts d }

def ord : IterOrder := { order := id, perm := fun _ => List.Perm.refl _ }
def rev : IterOrder := { order := List.reverse, perm := fun _ => List.reverse_perm _ }

/-- Two names, interleaved. -/
def ops : List MOp :=
  [.push (arg na 1003 [5]) true, .push (arg nb 1004 [8, 6]) true, .multiPush [arg na 1005 [7], arg nb 1021 [1]] true,
   .push (arg na 1012 [9]) true, .push (arg na 990 [4]) true, .pushout true true rev, .del nb, .del nb]

end ExMulti

open ExMulti in
example : Passes (mexecAll exactEnv { m := Multi.new (fun n => n.length) opt } ops) (fun o =>
    decide (o.delivered.map Prod.fst = [nb, na, na, nb]) &&
    decide (o.delivered.map (fun p => (p.2.ts, p.2.count)) = [(1000, 2), (1000, 2), (1010, 1), (1020, 1)]) &&
    decide (o.delivered.map (fun p => (p.2.data, p.2.perc50)) = [([6, 8], 0), ([5, 7], 0), ([9], 9), ([1], 1)]) &&
    decide (o.answers = [(na, true), (nb, true), (na, true), (na, false), (nb, true), (nb, false)])) = true := by
  decide +kernel

/-! ### C39 -/

/-- For every name, what is handed over about it, in order, and what is answered about it, is what a
single aggregator, built at the first push and destroyed by `del`, does. -/
theorem C39_sharded (env : Env) (hash : Name → Nat) (opt : MultiOpts) (ops : List MOp) (o : MObs)
    (hz : 0 < opt.hashSize) (h : mexecAll env { m := Multi.new hash opt } ops = .ok o) (name : Name) :
    ∃ no, nexecAll env opt.toAggregatorOpts {} (forName name ops) = .ok no ∧
      about name o.delivered = no.delivered ∧ about name o.answers = no.answers ∧
      o.m.find name = no.life.map fun ao => ao.a := by
  obtain ⟨_, _, no, e, a⟩ := mexecAll_agrees ops (minv_new hash opt) hz h (agrees_new hash opt name)
  exact ⟨no, e, a.delivered, a.answers, a.agg⟩

/-- The hash function, the number of shards and the order of iteration cannot be observed by someone
who looks at one name. -/
theorem C39_unobservable (env : Env) (hash1 hash2 : Name → Nat) (aopt : AggregatorOpts) (n1 n2 : Nat)
    (ops1 ops2 : List MOp) (o1 o2 : MObs) (hz1 : 0 < n1) (hz2 : 0 < n2) (name : Name)
    (hops : forName name ops1 = forName name ops2)
    (h1 : mexecAll env { m := Multi.new hash1 { aopt with hashSize := n1 } } ops1 = .ok o1)
    (h2 : mexecAll env { m := Multi.new hash2 { aopt with hashSize := n2 } } ops2 = .ok o2) :
    about name o1.delivered = about name o2.delivered ∧ about name o1.answers = about name o2.answers ∧
      o1.m.find name = o2.m.find name := by
  obtain ⟨no1, e1, a1, b1, c1⟩ := C39_sharded env hash1 _ ops1 o1 hz1 h1 name
  obtain ⟨no2, e2, a2, b2, c2⟩ := C39_sharded env hash2 _ ops2 o2 hz2 h2 name
  rw [hops] at e1
  rw [e1] at e2
  cases e2
  exact ⟨a1.trans a2.symm, b1.trans b2.symm, c1.trans c2.symm⟩

/-- With a handler and values between representable bounds nothing ever faults. -/
theorem C39_total (env : Env) (hash : Name → Nat) (opt : MultiOpts) (ops : List MOp) (m M : Int)
    (B : Reducer.Bounds env m M) (hs : 0 < opt.step) (hz : 0 < opt.hashSize) (hf : ∀ op ∈ ops, op.fine m M) :
    ∃ o, mexecAll env { m := Multi.new hash opt } ops = .ok o :=
  mexecAll_total B ops hs hz (minv_new hash opt)
    (fun n a h => by have := (agrees_new hash opt n).agg; rw [this] at h; cases h) hf

/-- Without shards every push divides by zero. -/
theorem C39_no_shards (env : Env) (hash : Name → Nat) (opt : MultiOpts) (hz : opt.hashSize = 0) (p : PushArg) (handler : Bool) :
    mexec env { m := Multi.new hash opt } (.push p handler) = .error .divByZero := by
  have : (Multi.new hash opt).getPos p.name = .error .divByZero := if_pos hz
  simp only [mexec, Multi.push, this]
  rfl

/-- `size` counts the names with an aggregator, and their samples, each once. -/
theorem C39_size (env : Env) (hash : Name → Nat) (opt : MultiOpts) (ops : List MOp) (o : MObs)
    (hz : 0 < opt.hashSize) (h : mexecAll env { m := Multi.new hash opt } ops = .ok o) :
    ∃ names : List Name, names.Nodup ∧ (∀ n, n ∈ names ↔ (o.m.find n).isSome) ∧ o.m.size.1 = names.length ∧
      o.m.size.2 = (names.map fun n => ((o.m.find n).map Aggregator.dataSize).getD 0).sum :=
  size_spec (mexecAll_agrees ops (minv_new hash opt) hz h (agrees_new hash opt [])).1

open ExMulti in
example : Passes (nexecAll exactEnv opt.toAggregatorOpts {} (forName na ops)) (fun no =>
    decide (no.delivered.map (fun d => (d.ts, d.data, d.perc50)) = [(1000, [5, 7], 0), (1010, [9], 9)]) &&
    decide (no.answers = [true, true, false]) && no.life.isSome) = true := by
  decide +kernel

/-- One shard or a thousand, whatever the hash. -/
example (k : Nat) (hash : Name → Nat) (o : MObs)
    (h : mexecAll exactEnv { m := Multi.new hash { ExMulti.opt with hashSize := k + 1 } } ExMulti.ops = .ok o) :
    (about ExMulti.na o.delivered).map (fun d => (d.ts, d.data)) = [(1000, [5, 7]), (1010, [9])] := by
  obtain ⟨no, e, a, _⟩ := C39_sharded _ _ _ _ _ (Nat.succ_pos k) h ExMulti.na
  rw [a]
  have : (nexecAll exactEnv ExMulti.opt.toAggregatorOpts {} (forName ExMulti.na ExMulti.ops)).toOption.map
      (fun no => no.delivered.map fun d => (d.ts, d.data)) = some [(1000, [5, 7]), (1010, [9])] := by decide +kernel
  have e' : nexecAll exactEnv ExMulti.opt.toAggregatorOpts {} (forName ExMulti.na ExMulti.ops) = .ok no := e
  rw [e'] at this
  simpa [Except.toOption] using this

example (hash : Name → Nat) : ∃ o, mexecAll exactEnv { m := Multi.new hash ExMulti.opt } ExMulti.ops = .ok o :=
  C39_total _ _ _ _ (-(2 ^ 63)) (2 ^ 63 - 1) ⟨FPLaws.id, by decide, by decide, rfl, rfl⟩ (by decide) (by decide)
    (by
      intro op hop
      simp only [ExMulti.ops, List.mem_cons, List.not_mem_nil, or_false] at hop
      rcases hop with rfl | rfl | rfl | rfl | rfl | rfl | rfl | rfl <;>
        simp [MOp.fine, ExMulti.arg, ExMulti.red])

/-! ### C40 -/

theorem forName_clock {ops : List MOp} (hc : ∀ op ∈ ops, op.clockOk) (name : Name) :
    ∀ op ∈ forName name ops, op.clockOk := by
  intro op hop
  obtain ⟨mop, hm, hop⟩ := List.mem_flatMap.1 hop
  have := hc mop hm
  cases mop with
  | push p h =>
    simp only [MOp.forName] at hop
    by_cases hn : p.name = name
    · rw [if_pos hn] at hop
      rw [List.mem_singleton.1 hop]
      exact this
    · rw [if_neg hn] at hop; cases hop
  | multiPush ps h =>
    simp only [MOp.forName] at hop
    obtain ⟨p, hp, rfl⟩ := List.mem_map.1 hop
    exact this p (List.mem_filter.1 hp).1
  | del n =>
    simp only [MOp.forName] at hop
    by_cases hn : n = name
    · rw [if_pos hn] at hop
      rw [List.mem_singleton.1 hop]
      exact trivial
    · rw [if_neg hn] at hop; cases hop
  | pushout force h ord =>
    simp only [MOp.forName] at hop
    rw [List.mem_singleton.1 hop]
    exact trivial

/-- The full claim: whatever is pushed, the records handed to the push handler report their groups of
events, percentiles included. -/
def PushComplete (env : Env) : Prop :=
  ∀ (hash : Name → Nat) (opt : MultiOpts) (ops : List MOp) (o : MObs), 0 < opt.step → 0 < opt.hashSize →
    (∀ op ∈ ops, op.clockOk) → (∀ op ∈ ops, ∃ p h, op = .push p h) →
    mexecAll env { m := Multi.new hash opt } ops = .ok o →
    ∀ r ∈ o.delivered, ∃ as : List AddArg, (∀ a ∈ as, ∃ op ∈ ops, ∃ p h, op = .push p h ∧ a = .reduced p.v ∧ p.name = r.1) ∧
      as ≠ [] ∧ Report env opt.toAggregatorOpts as r.2

namespace ExMulti

/-- A push that completes the window of another. -/
def two : List MOp := [.push (arg na 1003 [5]) true, .push (arg na 1012 [9]) true]

/-- What the handler receives. -/
def got : AggData := { data := [5], avg := 5, count := 1, lossy := 0, min := 5, max := 5, ts := 1000 }

end ExMulti

open ExMulti in
theorem exMultiTwo : ∃ o, mexecAll exactEnv { m := Multi.new (fun _ => 0) opt } two = .ok o ∧ o.delivered = [(na, got)] := by
  obtain ⟨o, e, h⟩ := of_passes (x := mexecAll exactEnv { m := Multi.new (fun _ => 0) opt } two)
    (p := fun o => decide (o.delivered = [(na, got)])) (by decide +kernel)
  exact ⟨o, e, of_decide_eq_true h⟩

/-- Counterexample: the percentiles are left behind. -/
theorem C40_refuted : ¬ PushComplete exactEnv := by
  intro h
  obtain ⟨o, ho, hd⟩ := exMultiTwo
  obtain ⟨as, hmem, _, raw, hsum, hdel⟩ := h (fun _ => 0) ExMulti.opt ExMulti.two o (by decide) (by decide)
    (by
      intro op hop
      simp only [ExMulti.two, List.mem_cons, List.not_mem_nil, or_false] at hop
      rcases hop with rfl | rfl <;> exact ⟨le_refl _, le_refl _⟩)
    (by
      intro op hop
      simp only [ExMulti.two, List.mem_cons, List.not_mem_nil, or_false] at hop
      rcases hop with rfl | rfl <;> exact ⟨_, _, rfl⟩) ho (ExMulti.na, ExMulti.got) (by rw [hd]; simp)
  have hne : raw.data ≠ [] := by
    intro h0
    have := hdel.samples 5
    rw [h0] at this
    exact absurd this (by decide)
  have h0 : (0 : Int) ∈ raw.data := (hdel.perc hne).p50.1
  have h1 : (0 : Int) ∈ allValues as := by
    have := hsum.samples 0
    have := List.count_pos_iff.2 h0
    exact List.count_pos_iff.1 (by omega)
  obtain ⟨a, ha, h1⟩ := List.mem_flatMap.1 h1
  obtain ⟨op, hop, p, hh, rfl, rfl, _⟩ := hmem a ha
  simp only [ExMulti.two, List.mem_cons, List.not_mem_nil, or_false] at hop
  rcases hop with hop | hop <;> cases hop <;> exact absurd h1 (by decide)

/-- The partial claim: the records handed over since the aggregator of the name was built are, in
order, those of the aggregator, whole or (those of a push) without percentiles; each of them reports
a group of the events accepted, of its window; and the groups, with the events still pending in the
current window, are all the events accepted, each once.  Missing: the percentiles. -/
theorem C40_push_partial (env : Env) (hash : Name → Nat) (opt : MultiOpts) (ops : List MOp) (o : MObs)
    (hs : 0 < opt.step) (hz : 0 < opt.hashSize) (hc : ∀ op ∈ ops, op.clockOk)
    (h : mexecAll env { m := Multi.new hash opt } ops = .ok o) (name : Name) :
    ∃ no, nexecAll env opt.toAggregatorOpts {} (forName name ops) = .ok no ∧
      ∀ ao, no.life = some ao →
        (∃ pre l, about name o.delivered = pre ++ l ∧ List.Forall₂ (fun d x => x = d ∨ x = d.asReduced) ao.received l) ∧
        ∃ (gR : List (List (Int × AddArg))) (pend : List (Int × AddArg)), (gR.flatten ++ pend).Perm ao.accepted ∧
          List.Forall₂ (fun g d => Report env opt.toAggregatorOpts (g.map Prod.snd) d ∧
            ∀ e ∈ g, d.ts ≤ e.1 ∧ e.1 < d.ts + opt.step) gR ao.received ∧
          ∀ e ∈ pend, ao.a.sep.currentTime ≤ e.1 ∧ e.1 < ao.a.sep.nextTime := by
  obtain ⟨no, e, e1, _⟩ := C39_sharded env hash opt ops o hz h name
  refine ⟨no, e, fun ao hao => ⟨?_, ?_⟩⟩
  · rw [e1]
    exact handed_life (forName name ops) (no := {}) (by simp) e ao hao
  · obtain ⟨clk, rand, ts, a0, aops, k1, k2, k3⟩ := life_exec (forName name ops) (no := {}) (by simp)
      (forName_clock hc name) e ao hao
    obtain ⟨gR, pend, b⟩ := books_of_life hs k1 k2 k3
    refine ⟨gR, pend, by simpa using b.good.perm, b.good.rec_, ?_⟩
    unfold Separator.currentTime Separator.nextTime
    rw [b.good.sep.step.1]
    exact b.good.sep.win

/-- In the example the record of the push has everything but its percentiles. -/
example : ExMulti.got.asReduced = ExMulti.got ∧ ExMulti.got.perc50 = 0 ∧ ExMulti.got.data = [5] := by decide

/-! ### C41 -/

/-- The full claim: `pushout` delivers windows that are over. -/
def PushoutDelivers (env : Env) : Prop :=
  ∀ (hash : Name → Nat) (opt : MultiOpts) (ops : List MOp) (o : MObs) (ord : IterOrder) (l : List PushReq) (m' : Multi)
    (name : Name) (a : Aggregator) (now : Int), 0 < opt.step → 0 < opt.hashSize → (∀ op ∈ ops, op.clockOk) →
    mexecAll env { m := Multi.new hash opt } ops = .ok o → o.m.popAll env false true ord = .ok (l, m') →
    o.m.find name = some a → a.sep.reducer.totalCount ≠ 0 → a.sep.nextTime ≤ now → about name l ≠ []

/-- Nothing waits in any aggregator. -/
theorem find_clean {env : Env} {hash : Name → Nat} {opt : MultiOpts} {ops : List MOp} {o : MObs}
    (hz : 0 < opt.hashSize) (h : mexecAll env { m := Multi.new hash opt } ops = .ok o) (name : Name) (a : Aggregator)
    (ha : o.m.find name = some a) : Clean a := by
  obtain ⟨no, e, _, _, e3⟩ := C39_sharded env hash opt ops o hz h name
  rw [e3] at ha
  cases hl : no.life with
  | none => rw [hl] at ha; cases ha
  | some ao =>
    rw [hl] at ha
    cases ha
    exact clean_life (forName name ops) (no := {}) (by simp) e ao hl

/-- The partial claim, which also refutes the full one: whatever the state, `pushout` finds nothing to
deliver, changes nothing, and does not need a handler.  Every window separated was delivered by the
push that separated it (`C40_push_partial`: whatever was accepted and not handed over belongs to the
current window). -/
theorem C41_pushout_partial (env : Env) (hash : Name → Nat) (opt : MultiOpts) (ops : List MOp) (o : MObs)
    (hz : 0 < opt.hashSize) (h : mexecAll env { m := Multi.new hash opt } ops = .ok o) (handler : Bool) (ord : IterOrder) :
    ∃ m', o.m.popAll env false handler ord = .ok ([], m') ∧ ∀ name, m'.find name = o.m.find name := by
  have hi := (mexecAll_agrees ops (minv_new hash opt) hz h (agrees_new hash opt [])).1
  have ho := (mexecAll_agrees ops (minv_new hash opt) hz h (agrees_new hash opt [])).2.1
  obtain ⟨ss, e⟩ := popShards_clean (handler := handler) (env := env) ord o.m.shards
    (fun s hs n a hl => (find_clean hz h n a (hi.shard_find hs hl)).1)
  have e' : o.m.popAll env false handler ord = .ok ([], { o.m with shards := ss }) := by
    simp only [Multi.popAll, e, bind_ok']
  refine ⟨_, e', fun name => ?_⟩
  obtain ⟨_, _, k⟩ := popAll_spec hi (by rw [ho]; exact hz) e'
  obtain ⟨k1, k2⟩ := k name
  cases hf : o.m.find name with
  | none => exact (k1 hf).1
  | some a =>
    obtain ⟨d, a', j1, j2, _⟩ := k2 a hf
    rw [j2]
    unfold AggMap.popOne Aggregator.pop at j1
    rw [(find_clean hz h name a hf).1] at j1
    cases j1
    rfl

open ExMulti in
/-- Counterexample: the window [1000, 1010) is over at time 5000 and stays where it is. -/
theorem C41_refuted : ¬ PushoutDelivers exactEnv := by
  intro h
  have hrun : ∃ o a, mexecAll exactEnv { m := Multi.new (fun _ => 0) opt } [.push (arg na 1003 [5]) true] = .ok o ∧
      o.m.find na = some a ∧ a.sep.reducer.totalCount ≠ 0 ∧ a.sep.nextTime ≤ 5000 := by
    obtain ⟨o, e, h⟩ := of_passes (x := mexecAll exactEnv { m := Multi.new (fun _ => 0) opt } [.push (arg na 1003 [5]) true])
      (p := fun o => match o.m.find na with
        | some a => decide (a.sep.reducer.totalCount ≠ 0 ∧ a.sep.nextTime ≤ 5000)
        | none => false) (by decide +kernel)
    cases hf : o.m.find na with
    | none => rw [hf] at h; cases h
    | some a =>
      rw [hf] at h
      exact ⟨o, a, e, hf, of_decide_eq_true h⟩
  obtain ⟨o, a, e1, e2, e3, e4⟩ := hrun
  obtain ⟨m', e5, _⟩ := C41_pushout_partial exactEnv _ opt _ o (by decide) e1 true ord
  exact h _ _ _ o ord [] m' na a 5000 (by decide) (by decide)
    (by
      intro op hop
      rw [List.mem_singleton.1 hop]
      exact ⟨le_refl _, le_refl _⟩) e1 e5 e2 e3 e4 rfl

/-- `force_pushout` delivers the events pending for each name in one record, if there are any, and
leaves none. -/
theorem C41_force_pushout (env : Env) (hash : Name → Nat) (opt : MultiOpts) (ops : List MOp) (o : MObs)
    (handler : Bool) (ord : IterOrder) (l : List PushReq) (m' : Multi)
    (hs : 0 < opt.step) (hz : 0 < opt.hashSize) (hc : ∀ op ∈ ops, op.clockOk)
    (h : mexecAll env { m := Multi.new hash opt } ops = .ok o) (hp : o.m.popAll env true handler ord = .ok (l, m')) (name : Name) :
    (o.m.find name = none → about name l = [] ∧ m'.find name = none) ∧
    ∃ no, nexecAll env opt.toAggregatorOpts {} (forName name ops) = .ok no ∧
      o.m.find name = no.life.map (fun ao => ao.a) ∧
      ∀ ao, no.life = some ao →
        ∃ (gR : List (List (Int × AddArg))) (pend : List (Int × AddArg)), (gR.flatten ++ pend).Perm ao.accepted ∧
          List.Forall₂ (fun g d => Report env opt.toAggregatorOpts (g.map Prod.snd) d ∧
            ∀ e ∈ g, d.ts ≤ e.1 ∧ e.1 < d.ts + opt.step) gR ao.received ∧
          (pend = [] → about name l = []) ∧
          (pend ≠ [] → ∃ d, about name l = [d] ∧ d.ts = ao.a.sep.currentTime ∧
            (∀ e ∈ pend, d.ts ≤ e.1 ∧ e.1 < d.ts + opt.step) ∧ Report env opt.toAggregatorOpts (pend.map Prod.snd) d) ∧
          ∃ a', m'.find name = some a' ∧ a'.sep.reducer.totalCount = 0 := by
  obtain ⟨hi, ho, _⟩ := mexecAll_agrees ops (minv_new hash opt) hz h (agrees_new hash opt name)
  obtain ⟨_, _, k⟩ := popAll_spec hi (by rw [ho]; exact hz) hp
  obtain ⟨k1, k2⟩ := k name
  refine ⟨fun hf => (k1 hf).symm, ?_⟩
  obtain ⟨no, e, e1, e2, e3⟩ := C39_sharded env hash opt ops o hz h name
  refine ⟨no, e, e3, fun ao hao => ?_⟩
  obtain ⟨clk, rand, ts, a0, aops, i1, i2, i3⟩ := life_exec (forName name ops) (no := {}) (by simp)
    (forName_clock hc name) e ao hao
  obtain ⟨gR, pend, b⟩ := books_of_life hs i1 i2 i3
  rw [hao] at e3
  obtain ⟨d, a', j1, j2, j3⟩ := k2 ao.a e3
  obtain ⟨b1, b2, b3, b4⟩ := books_force b j1
  refine ⟨gR, pend, by simpa using b.good.perm, b.good.rec_, ?_, ?_, a', j2, b3⟩
  · intro hp0
    rw [j3, b1.2 hp0]
    rfl
  · intro hp0
    cases d with
    | none => exact absurd (b1.1 rfl) hp0
    | some d =>
      obtain ⟨c1, c2⟩ := b2 d rfl
      refine ⟨d, j3, c1, ?_, c2⟩
      intro x hx
      have := b.good.sep.win x hx
      rw [c1, Separator.currentTime, b.good.sep.step.1]
      omega

/-- Exactly once: a second `force_pushout` delivers nothing. -/
theorem C41_force_once (env : Env) (hash : Name → Nat) (opt : MultiOpts) (ops : List MOp) (o : MObs)
    (handler handler' : Bool) (ord ord' : IterOrder) (l l' : List PushReq) (m' m'' : Multi)
    (hs : 0 < opt.step) (hz : 0 < opt.hashSize) (hc : ∀ op ∈ ops, op.clockOk)
    (h : mexecAll env { m := Multi.new hash opt } ops = .ok o) (hp : o.m.popAll env true handler ord = .ok (l, m'))
    (hp' : m'.popAll env true handler' ord' = .ok (l', m'')) : l' = [] := by
  have h' : mexecAll env { m := Multi.new hash opt } (ops ++ [.pushout true handler ord]) =
      .ok { o with m := m', delivered := o.delivered ++ l } := by
    unfold mexecAll at h ⊢
    rw [List.foldlM_append, h]
    simp only [bind_ok', List.foldlM_cons, List.foldlM_nil, mexec, hp]
    rfl
  have hc' : ∀ op ∈ ops ++ [.pushout true handler ord], op.clockOk := by
    intro op hop
    rcases List.mem_append.1 hop with hop | hop
    · exact hc op hop
    · rw [List.mem_singleton.1 hop]
      exact trivial
  refine List.eq_nil_iff_forall_not_mem.2 fun r hr => ?_
  obtain ⟨hi, ho, _⟩ := mexecAll_agrees ops (minv_new hash opt) hz h (agrees_new hash opt r.1)
  obtain ⟨hi', ho', _⟩ := mexecAll_agrees _ (minv_new hash opt) hz h' (agrees_new hash opt r.1)
  obtain ⟨_, _, k⟩ := popAll_spec hi (by rw [ho]; exact hz) hp
  obtain ⟨_, _, k'⟩ := popAll_spec hi' (by rw [ho']; exact hz) hp'
  have hmem : r.2 ∈ about r.1 l' := List.mem_map.2 ⟨r, List.mem_filter.2 ⟨hr, by simp⟩, rfl⟩
  cases hf : o.m.find r.1 with
  | none =>
    rw [((k' r.1).1 ((k r.1).1 hf).1).2] at hmem
    cases hmem
  | some a =>
    obtain ⟨d, a1, j1, j2, j3⟩ := (k r.1).2 a hf
    obtain ⟨d', a2, j4, j5, j6⟩ := (k' r.1).2 a1 j2
    obtain ⟨no, e, e1, e2, e3⟩ := C39_sharded env hash opt ops o hz h r.1
    cases hl : no.life with
    | none => rw [e3, hl] at hf; cases hf
    | some ao =>
      rw [e3, hl] at hf
      cases hf
      obtain ⟨clk, rand, ts, a0, aops, i1, i2, i3⟩ := life_exec (forName r.1 ops) (no := {}) (by simp)
        (forName_clock hc r.1) e ao hl
      obtain ⟨gR, pend, b⟩ := books_of_life hs i1 i2 i3
      obtain ⟨_, _, _, b4⟩ := books_force b j1
      obtain ⟨b1, _⟩ := books_force b4 j4
      rw [b1.2 rfl] at j6
      rw [j6] at hmem
      cases hmem

/-- Without a handler `force_pushout` throws as soon as there is something to deliver. -/
theorem C41_null_handler (env : Env) (m m' : Multi) (ord : IterOrder) (l : List PushReq)
    (hp : m.popAll env true false ord = .ok (l, m')) : l = [] := by
  obtain ⟨⟨l1, ss⟩, h1, h2⟩ := bind_inv hp
  cases h2
  exact popShards_null m.shards h1

open ExMulti in
/-- The example: `pushout` gives nothing, `force_pushout` everything, once; without handler it throws. -/
example : Passes (do
      let o ← mexecAll exactEnv { m := Multi.new (fun n => n.length) opt } (ops.take 5)
      let (l1, m1) ← o.m.popAll exactEnv false false ord
      let (l2, m2) ← m1.popAll exactEnv true true ord
      let (l3, _) ← m2.popAll exactEnv true false rev
      .ok (l1, l2, l3)) (fun r =>
        decide (r.1 = []) && decide (r.2.1.map (fun p => (p.1, p.2.ts, p.2.data, p.2.perc50)) = [(nb, 1020, [1], 1), (na, 1010, [9], 9)]) &&
        decide (r.2.2 = [])) = true := by
  decide +kernel

open ExMulti in
example : (match (do
      let o ← mexecAll exactEnv { m := Multi.new (fun n => n.length) opt } (ops.take 5)
      o.m.popAll exactEnv true false ord : M _) with
    | .error .badFunctionCall => true
    | _ => false) = true := by
  decide +kernel

end Wrtstat
