/-
C86, C87: `multi_aggregator` used by any number of threads at once (wrtstat/multi_aggregator/multi_aggregator.cpp).
-/
import Verif.Lemmas.MultiMt
import Verif.Props.ConcRegistry
import Verif.Props.Multi

namespace Wrtstat

set_option autoImplicit false

open Multi Single

/-- The object used by one thread.  After a fault the object is anything. -/
def MultiSpec (env : Env) (m : Multi) (c : MuCall) (r : M MuRes) (m' : Multi) : Prop :=
  match m.call env c with
  | .ok (r0, m0) => r = .ok r0 ∧ m' = m0
  | .error e => r = .error e

/-- `multi_aggregator` with `n` shards and threads `T`, that make calls in `P`. -/
def MuReach {T L : Type} [DecidableEq T] (n : Nat) [NeZero n] (hash : Name → Nat) (b : Body AggMap (MuSec n) (M MuRes) L)
    (P : MuCall → Prop) (m : Sharded T (Fin n) AggMap (MuSec n) (M MuRes) MuCall (M MuRes) L) : Prop :=
  Sharded.Reach (muCode n hash b) P (fun _ => []) m

/-- A section of a call in `P`: it changes its own shard, as it would alone. -/
def SecsSpec {n : Nat} [NeZero n] (env : Env) (opt : MultiOpts) (hash : Name → Nat) (P : MuCall → Prop) (g : Fin n → AggMap)
    (x : MuCall × MuSec n) (r : M MuRes) (g' : Fin n → AggMap) : Prop :=
  P x.1 ∧ x.2 ∈ x.1.plan n ∧ ∃ s', (g (x.2.pos hash)).SecSpec env opt x.2 r s' ∧ g' = Function.update g (x.2.pos hash) s'

/-- The critical sections of all calls are linearizable together, whatever small steps they consist of: there is one order
of all sections, respecting the order in each thread and in real time, in which each of them changes its own shard only and
finds there what the earlier ones left. -/
theorem C87_sections {T L : Type} [DecidableEq T] {n : Nat} [NeZero n] (env : Env) (opt : MultiOpts) (hash : Name → Nat)
    (b : Body AggMap (MuSec n) (M MuRes) L) (hb : ∀ sec s r s', b.Runs (b.start sec) s r s' → s.SecSpec env opt sec r s')
    (P : MuCall → Prop) (m : Sharded T (Fin n) AggMap (MuSec n) (M MuRes) MuCall (M MuRes) L) (h : MuReach n hash b P m) :
    Linearizable (SecsSpec env opt hash P) (fun _ => []) m.shist :=
  Sharded.sections hb h

/-- The bodies as they are written satisfy the condition. -/
theorem C87_bodies {n : Nat} (env : Env) (opt : MultiOpts) (sec : MuSec n) (s : AggMap) (r : M MuRes) (s' : AggMap)
    (h : (AggMap.body env opt n).Runs ((AggMap.body env opt n).start sec) s r s') : s.SecSpec env opt sec r s' :=
  AggMap.body_spec sec s r s' h

/-- What a thread gets from its calls is made of what its sections return: the calls that have returned consist of the
sections of their plans, in order, all of them unless one faults. -/
theorem C87_made_of_sections {T L : Type} [DecidableEq T] {n : Nat} [NeZero n] (hash : Name → Nat)
    (b : Body AggMap (MuSec n) (M MuRes) L) (P : MuCall → Prop)
    (m : Sharded T (Fin n) AggMap (MuSec n) (M MuRes) MuCall (M MuRes) L) (h : MuReach n hash b P m) (t : T) :
    ∃ (G : List (MuCall × List (MuSec n × M MuRes))) (now : List ((MuCall × MuSec n) × M MuRes)),
      resOf t m.shist = G.flatMap (fun x => x.2.map fun e => ((x.1, e.1), e.2)) ++ now ∧
      resOf t m.hist = G.map (fun x => (x.1, (firstFault (x.2.map Prod.snd)).map x.1.put)) ∧
      ∀ x ∈ G, ∃ rest, x.1.plan n = x.2.map Prod.fst ++ rest ∧ (rest = [] ∨ ∃ l sec e, x.2 = l ++ [(sec, .error e)]) := by
  obtain ⟨G, h1, h2, h3⟩ := Sharded.made h t
  have hG : ∀ x ∈ G, ∃ rest, x.1.plan n = x.2.map Prod.fst ++ rest ∧ (rest = [] ∨ ∃ l sec e, x.2 = l ++ [(sec, .error e)]) := by
    intro x hx
    obtain ⟨rest, k1, k2⟩ := h2 x hx
    refine ⟨rest, k1, k2.imp id ?_⟩
    rintro ⟨l, ⟨sec, r⟩, k3, k4⟩
    cases r with
    | error e => exact ⟨l, sec, e, k3⟩
    | ok r => cases k4
  cases hq : m.pc t <;> rw [hq] at h3
  · exact ⟨G, [], by rw [List.append_nil]; exact h3, h1, hG⟩
  all_goals
    obtain ⟨l, -, -, h3⟩ := h3
    exact ⟨G, _, h3, h1, hG⟩

/-- The sections of a call made in a row, without other threads, are the call. -/
theorem C86_alone {n : Nat} [NeZero n] (env : Env) (opt : MultiOpts) (hash : Name → Nat) (g : Fin n → AggMap) (c : MuCall) :
    (runSecs env opt hash g (c.plan n)).map (fun x => (c.put x.1, asMulti opt hash x.2)) = (asMulti opt hash g).call env c :=
  run_call g c

/-- Values in `[m, M]`, clock readings not negative, a handler. -/
def MuCall.fine (m M : Int) : MuCall → Prop
  | .push p h => h = true ∧ (0 ≤ p.clk1 ∧ 0 ≤ p.clk2) ∧ ∀ v ∈ p.v.data, m ≤ v ∧ v ≤ M
  | .multiPush ps h => h = true ∧ ∀ p ∈ ps, (0 ≤ p.clk1 ∧ 0 ≤ p.clk2) ∧ ∀ v ∈ p.v.data, m ≤ v ∧ v ≤ M
  | .del _ => True
  | .pushout _ h _ => h = true
  | .size => True

theorem MuCall.fine_sec {n : Nat} {m M : Int} {c : MuCall} (h : c.fine m M) {sec : MuSec n} (hs : sec ∈ c.plan n) :
    sec.fine m M := by
  cases c with
  | push p handler =>
    simp only [plan, List.mem_singleton] at hs
    subst hs
    intro op hop
    simp only [MuSec.op, List.mem_singleton] at hop
    subst hop
    exact h
  | multiPush ps handler =>
    simp only [plan, List.mem_map] at hs
    obtain ⟨p, hp, rfl⟩ := hs
    intro op hop
    simp only [MuSec.op, List.mem_singleton] at hop
    subst hop
    exact ⟨h.1, h.2 p hp⟩
  | del name =>
    simp only [plan, List.mem_singleton] at hs
    subst hs
    intro op hop
    simp only [MuSec.op, List.mem_singleton] at hop
    subst hop
    trivial
  | pushout force handler ord =>
    simp only [plan, List.mem_map] at hs
    obtain ⟨i, -, rfl⟩ := hs
    intro op hop
    simp only [MuSec.op, List.mem_singleton] at hop
    subst hop
    exact h
  | size =>
    simp only [plan, List.mem_map] at hs
    obtain ⟨i, -, rfl⟩ := hs
    intro op hop
    simp [MuSec.op] at hop

/-- What sections return when nothing faults. -/
def okRes (r : M MuRes) : MuRes :=
  match r with
  | .ok r => r
  | .error _ => {}

theorem legal_lives {T : Type} {n : Nat} [NeZero n] {env : Env} {opt : MultiOpts} {hash : Name → Nat} {mi ma : Int} {P : MuCall → Prop}
    (hs : 0 < opt.step) (B : Reducer.Bounds env mi ma) (hP : ∀ c, P c → c.fine mi ma) {g g' : Fin n → AggMap}
    {lin : List (T × (MuCall × MuSec n) × M MuRes)}
    (hl : Legal (SecsSpec env opt hash P) g lin g') (hi : ShInv env opt.toAggregatorOpts hash mi ma g) :
    (∀ e ∈ lin, ∃ r, e.2.2 = .ok r) ∧
    ∀ name dl an no, Agrees name ((g (Fin.ofNat n (hash name))).lookup name) dl an no →
      ∃ no', nexecAll env opt.toAggregatorOpts no (lin.flatMap fun e => e.2.1.2.forName hash name) = .ok no' ∧
        Agrees name ((g' (Fin.ofNat n (hash name))).lookup name) (dl ++ lin.flatMap fun e => (okRes e.2.2).out)
          (an ++ lin.flatMap fun e => e.2.1.2.answer (okRes e.2.2)) no' := by
  induction hl with
  | nil => exact ⟨by simp, fun name dl an no ha => ⟨no, rfl, by simpa using ha⟩⟩
  | cons g g1 g2 t x r l h _ ih =>
    obtain ⟨hPx, hx, s', hsp, rfl⟩ := h
    obtain ⟨r0, s0, e, hi1, ha⟩ := sec_agrees hs B hi x.2 (MuCall.fine_sec (hP _ hPx) hx)
    unfold AggMap.SecSpec at hsp
    rw [e] at hsp
    obtain ⟨rfl, rfl⟩ := hsp
    obtain ⟨i1, i2⟩ := ih hi1
    refine ⟨?_, fun name dl an no hag => ?_⟩
    · intro e he
      rcases List.mem_cons.1 he with rfl | he
      · exact ⟨r0, rfl⟩
      · exact i1 e he
    · obtain ⟨no1, k1, k2⟩ := ha name dl an no hag
      obtain ⟨no2, k3, k4⟩ := i2 name _ _ no1 k2
      refine ⟨no2, ?_, ?_⟩
      · unfold nexecAll at *
        rw [List.flatMap_cons, List.foldlM_append, k1]
        exact k3
      · simpa [okRes] using k4

/-- Every name lives alone under threads too: with values between representable bounds and a handler nothing faults, and
there is one order of all sections, respecting the order in each thread and in real time, such that for every name the
requests handed over about it and the answers given about it are those of a single aggregator, built at the first push and
destroyed by `del`. -/
theorem C87_names {T L : Type} [DecidableEq T] {n : Nat} [NeZero n] (env : Env) (opt : MultiOpts) (hash : Name → Nat)
    (b : Body AggMap (MuSec n) (M MuRes) L) (hb : ∀ sec s r s', b.Runs (b.start sec) s r s' → s.SecSpec env opt sec r s')
    (mi ma : Int) (B : Reducer.Bounds env mi ma) (hs : 0 < opt.step) (P : MuCall → Prop) (hP : ∀ c, P c → c.fine mi ma)
    (m : Sharded T (Fin n) AggMap (MuSec n) (M MuRes) MuCall (M MuRes) L) (h : MuReach n hash b P m) :
    ∃ lin : List (T × (MuCall × MuSec n) × M MuRes),
      (∀ h1 h2, m.shist = h1 ++ h2 → ∃ l1 l2, lin = l1 ++ l2 ∧
        ∀ t, resOf t h1 <+: opsOf t l1 ∧ (opsOf t l1).map Prod.fst <+: invOf t h1) ∧
      (∀ e ∈ lin, ∃ r, e.2.2 = .ok r) ∧
      ∀ name, ∃ no, nexecAll env opt.toAggregatorOpts {} (lin.flatMap fun e => e.2.1.2.forName hash name) = .ok no ∧
        about name (lin.flatMap fun e => (okRes e.2.2).out) = no.delivered ∧
        about name (lin.flatMap fun e => e.2.1.2.answer (okRes e.2.2)) = no.answers := by
  obtain ⟨lin, ⟨g', hl⟩, hsp⟩ := C87_sections env opt hash b hb P m h
  have hi : ShInv (n := n) env opt.toAggregatorOpts hash mi ma (fun _ => []) := by
    intro k
    refine ⟨by simp, by simp, ?_⟩
    intro name a ha
    cases ha
  obtain ⟨k1, k2⟩ := legal_lives hs B hP hl hi
  refine ⟨lin, hsp, k1, fun name => ?_⟩
  obtain ⟨no, e, a⟩ := k2 name [] [] {} ⟨rfl, rfl, rfl⟩
  exact ⟨no, e, a.delivered, a.answers⟩

/-- No call faults under threads, either. -/
theorem C87_no_fault {T L : Type} [DecidableEq T] {n : Nat} [NeZero n] (env : Env) (opt : MultiOpts) (hash : Name → Nat)
    (b : Body AggMap (MuSec n) (M MuRes) L) (hb : ∀ sec s r s', b.Runs (b.start sec) s r s' → s.SecSpec env opt sec r s')
    (mi ma : Int) (B : Reducer.Bounds env mi ma) (hs : 0 < opt.step) (P : MuCall → Prop) (hP : ∀ c, P c → c.fine mi ma)
    (m : Sharded T (Fin n) AggMap (MuSec n) (M MuRes) MuCall (M MuRes) L) (h : MuReach n hash b P m) (t : T)
    (c : MuCall) (r : M MuRes) (hr : (c, r) ∈ resOf t m.hist) : ∃ x, r = .ok x := by
  obtain ⟨lin, hsp, hok, -⟩ := C87_names env opt hash b hb mi ma B hs P hP m h
  obtain ⟨G, now, k1, k2, k3⟩ := C87_made_of_sections hash b P m h t
  rw [k2, List.mem_map] at hr
  obtain ⟨x, hx, e⟩ := hr
  cases e
  have hall : ∀ y ∈ x.2.map Prod.snd, ∃ z, y = .ok z := by
    intro y hy
    obtain ⟨⟨sec, y'⟩, hy2, rfl⟩ := List.mem_map.1 hy
    have hmem : ((x.1, sec), y') ∈ resOf t m.shist := by
      rw [k1]
      exact List.mem_append_left _ (List.mem_flatMap.2 ⟨x, hx, List.mem_map.2 ⟨(sec, y'), hy2, rfl⟩⟩)
    obtain ⟨l1, l2, rfl, hb⟩ := hsp m.shist [] (by simp)
    have hmem : ((x.1, sec), y') ∈ opsOf t l1 := (hb t).1.subset hmem
    unfold opsOf at hmem
    rw [List.mem_filterMap] at hmem
    obtain ⟨e, he, h2⟩ := hmem
    split at h2
    · obtain ⟨z, hz⟩ := hok e (List.mem_append_left _ he)
      rw [Option.some.inj h2] at hz
      exact ⟨z, hz⟩
    · cases h2
  have hff : ∀ l : List (M MuRes), (∀ y ∈ l, ∃ z, y = .ok z) → ∃ zs, firstFault l = .ok zs := by
    intro l
    induction l with
    | nil => exact fun _ => ⟨[], rfl⟩
    | cons y l ih =>
      intro hl
      obtain ⟨z, rfl⟩ := hl y (by simp)
      obtain ⟨zs, hz⟩ := ih fun y hy => hl y (by simp [hy])
      refine ⟨z :: zs, ?_⟩
      unfold firstFault at hz ⊢
      rw [List.mapM_cons, hz]
      rfl
  obtain ⟨zs, hz⟩ := hff _ hall
  rw [hz]
  exact ⟨_, rfl⟩

/-- No deadlock: as long as some thread is in a call, some thread in a call can take its next step. -/
theorem C87_no_deadlock {T L : Type} [DecidableEq T] {n : Nat} [NeZero n] (hash : Name → Nat)
    (b : Body AggMap (MuSec n) (M MuRes) L) (P : MuCall → Prop)
    (m : Sharded T (Fin n) AggMap (MuSec n) (M MuRes) MuCall (M MuRes) L) (h : MuReach n hash b P m) (t : T) (ht : m.pc t ≠ .idle) :
    ∃ (u : T) (m' : Sharded T (Fin n) AggMap (MuSec n) (M MuRes) MuCall (M MuRes) L),
      Sharded.Step (muCode n hash b) P m m' ∧ m.pc u ≠ .idle ∧ m.move (muCode n hash b) u = some m' := by
  obtain ⟨u, hu⟩ := Sharded.no_deadlock h ht
  obtain ⟨m', hm⟩ := Option.isSome_iff_exists.1 hu
  refine ⟨u, m', Sharded.move_step hm, ?_, hm⟩
  intro hi
  unfold Sharded.move at hm
  rw [hi] at hm
  cases hm

/-! ### Calls -/

/-- A call with one section is what it is alone. -/
theorem call_of_sec {n : Nat} [NeZero n] {env : Env} {opt : MultiOpts} {hash : Name → Nat} {c : MuCall} {sec : MuSec n}
    (hc : c.plan n = [sec]) {g : Fin n → AggMap} {r : M MuRes} {s' : AggMap} (h : (g (sec.pos hash)).SecSpec env opt sec r s') :
    MultiSpec env (asMulti opt hash g) c ((firstFault [r]).map c.put) (asMulti opt hash (Function.update g (sec.pos hash) s')) := by
  unfold MultiSpec
  rw [← C86_alone, hc]
  simp only [runSecs]
  unfold AggMap.SecSpec at h
  cases hx : (g (sec.pos hash)).sec env opt sec with
  | error e =>
    rw [hx] at h
    simp only at h
    subst h
    rfl
  | ok x =>
    rw [hx] at h
    obtain ⟨rfl, rfl⟩ := h
    exact ⟨rfl, rfl⟩

/-- The calls made are linearizable when every one of them has one section. -/
theorem C86_short_partial {T L : Type} [DecidableEq T] {n : Nat} [NeZero n] (env : Env) (opt : MultiOpts) (hash : Name → Nat)
    (b : Body AggMap (MuSec n) (M MuRes) L) (hb : ∀ sec s r s', b.Runs (b.start sec) s r s' → s.SecSpec env opt sec r s')
    (hn : opt.hashSize = n) (P : MuCall → Prop) (hP : ∀ c, P c → (c.plan n).length ≤ 1)
    (m : Sharded T (Fin n) AggMap (MuSec n) (M MuRes) MuCall (M MuRes) L) (h : MuReach n hash b P m) :
    Linearizable (MultiSpec env) (Multi.new hash opt) m.hist := by
  rw [(Sharded.hist_short hP h).1]
  have hnew : Multi.new hash opt = asMulti opt hash (fun _ : Fin n => []) := by
    subst hn
    simp [Multi.new, asMulti]
  rw [hnew]
  refine (C87_sections env opt hash b hb P m h).rename Prod.fst _ (asMulti opt hash) ?_
  rintro g ⟨c, sec⟩ r g' ⟨hc, hx, s', hsp, rfl⟩
  refine call_of_sec ?_ hsp
  have := hP c hc
  cases hpl : c.plan n with
  | nil => simp only at hx; rw [hpl] at hx; cases hx
  | cons a l =>
    rw [hpl] at this
    have : l = [] := List.length_eq_zero_iff.1 (by simpa using this)
    subst this
    simp only at hx
    rw [hpl, List.mem_singleton] at hx
    rw [hx]

/-- `push` and `del` are linearizable. -/
theorem C86_push_del_partial {T L : Type} [DecidableEq T] {n : Nat} [NeZero n] (env : Env) (opt : MultiOpts) (hash : Name → Nat)
    (b : Body AggMap (MuSec n) (M MuRes) L) (hb : ∀ sec s r s', b.Runs (b.start sec) s r s' → s.SecSpec env opt sec r s')
    (hn : opt.hashSize = n) (m : Sharded T (Fin n) AggMap (MuSec n) (M MuRes) MuCall (M MuRes) L)
    (h : MuReach n hash b (fun c => (∃ p handler, c = .push p handler) ∨ ∃ name, c = .del name) m) :
    Linearizable (MultiSpec env) (Multi.new hash opt) m.hist := by
  refine C86_short_partial env opt hash b hb hn _ ?_ m h
  rintro c (⟨p, handler, rfl⟩ | ⟨name, rfl⟩) <;> simp [MuCall.plan]

/-- With one shard everything but `multi_push` is linearizable. -/
theorem C86_one_shard_partial {T L : Type} [DecidableEq T] (env : Env) (opt : MultiOpts) (hash : Name → Nat)
    (b : Body AggMap (MuSec 1) (M MuRes) L) (hb : ∀ sec s r s', b.Runs (b.start sec) s r s' → s.SecSpec env opt sec r s')
    (hn : opt.hashSize = 1) (m : Sharded T (Fin 1) AggMap (MuSec 1) (M MuRes) MuCall (M MuRes) L)
    (h : MuReach 1 hash b (fun c => ∀ ps handler, c ≠ .multiPush ps handler) m) :
    Linearizable (MultiSpec env) (Multi.new hash opt) m.hist := by
  refine C86_short_partial env opt hash b hb hn _ ?_ m h
  intro c hc
  cases c with
  | multiPush ps handler => exact (hc ps handler rfl).elim
  | _ => simp [MuCall.plan]

/-! ### Calls with several sections are not atomic -/

/-- Calls in `P` are linearizable. -/
def C86_FullClaim (P : MuCall → Prop) : Prop :=
  ∀ (T : Type) [DecidableEq T] (n : Nat) [NeZero n] (env : Env) (opt : MultiOpts) (hash : Name → Nat), opt.hashSize = n →
    ∀ m : Sharded T (Fin n) AggMap (MuSec n) (M MuRes) MuCall (M MuRes) (MuPos n), MuReach n hash (AggMap.body env opt n) P m →
      Linearizable (MultiSpec env) (Multi.new hash opt) m.hist

/-- What the test below looks at in a result. -/
def MuRes.seen (r : MuRes) : List Bool × List (Name × List Int) × Nat × Nat :=
  (r.flag, r.out.map fun q => (q.1, q.2.data), r.names, r.samples)

/-- Test a sequence of calls. -/
def legalMu (env : Env) (m : Multi) : List (Bool × MuCall × M MuRes) → Bool
  | [] => true
  | (_, c, r) :: l =>
    match m.call env c, r with
    | .ok (x, m'), .ok y => decide (x.seen = y.seen) && legalMu env m' l
    | .ok _, .error _ => false
    | .error _, _ => true

theorem legalMu_of_legal {env : Env} {m m' : Multi} {l : List (Bool × MuCall × M MuRes)} (h : Legal (MultiSpec env) m l m') :
    legalMu env m l = true := by
  induction h with
  | nil => rfl
  | cons s s1 s2 t c r l h _ ih =>
    unfold MultiSpec at h
    unfold legalMu
    cases hx : s.call env c with
    | error e => rfl
    | ok x =>
      rw [hx] at h
      obtain ⟨rfl, rfl⟩ := h
      simpa using ih

/-- All calls have returned and no merge of them has their results. -/
def noOrderMu (env : Env) (m : Multi) (h : List (HEv Bool MuCall (M MuRes))) : Bool :=
  decide ((invOf true h).length = (resOf true h).length ∧ (invOf false h).length = (resOf false h).length) &&
    (Registry.merges (resOf true h) (resOf false h)).all fun l => !legalMu env m l

theorem not_linearizableMu {env : Env} {m : Multi} {h : List (HEv Bool MuCall (M MuRes))} (hn : noOrderMu env m h = true) :
    ¬ Linearizable (MultiSpec env) m h := by
  rintro ⟨lin, ⟨s1, hl⟩, hs⟩
  obtain ⟨l1, l2, rfl, hb⟩ := hs h [] (by simp)
  obtain ⟨s2, hl, -⟩ := Registry.legal_of_append hl
  unfold noOrderMu at hn
  rw [Bool.and_eq_true, decide_eq_true_eq, List.all_eq_true] at hn
  obtain ⟨⟨n1, n2⟩, hn⟩ := hn
  have key : ∀ t, (invOf t h).length = (resOf t h).length → opsOf t l1 = resOf t h := by
    intro t ht
    have h1 := (hb t).1
    have h2 := (hb t).2.length_le
    rw [List.length_map] at h2
    exact (h1.eq_of_length_le (by omega)).symm
  have hm := Registry.mem_merges l1
  rw [key true n1, key false n2] at hm
  have := hn l1 hm
  rw [legalMu_of_legal hl] at this
  cases this

open Sharded in
theorem C86_witness {P : MuCall → Prop} (env : Env) (opt : MultiOpts) (hash : Name → Nat) (n : Nat) [NeZero n] (hn : opt.hashSize = n)
    (l : List (Turn Bool MuCall)) (hP : ∀ t c, .call t c ∈ l → P c)
    (h : (match play (muCode n hash (AggMap.body env opt n)) (init fun _ => []) l with
      | some m => noOrderMu env (Multi.new hash opt) m.hist
      | none => false) = true) : ¬ C86_FullClaim P := by
  intro hc
  split at h
  · rename_i m hm
    exact not_linearizableMu h (hc Bool n env opt hash hn m (play_reach l hP .refl hm))
  · cases h

namespace ExMu

open Sharded

/-- Two shards; names of one character in the second, empty names in the first. -/
def opt2 : MultiOpts := { ExMulti.opt with hashSize := 2 }

/-- A call of one section made without interruption. -/
def pushing (t : Bool) (n : Name) (ts : Int) (v : Int) : List (Turn Bool MuCall) :=
  [.call t (.push (ExMulti.arg n ts [v]) true), .go t, .go t, .go t, .go t]

def deleting (t : Bool) (n : Name) : List (Turn Bool MuCall) := [.call t (.del n), .go t, .go t, .go t]

/-- A section. -/
def sec (t : Bool) : List (Turn Bool MuCall) := [.go t, .go t, .go t]

def n0 : Name := ['a', 'a']
def n1 : Name := ['b']

end ExMu

open ExMu Sharded in
/-- `force_pushout` is not a snapshot: it misses an event and reports a later one. -/
theorem C86_pushout_refuted : ¬ C86_FullClaim (fun c => (∃ p handler, c = .push p handler) ∨ ∃ f h o, c = .pushout f h o) :=
  C86_witness exactEnv opt2 List.length 2 rfl
    ([.call true (.pushout true true ExMulti.ord)] ++ sec true ++ pushing false n0 1003 5 ++ pushing false n1 1004 6 ++ sec true)
    (by simp [sec, pushing]) (by decide +kernel)

open ExMu Sharded in
/-- `size` is not a snapshot either: it counts two names although there is at most one at every moment. -/
theorem C86_size_refuted : ¬ C86_FullClaim (fun c => (∃ p handler, c = .push p handler) ∨ (∃ name, c = .del name) ∨ c = .size) :=
  C86_witness exactEnv opt2 List.length 2 rfl
    (pushing false n0 1003 5 ++ [.call true .size] ++ sec true ++ deleting false n0 ++ pushing false n1 1004 6 ++ sec true)
    (by simp [sec, pushing, deleting]) (by decide +kernel)

open ExMu Sharded in
/-- `multi_push` can be seen half done. -/
theorem C86_multi_push_refuted : ¬ C86_FullClaim (fun c => (∃ ps handler, c = .multiPush ps handler) ∨ ∃ name, c = .del name) :=
  C86_witness exactEnv opt2 List.length 2 rfl
    ([.call true (.multiPush [ExMulti.arg n0 1003 [5], ExMulti.arg n1 1003 [6]] true), .go true] ++ sec true ++
      deleting false n0 ++ deleting false n1 ++ [.go true] ++ sec true)
    (by simp [sec, deleting]) (by decide +kernel)

/-- Not all calls are linearizable. -/
theorem C86_refuted : ¬ C86_FullClaim (fun _ => True) := by
  intro h
  refine C86_multi_push_refuted ?_
  intro T _ n _ env opt hash hn m hm
  refine h T n env opt hash hn m ?_
  unfold MuReach Sharded.Reach at hm ⊢
  induction hm with
  | refl => exact .refl
  | @tail a b _ hab ih =>
    refine ih.tail ?_
    cases hab with
    | call t c sec rest hP hp hc => exact .call a t c sec rest trivial hp hc
    | lock t c done sec rest hp ho => exact .lock a t c done sec rest hp ho
    | small t c done sec rest l l' s' hp hn => exact .small a t c done sec rest l l' s' hp hn
    | last t c done sec rest l r s' hp hn => exact .last a t c done sec rest l r s' hp hn
    | again t c done sec sec' rest r hp hr => exact .again a t c done sec sec' rest r hp hr
    | ret t c done sec rest r hp hr => exact .ret a t c done sec rest r hp hr

open ExMu Sharded in
/-- Two threads in two shards at the same time, and a third call that waits: the results. -/
example : (match play (muCode 2 List.length (AggMap.body exactEnv opt2 2)) (init fun _ => [])
      ([.call true (.push (ExMulti.arg n0 1003 [5]) true), .call false (.push (ExMulti.arg n1 1003 [6]) true), .go true, .go false,
        .go true, .go false, .go false, .go false, .call false (.pushout true true ExMulti.ord), .go true, .go true] ++
        sec false ++ sec false) with
    | some m => decide ((resOf true m.hist).map Prod.snd = [.ok { flag := [true] }]) &&
        decide ((resOf false m.hist).map (fun x => (okRes x.2).out.map fun q => (q.1, q.2.data)) = [[], [(n0, [5]), (n1, [6])]])
    | none => false) = true := by
  decide +kernel

open ExMu Sharded in
/-- A thread that wants a shard another one is in has to wait. -/
example : (play (muCode 2 List.length (AggMap.body exactEnv opt2 2)) (init fun _ => [])
      [.call true (.push (ExMulti.arg n0 1003 [5]) true), .call false (.del n0), .go true, .go true, .go false]).isNone = true := by
  decide +kernel

end Wrtstat
