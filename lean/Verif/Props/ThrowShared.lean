/-
C177: a multi aggregator shared by threads whose handlers throw.
-/
import Verif.Model.ThrowingMultiMt
import Verif.Props.ThrowAccount

namespace Wrtstat

set_option autoImplicit false

open Multi Single

/-- What is known of a section: its operation, if it threw and of which names requests were given. -/
def MuSecX.noted {n : Nat} (x : MuSecX n) (r : MuResX) : List (MOp × Outcome) :=
  x.sec.op.map fun op => (op, { threw := r.threw, given := r.res.out.map Prod.fst })

/-- What is known of a section of the shard of a name. -/
def MuSecX.forName {n : Nat} [NeZero n] (hash : Name → Nat) (name : Name) (x : MuSecX n) (r : MuResX) : List (MOp × Outcome) :=
  if Fin.ofNat n (hash name) = x.sec.pos hash then x.noted r else []

/-- `multi_aggregator` with `n` shards and threads `T`, that make calls in `P`. -/
def MuReachX {T L : Type} [DecidableEq T] (n : Nat) [NeZero n] (hash : Name → Nat) (b : Body AggMap (MuSecX n) (M MuResX) L)
    (P : MuCallX → Prop) (m : Sharded T (Fin n) AggMap (MuSecX n) (M MuResX) MuCallX (M MuResX) L) : Prop :=
  Sharded.Reach (muCodeX n hash b) P (fun _ => []) m

/-- The result of a section that did not fault. -/
def okResX (r : M MuResX) : MuResX :=
  match r with
  | .ok r => r
  | .error _ => {}

section

variable {env : Env} {n : Nat} {opt : MultiOpts} {hash : Name → Nat}

theorem AggMap.pushX_opt (opt opt' : MultiOpts) (h : opt.toAggregatorOpts = opt'.toAggregatorOpts) (s : AggMap) :
    s.pushX env opt = s.pushX env opt' := by
  funext a b c d e f g
  simp only [AggMap.pushX, AggMap.orNew, h]

/-- A section of a shard is a call of a multi aggregator with one shard. -/
theorem one_secX {m M : Int} (s : AggMap) (x : MuSecX n) (hf : x.sec.apt m M) (op : MOp) (hop : x.sec.op = [op]) (dl : List PushReq) (an : List (Name × Bool)) :
    mexecX env { m := oneShard opt s, delivered := dl, answers := an } x.thr op = (s.secX env opt x).map fun y =>
      ({ m := oneShard opt y.2, delivered := dl ++ y.1.res.out, answers := an ++ x.sec.answer y.1.res },
        { threw := y.1.threw, given := y.1.res.out.map Prod.fst }) := by
  obtain ⟨sec, thr⟩ := x
  cases sec with
  | push p handler =>
    cases hop
    obtain ⟨rfl, -⟩ : handler = true ∧ _ := hf (.push p handler) (by simp [MuSec.op])
    simp only [mexecX, Multi.pushX, getPos, shard, oneShard]
    simp only [Nat.one_ne_zero, if_false, bind_ok', Nat.mod_one, List.getElem?_cons_zero, AggMap.secX,
      AggMap.pushX_opt { opt with hashSize := 1 } opt rfl]
    cases s.pushX env opt p.name p.v p.clk p.rand p.clk1 p.clk2 fun r => thr [r] with
    | error e => rfl
    | ok x => simp [bind_ok', Except.map, MuSec.answer]
  | del name =>
    cases hop
    simp only [mexecX, Multi.del, getPos, shard, oneShard]
    simp only [Nat.one_ne_zero, if_false, bind_ok', Nat.mod_one, List.getElem?_cons_zero, AggMap.secX, AggMap.sec]
    simp [Except.map, MuSec.answer]
  | pushout i force handler ord =>
    cases hop
    have hh : handler = true := hf (.pushout force handler ord) (by simp [MuSec.op])
    subst hh
    simp only [mexecX, Multi.popAllX, popShardsX, oneShard, AggMap.secX]
    cases s.popAllX env force thr [] ord with
    | error e => rfl
    | ok x =>
      obtain ⟨l, t, s'⟩ := x
      cases t <;> simp [bind_ok', Except.map, MuSec.answer]
  | size i => cases hop

theorem MOp.within_of_apt {m M : Int} {op : MOp} (h : op.apt m M) : op.within m M := by
  cases op with
  | push p _ => exact h.2
  | multiPush ps _ => exact h.2
  | del n => trivial
  | pushout f _ ord => trivial

/-- A section: it runs, the shape is kept, and the books of every name. -/
theorem secX_kept [NeZero n] {m M : Int} {g : Fin n → AggMap} (hs : 0 < opt.step) (B : Reducer.Bounds env m M)
    (hi : ShFit env opt.toAggregatorOpts hash m M g) (x : MuSecX n) (hf : x.sec.apt m M) :
    ∃ r s', (g (x.sec.pos hash)).secX env opt x = .ok (r, s') ∧
      ShFit env opt.toAggregatorOpts hash m M (Function.update g (x.sec.pos hash) s') ∧
      (r.threw = false → ∀ q, q <+: r.res.out → q ≠ [] → x.thr q = false) ∧
      (r.threw = true → r.res.out ≠ [] ∧ x.thr r.res.out = true ∧ ∀ q, q <+: r.res.out → q ≠ [] → q ≠ r.res.out → x.thr q = false) ∧
      ∀ name dl an A, Kept env opt.toAggregatorOpts name A (oneShard opt (g (Fin.ofNat n (hash name)))) dl an →
        Kept env opt.toAggregatorOpts name ((x.forName hash name r).foldl (MOp.enterX opt.toAggregatorOpts name) A)
          (oneShard opt (Function.update g (x.sec.pos hash) s' (Fin.ofNat n (hash name)))) (dl ++ r.res.out) (an ++ x.sec.answer r.res) := by
  obtain ⟨hn, hh, ht⟩ := hi (x.sec.pos hash)
  have hinv := one_inv (opt := opt) hn
  have htm : FitM env opt.toAggregatorOpts m M (oneShard opt (g (x.sec.pos hash))) := by
    intro name a ha
    rw [one_find] at ha
    exact ht name a ha
  by_cases hsz : ∃ op, x.sec.op = [op]
  swap
  · -- `size`
    obtain ⟨sec, thr⟩ := x
    cases sec with
    | size i =>
      refine ⟨_, _, rfl, ?_, ?_, fun h => (by cases h), ?_⟩
      · intro k
        by_cases hk : k = i
        · subst hk
          simp only [MuSec.pos, Function.update_self]
          exact hi k
        · simp only [MuSec.pos, Function.update_of_ne hk]
          exact hi k
      · intro _ q hq hne
        exact (hne (List.prefix_nil.1 hq)).elim
      · intro name dl an A K
        have e1 : MuSecX.forName hash name (⟨.size i, thr⟩ : MuSecX n) { res := { names := (g i).length, samples := ((g i).map fun p => p.2.dataSize).sum } } = [] := by
          simp [MuSecX.forName, MuSecX.noted, MuSec.op]
        simp only [MuSec.pos, Function.update_eq_self, MuSec.answer, List.append_nil] at e1 ⊢
        rw [e1]
        exact K
    | push p h => exact (hsz ⟨_, rfl⟩).elim
    | del k => exact (hsz ⟨_, rfl⟩).elim
    | pushout i f h o => exact (hsz ⟨_, rfl⟩).elim
  obtain ⟨op, hop⟩ := hsz
  have hw : op.within m M := MOp.within_of_apt (hf op (by rw [hop]; simp))
  obtain ⟨o', rr, e0, F0⟩ := mexecX_fits (o := { m := oneShard opt (g (x.sec.pos hash)) }) hs Nat.one_pos B hinv htm x.thr hw
  obtain ⟨r, s', hsec⟩ : ∃ r s', (g (x.sec.pos hash)).secX env opt x = .ok (r, s') := by
    rw [one_secX _ x hf op hop] at e0
    cases hx : (g (x.sec.pos hash)).secX env opt x with
    | error e => rw [hx] at e0; cases e0
    | ok y => exact ⟨y.1, y.2, rfl⟩
  have hone : ∀ dl an, mexecX env { m := oneShard opt (g (x.sec.pos hash)), delivered := dl, answers := an } x.thr op =
      .ok ({ m := oneShard opt s', delivered := dl ++ r.res.out, answers := an ++ x.sec.answer r.res },
        { threw := r.threw, given := r.res.out.map Prod.fst }) := by
    intro dl an
    rw [one_secX _ x hf op hop, hsec]
    rfl
  have hmin := kept_mexecX (opt := opt.toAggregatorOpts) hs hinv Nat.one_pos rfl (hone [] [])
  have hnd : (s'.map Prod.fst).Nodup := hmin.1.nodup s' (by simp [oneShard])
  have htame : AggMap.FitMap env opt.toAggregatorOpts m M s' := by
    rw [hone] at e0
    cases e0
    intro name a ha
    apply F0 name a
    rw [one_find]
    exact ha
  have hrest : (∀ k ∈ s'.map Prod.fst, Fin.ofNat n (hash k) = x.sec.pos hash) ∧
      (∀ name, Fin.ofNat n (hash name) ≠ x.sec.pos hash → about name r.res.out = [] ∧ about name (x.sec.answer r.res) = []) ∧
      (r.threw = false → ∀ q, q <+: r.res.out → q ≠ [] → x.thr q = false) ∧
      (r.threw = true → r.res.out ≠ [] ∧ x.thr r.res.out = true ∧ ∀ q, q <+: r.res.out → q ≠ [] → q ≠ r.res.out → x.thr q = false) := by
    obtain ⟨sec, thr⟩ := x
    cases sec with
    | push p handler =>
      obtain ⟨rfl, -⟩ : handler = true ∧ _ := hf (.push p handler) (by simp [MuSec.op])
      have hst : (r.threw = false → ∀ q, q <+: r.res.out → q ≠ [] → thr q = false) ∧
          (r.threw = true → r.res.out ≠ [] ∧ thr r.res.out = true ∧ ∀ q, q <+: r.res.out → q ≠ [] → q ≠ r.res.out → thr q = false) := by
        cases hop
        have e := hone [] []
        obtain ⟨⟨res, l, m'⟩, h1, h2⟩ := bind_inv e
        simp only [Except.ok.injEq, Prod.mk.injEq, MObs.mk.injEq, Outcome.mk.injEq, List.nil_append] at h2
        obtain ⟨⟨-, h3, -⟩, h4, -⟩ := h2
        have hmp : multiPushX env thr [] [p] (oneShard opt (g ((MuSec.push p true : MuSec n).pos hash))) = .ok (res.isNone, l, m') := by
          rw [multiPushX]
          simp only [List.nil_append]
          rw [h1, bind_ok']
          cases res with
          | none => rfl
          | some b => simp [multiPushX, bind_ok']
        rw [← h3, ← h4]
        exact C113_stop_partial env thr [p] _ m' _ l hmp
      simp only [AggMap.secX] at hsec
      obtain ⟨⟨ok, l, s1⟩, h1, h2⟩ := bind_inv hsec
      cases h2
      obtain ⟨a, h3, h1⟩ := bind_inv h1
      obtain ⟨⟨ok', out, a'⟩, h4, h1⟩ := bind_inv h1
      cases h1
      refine ⟨?_, ?_, hst⟩
      · intro k hk
        rcases (AggMap.mem_keys_put _ _ _ _).1 hk with rfl | hk
        · rfl
        · exact hh k hk
      · intro name hk
        have hne : p.name ≠ name := by
          rintro rfl
          exact hk rfl
        exact ⟨by rw [about_map', if_neg hne], by cases ok <;> simp [MuSec.answer, about, hne]⟩
    | del k =>
      cases hsec
      refine ⟨fun k hk => hh k ((AggMap.del_keys _ _).subset hk), fun name hk => ?_, fun _ q hq hne => (hne (List.prefix_nil.1 hq)).elim, fun h => (by cases h)⟩
      have hne : k ≠ name := by
        rintro rfl
        exact hk rfl
      exact ⟨rfl, by simp [MuSec.answer, about, hne]⟩
    | pushout i force handler ord =>
      have hht : handler = true := hf (.pushout force handler ord) (by simp [MuSec.op])
      subst hht
      have hst : (r.threw = false → ∀ q, q <+: r.res.out → q ≠ [] → thr q = false) ∧
          (r.threw = true → r.res.out ≠ [] ∧ thr r.res.out = true ∧ ∀ q, q <+: r.res.out → q ≠ [] → q ≠ r.res.out → thr q = false) := by
        cases hop
        have e := hone [] []
        obtain ⟨⟨l, t, m'⟩, h1, h2⟩ := bind_inv e
        simp only [Except.ok.injEq, Prod.mk.injEq, MObs.mk.injEq, Outcome.mk.injEq, List.nil_append] at h2
        obtain ⟨⟨-, h3, -⟩, h4, -⟩ := h2
        rw [← h3, ← h4]
        exact C112_multi_stop_partial env _ m' force thr ord l t h1
      simp only [AggMap.secX] at hsec
      obtain ⟨⟨l, t, s1⟩, h1, h2⟩ := bind_inv hsec
      cases h2
      have P := AggMap.popAllX_spec hn h1
      refine ⟨by rw [P.keys]; exact hh, fun name hk => ⟨?_, rfl⟩, hst⟩
      exact (P.absent name (AggMap.lookup_none.2 fun h => hk (hh name h))).2
    | size i => cases hop
  obtain ⟨hkeys, hout, hst1, hst2⟩ := hrest
  refine ⟨r, s', hsec, ?_, hst1, hst2, ?_⟩
  · intro k
    by_cases hk : k = x.sec.pos hash
    · subst hk
      rw [Function.update_self]
      exact ⟨hnd, hkeys, htame⟩
    · rw [Function.update_of_ne hk]
      exact hi k
  · intro name dl an A K
    by_cases hk : Fin.ofNat n (hash name) = x.sec.pos hash
    · rw [hk] at K
      have := (kept_mexecX (opt := opt.toAggregatorOpts) hs (o := { m := oneShard opt (g (x.sec.pos hash)), delivered := dl, answers := an })
        hinv Nat.one_pos rfl (hone dl an)).2.2 K
      simp only [MuSecX.forName, if_pos hk, MuSecX.noted, hop, List.map_cons, List.map_nil, List.foldl_cons, List.foldl_nil]
      rw [hk, Function.update_self]
      exact this
    · rw [Function.update_of_ne hk]
      simp only [MuSecX.forName, if_neg hk, List.foldl_nil]
      obtain ⟨k1, k2, k3⟩ := K
      obtain ⟨j1, j2⟩ := hout name hk
      exact ⟨by rw [about_append, j1, List.append_nil]; exact k1, by rw [about_append, j2, List.append_nil]; exact k2, k3⟩

theorem MuCallX.apt_sec {m M : Int} {c : MuCallX} (h : c.call.apt m M) {x : MuSecX n} (hx : x ∈ c.plan n) : x.sec.apt m M := by
  unfold MuCallX.plan at hx
  obtain ⟨i, hi, rfl⟩ := List.mem_mapIdx.1 hx
  exact MuCall.apt_sec h (List.getElem_mem hi)

theorem legalX_kept {T : Type} [NeZero n] {mi ma : Int} {L : Type} {b : Body AggMap (MuSecX n) (M MuResX) L} (hs : 0 < opt.step) (B : Reducer.Bounds env mi ma)
    {g g' : Fin n → AggMap} {lin : List (T × (MuCallX × MuSecX n) × M MuResX)}
    (hl : Legal (Sharded.Whole (muCodeX n hash b) (fun c => c.call.apt mi ma) (fun s => AggMap.SecSpecX env opt s)) g lin g')
    (hi : ShFit env opt.toAggregatorOpts hash mi ma g) :
    (∀ e ∈ lin, ∃ r, e.2.2 = .ok r ∧ (r.threw = false → ∀ q, q <+: r.res.out → q ≠ [] → e.2.1.2.thr q = false) ∧
      (r.threw = true → r.res.out ≠ [] ∧ e.2.1.2.thr r.res.out = true ∧ ∀ q, q <+: r.res.out → q ≠ [] → q ≠ r.res.out → e.2.1.2.thr q = false)) ∧
    ∀ name dl an A, Kept env opt.toAggregatorOpts name A (oneShard opt (g (Fin.ofNat n (hash name)))) dl an →
      Kept env opt.toAggregatorOpts name
        ((lin.flatMap fun e => e.2.1.2.forName hash name (okResX e.2.2)).foldl (MOp.enterX opt.toAggregatorOpts name) A)
        (oneShard opt (g' (Fin.ofNat n (hash name)))) (dl ++ lin.flatMap fun e => (okResX e.2.2).res.out)
        (an ++ lin.flatMap fun e => e.2.1.2.sec.answer (okResX e.2.2).res) := by
  induction hl with
  | nil => exact ⟨by simp, fun name dl an A K => by simpa using K⟩
  | cons g g1 g2 t x r l h _ ih =>
    obtain ⟨hPx, hx, s', hsp, rfl⟩ := h
    obtain ⟨r0, s0, e, hi1, h1, h2, hK⟩ := secX_kept hs B hi x.2 (MuCallX.apt_sec hPx hx)
    simp only [muCodeX] at hsp ih
    unfold AggMap.SecSpecX at hsp
    rw [e] at hsp
    obtain ⟨rfl, rfl⟩ := hsp
    obtain ⟨i1, i2⟩ := ih hi1
    refine ⟨?_, fun name dl an A K => ?_⟩
    · intro e he
      rcases List.mem_cons.1 he with rfl | he
      · exact ⟨r0, rfl, h1, h2⟩
      · exact i1 e he
    · have := i2 name _ _ _ (hK name dl an A K)
      simpa [okResX, List.foldl_append] using this

end

/-! ### C177 -/

/-- Threads share a multi aggregator, and their handlers throw whenever they like: there is one order of all sections,
respecting the order in each thread and in real time, in which nothing faults, a section hands over request after request
until its handler throws for the first time, and for every name requests and answers are those of the books of C173. -/
theorem C177_accounts {T L : Type} [DecidableEq T] {n : Nat} [NeZero n] (env : Env) (opt : MultiOpts) (hash : Name → Nat)
    (b : Body AggMap (MuSecX n) (M MuResX) L) (hb : ∀ x s r s', b.Runs (b.start x) s r s' → s.SecSpecX env opt x r s')
    (mi ma : Int) (B : Reducer.Bounds env mi ma) (hs : 0 < opt.step)
    (m : Sharded T (Fin n) AggMap (MuSecX n) (M MuResX) MuCallX (M MuResX) L) (h : MuReachX n hash b (fun c => c.call.apt mi ma) m) :
    ∃ lin : List (T × (MuCallX × MuSecX n) × M MuResX),
      (∀ h1 h2, m.shist = h1 ++ h2 → ∃ l1 l2, lin = l1 ++ l2 ∧
        ∀ t, resOf t h1 <+: opsOf t l1 ∧ (opsOf t l1).map Prod.fst <+: invOf t h1) ∧
      (∀ e ∈ lin, ∃ r, e.2.2 = .ok r ∧ (r.threw = false → ∀ q, q <+: r.res.out → q ≠ [] → e.2.1.2.thr q = false) ∧
        (r.threw = true → r.res.out ≠ [] ∧ e.2.1.2.thr r.res.out = true ∧
          ∀ q, q <+: r.res.out → q ≠ [] → q ≠ r.res.out → e.2.1.2.thr q = false)) ∧
      ∀ name, let A := accountX opt.toAggregatorOpts name (lin.flatMap fun e => e.2.1.2.forName hash name (okResX e.2.2))
        List.Forall₂ (Entry.Says env opt.toAggregatorOpts) A.made (about name (lin.flatMap fun e => (okResX e.2.2).res.out)) ∧
        about name (lin.flatMap fun e => e.2.1.2.sec.answer (okResX e.2.2).res) = A.said := by
  obtain ⟨lin, ⟨g', hl⟩, hsp⟩ := Sharded.sections (p := muCodeX n hash b) (spec := fun s => AggMap.SecSpecX env opt s) hb h
  have hi : ShFit (n := n) env opt.toAggregatorOpts hash mi ma (fun _ => []) := by
    intro k
    refine ⟨by simp, by simp, ?_⟩
    intro name a ha
    cases ha
  obtain ⟨k1, k2⟩ := legalX_kept hs B hl hi
  refine ⟨lin, hsp, k1, fun name => ?_⟩
  obtain ⟨j1, j2, -⟩ := k2 name [] [] {} ⟨.nil, rfl, by rw [one_find]; exact ⟨rfl, rfl⟩⟩
  simp only [List.nil_append] at j1 j2
  exact ⟨j1, j2⟩

/-- The bodies as they are written satisfy the condition. -/
theorem C177_bodies {n : Nat} (env : Env) (opt : MultiOpts) (x : MuSecX n) (s : AggMap) (r : M MuResX) (s' : AggMap)
    (h : (AggMap.bodyX env opt n).Runs ((AggMap.bodyX env opt n).start x) s r s') : s.SecSpecX env opt x r s' := by
  have one : ∀ (l : MuPosX n) (s : AggMap) (x : M (MuResX × AggMap)), (AggMap.bodyX env opt n).next l s = (match x with
      | .error e => (s, .inr (.error e))
      | .ok (r, s') => (s', .inr (.ok r))) → ∀ r s', (AggMap.bodyX env opt n).Runs l s r s' →
      (match x with
        | .ok (r0, s0) => r = .ok r0 ∧ s' = s0
        | .error e => r = .error e) := by
    intro l s x hx r s' h
    cases h with
    | last l s s' r hn =>
      rw [hx] at hn
      split at hn
      · cases hn; rfl
      · cases hn; exact ⟨rfl, rfl⟩
    | small l l' s s1 s' r hn _ =>
      rw [hx] at hn
      split at hn <;> cases hn
  obtain ⟨sec, thr⟩ := x
  cases sec with
  | push p handler =>
    cases handler with
    | false => exact one _ s (s.secX env opt (⟨.push p false, thr⟩ : MuSecX n)) rfl _ _ h
    | true =>
      cases h with
      | last l s s' r hn =>
        simp only [AggMap.bodyX] at hn
        split at hn
        · cases hn
          rename_i e he
          simp only [AggMap.SecSpecX, AggMap.secX, AggMap.pushX, he]
          rfl
        · cases hn
      | small l l' s s1 s' r hn hr =>
        simp only [AggMap.bodyX] at hn
        split at hn
        · cases hn
        · rename_i a ha
          cases hn
          have := one (.inserted ⟨.push p true, thr⟩) _ _ rfl _ _ hr
          simp only [AggMap.SecSpecX]
          have hsame : (s.put p.name a).secX (n := n) env opt ⟨.push p true, thr⟩ = s.secX (n := n) env opt ⟨.push p true, thr⟩ := by
            simp only [AggMap.secX, AggMap.pushX, AggMap.lookup_put, if_true, ha, AggMap.put_put]
            rfl
          rw [hsame] at this
          exact this
  | del name => exact one _ s (s.secX env opt (⟨.del name, thr⟩ : MuSecX n)) rfl _ _ h
  | pushout i force handler ord => exact one _ s (s.secX env opt ⟨.pushout i force handler ord, thr⟩) rfl _ _ h
  | size i => exact one _ s (s.secX env opt ⟨.size i, thr⟩) rfl _ _ h

/-- What a thread gets from its calls is made of its sections: those of the plan, in order, all of them unless one faults or
throws, which ends the call. -/
theorem C177_made_of_sections {T L : Type} [DecidableEq T] {n : Nat} [NeZero n] (hash : Name → Nat)
    (b : Body AggMap (MuSecX n) (M MuResX) L) (P : MuCallX → Prop)
    (m : Sharded T (Fin n) AggMap (MuSecX n) (M MuResX) MuCallX (M MuResX) L) (h : MuReachX n hash b P m) (t : T) :
    ∃ (G : List (MuCallX × List (MuSecX n × M MuResX))) (now : List ((MuCallX × MuSecX n) × M MuResX)),
      resOf t m.shist = G.flatMap (fun x => x.2.map fun e => ((x.1, e.1), e.2)) ++ now ∧
      resOf t m.hist = G.map (fun x => (x.1, (firstFault (x.2.map Prod.snd)).map x.1.put)) ∧
      ∀ x ∈ G, ∃ rest, x.1.plan n = x.2.map Prod.fst ++ rest ∧
        (rest = [] ∨ ∃ l sec r, x.2 = l ++ [(sec, r)] ∧ ((∃ e, r = .error e) ∨ ∃ y, r = .ok y ∧ y.threw = true)) := by
  obtain ⟨G, h1, h2, h3⟩ := Sharded.made h t
  have hG : ∀ x ∈ G, ∃ rest, x.1.plan n = x.2.map Prod.fst ++ rest ∧
      (rest = [] ∨ ∃ l sec r, x.2 = l ++ [(sec, r)] ∧ ((∃ e, r = .error e) ∨ ∃ y, r = .ok y ∧ y.threw = true)) := by
    intro x hx
    obtain ⟨rest, k1, k2⟩ := h2 x hx
    refine ⟨rest, k1, k2.imp id ?_⟩
    rintro ⟨l, ⟨sec, r⟩, k3, k4⟩
    cases r with
    | error e => exact ⟨l, sec, _, k3, .inl ⟨e, rfl⟩⟩
    | ok r => exact ⟨l, sec, _, k3, .inr ⟨r, rfl, k4⟩⟩
  cases hq : m.pc t <;> rw [hq] at h3
  · exact ⟨G, [], by rw [List.append_nil]; exact h3, h1, hG⟩
  all_goals
    obtain ⟨l, -, -, h3⟩ := h3
    exact ⟨G, _, h3, h1, hG⟩

/-- No call of a thread faults. -/
theorem C177_no_fault {T L : Type} [DecidableEq T] {n : Nat} [NeZero n] (env : Env) (opt : MultiOpts) (hash : Name → Nat)
    (b : Body AggMap (MuSecX n) (M MuResX) L) (hb : ∀ x s r s', b.Runs (b.start x) s r s' → s.SecSpecX env opt x r s')
    (mi ma : Int) (B : Reducer.Bounds env mi ma) (hs : 0 < opt.step)
    (m : Sharded T (Fin n) AggMap (MuSecX n) (M MuResX) MuCallX (M MuResX) L) (h : MuReachX n hash b (fun c => c.call.apt mi ma) m) (t : T)
    (c : MuCallX) (r : M MuResX) (hr : (c, r) ∈ resOf t m.hist) : ∃ x, r = .ok x := by
  obtain ⟨lin, hsp, hok, -⟩ := C177_accounts env opt hash b hb mi ma B hs m h
  obtain ⟨G, now, k1, k2, k3⟩ := C177_made_of_sections hash b _ m h t
  rw [k2, List.mem_map] at hr
  obtain ⟨x, hx, e⟩ := hr
  cases e
  have hall : ∀ y ∈ x.2.map Prod.snd, ∃ z, y = .ok z := by
    intro y hy
    obtain ⟨⟨sec, y'⟩, hy2, rfl⟩ := List.mem_map.1 hy
    have hmem : ((x.1, sec), y') ∈ resOf t m.shist := by
      rw [k1]
      exact List.mem_append_left _ (List.mem_flatMap.2 ⟨x, hx, List.mem_map.2 ⟨(sec, y'), hy2, rfl⟩⟩)
    obtain ⟨l1, l2, rfl, hb⟩ := hsp m.shist [] (by simp)
    have hmem : ((x.1, sec), y') ∈ opsOf t l1 := (hb t).1.subset hmem
    unfold opsOf at hmem
    rw [List.mem_filterMap] at hmem
    obtain ⟨e, he, h2⟩ := hmem
    split at h2
    · obtain ⟨z, hz, -⟩ := hok e (List.mem_append_left _ he)
      rw [Option.some.inj h2] at hz
      exact ⟨z, hz⟩
    · cases h2
  have hff : ∀ l : List (M MuResX), (∀ y ∈ l, ∃ z, y = .ok z) → ∃ zs, firstFault l = .ok zs := by
    intro l
    induction l with
    | nil => exact fun _ => ⟨[], rfl⟩
    | cons y l ih =>
      intro hl
      obtain ⟨z, rfl⟩ := hl y (by simp)
      obtain ⟨zs, hz⟩ := ih fun y hy => hl y (by simp [hy])
      refine ⟨z :: zs, ?_⟩
      unfold firstFault at hz ⊢
      rw [List.mapM_cons, hz]
      rfl
  obtain ⟨zs, hz⟩ := hff _ hall
  rw [hz]
  exact ⟨_, rfl⟩

/-- No deadlock: an exception leaves no mutex locked; as long as some thread is in a call, some thread in a call can take its next step. -/
theorem C177_no_deadlock {T L : Type} [DecidableEq T] {n : Nat} [NeZero n] (hash : Name → Nat)
    (b : Body AggMap (MuSecX n) (M MuResX) L) (P : MuCallX → Prop)
    (m : Sharded T (Fin n) AggMap (MuSecX n) (M MuResX) MuCallX (M MuResX) L) (h : MuReachX n hash b P m) (t : T) (ht : m.pc t ≠ .idle) :
    ∃ (u : T) (m' : Sharded T (Fin n) AggMap (MuSecX n) (M MuResX) MuCallX (M MuResX) L),
      Sharded.Step (muCodeX n hash b) P m m' ∧ m.pc u ≠ .idle ∧ m.move (muCodeX n hash b) u = some m' := by
  obtain ⟨u, hu⟩ := Sharded.no_deadlock h ht
  obtain ⟨m', hm⟩ := Option.isSome_iff_exists.1 hu
  refine ⟨u, m', Sharded.move_step hm, ?_, hm⟩
  intro hi
  unfold Sharded.move at hm
  rw [hi] at hm
  cases hm

/-- A handler that does not throw: the sections are those of C171. -/
theorem C177_calm {n : Nat} (env : Env) (opt : MultiOpts) (x : MuSecX n) (hx : ∀ l, x.thr l = false) (s s' : AggMap) (r : MuResX)
    (h : s.secX env opt x = .ok (r, s')) : r.threw = false ∧ s.sec env opt x.sec = .ok (r.res, s') := by
  obtain ⟨sec, thr⟩ := x
  have plain : s.secX env opt ⟨sec, thr⟩ = (do let (r, s) ← s.sec env opt sec; .ok ({ res := r }, s)) →
      r.threw = false ∧ s.sec env opt sec = .ok (r.res, s') := by
    intro e
    rw [e] at h
    obtain ⟨⟨r0, s0⟩, h1, h⟩ := bind_inv h
    cases h
    exact ⟨rfl, h1⟩
  cases sec with
  | push p handler =>
    cases handler with
    | false => exact plain rfl
    | true =>
      simp only [AggMap.secX] at h
      obtain ⟨⟨ok, l, s1⟩, h1, h⟩ := bind_inv h
      cases h
      obtain ⟨a, h2, h1⟩ := bind_inv h1
      obtain ⟨⟨ok', out, a'⟩, h3, h1⟩ := bind_inv h1
      cases h1
      obtain ⟨b, a2, g1, -, -, g2, g3⟩ := Aggregator.pushX_spec h3
      cases ok with
      | none =>
        obtain ⟨⟨d, -, hd⟩, -⟩ := g3 rfl
        exact absurd (hd.symm.trans (hx _)) (by simp)
      | some b' =>
        obtain ⟨rfl, rfl⟩ := g2 b' rfl
        refine ⟨rfl, ?_⟩
        simp only [AggMap.sec, AggMap.push, h2, bind_ok', g1]
        simp only [Bool.true_eq_false, and_false, if_false, bind_ok']
        rfl
  | pushout i force handler ord =>
    cases handler with
    | false => exact plain rfl
    | true =>
      simp only [AggMap.secX] at h
      obtain ⟨⟨l, t, s1⟩, h1, h⟩ := bind_inv h
      cases h
      obtain ⟨ns1, ns2, e, k1, k2, k3⟩ := AggMap.popLoopX_spec _ _ _ _ _ _ h1
      cases t with
      | true =>
        have := (k3 rfl).2.1
        exact absurd (this.symm.trans (hx _)) (by simp)
      | false =>
        obtain ⟨rfl, -⟩ := k2 rfl
        rw [List.append_nil] at e
        refine ⟨rfl, ?_⟩
        simp only [AggMap.sec, AggMap.popAll, e, k1, bind_ok']
  | del name => exact plain rfl
  | size i => exact plain rfl

/-! ### One thread -/

/-- The sections of a call one after the other, with no other thread in between, until one throws. -/
def runSecsX {n : Nat} [NeZero n] (env : Env) (opt : MultiOpts) (hash : Name → Nat) (g : Fin n → AggMap) :
    List (MuSecX n) → M (List MuResX × (Fin n → AggMap))
  | [] => .ok ([], g)
  | x :: l => do
    let (r, s) ← (g (x.sec.pos hash)).secX env opt x
    if r.threw = true then .ok ([r], Function.update g (x.sec.pos hash) s)
    else do
      let (rs, g) ← runSecsX env opt hash (Function.update g (x.sec.pos hash) s) l
      .ok (r :: rs, g)

/-- A call of the object of C173, when no other thread is there. -/
def Multi.callX (env : Env) (m : Multi) (T : Thrower) : MuCall → M (MuResX × Multi)
  | .push p true => do
    let (ok, l, m) ← m.pushX env p fun r => T [r]
    .ok ({ res := { flag := ok.toList, out := l }, threw := ok.isNone }, m)
  | .multiPush ps true => do
    let (t, l, m) ← multiPushX env T [] ps m
    .ok ({ res := { flag := if t then [] else [true], out := l }, threw := t }, m)
  | .pushout force true ord => do
    let (l, t, m) ← m.popAllX env force T ord
    .ok ({ res := { out := l }, threw := t }, m)
  | c => do
    let (r, m) ← m.call env c
    .ok ({ res := r }, m)

section

variable {env : Env} {n : Nat} {opt : MultiOpts} {hash : Name → Nat}

theorem AggMap.popLoopX_shift (force : Bool) (T : Thrower) (past : List PushReq) (ns : List Name) : ∀ (q : List PushReq) (s : AggMap),
    AggMap.popLoopX env force (fun l => T (past ++ l)) q ns s = AggMap.popLoopX env force T (past ++ q) ns s := by
  induction ns with
  | nil => intro q s; rfl
  | cons k ns ih =>
    intro q s
    unfold AggMap.popLoopX
    simp only [ih, List.append_assoc]

theorem asMulti_pushX [NeZero n] (g : Fin n → AggMap) (p : PushArg) (thr : PushReq → Bool) :
    (asMulti opt hash g).pushX env p thr =
      ((g (Fin.ofNat n (hash p.name))).pushX env opt p.name p.v p.clk p.rand p.clk1 p.clk2 thr).map fun x =>
        (x.1, x.2.1, asMulti opt hash (Function.update g (Fin.ofNat n (hash p.name)) x.2.2)) := by
  unfold Multi.pushX
  rw [asMulti_pos, bind_ok', asMulti_shard, bind_ok', AggMap.pushX_opt (asMulti opt hash g).opt opt rfl]
  cases (g (Fin.ofNat n (hash p.name))).pushX env opt p.name p.v p.clk p.rand p.clk1 p.clk2 thr with
  | error e => rfl
  | ok x => simp only [bind_ok', Except.map, asMulti, ofFn_update]

theorem runX_multiPush [NeZero n] (T : Thrower) (ps : List PushArg) : ∀ (past : List PushReq) (g : Fin n → AggMap), ∃ thr : Nat → Thrower,
    (runSecsX env opt hash g ((ps.map fun p => (.push p true : MuSec n)).mapIdx fun i sec => ⟨sec, thr i⟩)).map
        (fun x => (x.1.any MuResX.threw, x.1.flatMap (fun r => r.res.out), asMulti opt hash x.2)) =
      multiPushX env T past ps (asMulti opt hash g) ∧
    ∀ x, runSecsX env opt hash g ((ps.map fun p => (.push p true : MuSec n)).mapIdx fun i sec => ⟨sec, thr i⟩) = .ok x →
      (x.1.map fun r => r.res.names).sum = 0 ∧ (x.1.map fun r => r.res.samples).sum = 0 := by
  induction ps with
  | nil => intro past g; exact ⟨fun _ _ => false, rfl, fun x h => by cases h; simp⟩
  | cons p ps ih =>
    intro past g
    cases hp : (g (Fin.ofNat n (hash p.name))).pushX env opt p.name p.v p.clk p.rand p.clk1 p.clk2 fun r => T (past ++ [r]) with
    | error e =>
      refine ⟨fun _ q => T (past ++ q), ?_, fun x h => ?_⟩
      · simp only [List.map_cons, List.mapIdx_cons, runSecsX, multiPushX, asMulti_pushX, MuSec.pos, AggMap.secX, hp]
        rfl
      · simp only [List.map_cons, List.mapIdx_cons, runSecsX, MuSec.pos, AggMap.secX, hp] at h
        cases h
    | ok x =>
      obtain ⟨ok, l, s⟩ := x
      obtain ⟨thr, i1, i2⟩ := ih (past ++ l) (Function.update g (Fin.ofNat n (hash p.name)) s)
      refine ⟨fun i q => match i with | 0 => T (past ++ q) | i + 1 => thr i q, ?_, ?_⟩
      · simp only [List.map_cons, List.mapIdx_cons, runSecsX, multiPushX, asMulti_pushX, MuSec.pos, AggMap.secX, hp, bind_ok', Except.map]
        cases ok with
        | none => simp
        | some b =>
          simp only [Option.isNone_some, Bool.false_eq_true, if_false, reduceCtorEq]
          rw [← i1]
          cases hr : runSecsX env opt hash (Function.update g (Fin.ofNat n (hash p.name)) s)
              ((ps.map fun p => (.push p true : MuSec n)).mapIdx fun i sec => ⟨sec, thr i⟩) with
          | error e => rfl
          | ok y => simp [bind_ok', Except.map]
      · intro x h
        simp only [List.map_cons, List.mapIdx_cons, runSecsX, MuSec.pos, AggMap.secX, hp, bind_ok'] at h
        cases ok with
        | none =>
          simp only [Option.isNone_none, if_true] at h
          cases h
          simp
        | some b =>
          simp only [Option.isNone_some, Bool.false_eq_true, if_false] at h
          obtain ⟨⟨rs, g'⟩, hr, h⟩ := bind_inv h
          cases h
          simpa using i2 _ hr

theorem runX_pushout [NeZero n] (T : Thrower) (force : Bool) (ord : IterOrder) (is : List (Fin n)) : ∀ (past : List PushReq) (g : Fin n → AggMap), is.Nodup →
    ∃ thr : Nat → Thrower, match runSecsX env opt hash g ((is.map fun i => .pushout i force true ord).mapIdx fun i sec => ⟨sec, thr i⟩) with
    | .error e => popShardsX env force T ord past (is.map g) = .error e
    | .ok (rs, g') => popShardsX env force T ord past (is.map g) = .ok (rs.flatMap (fun r => r.res.out), rs.any MuResX.threw, is.map g') ∧
        (∀ i, i ∉ is → g' i = g i) ∧ rs.flatMap (fun r => r.res.flag) = [] ∧ (rs.map fun r => r.res.names).sum = 0 ∧ (rs.map fun r => r.res.samples).sum = 0 := by
  induction is with
  | nil => intro past g _; exact ⟨fun _ _ => false, rfl, fun _ _ => rfl, rfl, rfl, rfl⟩
  | cons i is ih =>
    intro past g hnd
    obtain ⟨hi, hnd⟩ := List.nodup_cons.1 hnd
    have hsh : (g i).popAllX env force (fun q => T (past ++ q)) [] ord = (g i).popAllX env force T past ord := by
      unfold AggMap.popAllX
      rw [AggMap.popLoopX_shift, List.append_nil]
    have hmap : ∀ s, is.map (Function.update g i s) = is.map g := by
      intro s
      apply List.map_congr_left
      intro j hj
      rw [Function.update_of_ne]
      rintro rfl
      exact hi hj
    cases hp : (g i).popAllX env force T past ord with
    | error e =>
      refine ⟨fun _ q => T (past ++ q), ?_⟩
      simp only [List.map_cons, List.mapIdx_cons, runSecsX, popShardsX, MuSec.pos, AggMap.secX, hsh, hp]
      rfl
    | ok x =>
      obtain ⟨l, t, s⟩ := x
      obtain ⟨thr, h⟩ := ih (past ++ l) (Function.update g i s) hnd
      refine ⟨fun i q => match i with | 0 => T (past ++ q) | i + 1 => thr i q, ?_⟩
      simp only [List.map_cons, List.mapIdx_cons, runSecsX, popShardsX, MuSec.pos, AggMap.secX, hsh, hp, bind_ok']
      rw [hmap] at h
      cases t with
      | true =>
        simp only [if_true]
        refine ⟨?_, fun j hj => ?_, rfl, rfl, rfl⟩
        · simp [hmap]
        · rw [Function.update_of_ne]
          rintro rfl
          exact hj (by simp)
      | false =>
        simp only [Bool.false_eq_true, if_false]
        cases hr : runSecsX env opt hash (Function.update g i s) ((is.map fun i => .pushout i force true ord).mapIdx fun i sec => ⟨sec, thr i⟩) with
        | error e =>
          rw [hr] at h
          simp only at h
          rw [h]
          rfl
        | ok y =>
          obtain ⟨rs, g'⟩ := y
          rw [hr] at h
          obtain ⟨k1, k2, k3, k4, k5⟩ := h
          simp only [bind_ok', k1]
          refine ⟨?_, fun j hj => ?_, ?_, ?_, ?_⟩
          · rw [k2 i hi, Function.update_self]
            simp
          · rw [k2 j (fun h => hj (by simp [h])), Function.update_of_ne]
            rintro rfl
            exact hj (by simp)
          · simpa using k3
          · simpa using k4
          · simpa using k5

/-- Sections without exceptions. -/
theorem runX_plain [NeZero n] (thr : Thrower) (l : List (MuSec n)) (hl : ∀ sec ∈ l, ∀ s : AggMap, s.secX env opt ⟨sec, thr⟩ = do
      let (r, s) ← s.sec env opt sec
      .ok ({ res := r }, s)) : ∀ (g : Fin n → AggMap),
    runSecsX env opt hash g (l.mapIdx fun _ sec => ⟨sec, thr⟩) =
      (runSecs env opt hash g l).map fun x => (x.1.map fun r => { res := r }, x.2) := by
  induction l with
  | nil => intro g; rfl
  | cons sec l ih =>
    intro g
    simp only [List.mapIdx_cons, runSecsX, runSecs]
    rw [hl sec (by simp)]
    cases (g (sec.pos hash)).sec env opt sec with
    | error e => rfl
    | ok x =>
      simp only [bind_ok', Bool.false_eq_true, if_false]
      rw [ih fun sec hs => hl sec (by simp [hs])]
      cases runSecs env opt hash (Function.update g (sec.pos hash) x.2) l with
      | error e => rfl
      | ok y => rfl

end

/-- The sections of a call made in a row, without other threads, are the call as it is in C173, for any handler. -/
theorem C177_alone {n : Nat} [NeZero n] (env : Env) (opt : MultiOpts) (hash : Name → Nat) (g : Fin n → AggMap) (c : MuCall) (T : Thrower) :
    ∃ thr, (runSecsX env opt hash g ((⟨c, thr⟩ : MuCallX).plan n)).map (fun x => ((⟨c, thr⟩ : MuCallX).put x.1, asMulti opt hash x.2)) =
      (asMulti opt hash g).callX env T c := by
  have plain : (asMulti opt hash g).callX env T c = (do let (r, m) ← (asMulti opt hash g).call env c; .ok ({ res := r }, m)) →
      (∀ sec ∈ c.plan n, ∀ s : AggMap, s.secX env opt ⟨sec, fun _ => false⟩ = do
        let (r, s) ← s.sec env opt sec
        .ok ({ res := r }, s)) →
      ∃ thr, (runSecsX env opt hash g ((⟨c, thr⟩ : MuCallX).plan n)).map (fun x => ((⟨c, thr⟩ : MuCallX).put x.1, asMulti opt hash x.2)) =
        (asMulti opt hash g).callX env T c := by
    intro e hl
    refine ⟨fun _ _ => false, ?_⟩
    rw [e, ← C86_alone]
    unfold MuCallX.plan
    rw [runX_plain _ _ hl]
    cases runSecs env opt hash g (c.plan n) with
    | error e => rfl
    | ok x =>
      have h1 : (x.1.map fun r => ({ res := r } : MuResX)).any MuResX.threw = false := by
        rw [List.any_eq_false]
        simp
      simp only [Except.map, bind_ok', MuCallX.put, h1, Bool.false_eq_true, if_false, List.map_map]
      simp [Function.comp_def]
  cases c with
  | push p handler =>
    cases handler with
    | false =>
      refine plain rfl fun sec hs s => ?_
      simp only [MuCall.plan, List.mem_singleton] at hs
      subst hs
      rfl
    | true =>
      refine ⟨fun _ => T, ?_⟩
      simp only [MuCallX.plan, MuCall.plan, List.mapIdx_cons, List.mapIdx_nil, runSecsX, AggMap.secX, MuSec.pos, Multi.callX, asMulti_pushX]
      cases (g (Fin.ofNat n (hash p.name))).pushX env opt p.name p.v p.clk p.rand p.clk1 p.clk2 fun r => T [r] with
      | error e => rfl
      | ok x =>
        obtain ⟨ok, l, s⟩ := x
        cases ok <;> simp [bind_ok', Except.map, MuCallX.put, MuCall.put]
  | multiPush ps handler =>
    cases handler with
    | false =>
      refine plain rfl fun sec hs s => ?_
      simp only [MuCall.plan, List.mem_map] at hs
      obtain ⟨p, -, rfl⟩ := hs
      rfl
    | true =>
      obtain ⟨thr, h1, h2⟩ := runX_multiPush (env := env) (opt := opt) (hash := hash) T ps [] g
      refine ⟨thr, ?_⟩
      simp only [MuCallX.plan, MuCall.plan, Multi.callX, ← h1]
      cases hr : runSecsX env opt hash g ((ps.map fun p => (.push p true : MuSec n)).mapIdx fun i sec => ⟨sec, thr i⟩) with
      | error e => rfl
      | ok x =>
        obtain ⟨k1, k2⟩ := h2 x hr
        simp only [Except.map, bind_ok', MuCallX.put, MuCall.put]
        cases ht : x.1.any MuResX.threw with
        | true => simp
        | false => simp [List.flatMap_map, Function.comp_def, k1, k2]
  | del name =>
    refine plain rfl fun sec hs s => ?_
    simp only [MuCall.plan, List.mem_singleton] at hs
    subst hs
    rfl
  | pushout force handler ord =>
    cases handler with
    | false =>
      refine plain rfl fun sec hs s => ?_
      simp only [MuCall.plan, List.mem_map] at hs
      obtain ⟨i, -, rfl⟩ := hs
      rfl
    | true =>
      obtain ⟨thr, h⟩ := runX_pushout (env := env) (opt := opt) (hash := hash) T force ord (List.finRange n) [] g (List.nodup_finRange n)
      refine ⟨thr, ?_⟩
      simp only [MuCallX.plan, MuCall.plan, Multi.callX, Multi.popAllX]
      have hsh : ∀ g : Fin n → AggMap, (asMulti opt hash g).shards = (List.finRange n).map g := fun g => by simp [asMulti, List.ofFn_eq_map]
      rw [hsh]
      cases hr : runSecsX env opt hash g (((List.finRange n).map fun i => .pushout i force true ord).mapIdx fun i sec => ⟨sec, thr i⟩) with
      | error e =>
        rw [hr] at h
        simp only at h
        rw [h]
        rfl
      | ok x =>
        rw [hr] at h
        obtain ⟨k1, -, k3, k4, k5⟩ := h
        rw [k1]
        simp only [Except.map, bind_ok', MuCallX.put, MuCall.put, ← hsh]
        cases ht : x.1.any MuResX.threw with
        | true => simp [asMulti]
        | false => simp [List.flatMap_map, Function.comp_def, k3, k4, k5, asMulti]
  | size =>
    refine plain rfl fun sec hs s => ?_
    simp only [MuCall.plan, List.mem_map] at hs
    obtain ⟨i, -, rfl⟩ := hs
    rfl

open ExMu Sharded in
/-- A `force_pushout` throws on the record of the first shard and does not come to the second; another thread then gets the
other record, and may use the first shard, too. -/
example : (match play (muCodeX 2 List.length (AggMap.bodyX exactEnv opt2 2)) (init fun _ => [])
      ([.call true { call := .push (ExMulti.arg n0 1003 [5]) true, thr := fun _ _ => true }, .call false { call := .push (ExMulti.arg n1 1003 [6]) true, thr := fun _ _ => true },
        .go true, .go false, .go true, .go false, .go false, .go false, .go true, .go true,
        .call true { call := .pushout true true ExMulti.ord, thr := fun _ _ => true }, .go true, .go true,
        .call false { call := .pushout true true ExMulti.ord, thr := fun _ _ => false }, .go true, .go false, .go false, .go false, .go false, .go false, .go false]) with
    | some m => decide ((resOf true m.hist).map (fun x => ((okResX x.2).threw, (okResX x.2).res.out.map fun q => (q.1, q.2.data))) =
          [(false, []), (true, [(n0, [5])])]) &&
        decide ((resOf false m.hist).map (fun x => ((okResX x.2).threw, (okResX x.2).res.out.map fun q => (q.1, q.2.data))) =
          [(false, []), (false, [(n1, [6])])])
    | none => false) = true := by
  decide +kernel

end Wrtstat
