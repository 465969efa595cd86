/-
Runs with handlers that throw: the records received and waiting share out the events recorded, and a call that threw is
completed by making it again.
-/
import Verif.Lemmas.Quiet
import Verif.Model.Throwing

namespace Wrtstat
namespace Aggregator

set_option autoImplicit false

theorem seqX_inv {f : AObs → AOp → M (AObs × Bool)} {I : AObs → Prop} {c : Bool} (l : List AOp)
    (hf : ∀ op ∈ l, ∀ o p, I o → f o op = .ok p → I p.1) : ∀ {o : AObs} {p : AObs × Bool}, I o → seqX f c l o = .ok p → I p.1 := by
  induction l with
  | nil => intro o p h e; cases e; exact h
  | cons op l ih =>
    intro o p h e
    rw [seqX] at e
    obtain ⟨⟨o1, th⟩, h1, e⟩ := bind_inv e
    have g := hf op (by simp) o _ h h1
    simp only at e g
    split_ifs at e with hc
    · cases e; exact g
    · exact ih (fun op' h' => hf op' (by simp [h'])) g e

theorem parted_execX {env : Env} {opt : AggregatorOpts} {Q : List AddArg → AggData → Prop} {H : THandler}
    (hQ : ∀ as d, Report env opt as d → Q as d) (hs : 0 < opt.step) (hH : ∀ l, ∀ op ∈ (H l).ops, op.clockOk)
    (hR : ∀ as d, Summary env opt.limit opt.levels as d → Q as d) (k : Nat) :
    (∀ op o p, op.clockOk → Parted env opt Q o → execX env H k o op = .ok p → Parted env opt Q p.1) ∧
    (∀ raw ts o p, Parted env opt Q o → loopX env H raw k ts o = .ok p → Parted env opt Q p.1) := by
  induction k with
  | zero =>
    refine ⟨fun op o p _ _ h => ?_, fun raw ts o p _ h => ?_⟩
    · rw [execX] at h; cases h
    · rw [loopX] at h; cases h
  | succ k ih =>
    refine ⟨fun op o p hc g h => ?_, fun raw ts o p g h => ?_⟩
    · have plain : (do let o ← exec env o op; .ok (o, false) : M (AObs × Bool)) = .ok p → Parted env opt Q p.1 := by
        intro h
        obtain ⟨o1, h1, h⟩ := bind_inv h
        cases h
        exact parted_exec hQ hs g op hc (fun _ => hR) h1
      cases op with
      | push clk1 clk2 ts x handler =>
        cases handler with
        | false => exact plain (by rw [execX] at h; exact h; simp; simp)
        | true =>
          rw [execX] at h
          split_ifs at h with he
          · cases h; exact g
          · obtain ⟨t, h1, h⟩ := bind_inv h
            obtain ⟨t', h2, h⟩ := bind_inv h
            obtain ⟨⟨o1, th⟩, h3, h⟩ := bind_inv h
            have g1 := ih.2 false t' o _ g h3
            simp only at h g1
            split_ifs at h
            · cases h; exact g1
            · cases h; exact g1
            · cases h; exact parted_add hs g1 t x
      | separate clk ts handler force =>
        cases handler with
        | false => exact plain (by rw [execX] at h; exact h; simp; simp)
        | true =>
          rw [execX] at h
          obtain ⟨t, h1, h⟩ := bind_inv h
          obtain ⟨⟨o1, th⟩, h3, h⟩ := bind_inv h
          have g1 := ih.2 true t o _ g h3
          simp only at h g1
          split_ifs at h
          · cases h; exact g1
          · obtain ⟨a, h4, h⟩ := bind_inv h
            cases h
            obtain ⟨acc, gR, gA, gS, cur, g1, hp⟩ := g1
            exact ⟨acc, _, _, _, _, pgood_aggregate0 g1 h4, hp⟩
      | add => exact plain (by rw [execX] at h; exact h; simp; simp)
      | pop => exact plain (by rw [execX] at h; exact h; simp; simp)
      | forcePop => exact plain (by rw [execX] at h; exact h; simp; simp)
      | look => exact plain (by rw [execX] at h; exact h; simp; simp)
      | enable => exact plain (by rw [execX] at h; exact h; simp; simp)
    · rw [loopX] at h
      split_ifs at h with hn
      · obtain ⟨⟨d, r⟩, h1, h⟩ := bind_inv h
        have g1 := parted_detach (raw := raw) g hQ (fun _ => hR) h1
        simp only at h
        cases d with
        | none =>
          simp only [bind_ok', Bool.false_eq_true, if_false] at h g1
          exact ih.2 raw ts _ p (parted_next hs g1 _) h
        | some d =>
          simp only at h g1
          obtain ⟨⟨o1, th⟩, h2, h⟩ := bind_inv h
          obtain ⟨d', h3, h2⟩ := bind_inv h2
          obtain ⟨⟨o2, th2⟩, h4, h2⟩ := bind_inv h2
          cases h2
          have g3 : Parted env opt Q o2 := seqX_inv (I := Parted env opt Q) _
            (fun op hop o p g h => ih.1 op o p (hH _ op hop) g h) (g1 d' h3) h4
          simp only at h
          split_ifs at h with ht
          · cases h; exact g3
          · exact ih.2 raw ts _ p (parted_next hs g3 _) h
      · cases h; exact g

theorem parted_execAllX {env : Env} {opt : AggregatorOpts} {Q : List AddArg → AggData → Prop} {H : THandler}
    (hQ : ∀ as d, Report env opt as d → Q as d) (hs : 0 < opt.step) (hH : ∀ l, ∀ op ∈ (H l).ops, op.clockOk)
    (hR : ∀ as d, Summary env opt.limit opt.levels as d → Q as d) (k : Nat) (ops : List AOp) (hc : ∀ op ∈ ops, op.clockOk)
    {o o' : AObs} (g : Parted env opt Q o) (h : execAllX env H k o ops = .ok o') : Parted env opt Q o' := by
  obtain ⟨⟨o1, th⟩, h1, h⟩ := bind_inv h
  cases h
  exact seqX_inv (I := Parted env opt Q) ops (fun op hop o p g h => (parted_execX hQ hs hH hR k).1 op o p (hc op hop) g h) g h1

/-! ### Handlers that do nothing but throw -/

/-- The handler does not use the aggregator. -/
def Pure (H : THandler) : Prop := ∀ l, (H l).ops = []

/-- Where the loop ends. -/
def after (step ts next : Int) : Int := if ts < next then next else next + ((ts - next) / step + 1) * step

theorem after_step {step ts next : Int} (hs : 0 < step) (h : next ≤ ts) : after step ts (next + step) = after step ts next := by
  have e : ts - next = (ts - (next + step)) + 1 * step := by ring
  unfold after
  rw [if_neg (by omega : ¬ ts < next)]
  split_ifs with h1
  · have : (ts - next) / step = 0 := Int.ediv_eq_zero_of_lt (by omega) (by omega)
    rw [this]; ring
  · rw [e, Int.add_mul_ediv_right _ _ (by omega)]; ring

theorem detach_of_empty {env : Env} {r : Reducer} (h : r.empty = true) : r.detach env = .ok (none, r) := by
  unfold Reducer.detach
  rw [if_pos h]

theorem sepLoop_after {env : Env} {step ts : Int} (hs : 0 < step) {r : Reducer} (he : r.empty = true) :
    ∀ (n : Nat) (next : Int), (ts - next + 1).toNat ≤ n → Separator.sepLoop env step ts next r = .ok ([], after step ts next, r) := by
  intro n
  induction n with
  | zero =>
    intro next hn
    rw [Separator.sepLoop, dif_neg (by omega)]
    unfold after
    rw [if_pos (by omega)]
  | succ n ih =>
    intro next hn
    rw [Separator.sepLoop]
    split_ifs with h
    · rw [detach_of_empty he, bind_ok']
      simp only
      rw [ih (next + step) (by omega), bind_ok', after_step hs h]
      rfl
    · unfold after
      rw [if_pos (by omega)]

/-- The object after the loop has passed empty windows. -/
def AObs.passed (o : AObs) (ts : Int) : AObs :=
  { o with a := { o.a with sep := { o.a.sep with next := after o.a.sep.step ts o.a.sep.next } } }

theorem loopX_empty {env : Env} {H : THandler} {raw : Bool} {ts : Int} : ∀ (k : Nat) (o : AObs) (p : AObs × Bool),
    0 < o.a.sep.step → o.a.sep.reducer.empty = true → loopX env H raw k ts o = .ok p → p = (o.passed ts, false) := by
  intro k
  induction k with
  | zero => intro o p _ _ h; rw [loopX] at h; cases h
  | succ k ih =>
    intro o p hs he h
    rw [loopX] at h
    split_ifs at h with hn
    · rw [detach_of_empty he, bind_ok'] at h
      simp only [bind_ok', Bool.false_eq_true, if_false] at h
      have := ih _ p (by exact hs) (by exact he) h
      rw [this]
      unfold AObs.passed
      simp only [after_step hs hn]
    · cases h
      unfold AObs.passed after
      rw [if_pos (by omega)]

theorem loopX_empty_ok {env : Env} {H : THandler} {raw : Bool} {ts : Int} : ∀ (k : Nat) (o : AObs),
    0 < o.a.sep.step → o.a.sep.reducer.empty = true → (ts - o.a.sep.next + 1).toNat < k →
    loopX env H raw k ts o = .ok (o.passed ts, false) := by
  intro k
  induction k with
  | zero => intro o _ _ h; omega
  | succ k ih =>
    intro o hs he hk
    rw [loopX]
    split_ifs with hn
    · rw [detach_of_empty he, bind_ok']
      simp only [bind_ok', Bool.false_eq_true, if_false]
      rw [ih _ (by exact hs) (by exact he) (by simp only; omega)]
      unfold AObs.passed
      simp only [after_step hs hn]
    · unfold AObs.passed after
      rw [if_pos (by omega)]

theorem handOver_ts {env : Env} {raw : Bool} {a : Aggregator} {d d' : AggData} (h : handOver env raw a d = .ok d') : d'.ts = d.ts := by
  unfold handOver at h
  cases raw with
  | true => cases h; rfl
  | false =>
    obtain ⟨d'', e, hd⟩ := finish_spec env.nth a.outSize d
    simp only [Bool.false_eq_true, if_false] at h
    rw [e] at h
    cases h
    exact hd.ts

/-- A handler that only throws is called once at most: either the loop ends, or it is left by an exception with the window
handed over and everything else as before. -/
theorem loopX_pure {env : Env} {H : THandler} (hp : Pure H) {raw : Bool} {ts : Int} {k : Nat} {o : AObs} {p : AObs × Bool}
    (hs : 0 < o.a.sep.step) (h : loopX env H raw k ts o = .ok p) :
    ∃ out, p.1.received = o.received ++ out ∧ p.1.accepted = o.accepted ∧
      ∃ (l : List AggData) (r : Reducer), Separator.sepLoop env o.a.sep.step ts o.a.sep.next o.a.sep.reducer =
          .ok (l, after o.a.sep.step ts o.a.sep.next, r) ∧
        l.mapM (handOver env raw o.a) = .ok out ∧ (out = [] ∨ ∃ d, out = [d] ∧ d.ts = o.a.sep.next - o.a.sep.step) ∧
        (p.2 = false → p.1.a = { o.a with sep := { o.a.sep with next := after o.a.sep.step ts o.a.sep.next, reducer := r } }) ∧
        (p.2 = true → r.empty = true ∧ o.a.sep.next ≤ ts ∧ p.1.a = { o.a with sep := { o.a.sep with reducer := r } } ∧
          (H p.1.received).throws = true ∧ ∃ d, out = [d] ∧ d.ts = o.a.sep.next - o.a.sep.step) := by
  cases k with
  | zero => rw [loopX] at h; cases h
  | succ k =>
    rw [loopX] at h
    split_ifs at h with hn
    · obtain ⟨⟨d, r⟩, h1, h⟩ := bind_inv h
      have he := detach_empty h1
      simp only at h
      have hsl : Separator.sepLoop env o.a.sep.step ts o.a.sep.next o.a.sep.reducer =
          .ok ((d.map fun d => { d with ts := o.a.sep.next - o.a.sep.step }).toList, after o.a.sep.step ts o.a.sep.next, r) := by
        rw [Separator.sepLoop, dif_pos hn, dif_pos hs, h1, bind_ok']
        simp only
        rw [sepLoop_after hs he _ _ (le_refl _), bind_ok', after_step hs hn]
        simp
      cases d with
      | none =>
        simp only [bind_ok', Bool.false_eq_true, if_false] at h
        have := loopX_empty _ _ _ (by exact hs) (by exact he) h
        subst this
        refine ⟨[], by simp [AObs.passed], rfl, _, r, hsl, rfl, .inl rfl, fun _ => ?_, fun h => (by cases h)⟩
        simp only [AObs.passed, after_step hs hn]
      | some d =>
        simp only at h
        obtain ⟨⟨o1, th⟩, h2, h⟩ := bind_inv h
        obtain ⟨d', h3, h2⟩ := bind_inv h2
        rw [hp _, seqX, bind_ok'] at h2
        cases h2
        refine ⟨[d'], ?_⟩
        have hm : (Option.map (fun d : AggData => { d with ts := o.a.sep.next - o.a.sep.step }) (some d)).toList.mapM
            (handOver env raw o.a) = .ok [d'] := by
          have h3' : handOver env raw o.a { d with ts := o.a.sep.next - o.a.sep.step } = .ok d' := h3
          simp only [Option.map_some, Option.toList_some, List.mapM_cons, List.mapM_nil]
          rw [h3']
          rfl
        have hts : ∃ d, [d'] = [d] ∧ d.ts = o.a.sep.next - o.a.sep.step := ⟨d', rfl, handOver_ts h3⟩
        simp only [Bool.false_or] at h
        split_ifs at h with ht
        · cases h
          exact ⟨rfl, rfl, _, r, hsl, hm, .inr hts, fun h => (by cases h), fun _ => ⟨he, hn, rfl, ht, hts⟩⟩
        · have := loopX_empty _ _ _ (by exact hs) (by exact he) h
          subst this
          refine ⟨by simp [AObs.passed], rfl, _, r, hsl, hm, .inr hts, fun _ => ?_, fun h => (by cases h)⟩
          simp only [AObs.passed, after_step hs hn]
    · cases h
      have e : after o.a.sep.step ts o.a.sep.next = o.a.sep.next := by unfold after; rw [if_pos (by omega)]
      refine ⟨[], by simp, rfl, [], o.a.sep.reducer, ?_, rfl, .inl rfl, fun _ => by rw [e], fun h => (by cases h)⟩
      rw [Separator.sepLoop, dif_neg hn, e]

/-- The loop of the model in which handlers are lists of records. -/
theorem separate_of_loop {env : Env} {s : Separator} {clk ts t : Int} {force : Bool} {l : List AggData} {n : Int} {r : Reducer}
    (h1 : s.getTs clk ts = .ok t) (h2 : Separator.sepLoop env s.step t s.next s.reducer = .ok (l, n, r)) :
    ∃ b, s.separate env clk ts true force = .ok (b, l, { s with next := n, reducer := r }) := by
  unfold Separator.separate
  rw [h1, bind_ok']
  by_cases hc : force = false ∧ t < s.next
  · rw [Separator.sepLoop, dif_neg (by omega)] at h2
    cases h2
    rw [if_pos hc]
    exact ⟨false, rfl⟩
  · rw [if_neg hc, h2, bind_ok']
    exact ⟨true, rfl⟩

theorem mapM_raw {env : Env} {a : Aggregator} : ∀ {l out : List AggData}, l.mapM (handOver env true a) = .ok out → out = l := by
  intro l
  induction l with
  | nil => intro out h; cases h; rfl
  | cons d l ih =>
    intro out h
    rw [List.mapM_cons] at h
    obtain ⟨d', h1, h⟩ := bind_inv h
    obtain ⟨out', h2, h⟩ := bind_inv h
    cases h
    cases h1
    rw [ih h2]

theorem aggregate0_total (E : NthElement) (a : Aggregator) : ∃ a', aggregate0_ E a = .ok a' ∧ a'.sep = { a.sep with sepList := [] } ∧
    ∃ ext, a'.agList = a.agList ++ ext := by
  unfold aggregate0_
  have : ∀ l : List AggData, ∃ out, l.mapM (finish E a.outSize) = .ok out := by
    intro l
    induction l with
    | nil => exact ⟨[], rfl⟩
    | cons d l ih =>
      obtain ⟨d', h1, _⟩ := finish_spec E a.outSize d
      obtain ⟨out, h2⟩ := ih
      exact ⟨d' :: out, by rw [List.mapM_cons, h1, bind_ok', h2]; rfl⟩
  obtain ⟨out, h⟩ := this a.sep.sepList
  rw [h]
  exact ⟨_, rfl, rfl, _, rfl⟩

/-- With a handler that only throws, a call that does not throw does what it does with handlers that return.  A call that
throws records nothing and gives one record, and making it again completes it. -/
theorem execX_pure {env : Env} {H : THandler} (hp : Pure H) {k : Nat} {o o1 : AObs} {op : AOp} {th : Bool}
    (hs : 0 < o.a.sep.step) (h : execX env H k o op = .ok (o1, th)) :
    ∃ o2, exec env o op = .ok o2 ∧ (th = false → o1 = o2) ∧
      (th = true → o1.accepted = o.accepted ∧ o1.received = o2.received ∧ (∃ d, o1.received = o.received ++ [d] ∧ d.ts = o.a.sep.next - o.a.sep.step) ∧
        (∃ r, o1.a = { o.a with sep := { o.a.sep with reducer := r } }) ∧
        (H o1.received).throws = true ∧ ∃ K, ∀ k', K ≤ k' → execX env H k' o1 op = .ok (o2, false)) := by
  cases k with
  | zero => rw [execX] at h; cases h
  | succ k =>
    have plain : (do let o ← exec env o op; .ok (o, false) : M (AObs × Bool)) = .ok (o1, th) →
        ∃ o2, exec env o op = .ok o2 ∧ (th = false → o1 = o2) ∧
          (th = true → o1.accepted = o.accepted ∧ o1.received = o2.received ∧ (∃ d, o1.received = o.received ++ [d] ∧ d.ts = o.a.sep.next - o.a.sep.step) ∧
        (∃ r, o1.a = { o.a with sep := { o.a.sep with reducer := r } }) ∧
            (H o1.received).throws = true ∧ ∃ K, ∀ k', K ≤ k' → execX env H k' o1 op = .ok (o2, false)) := by
      intro h
      obtain ⟨o2, h1, h⟩ := bind_inv h
      cases h
      exact ⟨_, h1, fun _ => rfl, fun h => (by cases h)⟩
    cases op with
    | push clk1 clk2 ts x handler =>
      cases handler with
      | false => exact plain (by rw [execX] at h; exact h; simp; simp)
      | true =>
        rw [execX] at h
        by_cases he : o.a.enabled = false
        · rw [if_pos he] at h
          cases h
          refine ⟨o, ?_, fun _ => rfl, fun h => (by cases h)⟩
          rw [exec, push, if_pos he, bind_ok']
          simp [AObs.record, he]
        · rw [if_neg he] at h
          obtain ⟨t, h1, h⟩ := bind_inv h
          obtain ⟨t', h2, h⟩ := bind_inv h
          obtain ⟨⟨o2, th2⟩, h3, h⟩ := bind_inv h
          obtain ⟨out, e1, e2, l, r, hl, hm, hlen, hf, ht⟩ := loopX_pure hp hs h3
          obtain ⟨b, hsep⟩ := separate_of_loop (force := false) h2 hl
          have hm' : l.mapM (finish env.nth o.a.outSize) = .ok out := hm
          have hal : t = align o.a.sep.step (meant o.a.sep.resolution clk1 ts) := by
            have := getTs_align hs clk1 ts
            rw [h1] at this
            exact (Except.ok.inj this)
          have hen : o.a.enabled = true := by simpa using he
          simp only at h e1 e2 hf ht
          by_cases hlate : t < after o.a.sep.step t' o.a.sep.next - o.a.sep.step
          · refine ⟨⟨{ o.a with sep := { o.a.sep with next := after o.a.sep.step t' o.a.sep.next, reducer := r } },
              o.received ++ out, o.accepted⟩, ?_, fun hth => ?_, fun hth => ?_⟩
            · rw [exec, push, if_neg he, if_neg (by simp), Separator.push, h1, bind_ok', hsep, bind_ok']
              simp only
              rw [if_pos hlate, bind_ok']
              simp only
              rw [hm', bind_ok', bind_ok']
              simp [AObs.record]
            · split_ifs at h with c1 c2
              · cases h; cases hth
              · cases h
                obtain ⟨a2, r2, acc2⟩ := o1
                simp only at e1 e2 hf
                rw [e1, e2, hf (by simpa using c1)]
              · cases h
                rw [hf (by simpa using c1)] at c2
                exact absurd hlate c2
            · split_ifs at h with c1 c2
              · cases h
                obtain ⟨f1, f2, f3, f4, dx, f5, f6⟩ := ht c1
                refine ⟨e2, e1, ⟨dx, by rw [e1, f5], f6⟩, ⟨r, f3⟩, f4, (t' - o.a.sep.next + 1).toNat + 2, fun k' hk => ?_⟩
                obtain ⟨a2, r2, acc2⟩ := o1
                simp only at e1 e2 f3
                subst f3
                obtain ⟨m, rfl⟩ : ∃ m, k' = m + 1 := ⟨k' - 1, by omega⟩
                rw [execX, if_neg (by simpa using he)]
                have h1' : Separator.getTs { o.a.sep with reducer := r } clk1 ts = .ok t := h1
                have h2' : Separator.getTs { o.a.sep with reducer := r } clk2 t = .ok t' := h2
                rw [h1', bind_ok', h2', bind_ok', loopX_empty_ok m _ (by exact hs) (by exact f1) (by simp only; omega), bind_ok']
                simp only [AObs.passed, Bool.false_eq_true, if_false]
                rw [e1, e2]
                exact if_pos hlate
              · cases h; cases hth
              · cases h; cases hth
          · refine ⟨⟨{ o.a with sep := { o.a.sep with next := after o.a.sep.step t' o.a.sep.next, reducer := r.add env x } },
              o.received ++ out, o.accepted ++ [(t, x)]⟩, ?_, fun hth => ?_, fun hth => ?_⟩
            · rw [exec, push, if_neg he, if_neg (by simp), Separator.push, h1, bind_ok', hsep, bind_ok']
              simp only
              rw [if_neg hlate, bind_ok']
              simp only
              rw [hm', bind_ok', bind_ok']
              simp [AObs.record, hen, hal]
            · split_ifs at h with c1 c2
              · cases h; cases hth
              · cases h
                rw [hf (by simpa using c1)] at c2
                exact absurd c2 hlate
              · cases h
                obtain ⟨a2, r2, acc2⟩ := o2
                simp only at e1 e2 hf
                rw [e1, e2, hf (by simpa using c1)]
            · split_ifs at h with c1 c2
              · cases h
                obtain ⟨f1, f2, f3, f4, dx, f5, f6⟩ := ht c1
                refine ⟨e2, e1, ⟨dx, by rw [e1, f5], f6⟩, ⟨r, f3⟩, f4, (t' - o.a.sep.next + 1).toNat + 2, fun k' hk => ?_⟩
                obtain ⟨a2, r2, acc2⟩ := o1
                simp only at e1 e2 f3
                subst f3
                obtain ⟨m, rfl⟩ : ∃ m, k' = m + 1 := ⟨k' - 1, by omega⟩
                rw [execX, if_neg (by simpa using he)]
                have h1' : Separator.getTs { o.a.sep with reducer := r } clk1 ts = .ok t := h1
                have h2' : Separator.getTs { o.a.sep with reducer := r } clk2 t = .ok t' := h2
                rw [h1', bind_ok', h2', bind_ok', loopX_empty_ok m _ (by exact hs) (by exact f1) (by simp only; omega), bind_ok']
                simp only [AObs.passed, Bool.false_eq_true, if_false]
                rw [e1, e2]
                exact if_neg hlate
              · cases h; cases hth
              · cases h; cases hth
    | separate clk ts handler force =>
      cases handler with
      | false => exact plain (by rw [execX] at h; exact h; simp; simp)
      | true =>
        rw [execX] at h
        obtain ⟨t, h1, h⟩ := bind_inv h
        obtain ⟨⟨o2, th2⟩, h3, h⟩ := bind_inv h
        obtain ⟨out, e1, e2, l, r, hl, hm, hlen, hf, ht⟩ := loopX_pure hp hs h3
        obtain ⟨b, hsep⟩ := separate_of_loop (force := force) h1 hl
        have hm' := mapM_raw hm
        subst hm'
        simp only at h e1 e2 hf ht
        obtain ⟨a', ha, -⟩ := aggregate0_total env.nth
          { o.a with sep := { o.a.sep with next := after o.a.sep.step t o.a.sep.next, reducer := r } }
        refine ⟨⟨a', o.received ++ out, o.accepted⟩, ?_, fun hth => ?_, fun hth => ?_⟩
        · rw [exec, separate, hsep, bind_ok']
          simp only
          rw [ha, bind_ok', bind_ok']
        · split_ifs at h with c1
          · cases h; cases hth
          · rw [hf (by simpa using c1), ha, bind_ok'] at h
            cases h
            obtain ⟨a2, r2, acc2⟩ := o2
            simp only at e1 e2
            rw [e1, e2]
        · split_ifs at h with c1
          · cases h
            obtain ⟨f1, f2, f3, f4, dx, f5, f6⟩ := ht c1
            refine ⟨e2, e1, ⟨dx, by rw [e1, f5], f6⟩, ⟨r, f3⟩, f4, (t - o.a.sep.next + 1).toNat + 2, fun k' hk => ?_⟩
            obtain ⟨a2, r2, acc2⟩ := o1
            simp only at e1 e2 f3
            subst f3
            obtain ⟨m, rfl⟩ : ∃ m, k' = m + 1 := ⟨k' - 1, by omega⟩
            rw [execX]
            have h1' : Separator.getTs { o.a.sep with reducer := r } clk ts = .ok t := h1
            rw [h1', bind_ok', loopX_empty_ok m _ (by exact hs) (by exact f1) (by simp only; omega), bind_ok']
            simp only [AObs.passed, Bool.false_eq_true, if_false]
            rw [ha, bind_ok', e1, e2]
          · obtain ⟨_, _, h⟩ := bind_inv h
            cases h; cases hth
    | add => exact plain (by rw [execX] at h; exact h; simp; simp)
    | pop => exact plain (by rw [execX] at h; exact h; simp; simp)
    | forcePop => exact plain (by rw [execX] at h; exact h; simp; simp)
    | look => exact plain (by rw [execX] at h; exact h; simp; simp)
    | enable => exact plain (by rw [execX] at h; exact h; simp; simp)

end Aggregator
end Wrtstat
