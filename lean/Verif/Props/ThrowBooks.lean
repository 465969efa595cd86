/-
C172: the books of an aggregator whose handlers throw.
-/
import Verif.Props.Desk
import Verif.Props.Throwing

namespace Wrtstat

set_option autoImplicit false

open Aggregator

namespace Aggregator

/-! ### The books -/

/-- The slips a call gives to its handler. -/
def AOp.given (opt : AggregatorOpts) (D : Fullbook) : AOp → List Slip
  | .push clk clk2 ts _ true =>
    if D.en = false then []
    else finished (D.toDaybook.slip opt.step (align opt.step (meant opt.resolution clk2 (align opt.step (meant opt.resolution clk ts)))) true)
  | .separate clk ts true _ => D.toDaybook.slip opt.step (align opt.step (meant opt.resolution clk ts)) true
  | _ => []

/-- The books after a call that threw: the slip is made and the page is empty; the page is not turned and nothing is noted. -/
def AOp.torn (opt : AggregatorOpts) (D : Fullbook) (op : AOp) : Fullbook := { D with on := [], made := D.made ++ op.given opt D }

/-- The books after a call of which is known whether it threw. -/
def AOp.fullbookX (opt : AggregatorOpts) (D : Fullbook) (p : AOp × Bool) : Fullbook := if p.2 then p.1.torn opt D else p.1.fullbook opt D

/-- The books after a history of calls of which is known whether they threw. -/
def fullbookX (opt : AggregatorOpts) (begins : Int) (en : Bool) (ops : List (AOp × Bool)) : Fullbook :=
  ops.foldl (AOp.fullbookX opt) { begins := begins, en := en }

/-- A client that makes every call and keeps in mind which of them threw. -/
def keepX (env : Env) (H : THandler) (k : Nat) : List AOp → AObs → M (AObs × List (AOp × Bool))
  | [], o => .ok (o, [])
  | op :: ops, o => do
    let (o, th) ← execX env H k o op
    let (o, l) ← keepX env H k ops o
    .ok (o, (op, th) :: l)

/-! ### Handlers that catch or not -/

/-- The handler, catching nothing. -/
def THandler.calm (H : THandler) : THandler := fun l => { ops := (H l).ops, catches := false, throws := (H l).throws }

theorem loopX_calm {env : Env} {H : THandler} (hp : Pure H) {raw : Bool} (k : Nat) : ∀ (ts : Int) (o : AObs),
    loopX env H.calm raw k ts o = loopX env H raw k ts o := by
  induction k with
  | zero => intro ts o; rw [loopX, loopX]
  | succ k ih =>
    intro ts o
    have hp' : ∀ l, (H l).ops = [] := hp
    rw [loopX, loopX]
    simp only [hp', THandler.calm, seqX, bind_ok']
    simp only [ih]

theorem execX_calm {env : Env} {H : THandler} (hp : Pure H) (k : Nat) (o : AObs) (op : AOp) : execX env H.calm k o op = execX env H k o op := by
  cases k with
  | zero => rw [execX, execX]
  | succ k =>
    cases op with
    | push clk1 clk2 ts x handler =>
      cases handler with
      | true => rw [execX, execX]; simp only [loopX_calm hp]
      | false => rw [execX, execX] <;> simp
    | separate clk ts handler force =>
      cases handler with
      | true => rw [execX, execX]; simp only [loopX_calm hp]
      | false => rw [execX, execX] <;> simp
    | _ => rw [execX, execX] <;> simp

/-! ### A call -/

theorem turn_made (D : Daybook) (step T : Int) : (D.turn step T).made = D.made := by
  unfold Daybook.turn
  split <;> rfl

theorem given_made {opt : AggregatorOpts} {D : Fullbook} {op : AOp} (hf : op.fetches = false) :
    (op.fullbook opt D).made = D.made ++ op.given opt D := by
  cases op with
  | add c1 c2 ts x =>
    simp only [AOp.fullbook, Fullbook.note, AOp.given, finished]
    split
    · simp
    split <;> simp [turn_made]
  | push c1 c2 ts x handler =>
    cases handler with
    | false =>
      simp only [AOp.fullbook, Fullbook.note, AOp.given, finished]
      split
      · simp
      split <;> simp [turn_made]
    | true =>
      simp only [AOp.fullbook, Fullbook.note, AOp.given, finished]
      split
      · simp
      split <;> simp
  | separate c ts handler force => cases handler <;> simp [AOp.fullbook, AOp.given]
  | pop => cases hf
  | forcePop => cases hf
  | look => simp [AOp.fullbook, AOp.given]
  | enable v => simp [AOp.fullbook, AOp.given]

/-- What an exception leaves of the page. -/
theorem page_torn {env : Env} {opt : AggregatorOpts} {s : Separator} {D : Daybook} {clk ts t : Int} {l : List AggData} {n : Int} {r : Reducer}
    (hs : 0 < opt.step) (P : OnPage env opt s D) (h1 : s.getTs clk ts = .ok t) (h2 : Separator.sepLoop env s.step t s.next s.reducer = .ok (l, n, r))
    (hn : s.next ≤ t) : OnPage env opt { s with reducer := r } { D with on := [] } := by
  have hst := P.step
  obtain ⟨b, hsep⟩ := separate_of_loop (force := false) h1 h2
  obtain ⟨pub, as', eff, -⟩ := Separator.separate_effect (by rw [hst]; exact hs) P.red hsep
  obtain ⟨P1, -, -⟩ := page_effect hs P eff
  have ht : t = align s.step (meant s.resolution clk ts) := by
    have := getTs_align (s := s) (by rw [hst]; exact hs) clk ts
    rw [h1] at this
    exact Except.ok.inj this
  rw [← ht] at P1
  have hon : (D.turn opt.step t).on = [] := by
    unfold Daybook.turn
    rw [if_pos (by rw [← P.begins]; exact hn)]
  have g := P1.red
  rw [hon] at g
  exact ⟨P.step, P.res, P.begins, g⟩

/-- A call that threw. -/
theorem execX_torn {env : Env} {opt : AggregatorOpts} {H : THandler} (hp : Pure H) (hs : 0 < opt.step) {k : Nat} {D : Fullbook} {o o1 : AObs} {op : AOp}
    (B : FBooked env opt D o) (h : execX env H k o op = .ok (o1, true)) :
    OnPage env opt o1.a.sep { D.toDaybook with on := [] } ∧ op.fetches = false := by
  have hst : 0 < o.a.sep.step := by rw [B.page.step]; exact hs
  cases k with
  | zero => rw [execX] at h; cases h
  | succ k =>
    have plain : (do let o ← exec env o op; .ok (o, false) : M (AObs × Bool)) ≠ .ok (o1, true) := by
      intro h
      obtain ⟨o2, _, h⟩ := bind_inv h
      cases h
    cases op with
    | push clk1 clk2 ts x handler =>
      cases handler with
      | false => exact (plain (by rw [execX] at h; exact h; simp; simp)).elim
      | true =>
        rw [execX] at h
        refine ⟨?_, rfl⟩
        split_ifs at h
        · cases h
        obtain ⟨t, h1, h⟩ := bind_inv h
        obtain ⟨t', h2, h⟩ := bind_inv h
        obtain ⟨⟨o2, th2⟩, h3, h⟩ := bind_inv h
        obtain ⟨out, -, -, l, r, hl, -, -, -, ht⟩ := loopX_pure hp hst h3
        simp only at h ht
        split_ifs at h with c1
        · cases h
          obtain ⟨f1, f2, f3, -⟩ := ht c1
          rw [f3]
          exact page_torn hs B.page h2 hl f2
        all_goals cases h
    | separate clk ts handler force =>
      cases handler with
      | false => exact (plain (by rw [execX] at h; exact h; simp; simp)).elim
      | true =>
        rw [execX] at h
        refine ⟨?_, rfl⟩
        obtain ⟨t, h1, h⟩ := bind_inv h
        obtain ⟨⟨o2, th2⟩, h3, h⟩ := bind_inv h
        obtain ⟨out, -, -, l, r, hl, -, -, -, ht⟩ := loopX_pure hp hst h3
        simp only at h ht
        split_ifs at h with c1
        · cases h
          obtain ⟨f1, f2, f3, -⟩ := ht c1
          rw [f3]
          exact page_torn hs B.page h1 hl f2
        · obtain ⟨_, _, h⟩ := bind_inv h
          cases h
    | add => exact (plain (by rw [execX] at h; exact h; simp; simp)).elim
    | pop => exact (plain (by rw [execX] at h; exact h; simp; simp)).elim
    | forcePop => exact (plain (by rw [execX] at h; exact h; simp; simp)).elim
    | look => exact (plain (by rw [execX] at h; exact h; simp; simp)).elim
    | enable => exact (plain (by rw [execX] at h; exact h; simp; simp)).elim

theorem fbooked_execX {env : Env} {opt : AggregatorOpts} {H : THandler} (hp : Pure H) (hs : 0 < opt.step) {k : Nat} {D : Fullbook} {o o1 : AObs} {op : AOp}
    {th : Bool} (B : FBooked env opt D o) (h : execX env H k o op = .ok (o1, th)) : FBooked env opt (AOp.fullbookX opt D (op, th)) o1 := by
  have hst : 0 < o.a.sep.step := by rw [B.page.step]; exact hs
  obtain ⟨o2, e, hf, ht⟩ := execX_pure hp hst h
  have B2 := fbooked_exec hs B op e
  cases th with
  | false => rw [hf rfl]; exact B2
  | true =>
    obtain ⟨P, hfe⟩ := execX_torn hp hs B h
    obtain ⟨k1, k2, -, ⟨r, k3⟩, -⟩ := ht rfl
    have hm := B2.made
    rw [given_made hfe, ← k2] at hm
    refine ⟨P.congr rfl rfl, ?_, B.raw, ?_, ?_, ?_, hm⟩
    · rw [k3]; exact B.out
    · rw [k3]; exact B.tray
    · rw [k3]; exact B.en
    · rw [k3]; exact B.queue

theorem fbooked_keepX {env : Env} {opt : AggregatorOpts} {H : THandler} (hp : Pure H) (hs : 0 < opt.step) {k : Nat} (ops : List AOp) :
    ∀ {D : Fullbook} {o o1 : AObs} {l : List (AOp × Bool)}, FBooked env opt D o → keepX env H k ops o = .ok (o1, l) →
    l.map Prod.fst = ops ∧ FBooked env opt (l.foldl (AOp.fullbookX opt) D) o1 := by
  induction ops with
  | nil => intro D o o1 l B h; cases h; exact ⟨rfl, B⟩
  | cons op ops ih =>
    intro D o o1 l B h
    rw [keepX] at h
    obtain ⟨⟨o2, th⟩, h1, h⟩ := bind_inv h
    obtain ⟨⟨o3, l'⟩, h2, h⟩ := bind_inv h
    cases h
    obtain ⟨k1, k2⟩ := ih (fbooked_execX hp hs B h1) h2
    exact ⟨by rw [List.map_cons, k1], k2⟩

/-- There is something to give only if the page is to be turned. -/
theorem slip_cases (D : Daybook) (step T : Int) (raw : Bool) : (D.slip step T raw = [] ∧ ¬ (D.begins + step ≤ T ∧ D.on ≠ [])) ∨
    (D.slip step T raw = [⟨D.begins, D.on, raw⟩] ∧ D.begins + step ≤ T ∧ D.on ≠ []) := by
  unfold Daybook.slip
  split
  · rename_i h; exact .inr ⟨rfl, h⟩
  · rename_i h; exact .inl ⟨rfl, h⟩

/-- A call has at most one slip to give. -/
theorem given_cases (opt : AggregatorOpts) (D : Fullbook) (op : AOp) : op.given opt D = [] ∨ ∃ s, op.given opt D = [s] ∧ s.time = D.begins ∧ s.events = D.on := by
  unfold AOp.given
  split
  · split
    · exact .inl rfl
    · rcases slip_cases D.toDaybook opt.step _ true with ⟨e, -⟩ | ⟨e, -⟩ <;> rw [e]
      · exact .inl rfl
      · exact .inr ⟨_, rfl, rfl, rfl⟩
  · rcases slip_cases D.toDaybook opt.step _ true with ⟨e, -⟩ | ⟨e, -⟩ <;> rw [e]
    · exact .inl rfl
    · exact .inr ⟨_, rfl, rfl, rfl⟩
  · exact .inl rfl

/-! ### Totality -/

theorem loopX_ends {env : Env} {H : THandler} (hp : Pure H) {raw : Bool} {ts : Int} {o : AObs} (hs : 0 < o.a.sep.step)
    (hd : ∃ x r, o.a.sep.reducer.detach env = .ok (x, r)) : ∃ p, ∃ K, ∀ k, K ≤ k → loopX env H raw k ts o = .ok p := by
  by_cases hn : o.a.sep.next ≤ ts
  · obtain ⟨x, r, hd⟩ := hd
    have he := detach_empty hd
    cases x with
    | none =>
      refine ⟨(AObs.passed { o with a := { o.a with sep := { o.a.sep with reducer := r, next := o.a.sep.next + o.a.sep.step } } } ts, false), (ts - o.a.sep.next + 1).toNat + 2, fun k hk => ?_⟩
      obtain ⟨j, rfl⟩ : ∃ j, k = j + 1 := ⟨k - 1, by omega⟩
      rw [loopX, if_pos hn, hd, bind_ok']
      simp only [bind_ok', Bool.false_eq_true, if_false]
      exact loopX_empty_ok _ _ (by exact hs) (by exact he) (by simp only; omega)
    | some d =>
      obtain ⟨d', hh⟩ := handOver_total env raw { o.a with sep := { o.a.sep with reducer := r } } { d with ts := o.a.sep.next - o.a.sep.step }
      by_cases ht : (H (o.received ++ [d'])).throws = true
      · refine ⟨({ o with a := { o.a with sep := { o.a.sep with reducer := r } }, received := o.received ++ [d'] }, true), 1, fun k hk => ?_⟩
        obtain ⟨j, rfl⟩ : ∃ j, k = j + 1 := ⟨k - 1, by omega⟩
        rw [loopX, if_pos hn, hd, bind_ok']
        simp only [hh, bind_ok']
        rw [hp _, seqX, bind_ok']
        simp only [ht, Bool.or_true, bind_ok', if_true]
      · refine ⟨(AObs.passed { o with a := { o.a with sep := { o.a.sep with reducer := r, next := o.a.sep.next + o.a.sep.step } }, received := o.received ++ [d'] } ts, false), (ts - o.a.sep.next + 1).toNat + 2, fun k hk => ?_⟩
        obtain ⟨j, rfl⟩ : ∃ j, k = j + 1 := ⟨k - 1, by omega⟩
        rw [loopX, if_pos hn, hd, bind_ok']
        simp only [hh, bind_ok']
        rw [hp _, seqX, bind_ok']
        simp only [ht, Bool.or_false, bind_ok', Bool.false_eq_true, if_false]
        exact loopX_empty_ok _ _ (by exact hs) (by exact he) (by simp only; omega)
  · refine ⟨(o, false), 1, fun k hk => ?_⟩
    obtain ⟨j, rfl⟩ : ∃ j, k = j + 1 := ⟨k - 1, by omega⟩
    rw [loopX, if_neg hn]

theorem execX_ends {env : Env} {H : THandler} (hp : Pure H) {o o2 : AObs} {op : AOp} (hs : 0 < o.a.sep.step)
    (hd : ∃ x r, o.a.sep.reducer.detach env = .ok (x, r)) (h : exec env o op = .ok o2) :
    ∃ p, ∃ K, ∀ k, K ≤ k → execX env H k o op = .ok p := by
  have plain : (∀ k, execX env H (k + 1) o op = (do let o ← exec env o op; .ok (o, false) : M (AObs × Bool))) →
      ∃ p, ∃ K, ∀ k, K ≤ k → execX env H k o op = .ok p := by
    intro e
    refine ⟨(o2, false), 1, fun k hk => ?_⟩
    obtain ⟨j, rfl⟩ : ∃ j, k = j + 1 := ⟨k - 1, by omega⟩
    rw [e, h]
    rfl
  cases op with
  | push clk1 clk2 ts x handler =>
    cases handler with
    | false => exact plain fun k => by rw [execX] <;> simp
    | true =>
      by_cases he : o.a.enabled = false
      · refine ⟨(o, false), 1, fun k hk => ?_⟩
        obtain ⟨j, rfl⟩ : ∃ j, k = j + 1 := ⟨k - 1, by omega⟩
        rw [execX, if_pos he]
      · obtain ⟨⟨o', th⟩, K, hK⟩ := loopX_ends (raw := false) (ts := align o.a.sep.step (meant o.a.sep.resolution clk2 (align o.a.sep.step (meant o.a.sep.resolution clk1 ts)))) hp hs hd
        cases th with
        | true =>
          refine ⟨(o', true), K + 1, fun k hk => ?_⟩
          obtain ⟨j, rfl⟩ : ∃ j, k = j + 1 := ⟨k - 1, by omega⟩
          rw [execX, if_neg he, getTs_align hs, bind_ok', getTs_align hs, bind_ok', hK j (by omega)]
          rfl
        | false =>
          by_cases hl : align o.a.sep.step (meant o.a.sep.resolution clk1 ts) < o'.a.sep.next - o'.a.sep.step
          · refine ⟨(o', false), K + 1, fun k hk => ?_⟩
            obtain ⟨j, rfl⟩ : ∃ j, k = j + 1 := ⟨k - 1, by omega⟩
            rw [execX, if_neg he, getTs_align hs, bind_ok', getTs_align hs, bind_ok', hK j (by omega), bind_ok']
            simp only [Bool.false_eq_true, if_false]
            exact if_pos hl
          · refine ⟨({ o' with a := { o'.a with sep := { o'.a.sep with reducer := o'.a.sep.reducer.add env x } }, accepted := o'.accepted ++ [(align o.a.sep.step (meant o.a.sep.resolution clk1 ts), x)] }, false), K + 1, fun k hk => ?_⟩
            obtain ⟨j, rfl⟩ : ∃ j, k = j + 1 := ⟨k - 1, by omega⟩
            rw [execX, if_neg he, getTs_align hs, bind_ok', getTs_align hs, bind_ok', hK j (by omega), bind_ok']
            simp only [Bool.false_eq_true, if_false]
            exact if_neg hl
  | separate clk ts handler force =>
    cases handler with
    | false => exact plain fun k => by rw [execX] <;> simp
    | true =>
      obtain ⟨⟨o', th⟩, K, hK⟩ := loopX_ends (raw := true) (ts := align o.a.sep.step (meant o.a.sep.resolution clk ts)) hp hs hd
      cases th with
      | true =>
        refine ⟨(o', true), K + 1, fun k hk => ?_⟩
        obtain ⟨j, rfl⟩ : ∃ j, k = j + 1 := ⟨k - 1, by omega⟩
        rw [execX, getTs_align hs, bind_ok', hK j (by omega)]
        rfl
      | false =>
        obtain ⟨a', ha, -⟩ := aggregate0_total env.nth o'.a
        refine ⟨({ o' with a := a' }, false), K + 1, fun k hk => ?_⟩
        obtain ⟨j, rfl⟩ : ∃ j, k = j + 1 := ⟨k - 1, by omega⟩
        rw [execX, getTs_align hs, bind_ok', hK j (by omega), bind_ok']
        simp only [Bool.false_eq_true, if_false, ha]
        rfl
  | add => exact plain fun k => by rw [execX] <;> simp
  | pop => exact plain fun k => by rw [execX] <;> simp
  | forcePop => exact plain fun k => by rw [execX] <;> simp
  | look => exact plain fun k => by rw [execX] <;> simp
  | enable => exact plain fun k => by rw [execX] <;> simp

theorem on_made (opt : AggregatorOpts) (D : Fullbook) (op : AOp) : (op.fullbook opt { D with made := [] }).on = (op.fullbook opt D).on := by
  have ht : ∀ T, (({ D.toDaybook with made := [] } : Daybook).turn opt.step T).on = (D.toDaybook.turn opt.step T).on := by
    intro T
    unfold Daybook.turn
    simp only
    split <;> rfl
  have hb : ∀ T, (({ D.toDaybook with made := [] } : Daybook).turn opt.step T).begins = (D.toDaybook.turn opt.step T).begins := by
    intro T
    unfold Daybook.turn
    simp only
    split <;> rfl
  have hn : ∀ T T2 x h, (({ D with made := [] } : Fullbook).note opt.step T T2 x h).on = (D.note opt.step T T2 x h).on := by
    intro T T2 x h
    unfold Fullbook.note
    simp only [hb]
    split
    · rfl
    split
    · exact ht _
    split <;> simp only [ht]
  cases op with
  | add => exact hn _ _ _ _
  | push => exact hn _ _ _ _
  | separate => exact ht _
  | pop =>
    simp only [AOp.fullbook]
    cases D.queue <;> rfl
  | forcePop =>
    simp only [AOp.fullbook]
    cases D.tray <;> rfl
  | look => rfl
  | enable => rfl

/-- The values on the page are between the bounds. -/
def Within (m M : Int) (D : Fullbook) : Prop := ∀ x ∈ D.on, ∀ v ∈ x.values, m ≤ v ∧ v ≤ M

theorem within_fullbookX {opt : AggregatorOpts} {m M : Int} {D : Fullbook} {op : AOp} (th : Bool) (hw : Within m M D)
    (hv : ∀ v ∈ op.vals, m ≤ v ∧ v ≤ M) : Within m M (AOp.fullbookX opt D (op, th)) := by
  cases th with
  | true => intro x hx; cases hx
  | false =>
    have := within_after (opt := opt) (D := { D with live := true }) (op := op) hw hv
    intro x hx
    refine this x ?_
    show x ∈ (op.fullbook opt { D with made := [] }).on
    rw [on_made]
    exact hx

theorem exec_fits {env : Env} {opt : AggregatorOpts} {m M : Int} {D : Fullbook} {o : AObs} (hs : 0 < opt.step) (B : Reducer.Bounds env m M)
    (F : FBooked env opt D o) (hw : Within m M D) (op : AOp) (hv : ∀ v ∈ op.vals, m ≤ v ∧ v ≤ M) :
    (∃ o', exec env o op = .ok o') ∧ ∃ x r, o.a.sep.reducer.detach env = .ok (x, r) := by
  have A : AtDesk env opt m M { D with live := o.a.alive } o.a := atDesk_of (out := o.received) (acc := o.accepted) (D := { D with live := o.a.alive }) F rfl hw
  refine ⟨?_, (page_total B A).2⟩
  cases op with
  | add c1 c2 ts x =>
    obtain ⟨r, a', _, h1, -⟩ := desk_step hs B A (.add c1 c2 ts x) hv
    obtain ⟨⟨b, a1⟩, h3, -⟩ := bind_inv h1
    simp only [Aggregator.exec, h3, bind_ok']
    exact ⟨_, rfl⟩
  | push c1 c2 ts x hd =>
    obtain ⟨r, a', _, h1, -⟩ := desk_step hs B A (.push c1 c2 ts x hd) hv
    obtain ⟨⟨b, out, a1⟩, h3, -⟩ := bind_inv h1
    simp only [Aggregator.exec, h3, bind_ok']
    exact ⟨_, rfl⟩
  | separate c ts hd f =>
    obtain ⟨r, a', _, h1, -⟩ := desk_step hs B A (.separate c ts hd f) trivial
    obtain ⟨⟨b, out, a1⟩, h3, -⟩ := bind_inv h1
    simp only [Aggregator.exec, h3, bind_ok']
    exact ⟨_, rfl⟩
  | pop => exact ⟨_, rfl⟩
  | forcePop =>
    obtain ⟨r, a', _, h1, -⟩ := desk_step hs B A .forcePop trivial
    obtain ⟨⟨d, a1⟩, h3, -⟩ := bind_inv h1
    simp only [Aggregator.exec, h3, bind_ok']
    exact ⟨_, rfl⟩
  | look =>
    obtain ⟨r, a', _, h1, -⟩ := desk_step hs B A .aggregateCurrent trivial
    obtain ⟨d, h3, -⟩ := bind_inv h1
    simp only [Aggregator.exec, h3, bind_ok']
    exact ⟨_, rfl⟩
  | enable v => exact ⟨_, rfl⟩

theorem keepX_ends {env : Env} {opt : AggregatorOpts} {H : THandler} {m M : Int} (hp : Pure H) (hs : 0 < opt.step) (B : Reducer.Bounds env m M)
    (ops : List AOp) : ∀ {D : Fullbook} {o : AObs}, FBooked env opt D o → Within m M D → (∀ op ∈ ops, ∀ v ∈ op.vals, m ≤ v ∧ v ≤ M) →
    ∃ p, ∃ K, ∀ k, K ≤ k → keepX env H k ops o = .ok p := by
  induction ops with
  | nil => intro D o _ _ _; exact ⟨(o, []), 0, fun _ _ => rfl⟩
  | cons op ops ih =>
    intro D o F hw hv
    obtain ⟨⟨o2, e⟩, hd⟩ := exec_fits hs B F hw op (hv op (by simp))
    obtain ⟨⟨o1, th⟩, K1, h1⟩ := execX_ends hp (by rw [F.page.step]; exact hs) hd e
    obtain ⟨⟨o3, l⟩, K2, h2⟩ := ih (fbooked_execX hp hs F (h1 K1 (Nat.le_refl _))) (within_fullbookX th hw (hv op (by simp)))
      (fun op h => hv op (List.mem_cons_of_mem _ h))
    refine ⟨(o3, (op, th) :: l), max K1 K2, fun k hk => ?_⟩
    rw [keepX, h1 k (by omega), bind_ok']
    simp only [h2 k (by omega), bind_ok']

end Aggregator

/-! ### C172 -/

/-- The client knows which of its calls threw, and with that the records received, those that wait and the window that is open are those of the books
kept by hand.  The records on which the handler threw are among those received. -/
theorem C172_books (env : Env) (opt : AggregatorOpts) (H : THandler) (a0 : Aggregator) (k : Nat) (ops : List AOp) (o : AObs) (l : List (AOp × Bool))
    (hp : Pure H) (hs : 0 < opt.step) (h0 : Fresh env opt a0) (h : keepX env H k ops { a := a0 } = .ok (o, l)) :
    let D := fullbookX opt a0.sep.currentTime a0.enabled l
    l.map Prod.fst = ops ∧
    List.Forall₂ (Slip.Says env opt) D.made o.received ∧ List.Forall₂ (Slip.Says env opt) D.queue o.a.agList ∧
      List.Forall₂ (Slip.Says env opt) D.tray o.a.sep.sepList ∧ o.a.size = D.queue.length ∧ o.a.sep.size = D.tray.length ∧
      o.a.sep.currentTime = D.begins ∧ o.a.enabled = D.en := by
  obtain ⟨e, B⟩ := fbooked_keepX hp hs ops (fbooked_fresh hs h0) h
  refine ⟨e, B.made, B.queue, B.tray, B.queue.length_eq.symm, B.tray.length_eq.symm, ?_, B.en⟩
  have h1 := B.page.begins
  have h2 := B.page.step
  simp only [Separator.currentTime, h1, h2, fullbookX]
  omega

/-- A call throws if and only if, by the books, it has a slip to give and the handler throws on the record that says it. -/
theorem C172_throws (env : Env) (opt : AggregatorOpts) (H : THandler) (a0 : Aggregator) (k k' : Nat) (ops : List AOp) (o o1 : AObs)
    (l : List (AOp × Bool)) (op : AOp) (th : Bool) (hp : Pure H) (hs : 0 < opt.step) (h0 : Fresh env opt a0)
    (h : keepX env H k ops { a := a0 } = .ok (o, l)) (h1 : execX env H k' o op = .ok (o1, th)) :
    let D := fullbookX opt a0.sep.currentTime a0.enabled l
    (op.given opt D = [] → th = false) ∧
    ∀ s, op.given opt D = [s] → ∃ d, Slip.Says env opt s d ∧ o1.received = o.received ++ [d] ∧ th = (H (o.received ++ [d])).throws := by
  intro D
  obtain ⟨-, B⟩ := fbooked_keepX hp hs ops (fbooked_fresh hs h0) h
  have B : FBooked env opt D o := B
  have hst : 0 < o.a.sep.step := by rw [B.page.step]; exact hs
  obtain ⟨o2, e, hf, ht⟩ := execX_pure hp hst h1
  have B2 := fbooked_exec hs B op e
  cases hfe : op.fetches with
  | true =>
    have hg : op.given opt D = [] := by cases op <;> first | rfl | cases hfe
    refine ⟨fun _ => ?_, fun s hs => by rw [hg] at hs; cases hs⟩
    cases th with
    | false => rfl
    | true => have := (execX_torn hp hs B h1).2; rw [hfe] at this; cases this
  | false =>
    have hm := B2.made
    rw [given_made hfe] at hm
    have hr : o1.received = o2.received := by
      cases th with
      | false => rw [hf rfl]
      | true => exact (ht rfl).2.1
    have hc := (C111_throws_partial env H.calm k' o o1 op th (fun _ => rfl) (fun q x hx => by
      have : x ∈ (H q).ops := hx
      rw [hp q] at this
      cases this) hfe (by rw [execX_calm hp]; exact h1))
    rw [← hr] at hm
    refine ⟨fun hg => ?_, fun s hg => ?_⟩
    · rw [hg, List.append_nil] at hm
      have hl : o1.received.length = o.received.length := by rw [← hm.length_eq, B.made.length_eq]
      cases th with
      | false => rfl
      | true =>
        obtain ⟨-, -, ⟨d, hd, -⟩, -⟩ := ht rfl
        rw [hd] at hl
        simp at hl
    · rw [hg] at hm
      obtain ⟨out, ho⟩ := received_prefix e
      rw [← hr] at ho
      rw [← ho] at hm
      have hll : out.length = 1 := by
        have := hm.length_eq
        rw [List.length_append, List.length_append, B.made.length_eq] at this
        simpa using this.symm
      obtain ⟨d, rfl⟩ := List.length_eq_one_iff.1 hll
      have hsd : Slip.Says env opt s d := by
        have := List.forall₂_drop D.made.length hm
        rw [List.drop_left, B.made.length_eq, List.drop_left] at this
        cases this
        assumption
      refine ⟨d, hsd, ho.symm, ?_⟩
      rw [← ho] at hc
      cases hth : (H (o.received ++ [d])).throws with
      | true => exact hc.2 ⟨_, List.prefix_append _ _, by simp, List.prefix_refl _, hth⟩
      | false =>
        cases th with
        | false => rfl
        | true =>
          obtain ⟨q, q1, q2, q3, q4⟩ := hc.1 rfl
          obtain ⟨z, rfl⟩ := q1
          obtain ⟨w, hw⟩ := q3
          rw [List.append_assoc] at hw
          have hw := List.append_cancel_left hw
          cases z with
          | nil => simp at q2
          | cons z0 z =>
            simp only [List.cons_append, List.cons.injEq, List.append_eq_nil_iff] at hw
            obtain ⟨rfl, rfl, rfl⟩ := hw
            exact (Bool.false_ne_true (hth.symm.trans q4)).elim

/-- Making a call that threw once more has the effect it would have had, as far as the books go. -/
theorem C172_again (opt : AggregatorOpts) (D : Fullbook) (op : AOp) (hg : op.given opt D ≠ []) :
    op.given opt (op.torn opt D) = [] ∧ op.fullbook opt (op.torn opt D) = op.fullbook opt D := by
  have key : ∀ T, D.toDaybook.slip opt.step T true ≠ [] → D.begins + opt.step ≤ T ∧ D.on ≠ [] := by
    intro T h
    rcases slip_cases D.toDaybook opt.step T true with ⟨e, -⟩ | ⟨-, e⟩
    · exact (h e).elim
    · exact e
  unfold AOp.given at hg
  split at hg
  · rename_i c1 c2 ts x
    split at hg
    · exact (hg rfl).elim
    · rename_i he
      have he : D.en = true := by simpa using he
      obtain ⟨hT, hon⟩ := key (align opt.step (meant opt.resolution c2 (align opt.step (meant opt.resolution c1 ts)))) (by
        intro h0
        rw [h0] at hg
        exact hg rfl)
      refine ⟨?_, ?_⟩
      · simp [AOp.given, AOp.torn, Daybook.slip, finished]
      · simp [AOp.fullbook, Fullbook.note, AOp.torn, AOp.given, Daybook.turn, Daybook.slip, finished, he, hT, hon]
  · rename_i c ts f
    obtain ⟨hT, hon⟩ := key _ hg
    refine ⟨?_, ?_⟩
    · simp [AOp.given, AOp.torn, Daybook.slip]
    · simp [AOp.fullbook, AOp.torn, AOp.given, Daybook.turn, Daybook.slip, hT, hon]
  · exact (hg rfl).elim

/-- With values between representable bounds no history faults, whenever the handler throws. -/
theorem C172_total (env : Env) (opt : AggregatorOpts) (H : THandler) (a0 : Aggregator) (m M : Int) (ops : List AOp) (hp : Pure H) (hs : 0 < opt.step)
    (B : Reducer.Bounds env m M) (h0 : Fresh env opt a0) (hv : ∀ op ∈ ops, ∀ v ∈ op.vals, m ≤ v ∧ v ≤ M) :
    ∃ o l, ∃ K, ∀ k, K ≤ k → keepX env H k ops { a := a0 } = .ok (o, l) := by
  obtain ⟨⟨o, l⟩, h⟩ := keepX_ends hp hs B ops (fbooked_fresh hs h0) (by intro x hx; cases hx) hv
  exact ⟨o, l, h⟩

/-- A window is completed, an event of it comes late, and the call is made again. -/
def exTornOps : List AOp :=
  [.push 0 0 5 (.one 1 1) true, .push 0 0 12 (.one 7 1) true, .add 0 0 6 (.one 3 2), .push 0 0 12 (.one 7 1) true]

/-- The second call throws and its event is not recorded; the late event is, on the page that is still open; the fourth call gives that page a second time and turns it. -/
example : (match keepX exactEnv exThrower 10 exTornOps { a := exReNew } with
    | .ok (o, l) => decide (l = exTornOps.zip [false, true, false, false] ∧ o.received.map (fun d => (d.ts, d.count)) = [(0, 1), (0, 2)] ∧
        fullbookX exReOpt 0 true l = { begins := 10, on := [.one 7 1], made := [⟨0, [.one 1 1], false⟩, ⟨0, [.one 3 2], false⟩] } ∧ o.a.sep.currentTime = 10)
    | .error _ => false) = true := by decide +kernel

/-- Before the second call the book has a slip to give, after it none. -/
example : AOp.given exReOpt (fullbookX exReOpt 0 true [(.push 0 0 5 (.one 1 1) true, false)]) (.push 0 0 12 (.one 7 1) true) = [⟨0, [.one 1 1], false⟩] ∧
    AOp.given exReOpt (fullbookX exReOpt 0 true [(.push 0 0 5 (.one 1 1) true, false), (.push 0 0 12 (.one 7 1) true, true)])
      (.push 0 0 12 (.one 7 1) true) = [] := by decide +kernel

example : ∃ o l, ∃ K, ∀ k, K ≤ k → keepX exactEnv exThrower k exTornOps { a := exReNew } = .ok (o, l) :=
  C172_total exactEnv exReOpt exThrower exReNew 1 9 exTornOps exThrower_pure (by decide) exBounds (exReNew_fresh _) (by decide)

end Wrtstat
