/-
C179: no thread that uses a registry faults or hangs, whenever handlers throw.
-/
import Verif.Props.ConcThrow

namespace Wrtstat
namespace Registry

set_option autoImplicit false

open Aggregator (AOp AObs Trans Fullbook Slip FBooked fullbookX)
open Relation

variable {T : Type} [Fintype T] [DecidableEq T] {env : Env} {opt : RegistryOpts} {m mx : Int}

/-! ### The invariant -/

theorem breaks_alive {a a' : Aggregator} {thr : AggData → Bool} {o : AOp} {out : List AggData} (h : breaks env a thr o = some (out, a')) :
    a'.alive = a.alive := by
  cases o with
  | push c1 c2 ts x hd =>
    cases hd with
    | false => cases h
    | true =>
      simp only [breaks] at h
      split at h
      · rename_i h1
        cases h
        exact Aggregator.pushX_alive h1
      · cases h
  | separate c ts hd f =>
    cases hd with
    | false => cases h
    | true =>
      simp only [breaks] at h
      split at h
      · rename_i h1
        cases h
        obtain ⟨_, _, _, _, _, -, -, -, -, rfl, -⟩ := (Aggregator.separateX_spec h1).2 rfl
        rfl
      · cases h
  | _ => cases h

theorem asks_within {a : Aggregator} {op : RegOp} {o : AOp} (hop : op.within m mx) (h : op.asks a = some o) : ∀ v ∈ o.vals, m ≤ v ∧ v ≤ mx := by
  cases op with
  | call p c1 c2 ts x =>
    simp only [RegOp.asks] at h
    split at h
    · cases h; exact hop
    · cases h
  | direct id op => cases h; exact hop
  | _ => cases h

omit [Fintype T] [DecidableEq T] in
/-- The registry stays well-formed when an aggregator of it is used. -/
theorem rinv_used {s : CReg T} {k : Nat} {a a' : Aggregator} (hu : Uniq s.r) (hi : RInv opt s.r.nextRef s.r) (ha : s.aggOf k = some a)
    (hal : a'.alive = a.alive) : RInv opt s.r.nextRef (s.r.update k a') := by
  by_cases hx : ∃ b, At s.r k b
  · obtain ⟨b, p, hp⟩ := hx
    have := agg_at hu ⟨p, hp⟩
    rw [ha] at this
    cases this
    exact rinv_update hi k (hal.trans (hi.alive _ _ hp))
  · rw [update_noref fun b hb => hx ⟨b, hb⟩]
    exact hi

omit [Fintype T] [DecidableEq T] in
theorem rinv_eff {s s' : CReg T} {t : T} (hu : Uniq s.r) (hr : Room opt s.r.nextRef) (hi : RInv opt s.r.nextRef s.r) (he : CEff env t s s') :
    RInv opt s'.r.nextRef s'.r := by
  cases he with
  | same arr next dict ropt gone born log out => rw [next]; exact hi.congr arr next dict ropt
  | create q name now id hc free gone born log out =>
    rcases create_cases hi hr hc with ⟨-, -, e⟩ | ⟨-, e⟩ | ⟨h0, h1, cr, hi'⟩
    · rw [e]; exact hi
    · rw [e]; exact hi
    · rw [cr.next]; exact hi'
  | del name b hd free gone born log out =>
    rcases (del_cases hi hr hd).2 with ⟨-, e⟩ | ⟨id, hm, hi', hdict, -, -, -, hnx, harr⟩
    · rw [e]; exact hi
    · rw [hnx]; exact hi'
  | agg k a a' ops out ha ht hrr gone born log hout =>
    have hnx : s'.r.nextRef = s.r.nextRef := by rw [hrr]; rfl
    rw [hnx, hrr]
    exact rinv_used hu hi ha (Aggregator.trans_alive ht)

/-- All threads are fine, and what was asked of the aggregators has values within the bounds only. -/
structure XFine (m mx : Int) (s : XReg T) : Prop where
  fine : AllFine m mx s.c
  said : ∀ e ∈ s.said, ∀ v ∈ e.2.1.vals, m ≤ v ∧ v ≤ mx

omit [Fintype T] [DecidableEq T] in
theorem XFine.calm {s : XReg T} {c : CReg T} (h : XFine m mx s) (hc : AllFine m mx c) : XFine m mx (s.calm c) := by
  refine ⟨hc, fun e he => ?_⟩
  rcases List.mem_append.1 he with he | he
  · exact h.said e he
  · obtain ⟨x, hx, rfl⟩ := List.mem_map.1 he
    exact hc.log x (List.mem_of_mem_drop hx)

omit [Fintype T] in
theorem XFine.throws {s s' : XReg T} {t : T} {thr : AggData → Bool} (h : XFine m mx s) (ht : s.throws env t thr = some s') : XFine m mx s' := by
  obtain ⟨op, k, a, o, out, a', hpc, ha, hasks, hb, rfl⟩ := throws_spec ht
  have hf := h.fine.pc t
  rw [hpc] at hf
  refine ⟨h.fine.set (p := .idle) trivial (by simp) (by rw [hpc]; rfl) (by rw [hpc]; rfl), fun e he => ?_⟩
  rcases List.mem_append.1 he with he | he
  · exact h.said e he
  · rw [List.mem_singleton] at he
    subst he
    exact asks_within hf.1 hasks

theorem XFine.step {P : RegOp → Prop} (hP : ∀ op, P op → op.within m mx) {s s' : XReg T} (hu : Uniq s.c.r) (h : XFine m mx s)
    (hst : XReg.Step env P s s') : XFine m mx s' := by
  cases hst with
  | calm c hc =>
    refine h.calm ?_
    cases hc with
    | call t op hp hi =>
      exact h.fine.to (t := t) (p := .want op) (Nat.le_refl _) rfl (hP op hp) (fun e he => .inl he) rfl rfl (by rw [hi]; rfl) (by rw [hi]; rfl)
    | move _ t hm => exact h.fine.move hu hm
  | threw _ t thr ht => exact h.throws ht

theorem xfine_reach {P : RegOp → Prop} (hs : 0 < opt.step) (hP : ∀ op, P op → op.within m mx) {s : XReg T}
    (h : ReflTransGen (XReg.Step env P) { c := CReg.init (Registry.new opt) } s) : XFine m mx s := by
  induction h with
  | refl =>
    exact ⟨⟨by simp [CReg.init], fun _ => trivial, by simp [CReg.init, CPc.reads], by simp [CReg.init], by simp [CReg.init, CPc.writes]⟩, by simp⟩
  | tail hr hst ih => exact ih.step hP (serialX_reach hs hr).uniq hst

theorem step_next {P : RegOp → Prop} {s s' : XReg T} (hu : Uniq s.c.r) (hst : XReg.Step env P s s') : s.c.r.nextRef ≤ s'.c.r.nextRef := by
  cases hst with
  | calm c hc =>
    obtain ⟨t, e⟩ := step_eff hu hc
    exact e.next hu
  | threw _ t thr ht =>
    obtain ⟨op, k, a, o, out, a', -, -, -, -, rfl⟩ := throws_spec ht
    exact Nat.le_refl _

theorem xrinv_reach {P : RegOp → Prop} (hs : 0 < opt.step) {s : XReg T}
    (h : ReflTransGen (XReg.Step env P) { c := CReg.init (Registry.new opt) } s) (hr : Room opt s.c.r.nextRef) : RInv opt s.c.r.nextRef s.c.r := by
  induction h with
  | refl => exact rinv_new opt
  | @tail s s' hreach hst ih =>
    have hu := (serialX_reach hs hreach).uniq
    have hr0 := hr.mono (step_next hu hst)
    have hi := ih hr0
    cases hst with
    | calm c hc =>
      obtain ⟨t, e⟩ := step_eff hu hc
      exact rinv_eff hu hr0 hi e
    | threw _ t thr ht =>
      obtain ⟨op, k, a, o, out, a', -, ha, -, hb, rfl⟩ := throws_spec ht
      exact rinv_used hu hi ha (breaks_alive hb)

/-- Every aggregator agrees with some books. -/
theorem fitX {P : RegOp → Prop} (hs : 0 < opt.step) (hP : ∀ op, P op → op.within m mx) {s : XReg T}
    (h : ReflTransGen (XReg.Step env P) { c := CReg.init (Registry.new opt) } s) (k : Nat) (a : Aggregator) (ha : s.c.aggOf k = some a) :
    Fit env opt m mx a := by
  obtain ⟨q, now, a0, -, F⟩ := (serialX_reach hs h).life k a ha
  have hw : ∀ (l : List (AOp × Bool)) (D : Fullbook), Aggregator.Within m mx D → (∀ p ∈ l, ∀ v ∈ p.1.vals, m ≤ v ∧ v ≤ mx) →
      Aggregator.Within m mx (l.foldl (AOp.fullbookX opt.toAggregatorOpts) D) := by
    intro l
    induction l with
    | nil => intro D h _; exact h
    | cons p l ih =>
      intro D h hl
      exact ih _ (Aggregator.within_fullbookX p.2 h (hl p (by simp))) fun y hy => hl y (by simp [hy])
  have W := hw (saidOf s.said k) { begins := a0.sep.currentTime, en := a0.enabled } (fun _ h => by cases h) (fun p hp => by
    obtain ⟨e, he, rfl⟩ := List.mem_map.1 hp
    exact (xfine_reach hs hP h).said e (List.mem_filter.1 he).1)
  exact ⟨_, Aggregator.atDesk_of (D := { fullbookX opt.toAggregatorOpts a0.sep.currentTime a0.enabled (saidOf s.said k) with live := a.alive }) F rfl W⟩

/-! ### Going on -/

theorem go_cases {s s' : XReg T} {t : T} {thr : AggData → Bool} (h : s.go env t thr = some s') :
    s.throws env t thr = some s' ∨ s.throws env t thr = none ∧ ∃ c, s.c.move env t = some c ∧ s' = s.calm c := by
  unfold XReg.go at h
  split at h
  · rename_i s1 h1
    cases h
    exact .inl h1
  · rename_i h1
    obtain ⟨c, hc, rfl⟩ := Option.map_eq_some_iff.1 h
    exact .inr ⟨h1, c, hc, rfl⟩

theorem go_step {P : RegOp → Prop} {s s' : XReg T} {t : T} {thr : AggData → Bool} (h : s.go env t thr = some s') : XReg.Step env P s s' := by
  rcases go_cases h with h | ⟨-, c, hc, rfl⟩
  · exact .threw s s' t thr h
  · exact .calm s c (.move _ _ t hc)

theorem go_own {s s' : XReg T} {t : T} {thr : AggData → Bool} (h : s.go env t thr = some s') :
    (s'.c.pc t).left s'.c.r.agarr.length < (s.c.pc t).left s.c.r.agarr.length ∧
      s'.c.r.nextRef + (s'.c.pc t).fresh ≤ s.c.r.nextRef + (s.c.pc t).fresh ∧ ((s'.c.pc t).waits = true → (s.c.pc t).waits = true) ∧
      ∀ u, u ≠ t → s'.c.pc u = s.c.pc u := by
  rcases go_cases h with h | ⟨-, c, hc, rfl⟩
  · obtain ⟨op, k, a, o, out, a', hpc, -, -, -, rfl⟩ := throws_spec h
    have e : ((s.c.setAgg t k a' [] out).goto t .idle).pc t = .idle := by simp [CReg.goto]
    refine ⟨?_, ?_, ?_, fun u hu => Function.update_of_ne hu _ _⟩
    · simp only [e, hpc, CPc.left]; omega
    · simp only [e, CPc.fresh]
      show s.c.r.nextRef + 0 ≤ _
      omega
    · simp only [e]
      intro h; cases h
  · obtain ⟨o1, o2, o3⟩ := move_own hc
    exact ⟨o1, o2, o3, fun u hu => (move_aside hu hc).1⟩

theorem can_goX {P : RegOp → Prop} (hs : 0 < opt.step) (B : Reducer.Bounds env m mx) (hP : ∀ op, P op → op.within m mx) {s : XReg T}
    (h : ReflTransGen (XReg.Step env P) { c := CReg.init (Registry.new opt) } s) (hr : Room opt s.c.r.nextRef) {t : T} (thr : AggData → Bool)
    (hne : s.c.pc t ≠ .idle) (hc : s.c.Clear t) : ∃ s', s.go env t thr = some s' := by
  have H := serialX_reach hs h
  obtain ⟨c, e⟩ := can_go hs B (xfine_reach (m := m) (mx := mx) hs hP h).fine (xrinv_reach hs h hr) H.uniq (fun k hk => (H.all k).1 hk) (fitX hs hP h) hr hne hc
  unfold XReg.go
  rw [e]
  split <;> exact ⟨_, rfl⟩

theorem soloX {P : RegOp → Prop} (hs : 0 < opt.step) (B : Reducer.Bounds env m mx) (hP : ∀ op, P op → op.within m mx) (thr : AggData → Bool) (t : T) (n : Nat) :
    ∀ {s : XReg T}, ReflTransGen (XReg.Step env P) { c := CReg.init (Registry.new opt) } s → Room opt (s.c.r.nextRef + (s.c.pc t).fresh) → s.c.Clear t →
      (s.c.pc t).left s.c.r.agarr.length ≤ n → ∃ k ≤ n, ∃ s', XReg.goes env thr s (List.replicate k t) = some s' ∧ s'.c.pc t = .idle ∧
        (∀ u, u ≠ t → s'.c.pc u = s.c.pc u) ∧ s'.c.r.nextRef ≤ s.c.r.nextRef + (s.c.pc t).fresh ∧
        ReflTransGen (XReg.Step env P) { c := CReg.init (Registry.new opt) } s' := by
  induction n with
  | zero =>
    intro s h hr hc hl
    refine ⟨0, Nat.le_refl _, s, rfl, ?_, fun _ _ => rfl, by omega, h⟩
    revert hl
    generalize s.c.pc t = p
    cases p with
    | want op => cases op <;> simp [CPc.left]
    | _ => simp [CPc.left]
  | succ n ih =>
    intro s h hr hc hl
    by_cases hi : s.c.pc t = .idle
    · exact ⟨0, by omega, s, rfl, hi, fun _ _ => rfl, by omega, h⟩
    obtain ⟨s1, h1⟩ := can_goX hs B hP h (hr.mono (by omega)) thr hi hc
    obtain ⟨o1, o2, o3, o4⟩ := go_own h1
    have hc1 : s1.c.Clear t := fun hw u hu => by rw [o4 u hu]; exact hc (o3 hw) u hu
    obtain ⟨k, hk, s', e1, e2, e3, e4, e5⟩ := ih (h.tail (go_step h1)) (hr.mono o2) hc1 (by omega)
    refine ⟨k + 1, by omega, s', ?_, e2, fun u hu => ?_, ?_, e5⟩
    · rw [List.replicate_succ]
      simp only [XReg.goes, h1]
      exact e1
    · rw [e3 u hu, o4 u hu]
    · omega

theorem goes_append {s s1 : XReg T} {thr : AggData → Bool} (l l' : List T) (h : XReg.goes env thr s l = some s1) :
    XReg.goes env thr s (l ++ l') = XReg.goes env thr s1 l' := by
  induction l generalizing s with
  | nil => cases h; rfl
  | cons x l ih =>
    rw [List.cons_append]
    simp only [XReg.goes] at h ⊢
    split at h
    · exact ih h
    · cases h

theorem drainX {P : RegOp → Prop} (hs : 0 < opt.step) (B : Reducer.Bounds env m mx) (hP : ∀ op, P op → op.within m mx) (thr : AggData → Bool) (n : Nat) :
    ∀ {s : XReg T} (A : Finset T), A.card ≤ n → (∀ t, t ∉ A → s.c.pc t = .idle) →
      ReflTransGen (XReg.Step env P) { c := CReg.init (Registry.new opt) } s → Room opt (s.c.r.nextRef + n) →
      ∃ (ts : List T) (s' : XReg T), XReg.goes env thr s ts = some s' ∧ ∀ t, s'.c.pc t = .idle := by
  induction n with
  | zero =>
    intro s A hA hi h hr
    have : A = ∅ := Finset.card_eq_zero.1 (by omega)
    subst this
    exact ⟨[], s, rfl, fun t => hi t (Finset.notMem_empty t)⟩
  | succ n ih =>
    intro s A hA hi h hr
    by_cases hall : ∀ t, s.c.pc t = .idle
    · exact ⟨[], s, rfl, hall⟩
    have pick : ∃ t, s.c.pc t ≠ .idle ∧ s.c.Clear t := by
      by_cases hh : ∃ u, (s.c.pc u).reads = true ∨ (s.c.pc u).writes = true
      · obtain ⟨u, hor⟩ := hh
        refine ⟨u, (fun e => by rw [e] at hor; rcases hor with x | x <;> cases x), fun hw' => ?_⟩
        revert hor hw'
        generalize s.c.pc u = p
        cases p <;> simp [CPc.waits, CPc.reads, CPc.writes]
      · simp only [not_forall] at hall
        obtain ⟨t, ht⟩ := hall
        simp only [not_exists, not_or, Bool.not_eq_true] at hh
        exact ⟨t, ht, fun _ u _ => hh u⟩
    obtain ⟨t, hne, hc⟩ := pick
    obtain ⟨k, -, s1, h1, h2, h3, h4, h5⟩ := soloX hs B hP thr t _ h (hr.mono (by have := fresh_le (s.c.pc t); omega)) hc (Nat.le_refl _)
    have htA : t ∈ A := by
      by_contra hx
      exact hne (hi t hx)
    obtain ⟨ts, s', h6, h7⟩ := ih (s := s1) (A.erase t) (by rw [Finset.card_erase_of_mem htA]; omega)
      (fun u hu => by
        by_cases he : u = t
        · subst he; exact h2
        · rw [h3 u he]
          exact hi u fun hx => hu (Finset.mem_erase.2 ⟨he, hx⟩)) h5 (hr.mono (by have := fresh_le (s.c.pc t); omega))
    exact ⟨List.replicate k t ++ ts, s', by rw [goes_append _ _ h1]; exact h6, h7⟩

/-! ### C179 -/

/-- Whatever threw before and whatever its handler does now: a thread that can not go on is in no call, or waits for the registry lock while a
thread that has it can go on, whatever the handler of that one does. -/
theorem C179_waits (env : Env) (P : RegOp → Prop) (opt : RegistryOpts) (s : XReg T) (m mx : Int) (B : Reducer.Bounds env m mx)
    (hs : 0 < opt.step) (hP : ∀ op, P op → op.within m mx) (h : ReflTransGen (XReg.Step env P) { c := CReg.init (Registry.new opt) } s)
    (hr : Room opt s.c.r.nextRef) (t : T) (thr : AggData → Bool) (hm : s.go env t thr = none) :
    s.c.pc t = .idle ∨ (s.c.pc t).waits = true ∧ ∃ u, u ≠ t ∧ (u ∈ s.c.readers ∨ s.c.writer = some u) ∧ ∀ thr, ∃ s', s.go env u thr = some s' := by
  by_cases hi : s.c.pc t = .idle
  · exact .inl hi
  right
  have hfine := (xfine_reach (m := m) (mx := mx) hs hP h).fine
  have hc : ¬ s.c.Clear t := fun hc => by
    obtain ⟨s', h'⟩ := can_goX hs B hP h hr thr hi hc
    rw [hm] at h'; cases h'
  simp only [CReg.Clear, not_forall] at hc
  obtain ⟨hw, u, hu, hx⟩ := hc
  have hor : (s.c.pc u).reads = true ∨ (s.c.pc u).writes = true := by
    cases h1 : (s.c.pc u).reads with
    | true => exact .inl rfl
    | false =>
      cases h2 : (s.c.pc u).writes with
      | true => exact .inr rfl
      | false => exact absurd ⟨h1, h2⟩ hx
  refine ⟨hw, u, hu, hor.imp (hfine.reads u).2 (hfine.writes u).2, fun thr => can_goX hs B hP h hr thr ?_ ?_⟩
  · intro e; rw [e] at hor; rcases hor with x | x <;> cases x
  · intro hw'
    revert hor hw'
    generalize s.c.pc u = p
    cases p <;> simp [CPc.waits, CPc.reads, CPc.writes]

/-- A thread that goes on alone comes to the end of its call, by a return or by an exception, within so many moves as its call visits positions
(twice, for `pop_all`), and four more, unless it needs the registry lock and another one has it. -/
theorem C179_ends (env : Env) (P : RegOp → Prop) (opt : RegistryOpts) (s : XReg T) (m mx : Int) (B : Reducer.Bounds env m mx)
    (hs : 0 < opt.step) (hP : ∀ op, P op → op.within m mx) (h : ReflTransGen (XReg.Step env P) { c := CReg.init (Registry.new opt) } s)
    (hr : Room opt (s.c.r.nextRef + 1)) (t : T) (thr : AggData → Bool)
    (hc : t ∈ s.c.readers ∨ s.c.writer = some t ∨ ∀ u, u ≠ t → u ∉ s.c.readers ∧ s.c.writer ≠ some u) :
    ∃ k ≤ 2 * s.c.r.agarr.length + 4, ∃ s', XReg.goes env thr s (List.replicate k t) = some s' ∧ s'.c.pc t = .idle ∧
      ∀ u, u ≠ t → s'.c.pc u = s.c.pc u := by
  have hfine := (xfine_reach (m := m) (mx := mx) hs hP h).fine
  have hcl : s.c.Clear t := by
    intro hw u hu
    rcases hc with x | x | x
    · have := (hfine.reads t).1 x
      revert hw this
      generalize s.c.pc t = p
      cases p <;> simp [CPc.waits, CPc.reads]
    · have := (hfine.writes t).1 x
      revert hw this
      generalize s.c.pc t = p
      cases p <;> simp [CPc.waits, CPc.writes]
    · obtain ⟨h1, h2⟩ := x u hu
      exact ⟨by simpa using mt (hfine.reads u).2 h1, by simpa using mt (hfine.writes u).2 h2⟩
  have hl : (s.c.pc t).left s.c.r.agarr.length ≤ 2 * s.c.r.agarr.length + 4 := by
    generalize s.c.pc t = p
    cases p with
    | want op => cases op <;> simp only [CPc.left] <;> omega
    | _ => simp only [CPc.left]; omega
  obtain ⟨k, hk, s', h1, h2, h3, -⟩ := soloX hs B hP thr t _ h (hr.mono (by have := fresh_le (s.c.pc t); omega)) hcl hl
  exact ⟨k, hk, s', h1, h2, h3⟩

/-- Whatever the threads are in the middle of and whatever their handlers do, there is an order in which they go on that ends all their calls. -/
theorem C179_drain (env : Env) (P : RegOp → Prop) (opt : RegistryOpts) (s : XReg T) (m mx : Int) (B : Reducer.Bounds env m mx)
    (hs : 0 < opt.step) (hP : ∀ op, P op → op.within m mx) (h : ReflTransGen (XReg.Step env P) { c := CReg.init (Registry.new opt) } s)
    (hr : Room opt (s.c.r.nextRef + Fintype.card T)) (thr : AggData → Bool) :
    ∃ (ts : List T) (s' : XReg T), XReg.goes env thr s ts = some s' ∧ ∀ t, s'.c.pc t = .idle :=
  drainX hs B hP thr _ (s := s) Finset.univ (Nat.le_refl _) (fun t ht => absurd (Finset.mem_univ t) ht) h hr

/-- A call throws exactly when its handler throws on a record that the call would give if it returned. -/
theorem C179_throws_iff (env : Env) (P : RegOp → Prop) (opt : RegistryOpts) (s : XReg T) (m mx : Int) (B : Reducer.Bounds env m mx)
    (hs : 0 < opt.step) (hP : ∀ op, P op → op.within m mx) (h : ReflTransGen (XReg.Step env P) { c := CReg.init (Registry.new opt) } s)
    (t : T) (thr : AggData → Bool) (p : RPusher) (c1 c2 ts : Int) (x : AddArg) (k : Nat) (hpc : s.c.pc t = .have (.call p c1 c2 ts x) k)
    (hh : p.p.handler = true) :
    (∃ s', s.throws env t thr = some s') ↔ ∃ c d, s.c.move env t = some c ∧ c.out = s.c.out ++ [(t, k, d)] ∧ thr d = true := by
  have hf := (xfine_reach (m := m) (mx := mx) hs hP h).fine.pc t
  rw [hpc] at hf
  obtain ⟨a, ha⟩ := ((serialX_reach hs h).all k).1 hf.2.2
  obtain ⟨D, A⟩ := fitX hs hP h k a ha
  obtain ⟨res, out, a1, e⟩ := Aggregator.pushX_total hs B A c1 c2 ts x thr
  obtain ⟨ok, a2, g1, -, -, g2, g3⟩ := Aggregator.pushX_spec e
  by_cases hal : p.p.token = true ∧ a.alive = true
  · have hmv : s.c.move env t = some ((s.c.setAgg t k a2 [.push c1 c2 ts x true] out).goto t (.leave (.call p c1 c2 ts x) (.handed out))) := by
      unfold CReg.move
      rw [hpc]
      simp only [ha, CReg.use, Aggregator.Pusher.call, if_pos hal, hh, g1, bind_ok']
    have hout : ((s.c.setAgg t k a2 [.push c1 c2 ts x true] out).goto t (.leave (.call p c1 c2 ts x) (.handed out))).out =
        s.c.out ++ out.map fun d => (t, k, d) := rfl
    constructor
    · rintro ⟨s', h'⟩
      obtain ⟨op, k', a', o, out', a'', q1, q2, q3, q4, -⟩ := throws_spec h'
      rw [hpc] at q1
      cases q1
      rw [ha] at q2
      cases q2
      simp only [RegOp.asks, if_pos hal, hh] at q3
      cases q3
      simp only [breaks, e] at q4
      cases res with
      | some b => cases q4
      | none =>
        obtain ⟨⟨d, rfl, hd⟩, -⟩ := g3 rfl
        exact ⟨_, d, hmv, hout, hd⟩
    · rintro ⟨c, d, q1, q2, q3⟩
      rw [hmv] at q1
      cases q1
      rw [hout] at q2
      have q4 : out.map (fun d => (t, k, d)) = [(t, k, d)] := List.append_cancel_left q2
      have q5 : d ∈ out := by
        have : (t, k, d) ∈ out.map fun d => (t, k, d) := by rw [q4]; simp
        obtain ⟨d', h1, h2⟩ := List.mem_map.1 this
        cases h2
        exact h1
      cases res with
      | some b =>
        have := Aggregator.pushX_unthrown e d q5
        rw [q3] at this
        cases this
      | none =>
        unfold XReg.throws
        rw [hpc]
        simp only [ha, RegOp.asks, if_pos hal, hh, breaks, e]
        exact ⟨_, rfl⟩
  · constructor
    · rintro ⟨s', h'⟩
      obtain ⟨op, k', a', o, out', a'', q1, q2, q3, q4, -⟩ := throws_spec h'
      rw [hpc] at q1
      cases q1
      rw [ha] at q2
      cases q2
      simp only [RegOp.asks, if_neg hal] at q3
      cases q3
    · rintro ⟨c, d, q1, q2, q3⟩
      unfold CReg.move at q1
      rw [hpc] at q1
      simp only [ha, CReg.use, Aggregator.Pusher.call, if_neg hal, bind_ok'] at q1
      cases q1
      have : s.c.out ++ [] = s.c.out ++ [(t, k, d)] := q2
      cases List.append_cancel_left this

/-- The same of `separate` called on the aggregator itself. -/
theorem C179_throws_separate (env : Env) (P : RegOp → Prop) (opt : RegistryOpts) (s : XReg T) (m mx : Int) (B : Reducer.Bounds env m mx)
    (hs : 0 < opt.step) (hP : ∀ op, P op → op.within m mx) (h : ReflTransGen (XReg.Step env P) { c := CReg.init (Registry.new opt) } s)
    (t : T) (thr : AggData → Bool) (id : Nat) (c ts : Int) (f : Bool) (k : Nat) (hpc : s.c.pc t = .have (.direct id (.separate c ts true f)) k) :
    (∃ s', s.throws env t thr = some s') ↔ ∃ c d, s.c.move env t = some c ∧ (t, k, d) ∈ c.out.drop s.c.out.length ∧ thr d = true := by
  have hf := (xfine_reach (m := m) (mx := mx) hs hP h).fine.pc t
  rw [hpc] at hf
  obtain ⟨a, ha⟩ := ((serialX_reach hs h).all k).1 hf.2.2
  obtain ⟨D, A⟩ := fitX hs hP h k a ha
  obtain ⟨res, out, a1, e⟩ := Aggregator.separateX_total hs B A c ts f thr
  obtain ⟨g1, g2⟩ := Aggregator.separateX_spec e
  have hmv : ∀ b a2, a.separate env c ts true f = .ok (b, out, a2) → ∃ c', s.c.move env t = some c' ∧ c'.out = s.c.out ++ out.map fun d => (t, k, d) := by
    intro b a2 hq
    unfold CReg.move
    rw [hpc]
    simp only [ha, CReg.use, Aggregator.exec, hq, bind_ok', List.nil_append]
    exact ⟨_, rfl, rfl⟩
  constructor
  · rintro ⟨s', h'⟩
    obtain ⟨op, k', a', o, out', a'', q1, q2, q3, q4, -⟩ := throws_spec h'
    rw [hpc] at q1
    cases q1
    rw [ha] at q2
    cases q2
    simp only [RegOp.asks] at q3
    cases q3
    simp only [breaks, e] at q4
    cases res with
    | some b => cases q4
    | none =>
      obtain ⟨_, _, d, b, _, -, rfl, hd, -, -, -, a2, hq⟩ := g2 rfl
      obtain ⟨c', m1, m2⟩ := hmv b a2 hq
      exact ⟨c', d, m1, by rw [m2]; simp, hd⟩
  · rintro ⟨c', d, q1, q2, q3⟩
    cases res with
    | some b =>
      obtain ⟨hq, hun⟩ := g1 b rfl
      obtain ⟨c'', m1, m2⟩ := hmv b a1 hq
      rw [m1] at q1
      cases q1
      rw [m2, List.drop_left] at q2
      obtain ⟨d', h1, h2⟩ := List.mem_map.1 q2
      cases h2
      rw [hun d h1] at q3
      cases q3
    | none =>
      unfold XReg.throws
      rw [hpc]
      simp only [ha, RegOp.asks, breaks, e]
      exact ⟨_, rfl⟩

/-! ### Two threads -/

/-- The first part of `exThrown`: thread `false` is about to push, with a handler; `true` is about to add. -/
def exMiddle : List (XReg.XTurn Bool) :=
  (CReg.alone true (.create { clk := 1000 } ['a'] 1003) 2 ++ CReg.alone true (.addId 1 0 0 1004 5 1) 3 ++
    ([.call false (.call { ref := 0, p := { token := true, handler := true } } 0 0 1012 (.one 6 1)), .go false,
      .call true (.addId 1 0 0 1005 7 1), .go true] : List (CReg.Turn Bool))).map .turn

/-- With a handler that throws, one step ends the call of `false`, and two that of `true`; a third one it does not have. -/
example : (match XReg.play exactEnv { c := CReg.init (Registry.new exConcOpt) } exMiddle with
    | some s => (match XReg.goes exactEnv (fun _ => true) s [false, true, true] with
      | some s' => decide (s'.threw.map (fun e => (e.1, e.2.2.map (·.count))) = [(false, [1])] ∧ s'.c.out.length = 1) &&
          (s'.go exactEnv true fun _ => true).isNone && (s'.go exactEnv false fun _ => true).isNone
      | none => false)
    | none => false) = true := by decide +kernel

/-- With one that does not throw, `false` needs two steps, and its record has both events if `true` is first. -/
example : (match XReg.play exactEnv { c := CReg.init (Registry.new exConcOpt) } exMiddle with
    | some s => (match XReg.goes exactEnv (fun _ => false) s [true, false, true, false] with
      | some s' => decide (s'.threw.length = 0 ∧ s'.c.out.map (fun e => (e.1, e.2.2.count)) = [(false, 2)]) &&
          (s'.go exactEnv true fun _ => false).isNone && (s'.go exactEnv false fun _ => false).isNone
      | none => false)
    | none => false) = true := by decide +kernel

end Registry
end Wrtstat
