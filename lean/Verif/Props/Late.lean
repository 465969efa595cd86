/-
C153: an event is recorded unless an earlier call lies in a later window.
C154: what one call costs the events after it.
-/
import Verif.Lemmas.Horizon
import Verif.Props.Scale

namespace Wrtstat

set_option autoImplicit false

open Aggregator

namespace Aggregator

/-- The aligned time of a call that can move the window: a tick, or an event handed to an aggregator that is switched on. -/
def AOp.moment (opt : AggregatorOpts) (en : Bool) : AOp → Option Int
  | .add c _ ts _ => if en then some (align opt.step (meant opt.resolution c ts)) else none
  | .push c _ ts _ _ => if en then some (align opt.step (meant opt.resolution c ts)) else none
  | .separate c ts _ _ => some (align opt.step (meant opt.resolution c ts))
  | _ => none

/-- Whether the aggregator is switched on after the call. -/
def AOp.after (en : Bool) : AOp → Bool
  | .enable v => v
  | _ => en

/-- What the call hands over. -/
def AOp.payload : AOp → Option AddArg
  | .add _ _ _ x => some x
  | .push _ _ _ x _ => some x
  | _ => none

/-- The aligned times of the calls of a history that can move the window, if the aggregator is switched on (or not) before it. -/
def moments (opt : AggregatorOpts) : Bool → List AOp → List Int
  | _, [] => []
  | en, op :: ops => (op.moment opt en).toList ++ moments opt (op.after en) ops

theorem windowOf_le {org step t : Int} (hs : 0 < step) : windowOf org step t ≤ t := by
  unfold windowOf
  have := Int.ediv_mul_le (t - org) (show step ≠ 0 by omega)
  omega

theorem lt_windowOf {org step t : Int} (hs : 0 < step) : t < windowOf org step t + step := by
  unfold windowOf
  have := Int.lt_ediv_add_one_mul_self (t - org) hs
  have e : ((t - org) / step + 1) * step = (t - org) / step * step + step := by ring
  omega

theorem windowOf_from {org step t : Int} (hs : 0 < step) (k : Int) : windowOf (org + k * step) step t = windowOf org step t := by
  have h1 := windowOf_le (org := org) (t := t) hs
  have h2 := lt_windowOf (org := org) (t := t) hs
  have e : org + k * step + ((t - org) / step - k) * step = windowOf org step t := by unfold windowOf; ring
  rw [windowOf_eq ((t - org) / step - k) hs (by omega) (by omega), e]

/-- A window begins before a time if and only if it is not after the window of the time. -/
theorem windowOf_le_iff {org step t : Int} (hs : 0 < step) (k : Int) : org + k * step ≤ windowOf org step t ↔ org + k * step ≤ t := by
  have h1 := windowOf_le (org := org) (t := t) hs
  refine ⟨fun h => by omega, fun h => ?_⟩
  unfold windowOf
  have : k ≤ (t - org) / step := (Int.le_ediv_iff_mul_le hs).2 (by omega)
  have : k * step ≤ (t - org) / step * step := Int.mul_le_mul_of_nonneg_right this (by omega)
  omega

/-- The effect of a call in one formula. -/
theorem next_eq {opt : AggregatorOpts} {org k : Int} (hs : 0 < opt.step) {s : Horizon} (hk : s.cur = org + k * opt.step) (op : AOp) :
    (s.next opt op).en = op.after s.en ∧
    (s.next opt op).cur = ((op.moment opt s.en).elim s.cur fun t => max s.cur (windowOf org opt.step t)) ∧
    (s.next opt op).acc = s.acc ++ ((op.moment opt s.en).elim [] fun t =>
      if s.cur ≤ t then (op.payload.map fun x => (t, x)).toList else []) := by
  have key : ∀ t : Int, (s.cur ≤ t → windowOf s.cur opt.step t = max s.cur (windowOf org opt.step t)) ∧
      (¬ s.cur ≤ t → s.cur = max s.cur (windowOf org opt.step t)) := by
    intro t
    refine ⟨fun h => ?_, fun h => ?_⟩
    · rw [hk] at h ⊢
      rw [windowOf_from hs, max_eq_right ((windowOf_le_iff hs k).2 h)]
    · have := windowOf_le (org := org) (t := t) hs
      omega
  cases op with
  | add c _ ts x =>
    simp only [Horizon.next, AOp.moment, AOp.after, AOp.payload]
    obtain ⟨h1, h2⟩ := key (align opt.step (meant opt.resolution c ts))
    by_cases he : s.en = true
    · by_cases hle : s.cur ≤ align opt.step (meant opt.resolution c ts)
      · rw [if_pos ⟨he, hle⟩]; simp [he, hle, h1 hle]
      · rw [if_neg (fun h => hle h.2)]; simp only [he, if_true, Option.elim, if_neg hle, List.append_nil, and_true, true_and]; exact h2 hle
    · rw [if_neg (fun h => he h.1)]; simp [he]
  | push c _ ts x _ =>
    simp only [Horizon.next, AOp.moment, AOp.after, AOp.payload]
    obtain ⟨h1, h2⟩ := key (align opt.step (meant opt.resolution c ts))
    by_cases he : s.en = true
    · by_cases hle : s.cur ≤ align opt.step (meant opt.resolution c ts)
      · rw [if_pos ⟨he, hle⟩]; simp [he, hle, h1 hle]
      · rw [if_neg (fun h => hle h.2)]; simp only [he, if_true, Option.elim, if_neg hle, List.append_nil, and_true, true_and]; exact h2 hle
    · rw [if_neg (fun h => he h.1)]; simp [he]
  | separate c ts _ _ =>
    simp only [Horizon.next, AOp.moment, AOp.after, AOp.payload]
    obtain ⟨h1, h2⟩ := key (align opt.step (meant opt.resolution c ts))
    by_cases hle : s.cur ≤ align opt.step (meant opt.resolution c ts)
    · rw [if_pos hle]; simp [h1 hle]
    · rw [if_neg hle]; simp only [Option.elim, if_neg hle, List.append_nil, and_true, true_and]; exact h2 hle
  | pop => simp [Horizon.next, AOp.moment, AOp.after]
  | forcePop => simp [Horizon.next, AOp.moment, AOp.after]
  | look => simp [Horizon.next, AOp.moment, AOp.after]
  | enable v => simp [Horizon.next, AOp.moment, AOp.after]

theorem cur_form {opt : AggregatorOpts} {org k : Int} (hs : 0 < opt.step) {s : Horizon} (hk : s.cur = org + k * opt.step) (op : AOp) :
    ∃ k', (s.next opt op).cur = org + k' * opt.step := by
  rw [(next_eq hs hk op).2.1]
  cases op.moment opt s.en with
  | none => exact ⟨k, hk⟩
  | some t =>
    rcases le_total s.cur (windowOf org opt.step t) with h | h
    · exact ⟨(t - org) / opt.step, max_eq_right h⟩
    · exact ⟨k, (max_eq_left h).trans hk⟩

theorem fold_cur {opt : AggregatorOpts} {org : Int} (hs : 0 < opt.step) (ops : List AOp) : ∀ (s : Horizon), (∃ k, s.cur = org + k * opt.step) →
    (∃ k, (ops.foldl (Horizon.next opt) s).cur = org + k * opt.step) ∧ s.cur ≤ (ops.foldl (Horizon.next opt) s).cur ∧
    (∀ t ∈ moments opt s.en ops, windowOf org opt.step t ≤ (ops.foldl (Horizon.next opt) s).cur) ∧
    ((ops.foldl (Horizon.next opt) s).cur = s.cur ∨
      ∃ t ∈ moments opt s.en ops, (ops.foldl (Horizon.next opt) s).cur = windowOf org opt.step t) := by
  induction ops with
  | nil => intro s hk; exact ⟨hk, le_refl _, by simp [moments], .inl rfl⟩
  | cons op ops ih =>
    intro s ⟨k, hk⟩
    obtain ⟨e1, e2, -⟩ := next_eq hs hk op
    obtain ⟨h1, h2, h3, h4⟩ := ih _ (cur_form hs hk op)
    rw [List.foldl_cons]
    rw [e1] at h3 h4
    rw [e2] at h2 h4
    simp only [moments]
    cases hm : op.moment opt s.en with
    | none =>
      rw [hm] at h2 h4
      simp only [Option.elim, Option.toList_none, List.nil_append] at h2 h4 ⊢
      exact ⟨h1, h2, h3, h4⟩
    | some t =>
      rw [hm] at h2 h4
      simp only [Option.elim, Option.toList_some, List.cons_append, List.nil_append, List.mem_cons, forall_eq_or_imp,
        exists_eq_or_imp] at h2 h4 ⊢
      refine ⟨h1, by omega, ⟨by omega, h3⟩, ?_⟩
      rcases h4 with h4 | ⟨u, hu, h4⟩
      · rcases le_total s.cur (windowOf org opt.step t) with h | h
        · right; left; rw [h4, max_eq_right h]
        · left; rw [h4, max_eq_left h]
      · exact .inr (.inr ⟨u, hu, h4⟩)

/-- Two runs that differ in how far the window has moved. -/
theorem fold_later {opt : AggregatorOpts} {org W : Int} (hs : 0 < opt.step) (hW : ∃ j, W = org + j * opt.step) (ops : List AOp) :
    ∀ (s s2 : Horizon), (∃ k, s.cur = org + k * opt.step) → s2.en = s.en → s2.cur = max s.cur W →
      ∃ new, (ops.foldl (Horizon.next opt) s).acc = s.acc ++ new ∧
        (ops.foldl (Horizon.next opt) s2).acc = s2.acc ++ new.filter fun p => decide (W ≤ p.1) := by
  induction ops with
  | nil => intro s s2 _ _ _; exact ⟨[], by simp, by simp⟩
  | cons op ops ih =>
    intro s s2 ⟨k, hk⟩ he hc
    obtain ⟨j, hj⟩ := hW
    have hk2 : ∃ k2, s2.cur = org + k2 * opt.step := by
      rcases le_total s.cur W with h | h
      · exact ⟨j, by rw [hc, max_eq_right h, hj]⟩
      · exact ⟨k, by rw [hc, max_eq_left h, hk]⟩
    obtain ⟨k2, hk2⟩ := hk2
    obtain ⟨e1, e2, e3⟩ := next_eq hs hk op
    obtain ⟨f1, f2, f3⟩ := next_eq hs hk2 op
    rw [he] at f1 f2 f3
    obtain ⟨new, h1, h2⟩ := ih (s.next opt op) (s2.next opt op) (cur_form hs hk op) (by rw [e1, f1]) (by
      rw [e2, f2, hc]
      cases op.moment opt s.en with
      | none => rfl
      | some t => simp only [Option.elim]; omega)
    rw [List.foldl_cons, List.foldl_cons, h1, h2, e3, f3]
    refine ⟨_, List.append_assoc _ _ _, ?_⟩
    rw [List.append_assoc, List.filter_append]
    congr 2
    cases op.moment opt s.en with
    | none => rfl
    | some t =>
      simp only [Option.elim, hc]
      cases op.payload with
      | none => simp
      | some x =>
        by_cases h : s.cur ≤ t
        · by_cases h' : W ≤ t
          · simp [h, h']
          · simp [h, h']
        · simp [h]

end Aggregator

/-! ### C153 -/

/-- The window of an aggregator is the latest of the windows of its calls: where it began, or the window of a tick or of an event. -/
theorem C153_window (env : Env) (opt : AggregatorOpts) (a0 : Aggregator) (ops : List AOp) (o : AObs) (hs : 0 < opt.step)
    (h0 : Fresh env opt a0) (hc : ∀ op ∈ ops, op.clockOk) (ht : ∀ op ∈ ops, op.timeOk opt)
    (h : execAll env { a := a0 } ops = .ok o) :
    a0.sep.currentTime ≤ o.a.sep.currentTime ∧
    (∀ t ∈ moments opt a0.enabled ops, windowOf a0.sep.currentTime opt.step t ≤ o.a.sep.currentTime) ∧
    (o.a.sep.currentTime = a0.sep.currentTime ∨
      ∃ t ∈ moments opt a0.enabled ops, o.a.sep.currentTime = windowOf a0.sep.currentTime opt.step t) := by
  have e := horizon_execAll hs ops (pgood_fresh hs h0) hc ht h
  obtain ⟨-, h2, h3, h4⟩ := fold_cur (org := a0.sep.currentTime) hs ops ({ a := a0 } : AObs).horizon ⟨0, by simp [AObs.horizon]⟩
  rw [← e] at h2 h3 h4
  exact ⟨h2, h3, h4⟩

theorem late_iff {env : Env} {opt : AggregatorOpts} {a0 : Aggregator} {ops : List AOp} {o : AObs} (hs : 0 < opt.step)
    (h0 : Fresh env opt a0) (hc : ∀ op ∈ ops, op.clockOk) (ht : ∀ op ∈ ops, op.timeOk opt)
    (h : execAll env { a := a0 } ops = .ok o) (T : Int) :
    o.a.sep.currentTime ≤ T ↔ a0.sep.currentTime ≤ T ∧ ∀ t ∈ moments opt a0.enabled ops, windowOf a0.sep.currentTime opt.step t ≤ T := by
  obtain ⟨h1, h2, h3⟩ := C153_window env opt a0 ops o hs h0 hc ht h
  constructor
  · intro h
    exact ⟨by omega, fun t ht => (h2 t ht).trans h⟩
  · rintro ⟨h4, h5⟩
    rcases h3 with e | ⟨t, ht, e⟩
    · rw [e]; exact h4
    · rw [e]; exact h5 t ht

/-- An event is recorded if and only if it is not before the beginning and no earlier call lies in a later window. -/
theorem C153_add (env : Env) (opt : AggregatorOpts) (a0 : Aggregator) (ops : List AOp) (o : AObs) (hs : 0 < opt.step)
    (h0 : Fresh env opt a0) (hc : ∀ op ∈ ops, op.clockOk) (ht : ∀ op ∈ ops, op.timeOk opt)
    (h : execAll env { a := a0 } ops = .ok o) (he : o.a.enabled = true) (c c2 ts : Int) (x : AddArg) (b : Bool) (a' : Aggregator)
    (htx : (AOp.add c c2 ts x).timeOk opt) (hx : o.a.add env c c2 ts x = .ok (b, a')) :
    b = true ↔ a0.sep.currentTime ≤ align opt.step (meant opt.resolution c ts) ∧
      ∀ t ∈ moments opt a0.enabled ops, windowOf a0.sep.currentTime opt.step t ≤ align opt.step (meant opt.resolution c ts) := by
  obtain ⟨_, _, _, _, g⟩ := pgood_execAll (Q := fun _ _ => True) (fun _ _ _ => trivial) hs ops (pgood_fresh hs h0) hc
    (fun _ _ _ _ _ _ => trivial) h
  rw [(add_horizon hs g htx hx).2 he, late_iff hs h0 hc ht h]

theorem C153_push (env : Env) (opt : AggregatorOpts) (a0 : Aggregator) (ops : List AOp) (o : AObs) (hs : 0 < opt.step)
    (h0 : Fresh env opt a0) (hc : ∀ op ∈ ops, op.clockOk) (ht : ∀ op ∈ ops, op.timeOk opt)
    (h : execAll env { a := a0 } ops = .ok o) (he : o.a.enabled = true) (c c2 ts : Int) (x : AddArg) (hd b : Bool) (out : List AggData)
    (a' : Aggregator) (htx : (AOp.push c c2 ts x hd).timeOk opt) (hx : o.a.push env c c2 ts x hd = .ok (b, out, a')) :
    b = true ↔ a0.sep.currentTime ≤ align opt.step (meant opt.resolution c ts) ∧
      ∀ t ∈ moments opt a0.enabled ops, windowOf a0.sep.currentTime opt.step t ≤ align opt.step (meant opt.resolution c ts) := by
  obtain ⟨_, _, _, _, g⟩ := pgood_execAll (Q := fun _ _ => True) (fun _ _ _ => trivial) hs ops (pgood_fresh hs h0) hc
    (fun _ _ _ _ _ _ => trivial) h
  rw [(push_horizon hs g htx hx).2 he, late_iff hs h0 hc ht h]

/-- Windows of 10 from 1000: an event at 1013, then one at 1008 is late, and one at 1010 is not. -/
example : moments exAOpt true [.add 0 0 1013 (.one 5 1), .enable false, .add 0 0 2000 (.one 5 1), .separate 0 1002 false false] = [1010, 1000] ∧
    (execAll exactEnv { a := exANew } [.add 0 0 1013 (.one 5 1), .enable false, .add 0 0 2000 (.one 5 1), .enable true,
      .separate 0 1002 false false, .add 0 0 1008 (.one 6 1), .add 0 0 1010 (.one 7 1)]).toOption.map (·.accepted) =
      some [(1010, .one 5 1), (1010, .one 7 1)] := by
  decide +kernel

/-! ### C154 -/

/-- What one call takes from the events after it: exactly the events of windows before its own that would be recorded without it. -/
theorem C154_loses (env : Env) (opt : AggregatorOpts) (a0 : Aggregator) (pre post : List AOp) (e : AOp) (o1 o o' : AObs) (t : Int)
    (hs : 0 < opt.step) (h0 : Fresh env opt a0) (hc : ∀ op ∈ pre ++ e :: post, op.clockOk ∧ op.timeOk opt)
    (h1 : execAll env { a := a0 } pre = .ok o1) (h : execAll env { a := a0 } (pre ++ e :: post) = .ok o)
    (h' : execAll env { a := a0 } (pre ++ post) = .ok o') (hm : e.moment opt o1.a.enabled = some t) :
    ∃ new, o'.accepted = o1.accepted ++ new ∧
      o.accepted = o1.accepted ++ (if o1.a.sep.currentTime ≤ t then (e.payload.map fun x => (t, x)).toList else []) ++
        new.filter fun p => decide (windowOf a0.sep.currentTime opt.step t ≤ p.1) := by
  have hp : ∀ op ∈ pre, op.clockOk ∧ op.timeOk opt := fun op hop => hc op (by simp [hop])
  have hq : ∀ op ∈ post, op.clockOk ∧ op.timeOk opt := fun op hop => hc op (by simp [hop])
  have hee := hc e (by simp)
  have k1 := horizon_execAll hs pre (pgood_fresh hs h0) (fun op hop => (hp op hop).1) (fun op hop => (hp op hop).2) h1
  have k2 := horizon_execAll hs _ (pgood_fresh hs h0) (fun op hop => (hc op hop).1) (fun op hop => (hc op hop).2) h
  have k3 := horizon_execAll hs (pre ++ post) (pgood_fresh hs h0)
    (fun op hop => ((List.mem_append.1 hop).elim (hp op) (hq op)).1) (fun op hop => ((List.mem_append.1 hop).elim (hp op) (hq op)).2) h'
  rw [List.foldl_append, ← k1] at k2 k3
  rw [List.foldl_cons] at k2
  obtain ⟨⟨k, hk⟩, -⟩ := fold_cur (org := a0.sep.currentTime) hs pre ({ a := a0 } : AObs).horizon ⟨0, by simp [AObs.horizon]⟩
  rw [← k1] at hk
  obtain ⟨e1, e2, e3⟩ := next_eq hs hk e
  have hm' : e.moment opt o1.horizon.en = some t := hm
  rw [hm'] at e2 e3
  have hen : e.after o1.horizon.en = o1.horizon.en := by cases e <;> first | rfl | cases hm
  obtain ⟨new, n1, n2⟩ := fold_later (W := windowOf a0.sep.currentTime opt.step t) hs ⟨_, rfl⟩ post o1.horizon (o1.horizon.next opt e) ⟨k, hk⟩
    (by rw [e1, hen]) e2
  rw [← k3] at n1
  rw [← k2, e3] at n2
  exact ⟨new, n1, n2⟩

/-- The claim: a call takes no event from the others. -/
def C154_FullClaim : Prop :=
  ∀ (env : Env) (opt : AggregatorOpts) (a0 : Aggregator) (pre post : List AOp) (e : AOp) (o o' : AObs),
    0 < opt.step → Fresh env opt a0 → (∀ op ∈ pre ++ e :: post, op.clockOk ∧ op.timeOk opt) → e.event = true →
    execAll env { a := a0 } (pre ++ e :: post) = .ok o → execAll env { a := a0 } (pre ++ post) = .ok o' →
    o'.accepted.Sublist o.accepted

/-- One event with a time far ahead, and all that follow are lost until that time. -/
theorem C154_refuted : ¬ C154_FullClaim := by
  intro h
  have r1 : (execAll exactEnv { a := exANew } ([.add 0 0 1001 (.one 5 1)] ++ .add 0 0 1500 (.one 6 1) ::
      [.add 0 0 1002 (.one 7 1), .add 0 0 1033 (.one 8 1), .add 0 0 1499 (.one 9 1)])).toOption.map
      (fun o => o.accepted) = some [(1000, .one 5 1), (1500, .one 6 1)] := by decide +kernel
  have r2 : (execAll exactEnv { a := exANew } ([.add 0 0 1001 (.one 5 1)] ++
      [.add 0 0 1002 (.one 7 1), .add 0 0 1033 (.one 8 1), .add 0 0 1499 (.one 9 1)])).toOption.map
      (fun o => o.accepted) = some [(1000, .one 5 1), (1000, .one 7 1), (1030, .one 8 1), (1490, .one 9 1)] := by decide +kernel
  obtain ⟨o, e1, e2⟩ := obs_of_map r1
  obtain ⟨o', e1', e2'⟩ := obs_of_map r2
  have := (h exactEnv exAOpt exANew _ _ _ o o' (by decide) (exANew_fresh _) (by decide) (by decide) e1 e1').length_le
  rw [e2, e2'] at this
  simp at this

/-- It takes none exactly when no event recorded after it (without it) is of a window before its own. -/
theorem C154_exact_partial (env : Env) (opt : AggregatorOpts) (a0 : Aggregator) (pre post : List AOp) (e : AOp) (o1 o o' : AObs) (t : Int)
    (hs : 0 < opt.step) (h0 : Fresh env opt a0) (hc : ∀ op ∈ pre ++ e :: post, op.clockOk ∧ op.timeOk opt)
    (h1 : execAll env { a := a0 } pre = .ok o1) (h : execAll env { a := a0 } (pre ++ e :: post) = .ok o)
    (h' : execAll env { a := a0 } (pre ++ post) = .ok o') (hm : e.moment opt o1.a.enabled = some t) :
    o'.accepted.Sublist o.accepted ↔
      ∀ p ∈ o'.accepted.drop o1.accepted.length, windowOf a0.sep.currentTime opt.step t ≤ p.1 := by
  obtain ⟨new, n1, n2⟩ := C154_loses env opt a0 pre post e o1 o o' t hs h0 hc h1 h h' hm
  rw [n1, n2, List.drop_left]
  set W := windowOf a0.sep.currentTime opt.step t with hW
  constructor
  · intro hsub p hp
    by_contra hlt
    have := hsub.countP_le (p := fun p => decide (p.1 < W))
    have z1 : List.countP (fun p : Int × AddArg => decide (p.1 < W))
        (if o1.a.sep.currentTime ≤ t then (e.payload.map fun x => (t, x)).toList else []) = 0 := by
      rw [List.countP_eq_zero]
      intro q hq
      have : W ≤ t := windowOf_le hs
      split at hq
      · cases hx : e.payload with
        | none => rw [hx] at hq; simp at hq
        | some x =>
          rw [hx] at hq
          simp only [Option.map_some, Option.toList_some, List.mem_singleton] at hq
          subst hq
          simpa using this
      · simp at hq
    have z2 : List.countP (fun p : Int × AddArg => decide (p.1 < W)) (new.filter fun p => decide (W ≤ p.1)) = 0 := by
      rw [List.countP_eq_zero]
      intro q hq
      have := (List.mem_filter.1 hq).2
      simpa using this
    have z3 : 0 < List.countP (fun p : Int × AddArg => decide (p.1 < W)) new :=
      List.countP_pos_iff.2 ⟨p, hp, by simpa using hlt⟩
    simp only [List.countP_append] at this
    omega
  · intro hall
    rw [List.filter_eq_self.2 (fun p hp => by simpa using hall p hp), List.append_assoc]
    exact (List.sublist_append_right _ _).append_left _

/-- In particular an event in the past, late or not, and an event of the current window, cost nothing. -/
theorem C154_past_partial (env : Env) (opt : AggregatorOpts) (a0 : Aggregator) (pre post : List AOp) (e : AOp) (o1 o o' : AObs) (t : Int)
    (hs : 0 < opt.step) (h0 : Fresh env opt a0) (hc : ∀ op ∈ pre ++ e :: post, op.clockOk ∧ op.timeOk opt)
    (h1 : execAll env { a := a0 } pre = .ok o1) (h : execAll env { a := a0 } (pre ++ e :: post) = .ok o)
    (h' : execAll env { a := a0 } (pre ++ post) = .ok o') (hm : e.moment opt o1.a.enabled = some t)
    (hle : t < o1.a.sep.currentTime + opt.step) : o'.accepted.Sublist o.accepted := by
  rw [C154_exact_partial env opt a0 pre post e o1 o o' t hs h0 hc h1 h h' hm]
  have hp : ∀ op ∈ pre, op.clockOk ∧ op.timeOk opt := fun op hop => hc op (by simp [hop])
  have hq : ∀ op ∈ post, op.clockOk ∧ op.timeOk opt := fun op hop => hc op (by simp [hop])
  have k1 := horizon_execAll hs pre (pgood_fresh hs h0) (fun op hop => (hp op hop).1) (fun op hop => (hp op hop).2) h1
  have k3 := horizon_execAll hs (pre ++ post) (pgood_fresh hs h0)
    (fun op hop => ((List.mem_append.1 hop).elim (hp op) (hq op)).1) (fun op hop => ((List.mem_append.1 hop).elim (hp op) (hq op)).2) h'
  rw [List.foldl_append, ← k1] at k3
  obtain ⟨⟨k, hk⟩, -⟩ := fold_cur (org := a0.sep.currentTime) hs pre ({ a := a0 } : AObs).horizon ⟨0, by simp [AObs.horizon]⟩
  rw [← k1] at hk
  have hk' : o1.a.sep.currentTime = a0.sep.currentTime + k * opt.step := hk
  have hW : windowOf a0.sep.currentTime opt.step t ≤ o1.a.sep.currentTime := by
    have := windowOf_le (org := a0.sep.currentTime) (t := t) hs
    by_contra hlt
    have h2 : ¬ (a0.sep.currentTime + (k + 1) * opt.step ≤ windowOf a0.sep.currentTime opt.step t) := by
      rw [windowOf_le_iff hs]
      have : (k + 1) * opt.step = k * opt.step + opt.step := by ring
      omega
    unfold windowOf at hlt h2
    have h3 : k < (t - a0.sep.currentTime) / opt.step := by
      by_contra hge
      have := Int.mul_le_mul_of_nonneg_right (not_lt.1 hge) (show 0 ≤ opt.step by omega)
      omega
    have := Int.mul_le_mul_of_nonneg_right (show k + 1 ≤ (t - a0.sep.currentTime) / opt.step from h3) (show 0 ≤ opt.step by omega)
    omega
  obtain ⟨new, n1, n2⟩ := fold_later (W := o1.a.sep.currentTime) (org := a0.sep.currentTime) hs ⟨k, hk'⟩ post o1.horizon o1.horizon ⟨k, hk⟩ rfl
    (by simp [AObs.horizon])
  rw [← k3] at n1 n2
  have n1' : o'.accepted = o1.accepted ++ new := n1
  have n2' : o'.accepted = o1.accepted ++ new.filter _ := n2
  rw [n2', List.drop_left]
  intro p hp
  have := (List.mem_filter.1 hp).2
  simp only [decide_eq_true_eq] at this
  omega

/-- The event at 1025 costs the one at 1013 and nothing else. -/
example : (execAll exactEnv { a := exANew } [.add 0 0 1001 (.one 5 1), .add 0 0 1025 (.one 6 1), .add 0 0 1013 (.one 7 1),
      .add 0 0 1021 (.one 8 1)]).toOption.map (·.accepted) = some [(1000, .one 5 1), (1020, .one 6 1), (1020, .one 8 1)] ∧
    (execAll exactEnv { a := exANew } [.add 0 0 1001 (.one 5 1), .add 0 0 1013 (.one 7 1),
      .add 0 0 1021 (.one 8 1)]).toOption.map (·.accepted) = some [(1000, .one 5 1), (1010, .one 7 1), (1020, .one 8 1)] := by
  decide +kernel

end Wrtstat
