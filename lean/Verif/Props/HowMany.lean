/-
C151: how many records an aggregator makes.
-/
import Verif.Props.Aggregator

namespace Wrtstat

set_option autoImplicit false

namespace Aggregator

/-- The beginning of the window of time `t`, for windows of length `step` counted from `org`. -/
def windowOf (org step t : Int) : Int := org + (t - org) / step * step

/-- The windows that have ended before `cur` and in which an event is recorded, each once. -/
def busyWindows (org step cur : Int) (events : List (Int × AddArg)) : List Int :=
  ((events.filter fun e => decide (e.1 < cur)).map fun e => windowOf org step e.1).dedup

/-- All records made so far: received, and waiting. -/
def AObs.made (o : AObs) : List AggData := o.received ++ o.a.agList ++ o.a.sep.sepList

theorem windowOf_eq {org step t : Int} (k : Int) (hs : 0 < step) (h1 : org + k * step ≤ t) (h2 : t < org + k * step + step) :
    windowOf org step t = org + k * step := by
  unfold windowOf
  have : (t - org) / step = k := by
    rw [Int.ediv_eq_iff_of_pos hs]
    constructor <;> nlinarith
  rw [this]

/-- Without `force_pop`, the records made are one for each window that has ended and has an event, no more and no fewer. -/
theorem C151_windows (env : Env) (opt : AggregatorOpts) (a0 : Aggregator) (ops : List AOp) (o : AObs)
    (hs : 0 < opt.step) (h0 : Fresh env opt a0) (hc : ∀ op ∈ ops, op.clockOk) (hf : ∀ op ∈ ops, op.forced = false)
    (h : Aggregator.execAll env { a := a0 } ops = .ok o) :
    (o.made.map (·.ts)).Perm (busyWindows a0.sep.currentTime opt.step o.a.sep.currentTime o.accepted) := by
  obtain ⟨log, hout, rraw, araw, gs, h1, h2, h3⟩ := agood_execAll (Q := fun raw d => d.ts = raw.ts) (ord := false)
    (fun _ _ h => h.ts) hs ops (agood_fresh hs h0) hc hf (by simp) (fun _ _ _ _ => rfl) h
  rw [List.nil_append] at gs
  have hst : o.a.sep.step = opt.step := gs.step.1
  have hall : List.Forall₂ (fun raw d => d.ts = raw.ts) (rraw ++ araw) (o.received ++ o.a.agList) :=
    List.rel_append h1 (h2.imp fun _ _ h => h.ts)
  have hts : (rraw ++ araw ++ o.a.sep.sepList).map (·.ts) = o.made.map (·.ts) := by
    unfold AObs.made
    rw [List.map_append, List.map_append (l₁ := o.received ++ o.a.agList)]
    congr 1
    clear gs
    generalize rraw ++ araw = l at hall
    generalize o.received ++ o.a.agList = l' at hall
    induction hall with
    | nil => rfl
    | cons e _ ih => simp only [List.map_cons, ih, e]
  rw [← hts]
  refine ((gs.perm.map (·.ts)).symm).trans ?_
  have hnd : (log.map (·.ts)).Nodup := by
    have := (List.pairwise_map (f := fun d : AggData => d.ts) (R := (· < ·))).2 gs.sorted
    exact this.imp fun h => h.ne
  refine (List.perm_ext_iff_of_nodup hnd (List.nodup_dedup _)).2 fun t => ?_
  simp only [List.mem_map, List.mem_dedup, List.mem_filter, decide_eq_true_eq]
  have hcur : o.a.sep.currentTime = o.a.sep.next - opt.step := by unfold Separator.currentTime; rw [hst]
  rw [hcur]
  constructor
  · rintro ⟨d, hd, rfl⟩
    obtain ⟨k, hk, e⟩ := gs.aligned d hd
    obtain ⟨hsum, k', hk', e'⟩ := gs.recs d hd
    obtain ⟨x, hx⟩ := List.exists_mem_of_ne_nil _ hsum.nonempty
    simp only [eventsIn, List.mem_map, List.mem_filter, decide_eq_true_eq] at hx
    obtain ⟨ev, ⟨hev, hlo, hhi⟩, _⟩ := hx
    refine ⟨ev, ⟨hev, ?_⟩, ?_⟩
    · have : opt.step ≤ k' * opt.step := by nlinarith
      simp only at e'
      omega
    · rw [e]
      exact windowOf_eq k hs (by rw [← e]; exact hlo) (by rw [← e]; exact hhi)
  · rintro ⟨ev, ⟨hev, hlt⟩, rfl⟩
    obtain ⟨d, hd, hlo, hhi⟩ := gs.cover ev hev hlt
    obtain ⟨k, hk, e⟩ := gs.aligned d hd
    exact ⟨d, hd, by rw [e]; exact (windowOf_eq k hs (by rw [← e]; exact hlo) (by rw [← e]; exact hhi)).symm⟩

/-- So there are never more of them than steps have passed since the beginning. -/
theorem C151_time (env : Env) (opt : AggregatorOpts) (a0 : Aggregator) (ops : List AOp) (o : AObs)
    (hs : 0 < opt.step) (h0 : Fresh env opt a0) (hc : ∀ op ∈ ops, op.clockOk) (hf : ∀ op ∈ ops, op.forced = false)
    (h : Aggregator.execAll env { a := a0 } ops = .ok o) :
    o.made.length * opt.step ≤ o.a.sep.currentTime - a0.sep.currentTime := by
  obtain ⟨log, hout, rraw, araw, gs, h1, h2, h3⟩ := agood_execAll (Q := fun raw d => d.ts = raw.ts) (ord := false)
    (fun _ _ h => h.ts) hs ops (agood_fresh hs h0) hc hf (by simp) (fun _ _ _ _ => rfl) h
  rw [List.nil_append] at gs
  have hst : o.a.sep.step = opt.step := gs.step.1
  have hlen : o.made.length = log.length := by
    have e1 := gs.perm.length_eq
    have e2 := h1.length_eq
    have e3 := h2.length_eq
    simp only [AObs.made, List.length_append] at *
    omega
  obtain ⟨K, hK, eK⟩ := gs.origin
  simp only at eK
  have hcur : o.a.sep.currentTime = a0.sep.currentTime + K * opt.step := by
    show o.a.sep.next - o.a.sep.step = _
    rw [hst, eK]
    omega
  have hnd : (log.map (·.ts)).Nodup := by
    have := (List.pairwise_map (f := fun d : AggData => d.ts) (R := (· < ·))).2 gs.sorted
    exact this.imp fun h => h.ne
  have hsub : log.map (·.ts) ⊆ (List.range K.toNat).map fun k : Nat => a0.sep.currentTime + k * opt.step := by
    intro t ht
    obtain ⟨d, hd, rfl⟩ := List.mem_map.1 ht
    obtain ⟨k, hk, e⟩ := gs.aligned d hd
    obtain ⟨_, k', hk', e'⟩ := gs.recs d hd
    simp only at e'
    have hlt : k < K := by
      by_contra hge
      have : K * opt.step ≤ k * opt.step := by nlinarith
      have : opt.step ≤ k' * opt.step := by nlinarith
      omega
    exact List.mem_map.2 ⟨k.toNat, List.mem_range.2 (by omega), by rw [Int.toNat_of_nonneg hk]; exact e.symm⟩
  have hle := (hnd.subperm hsub).length_le
  simp only [List.length_map, List.length_range] at hle
  rw [hlen, hcur]
  have : (log.length : Int) ≤ K := by omega
  nlinarith

/-- Whatever is done, `force_pop` included: every record reports an event of its own, and so does a window not yet reported. -/
theorem C151_events (env : Env) (opt : AggregatorOpts) (a0 : Aggregator) (ops : List AOp) (o : AObs) (x : Option AggData)
    (hs : 0 < opt.step) (h0 : Fresh env opt a0) (hc : ∀ op ∈ ops, op.clockOk)
    (h : Aggregator.execAll env { a := a0 } ops = .ok o) (hx : o.a.aggregateCurrent env = .ok x) :
    o.made.length + x.toList.length ≤ o.accepted.length := by
  obtain ⟨gR, gA, gS, cur, g⟩ := pgood_execAll (Q := fun as _ => as ≠ []) (fun as d h => by
      obtain ⟨raw, hsum, _⟩ := h
      exact hsum.nonempty) hs ops (pgood_fresh hs h0) hc (fun _ _ _ _ _ h => h.nonempty) h
  have hcount : ∀ {Q : List AddArg → AggData → Prop} {l : List AggData} {gs : List (List (Int × AddArg))},
      (∀ as d, Q as d → as ≠ []) → List.Forall₂ (Group opt.step Q) gs l → l.length ≤ gs.flatten.length := by
    intro Q l gs hq h
    induction h with
    | nil => simp
    | @cons a b _ _ h _ ih =>
      have h1 : 0 < a.length := List.length_pos_of_ne_nil fun e => hq _ _ h.1 (by rw [e]; rfl)
      simp only [List.length_cons, List.flatten_cons, List.length_append]
      omega
  have e1 := hcount (fun _ _ h => h) g.rec_
  have e2 := hcount (fun as d h => by obtain ⟨raw, hsum, _⟩ := h; exact hsum.nonempty) g.wait
  have e3 := hcount (fun _ _ h => h.nonempty) g.sep.recs
  have e4 := g.perm.length_eq
  have e5 : x.toList.length ≤ cur.length := by
    cases x with
    | none => simp
    | some d =>
      simp only [Option.toList_some, List.length_singleton]
      refine List.length_pos_of_ne_nil fun e => ?_
      subst e
      have gc := Reducer.goodA_clone g.sep.red
      unfold Aggregator.aggregateCurrent Separator.getCurrent Reducer.getReduced at hx
      have := Separator.detach_nil (env := env) gc
      rw [this] at hx
      cases hx
  simp only [AObs.made, List.length_append] at *
  omega

/-- Events in windows 1000 (twice), 1010, 1050 and 1090: three records, the window of 1090 is still open. -/
def exManyOps : List AOp :=
  [.add 0 0 1003 (.one 5 1), .add 0 0 1004 (.one 7 2), .push 0 0 1012 (.many [7, 2] 2) true, .pop, .add 0 0 1057 (.one 9 4),
   .separate 0 1061 false false, .add 0 0 1099 (.one 1 1)]

example : (Aggregator.execAll exactEnv { a := exANew } exManyOps).toOption.map (fun o => (o.made.map (·.ts),
    busyWindows exANew.sep.currentTime 10 o.a.sep.currentTime o.accepted, o.a.sep.currentTime, o.accepted.length)) =
    some ([1000, 1010, 1050], [1000, 1010, 1050], 1090, 5) := by decide +kernel

/-- With `force_pop` a window may be reported more than once. -/
example : (Aggregator.execAll exactEnv { a := exANew } [.add 0 0 1003 (.one 5 1), .forcePop,
    .add 0 0 1004 (.one 7 2), .forcePop]).toOption.map (fun o => (o.made.map (·.ts),
    busyWindows exANew.sep.currentTime 10 o.a.sep.currentTime o.accepted, o.accepted.length)) = some ([1000, 1000], [], 2) := by
  decide +kernel

end Aggregator
end Wrtstat
