/-
C123: the order of events within a window does not matter.
-/
import Verif.Props.Double
import Verif.Props.Aggregator

namespace Wrtstat

set_option autoImplicit false

open Reducer

/-- The claim: the same calls in another order give the same summary, but for the order of the samples. -/
def C123_FullClaim : Prop :=
  ∀ (env : Env) (opt : ReducerOpts) (as bs : List AddArg) (d d' : AggData) (r r' : Reducer), as.Perm bs →
    detach env (as.foldl (Reducer.add env) (new opt)) = .ok (some d, r) →
    detach env (bs.foldl (Reducer.add env) (new opt)) = .ok (some d', r') →
    d.toReducedInfo = d'.toReducedInfo ∧ d.data.Perm d'.data

/-- What is told and which samples are kept. -/
def toldSamples (x : M (Option AggData × Reducer)) : Option (ReducedInfo × List Int) :=
  match x with
  | .ok (some d, _) => some (d.toReducedInfo, d.data)
  | _ => none

theorem toldSamples_some {x : M (Option AggData × Reducer)} {i : ReducedInfo} {l : List Int} (h : toldSamples x = some (i, l)) :
    ∃ d r, x = .ok (some d, r) ∧ d.toReducedInfo = i ∧ d.data = l := by
  unfold toldSamples at h
  split at h
  · cases h
    exact ⟨_, _, rfl, rfl, rfl⟩
  · cases h

/-- Which samples are kept of a window with too many depends on their order: of 1, 2, 3, 4 a reducer of two samples keeps 1 and 4
or 1 and 3. -/
theorem C123_refuted : ¬ C123_FullClaim := by
  intro h
  obtain ⟨d, r, e, _, e2⟩ := toldSamples_some (x := detach exactEnv
    (([.one 1 1, .one 2 1, .one 3 1, .one 4 1] : List AddArg).foldl (Reducer.add exactEnv) (new { limit := 2, levels := 2 })))
    (i := { ts := 0, count := 4, lossy := 2, min := 1, max := 4, avg := 2 }) (l := [1, 4]) (by decide +kernel)
  obtain ⟨d', r', e', _, e2'⟩ := toldSamples_some (x := detach exactEnv
    (([.one 1 1, .one 4 1, .one 2 1, .one 3 1] : List AddArg).foldl (Reducer.add exactEnv) (new { limit := 2, levels := 2 })))
    (i := { ts := 0, count := 4, lossy := 2, min := 1, max := 4, avg := 2 }) (l := [1, 3]) (by decide +kernel)
  have := (h exactEnv _ _ _ _ _ _ _ (by decide) e e').2
  rw [e2, e2'] at this
  revert this
  decide

theorem goodA_fold {env : Env} {opt : ReducerOpts} (as : List AddArg) :
    ∀ {r : Reducer} {bs : List AddArg}, GoodA env opt r bs → GoodA env opt (as.foldl (Reducer.add env) r) (bs ++ as) := by
  induction as with
  | nil => intro r bs g; rw [List.append_nil]; exact g
  | cons a as ih =>
    intro r bs g
    have := ih (goodA_add g a)
    rw [List.append_assoc] at this
    exact this

/-- With `double` the average depends on the order even of a handful of small values: 0, 2, 5, 0, 3 have the average 1, the same
values sorted have the average 2. -/
theorem C123_refuted_avg (opt : ReducerOpts) : ∃ as bs d d' r r', as.Perm bs ∧
    detach doubleEnv (as.foldl (Reducer.add doubleEnv) (new opt)) = .ok (some d, r) ∧
    detach doubleEnv (bs.foldl (Reducer.add doubleEnv) (new opt)) = .ok (some d', r') ∧
    allValues as = [0, 2, 5, 0, 3] ∧ d.avg = 1 ∧ d'.avg = 2 := by
  have avg : ∀ (as : List AddArg) (x : Int), as ≠ [] → castInt (avgFold doubleEnv (allValues as)).1 = .ok x →
      ∃ d r, detach doubleEnv (as.foldl (Reducer.add doubleEnv) (new opt)) = .ok (some d, r) ∧ d.avg = x := by
    intro as x hne hx
    have g : GoodA doubleEnv opt _ as := goodA_fold as (goodA_new doubleEnv opt)
    rcases detach_spec g with ⟨h, -⟩ | ⟨-, r1, -, -, -, -, -, -, ⟨a, ha, e⟩ | ⟨ha, e⟩⟩
    · exact absurd h hne
    · rw [g.good.avg, hx] at ha
      cases ha
      exact ⟨_, _, e, rfl⟩
    · rw [g.good.avg, hx] at ha
      cases ha
  obtain ⟨d, r, e1, e2⟩ := avg [.one 0 1, .one 2 1, .one 5 1, .one 0 1, .one 3 1] 1 (by simp) (by decide +kernel)
  obtain ⟨d', r', e1', e2'⟩ := avg [.one 0 1, .one 0 1, .one 2 1, .one 3 1, .one 5 1] 2 (by simp) (by decide +kernel)
  exact ⟨_, _, d, d', r, r', by decide, e1, e1', rfl, e2, e2'⟩

/-! ### What does not depend on the order -/

theorem perm_values {as bs : List AddArg} (h : as.Perm bs) :
    (allValues as).Perm (allValues bs) ∧ sumCount as = sumCount bs ∧ sumWeight as = sumWeight bs ∧
      minI (allExtremes as) = minI (allExtremes bs) ∧ maxI (allExtremes as) = maxI (allExtremes bs) := by
  have hx : (allExtremes as).Perm (allExtremes bs) := h.flatMap_right _
  refine ⟨h.flatMap_right _, (h.map _).sum_eq, (h.map _).sum_eq, ?_, ?_⟩
  · exact hx.foldl_eq' (fun x _ y _ z => by omega) _
  · exact hx.foldl_eq' (fun x _ y _ z => by omega) _

/-- Two faithful summaries of the same calls, in any order: the counts, the extremes, the loss and the number of samples agree, the
average if arithmetic is exact, and the samples if none had to be dropped. -/
theorem summary_perm {env : Env} {limit levels : Nat} {as bs : List AddArg} {d d' : AggData} (h : as.Perm bs)
    (s : Summary env limit levels as d) (s' : Summary env limit levels bs d') :
    d.count = d'.count ∧ d.lossy = d'.lossy ∧ d.min = d'.min ∧ d.max = d'.max ∧ d.data.length = d'.data.length ∧
    ((∀ x, env.rnd x = x) → allValues as ≠ [] → d.avg = d'.avg) ∧
    (1 ≤ levels → (allValues as).length ≤ limit → d.data.Perm d'.data) := by
  obtain ⟨hv, h1, h2, h3, h4⟩ := perm_values h
  have hlen : d.data.length = d'.data.length := by rw [s.size, s'.size, hv.length_eq]
  refine ⟨by rw [s.count, s'.count, h1], ?_, by rw [s.min, s'.min, h3], by rw [s.max, s'.max, h4], hlen, ?_, ?_⟩
  · have := s.balance
    have := s'.balance
    omega
  · intro he hne
    rw [s.avg he hne, s'.avg he (fun e => hne (by rw [e] at hv; exact hv.eq_nil)), hv.sum_eq, hv.length_eq]
  · intro hl hn
    exact (s.complete hl hn).trans (hv.trans (s'.complete hl (by rw [← hv.length_eq]; exact hn)).symm)

/-- Percentiles do not depend on the order of the samples; the last one excepted (see C20). -/
theorem percentiles_perm {xs ys : List Int} {p q : Perc} (h : xs.Perm ys) (hp : Percentiles xs p) (hq : Percentiles ys q) :
    p.perc50 = q.perc50 ∧ p.perc80 = q.perc80 ∧ p.perc95 = q.perc95 ∧ p.perc99 = q.perc99 := by
  have key : ∀ (k : Nat) (v w : Int), IsOrderStat xs k v → IsOrderStat ys k w → v = w := by
    intro k v w hv hw
    have hw : IsOrderStat xs k w := by
      obtain ⟨a, b, c⟩ := hw
      exact ⟨h.mem_iff.2 a, by rw [h.countP_eq]; exact b, by rw [h.countP_eq]; exact c⟩
    exact le_antisymm (C19_rank_mono xs k k v w (le_refl _) hv hw) (C19_rank_mono xs k k w v (le_refl _) hw hv)
  have hl := h.length_eq
  refine ⟨key _ _ _ hp.p50 ?_, key _ _ _ hp.p80 ?_, key _ _ _ hp.p95 ?_, key _ _ _ hp.p99 ?_⟩
  · rw [hl]; exact hq.p50
  · rw [hl]; exact hq.p80
  · rw [hl]; exact hq.p95
  · rw [hl]; exact hq.p99

/-- Two reports of the same calls, in any order. -/
theorem report_perm {env : Env} {opt : AggregatorOpts} {as bs : List AddArg} {d d' : AggData} (h : as.Perm bs)
    (s : Report env opt as d) (s' : Report env opt bs d') :
    d.count = d'.count ∧ d.lossy = d'.lossy ∧ d.min = d'.min ∧ d.max = d'.max ∧ d.data.length = d'.data.length ∧
    ((∀ x, env.rnd x = x) → allValues as ≠ [] → d.avg = d'.avg) ∧
    (1 ≤ opt.levels → (allValues as).length ≤ opt.limit →
      (allValues as ≠ [] → d.perc50 = d'.perc50 ∧ d.perc80 = d'.perc80 ∧ d.perc95 = d'.perc95 ∧ d.perc99 = d'.perc99) ∧
      (opt.outSize = 0 ∨ (allValues as).length ≤ opt.outSize → d.data.Perm d'.data)) := by
  obtain ⟨raw, s, e⟩ := s
  obtain ⟨raw', s', e'⟩ := s'
  obtain ⟨h1, h2, h3, h4, h5, h6, h7⟩ := summary_perm h s s'
  refine ⟨by rw [e.count, e'.count, h1], by rw [e.lossy, e'.lossy, h2], by rw [e.min, e'.min, h3], by rw [e.max, e'.max, h4],
    by rw [e.size, e'.size, h5], fun he hne => by rw [e.avg, e'.avg, h6 he hne], fun hl hn => ?_⟩
  have hp := h7 hl hn
  have hc := (s.complete hl hn).length_eq
  refine ⟨fun hne => ?_, fun ho => ?_⟩
  · have h0 : raw.data ≠ [] := fun e => hne (by rw [e] at hc; exact List.length_eq_zero_iff.1 hc.symm)
    have h0' : raw'.data ≠ [] := fun e => h0 (by rw [e] at hp; exact hp.eq_nil)
    exact percentiles_perm hp (e.perc h0) (e'.perc h0')
  · rw [← hc] at ho
    exact (e.full ho).trans (hp.trans (e'.full (by rw [← h5]; exact ho)).symm)

/-- What holds of a reducer in any history: with the same calls pending in another order, the counts, the extremes, the loss and the
number of samples are the same; in exact arithmetic the average too; and all samples if there are no more than `limit`. -/
theorem C123_reducer_partial (env : Env) (opt : ReducerOpts) (ops ops' : List ROp) (q q' r r' : Reducer) (d d' : AggData)
    (h : run env (new opt) ops = .ok q) (h' : run env (new opt) ops' = .ok q') (hp : (pending ops).Perm (pending ops'))
    (hd : detach env q = .ok (some d, r)) (hd' : detach env q' = .ok (some d', r')) :
    d.count = d'.count ∧ d.lossy = d'.lossy ∧ d.min = d'.min ∧ d.max = d'.max ∧ d.data.length = d'.data.length ∧
    ((∀ x, env.rnd x = x) → allValues (pending ops) ≠ [] → d.avg = d'.avg) ∧
    (1 ≤ opt.levels → (allValues (pending ops)).length ≤ opt.limit → d.data.Perm d'.data) :=
  summary_perm hp (summary_of_detach (goodA_run h) hd) (summary_of_detach (goodA_run h') hd')

theorem castInt_near {p q : Rat} {a b : Int} (h : castInt p = .ok a) (h' : castInt q = .ok b) (hpq : |p - q| < 1) : |a - b| ≤ 1 := by
  obtain ⟨h1, h2⟩ := abs_lt.1 hpq
  have bound : ∀ {p : Rat} {a : Int}, castInt p = .ok a → (0 ≤ p ∧ 0 ≤ a ∧ (a : Rat) ≤ p ∧ p < a + 1) ∨ (p < 0 ∧ a ≤ 0 ∧ p ≤ a ∧ (a : Rat) - 1 < p) := by
    intro p a h
    unfold castInt at h
    simp only at h
    split_ifs at h with hp <;> cases h
    · exact .inl ⟨hp, Int.floor_nonneg.2 hp, Int.floor_le p, Int.lt_floor_add_one p⟩
    · rw [not_le] at hp
      have := Int.ceil_lt_add_one p
      exact .inr ⟨hp, Int.ceil_le.2 (by exact_mod_cast hp.le), Int.le_ceil p, by linarith⟩
  rw [abs_le]
  rcases bound h with ⟨_, a0, a1, a2⟩ | ⟨_, a0, a1, a2⟩ <;> rcases bound h' with ⟨_, b0, b1, b2⟩ | ⟨_, b0, b1, b2⟩
  · have e1 : (a : Rat) - b < 2 := by linarith
    have e2 : (-2 : Rat) < a - b := by linarith
    have e1 : a - b < 2 := by exact_mod_cast e1
    have e2 : -2 < a - b := by exact_mod_cast e2
    omega
  · have e1 : (a : Rat) - b < 1 := by linarith
    have e1 : a - b < 1 := by exact_mod_cast e1
    omega
  · have e1 : (b : Rat) - a < 1 := by linarith
    have e1 : b - a < 1 := by exact_mod_cast e1
    omega
  · have e1 : (a : Rat) - b < 2 := by linarith
    have e2 : (-2 : Rat) < a - b := by linarith
    have e1 : a - b < 2 := by exact_mod_cast e1
    have e2 : -2 < a - b := by exact_mod_cast e2
    omega

/-- With `double` the averages of `n` values of size at most `V` in two orders differ by no more than 1, while `V * (n + 7)` is
below `2^52`. -/
theorem C123_double_partial (env : Env) (he : env.rnd = double) (opt : ReducerOpts) (ops ops' : List ROp) (q q' r r' : Reducer)
    (d d' : AggData) (h : run env (new opt) ops = .ok q) (h' : run env (new opt) ops' = .ok q')
    (hp : (pending ops).Perm (pending ops')) (hd : detach env q = .ok (some d, r)) (hd' : detach env q' = .ok (some d', r'))
    (hne : allValues (pending ops) ≠ []) (V : Int) (hv : ∀ v ∈ allValues (pending ops), |v| ≤ V)
    (hn : V * ((allValues (pending ops)).length + 7) < 2 ^ 52) (hl : (allValues (pending ops)).length ≤ 2 ^ 53) : |d.avg - d'.avg| ≤ 1 := by
  obtain ⟨_, r1, _, _, _, _, _, _, _, a, hc, rfl⟩ := detach_some (goodA_run h) hd
  obtain ⟨_, r1', _, _, _, _, _, _, _, a', hc', rfl⟩ := detach_some (goodA_run h') hd'
  rw [(goodA_run h).good.avg] at hc
  rw [(goodA_run h').good.avg] at hc'
  obtain ⟨hpv, -⟩ := perm_values hp
  have e1 := avgFold_err he V _ hl hv
  have e2 := avgFold_err he V (allValues (pending ops')) (by rw [← hpv.length_eq]; exact hl) (fun v hm => hv v (hpv.mem_iff.2 hm))
  rw [← hpv.length_eq, ← hpv.sum_eq] at e2
  have hpos : (0 : Rat) < (allValues (pending ops)).length := by exact_mod_cast List.length_pos_iff.2 hne
  refine castInt_near hc hc' ?_
  generalize (avgFold env (allValues (pending ops))).1 = x at *
  generalize (avgFold env (allValues (pending ops'))).1 = y at *
  have hn' : (V : Rat) * ((allValues (pending ops)).length + 7) < 2 ^ 52 := by exact_mod_cast hn
  generalize ((allValues (pending ops)).length : Rat) = n at *
  generalize ((allValues (pending ops)).sum : Rat) = t at *
  have hb : V * (n * (n + 7)) / 2 ^ 53 < n / 2 := by
    rw [div_lt_div_iff₀ (by norm_num) (by norm_num)]
    nlinarith
  have : n * |x - y| < n := by
    calc n * |x - y| = |n * (x - y)| := by rw [abs_mul, abs_of_pos hpos]
      _ = |(n * x - t) - (n * y - t)| := by ring_nf
      _ ≤ |n * x - t| + |n * y - t| := abs_sub _ _
      _ < n := by linarith
  by_contra hcon
  rw [not_lt] at hcon
  nlinarith

/-- Two aggregators with the same options, their histories whatever: the records of a window that saw the same events, in any order,
tell the same counts, extremes, loss and number of samples; in exact arithmetic the same average; and if the window saw no more than
`limit` values, the same percentiles, and the same samples if `outgoing_reduced_size` allows for all. -/
theorem C123_records_partial (env : Env) (opt : AggregatorOpts) (a0 b0 : Aggregator) (ops ops' : List Aggregator.AOp) (o o' : Aggregator.AObs)
    (hs : 0 < opt.step) (h0 : Aggregator.Fresh env opt a0) (h0' : Aggregator.Fresh env opt b0) (hc : ∀ op ∈ ops, op.clockOk) (hc' : ∀ op ∈ ops', op.clockOk)
    (hf : ∀ op ∈ ops, op.forced = false) (hf' : ∀ op ∈ ops', op.forced = false)
    (hp : ∀ op ∈ ops, op.handed = false) (hp' : ∀ op ∈ ops', op.handed = false)
    (h : Aggregator.execAll env { a := a0 } ops = .ok o) (h' : Aggregator.execAll env { a := b0 } ops' = .ok o')
    (d d' : AggData) (hd : d ∈ o.received ++ o.a.agList) (hd' : d' ∈ o'.received ++ o'.a.agList) (ht : d.ts = d'.ts)
    (hw : (eventsIn o.accepted d.ts (d.ts + opt.step)).Perm (eventsIn o'.accepted d.ts (d.ts + opt.step))) :
    d.count = d'.count ∧ d.lossy = d'.lossy ∧ d.min = d'.min ∧ d.max = d'.max ∧ d.data.length = d'.data.length ∧
    ((∀ x, env.rnd x = x) → allValues (eventsIn o.accepted d.ts (d.ts + opt.step)) ≠ [] → d.avg = d'.avg) ∧
    (1 ≤ opt.levels → (allValues (eventsIn o.accepted d.ts (d.ts + opt.step))).length ≤ opt.limit →
      (allValues (eventsIn o.accepted d.ts (d.ts + opt.step)) ≠ [] →
        d.perc50 = d'.perc50 ∧ d.perc80 = d'.perc80 ∧ d.perc95 = d'.perc95 ∧ d.perc99 = d'.perc99) ∧
      (opt.outSize = 0 ∨ (allValues (eventsIn o.accepted d.ts (d.ts + opt.step))).length ≤ opt.outSize → d.data.Perm d'.data)) := by
  have s := ((C22_fifo env opt a0 ops o hs h0 hc hf hp h).2 d hd).2
  have s' := ((C22_fifo env opt b0 ops' o' hs h0' hc' hf' hp' h').2 d' hd').2
  rw [← ht] at s'
  exact report_perm hw s s'

/-- Three values in two orders, and with a thinned window: the samples 1, 4 of one order are 1, 3 in another, all else is the same. -/
example :
    toldSamples (detach exactEnv (([.one 3 1, .many [1, 2] 4] : List AddArg).foldl (Reducer.add exactEnv) (new { limit := 3, levels := 2 }))) =
      some ({ ts := 0, count := 5, lossy := 2, min := 1, max := 3, avg := 2 }, [3, 1, 2]) ∧
    toldSamples (detach exactEnv (([.many [1, 2] 4, .one 3 1] : List AddArg).foldl (Reducer.add exactEnv) (new { limit := 3, levels := 2 }))) =
      some ({ ts := 0, count := 5, lossy := 2, min := 1, max := 3, avg := 2 }, [1, 2, 3]) := by decide +kernel

end Wrtstat
