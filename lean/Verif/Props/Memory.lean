/-
C130: how many samples are kept does not matter for what is counted.  C131: the mode of reducing is a matter of speed.
-/
import Verif.Props.TimesOnly
import Verif.Props.Order
import Verif.Props.Machine

namespace Wrtstat

set_option autoImplicit false

open Aggregator

/-! ### The same calls summarised twice -/

/-- Two summaries of the same calls, made with other options. -/
structure Pair (env env' : Env) (l l' : Nat × Nat) (d d' : AggData) : Prop where
  ts : d'.ts = d.ts
  avg : d'.avg = d.avg
  perc : d'.toPerc = d.toPerc
  calls : ∃ as, Summary env l.1 l.2 as d ∧ Summary env' l'.1 l'.2 as d'

theorem avgFold_rnd {env env' : Env} (h : env'.rnd = env.rnd) (vs : List Int) : Reducer.avgFold env' vs = Reducer.avgFold env vs := by
  unfold Reducer.avgFold Reducer.avgStep
  rw [h]

/-- Reducers with the same calls pending. -/
def callTwins (env env' : Env) (h : env'.rnd = env.rnd) (opt opt' : AggregatorOpts) : Twins env env' opt.outSize opt'.outSize where
  R r r' := ∃ as, Reducer.GoodA env opt.toReducerOpts r as ∧ Reducer.GoodA env' opt'.toReducerOpts r' as
  X x x' := x' = x
  D := Pair env env' (opt.limit, opt.levels) (opt'.limit, opt'.levels)
  F d d' := ∃ raw raw', Pair env env' (opt.limit, opt.levels) (opt'.limit, opt'.levels) raw raw' ∧
    ((d = raw ∧ d' = raw') ∨ (Delivered opt.outSize raw d ∧ Delivered opt'.outSize raw' d'))
  add {r r' x x'} g hx := by
    obtain ⟨as, g1, g2⟩ := g
    subst hx
    exact ⟨_, Reducer.goodA_add g1 _, Reducer.goodA_add g2 _⟩
  detach {r r' q q' o o'} g hd hd' := by
    obtain ⟨as, g1, g2⟩ := g
    rcases Reducer.detach_spec g1 with ⟨ha, e, er⟩ | ⟨ha, -⟩
    · rcases Reducer.detach_spec g2 with ⟨_, e', er'⟩ | ⟨ha', -⟩
      · rw [e] at hd
        rw [e'] at hd'
        cases hd; cases hd'
        exact ⟨⟨as, g1, g2⟩, .none⟩
      · exact absurd ha ha'
    · cases o with
      | none =>
        rcases Reducer.detach_spec g1 with ⟨ha', _⟩ | ⟨_, _, _, _, _, _, _, _, ⟨_, _, e⟩ | ⟨_, e⟩⟩
        · exact absurd ha' ha
        · rw [e] at hd; cases hd
        · rw [e] at hd; cases hd
      | some d =>
        cases o' with
        | none =>
          rcases Reducer.detach_spec g2 with ⟨ha', _⟩ | ⟨_, _, _, _, _, _, _, _, ⟨_, _, e⟩ | ⟨_, e⟩⟩
          · exact absurd ha' ha
          · rw [e] at hd'; cases hd'
          · rw [e] at hd'; cases hd'
        | some d' =>
          have s1 := summary_of_detach g1 hd
          have s2 := summary_of_detach g2 hd'
          obtain ⟨_, r1, _, k1, _, _, _, _, rfl, a, c, rfl⟩ := Reducer.detach_some g1 hd
          obtain ⟨_, r1', _, k2, _, _, _, _, rfl, a', c', rfl⟩ := Reducer.detach_some g2 hd'
          refine ⟨⟨[], Reducer.goodA_clear k1, Reducer.goodA_clear k2⟩, .some ⟨rfl, ?_, rfl, as, s1, s2⟩⟩
          rw [g1.good.avg] at c
          rw [g2.good.avg, avgFold_rnd h] at c'
          rw [c] at c'
          cases c'
          rfl
  setTs t g := by
    obtain ⟨as, s1, s2⟩ := g.calls
    exact ⟨rfl, g.avg, g.perc, as, ⟨s1.nonempty, s1.count, s1.balance, s1.samples, s1.bound, s1.size, s1.complete, s1.min, s1.max, s1.avg⟩,
      ⟨s2.nonempty, s2.count, s2.balance, s2.samples, s2.bound, s2.size, s2.complete, s2.min, s2.max, s2.avg⟩⟩
  finish {d d' x x'} g e e' := by
    obtain ⟨y, hy, hd⟩ := finish_spec env.nth opt.outSize d
    obtain ⟨y', hy', hd'⟩ := finish_spec env'.nth opt'.outSize d'
    rw [hy] at e
    rw [hy'] at e'
    cases e; cases e'
    exact ⟨d, d', g, .inr ⟨hd, hd'⟩⟩
  raw {d d'} g := ⟨d, d', g, .inl ⟨rfl, rfl⟩⟩

/-- All that is told of a window apart from the samples kept, the number of those lost and the percentiles. -/
structure SameCounted (d d' : AggData) : Prop where
  ts : d'.ts = d.ts
  count : d'.count = d.count
  min : d'.min = d.min
  max : d'.max = d.max
  avg : d'.avg = d.avg

variable {env env' : Env} {opt opt' : AggregatorOpts} {he : env'.rnd = env.rnd}

theorem counted_of_twins {d d' : AggData} (h : (callTwins env env' he opt opt').F d d') : SameCounted d d' := by
  obtain ⟨raw, raw', p, h⟩ := h
  obtain ⟨as, s, s'⟩ := p.calls
  have g : SameCounted raw raw' := ⟨p.ts, by rw [s.count, s'.count], by rw [s.min, s'.min], by rw [s.max, s'.max], p.avg⟩
  rcases h with ⟨rfl, rfl⟩ | ⟨e, e'⟩
  · exact g
  · exact ⟨by rw [e.ts, e'.ts, g.ts], by rw [e.count, e'.count, g.count], by rw [e.min, e'.min, g.min], by rw [e.max, e'.max, g.max],
      by rw [e.avg, e'.avg, g.avg]⟩

theorem loss_of_twins {d d' : AggData} (h : (callTwins env env' he opt opt').F d d') (hl : opt.limit ≤ opt'.limit)
    (hv : opt'.levels = 0 → opt.levels = 0) : d'.lossy ≤ d.lossy := by
  obtain ⟨raw, raw', p, h⟩ := h
  obtain ⟨as, s, s'⟩ := p.calls
  have g : raw'.lossy ≤ raw.lossy := by
    have b := s.balance
    have b' := s'.balance
    rw [s.size] at b
    rw [s'.size] at b'
    split_ifs at b b' with h1 h2 h2 <;> simp only at * <;> omega
  rcases h with ⟨rfl, rfl⟩ | ⟨e, e'⟩
  · exact g
  · rw [e.lossy, e'.lossy]
    exact g

/-- A summary that tells no loss has all values. -/
theorem complete_of_lossless {limit levels : Nat} {as : List AddArg} {d : AggData} (s : Summary env limit levels as d) (h : d.lossy = 0) :
    d.data.Perm (allValues as) := by
  have b := s.balance
  have hw := values_le_weight as
  have hz := s.size
  by_cases hv : levels = 0
  · rw [if_pos hv] at hz
    have h0 : allValues as = [] := List.length_eq_zero_iff.1 (by omega)
    rw [h0, List.length_eq_zero_iff.1 hz]
  · rw [if_neg hv] at hz
    exact s.complete (by omega) (by omega)

theorem lossless_of_twins {d d' : AggData} (h : (callTwins env env' he opt opt').F d d') (h0 : d.lossy = 0) (h0' : d'.lossy = 0) :
    d'.perc50 = d.perc50 ∧ d'.perc80 = d.perc80 ∧ d'.perc95 = d.perc95 ∧ d'.perc99 = d.perc99 ∧
    (opt.outSize = 0 ∨ opt.limit ≤ opt.outSize → opt'.outSize = 0 ∨ opt'.limit ≤ opt'.outSize → d'.data.Perm d.data) := by
  obtain ⟨raw, raw', p, h⟩ := h
  obtain ⟨as, s, s'⟩ := p.calls
  rcases h with ⟨rfl, rfl⟩ | ⟨e, e'⟩
  · have hp := (complete_of_lossless s' h0').trans (complete_of_lossless s h0).symm
    have q := p.perc
    refine ⟨?_, ?_, ?_, ?_, fun _ _ => hp⟩ <;> rw [q]
  · rw [e.lossy] at h0
    rw [e'.lossy] at h0'
    have hp := (complete_of_lossless s' h0').trans (complete_of_lossless s h0).symm
    have hd : ∀ _ : opt.outSize = 0 ∨ opt.limit ≤ opt.outSize, ∀ _ : opt'.outSize = 0 ∨ opt'.limit ≤ opt'.outSize, d'.data.Perm d.data := by
      intro k k'
      have b := s.bound
      have b' := s'.bound
      simp only at b b'
      exact (e'.full (by omega)).trans (hp.trans (e.full (by omega)).symm)
    by_cases hr : raw.data = []
    · have hr' : raw'.data = [] := by rw [hr] at hp; exact hp.eq_nil
      have q : d'.toPerc = d.toPerc := by rw [e.noperc hr, e'.noperc hr', p.perc]
      refine ⟨?_, ?_, ?_, ?_, hd⟩ <;> rw [q]
    · have hr' : raw'.data ≠ [] := fun c => hr (by rw [c] at hp; exact hp.symm.eq_nil)
      obtain ⟨a1, a2, a3, a4⟩ := percentiles_perm hp (e'.perc hr') (e.perc hr)
      exact ⟨a1, a2, a3, a4, hd⟩

theorem size_of_twins {d d' : AggData} (h : (callTwins env env' he opt opt').F d d') (hl : opt'.limit = opt.limit)
    (hv : opt'.levels = 0 ↔ opt.levels = 0) (ho : opt'.outSize = opt.outSize) : d'.lossy = d.lossy ∧ d'.data.length = d.data.length := by
  obtain ⟨raw, raw', p, h⟩ := h
  obtain ⟨as, s, s'⟩ := p.calls
  have hz : raw'.data.length = raw.data.length := by
    rw [s.size, s'.size]
    simp only [hv, hl]
  have hy : raw'.lossy = raw.lossy := by
    have := s.balance
    have := s'.balance
    omega
  rcases h with ⟨rfl, rfl⟩ | ⟨e, e'⟩
  · exact ⟨hy, hz⟩
  · rw [e.lossy, e'.lossy, e.size, e'.size, hz, ho]
    exact ⟨hy, rfl⟩

/-! ### C130 -/

/-- Two runs of the same history: with the same step, resolution and beginning and the same rounding; `reducer_limit`,
`reducer_levels`, `reducing_mode`, `outgoing_reduced_size` and the `nth_element` may differ. -/
structure OtherMemory (env env' : Env) (opt opt' : AggregatorOpts) (ops : List AOp) (o o' : AObs) : Prop where
  rnd : env'.rnd = env.rnd
  pos : 0 < opt.step
  step : opt'.step = opt.step
  res : opt'.resolution = opt.resolution
  runs : ∃ a0 b0, Fresh env opt a0 ∧ Fresh env' opt' b0 ∧ b0.sep.nextTime = a0.sep.nextTime ∧ b0.enabled = a0.enabled ∧
    execAll env { a := a0 } ops = .ok o ∧ execAll env' { a := b0 } ops = .ok o'

theorem like_refl {X : AddArg → AddArg → Prop} (hX : ∀ x, X x x) (ops : List AOp) : List.Forall₂ (AOp.Like X) ops ops := by
  induction ops with
  | nil => exact .nil
  | cons op ops ih =>
    refine .cons ?_ ih
    cases op with
    | add c1 c2 ts x => exact .add c1 c2 ts (hX x)
    | push c1 c2 ts x h => exact .push c1 c2 ts h (hX x)
    | separate c ts h g => exact .separate c ts h g
    | pop => exact .pop
    | forcePop => exact .forcePop
    | look => exact .look
    | enable v => exact .enable v

theorem OtherMemory.twins {ops : List AOp} {o o' : AObs} (h : OtherMemory env env' opt opt' ops o o') :
    (callTwins env env' h.rnd opt opt').O o o' := by
  obtain ⟨a0, b0, ha, hb, hn, he, h1, h2⟩ := h.runs
  exact Twins.O.execAll (T := callTwins env env' h.rnd opt opt') (like_refl (X := (callTwins env env' h.rnd opt opt').X) (fun _ => rfl) ops)
    (Twins.O.start h.pos h.step h.res ha hb rfl rfl hn he (fun g g' => ⟨[], g, g'⟩)) h1 h2

/-- The same calls are accepted, and the records received, and those held, tell the same times, counts, extremes and averages. -/
theorem C130_counted (ops : List AOp) (o o' : AObs) (h : OtherMemory env env' opt opt' ops o o') :
    o'.accepted = o.accepted ∧ List.Forall₂ SameCounted o.received o'.received ∧ List.Forall₂ SameCounted o.a.agList o'.a.agList := by
  have g := h.twins
  refine ⟨?_, g.received.imp fun _ _ => counted_of_twins, g.a.list.imp fun _ _ => counted_of_twins⟩
  have := g.accepted
  generalize o.accepted = l at this
  generalize o'.accepted = l' at this
  clear g
  induction this with
  | nil => rfl
  | cons hd _ ih => rw [ih, Prod.ext hd.1.symm hd.2]

/-- With a larger limit no record tells a larger loss. -/
theorem C130_monotone (ops : List AOp) (o o' : AObs) (h : OtherMemory env env' opt opt' ops o o') (hl : opt.limit ≤ opt'.limit)
    (hv : opt'.levels = 0 → opt.levels = 0) :
    List.Forall₂ (fun d d' => d'.lossy ≤ d.lossy) (o.received ++ o.a.agList) (o'.received ++ o'.a.agList) :=
  List.rel_append (h.twins.received.imp fun _ _ k => loss_of_twins k hl hv) (h.twins.a.list.imp fun _ _ k => loss_of_twins k hl hv)

/-- Records that tell no loss have the same percentiles (`perc100` excepted, see C20), and the same samples if these are not thinned
when they are delivered. -/
theorem C130_lossless (ops : List AOp) (o o' : AObs) (h : OtherMemory env env' opt opt' ops o o') :
    List.Forall₂ (fun d d' => d.lossy = 0 → d'.lossy = 0 →
      d'.perc50 = d.perc50 ∧ d'.perc80 = d.perc80 ∧ d'.perc95 = d.perc95 ∧ d'.perc99 = d.perc99 ∧
      (opt.outSize = 0 ∨ opt.limit ≤ opt.outSize → opt'.outSize = 0 ∨ opt'.limit ≤ opt'.outSize → d'.data.Perm d.data))
      (o.received ++ o.a.agList) (o'.received ++ o'.a.agList) :=
  List.rel_append (h.twins.received.imp fun _ _ k => lossless_of_twins k) (h.twins.a.list.imp fun _ _ k => lossless_of_twins k)

/-! ### C131 -/

/-- The claim: reducers that differ in their mode only keep the same samples of the same values. -/
def C131_FullClaim : Prop :=
  ∀ (env : Env) (opt : ReducerOpts) (m i : Mode) (as : List AddArg) (d d' : AggData) (r r' : Reducer),
    Reducer.detach env (as.foldl (Reducer.add env) (Reducer.new opt)) = .ok (some d, r) →
    Reducer.detach env (as.foldl (Reducer.add env) (Reducer.new { opt with mode := m, initialMode := i })) = .ok (some d', r') →
    d'.data.Perm d.data

/-- In mode `nth` the samples of the first row that are about to be replaced are wherever `nth_element` left them: of 1 to 6, in rows
of three, 1, 5 and 2 are kept, in mode `sorting` 1, 5 and 3. -/
theorem C131_refuted : ¬ C131_FullClaim := by
  intro h
  obtain ⟨d, r, e, _, e2⟩ := toldSamples_some (x := Reducer.detach { exactEnv with nth := .descending }
    (([.many [1, 2, 3, 4, 5, 6] 6] : List AddArg).foldl (Reducer.add { exactEnv with nth := .descending })
      (Reducer.new { limit := 3, levels := 2, mode := .nth, initialMode := .adapt })))
    (i := { ts := 0, count := 6, lossy := 3, min := 1, max := 6, avg := 3 }) (l := [1, 5, 2]) (by decide +kernel)
  obtain ⟨d', r', e', _, e2'⟩ := toldSamples_some (x := Reducer.detach { exactEnv with nth := .descending }
    (([.many [1, 2, 3, 4, 5, 6] 6] : List AddArg).foldl (Reducer.add { exactEnv with nth := .descending })
      (Reducer.new { limit := 3, levels := 2, mode := .sorting, initialMode := .adapt })))
    (i := { ts := 0, count := 6, lossy := 3, min := 1, max := 6, avg := 3 }) (l := [1, 5, 3]) (by decide +kernel)
  have := h { exactEnv with nth := .descending } { limit := 3, levels := 2, mode := .nth, initialMode := .adapt } .sorting .adapt _ _ _ _ _ e e'
  rw [e2, e2'] at this
  revert this
  decide

/-- What does not depend on the mode, nor on the `nth_element`: times, counts, extremes, averages, losses and numbers of samples of all
records of an aggregator, whatever the history; and the percentiles of the records that tell no loss. -/
theorem C131_records_partial (ops : List AOp) (o o' : AObs) (m i : Mode)
    (h : OtherMemory env env' opt { opt with mode := m, initialMode := i } ops o o') :
    List.Forall₂ (fun d d' => SameCounted d d' ∧ d'.lossy = d.lossy ∧ d'.data.length = d.data.length ∧
      (d.lossy = 0 → d'.perc50 = d.perc50 ∧ d'.perc80 = d.perc80 ∧ d'.perc95 = d.perc95 ∧ d'.perc99 = d.perc99))
      (o.received ++ o.a.agList) (o'.received ++ o'.a.agList) := by
  have key : ∀ d d', (callTwins env env' h.rnd opt { opt with mode := m, initialMode := i }).F d d' → SameCounted d d' ∧
      d'.lossy = d.lossy ∧ d'.data.length = d.data.length ∧
      (d.lossy = 0 → d'.perc50 = d.perc50 ∧ d'.perc80 = d.perc80 ∧ d'.perc95 = d.perc95 ∧ d'.perc99 = d.perc99) := by
    intro d d' k
    obtain ⟨k1, k2⟩ := size_of_twins k rfl Iff.rfl rfl
    refine ⟨counted_of_twins k, k1, k2, fun h0 => ?_⟩
    obtain ⟨a1, a2, a3, a4, _⟩ := lossless_of_twins k h0 (k1.trans h0)
    exact ⟨a1, a2, a3, a4⟩
  exact List.rel_append (h.twins.received.imp key) (h.twins.a.list.imp key)

/-- The same history with a reducer of 8 samples and with one of 2 in another mode: what is counted is the same, the loss is larger. -/
example : (execAll exactEnv { a := exANew } exAOps).toOption.map
    (fun o => o.received.map fun d => [d.ts, d.count, d.min, d.max, d.avg, d.lossy]) = some [[1000, 4, 2, 9, 5, 0]] ∧
    (execAll exactEnv { a := { exANew with sep := { exANew.sep with reducer := Reducer.new { limit := 2, levels := 3, mode := .nth } } } }
      exAOps).toOption.map
    (fun o => o.received.map fun d => [d.ts, d.count, d.min, d.max, d.avg, d.lossy]) = some [[1000, 4, 2, 9, 5, 2]] := by
  decide +kernel

end Wrtstat
