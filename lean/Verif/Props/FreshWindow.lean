/-
C121: windows do not depend on each other; with C119, what the percentiles delivered by an aggregator tell of the values recorded.
-/
import Verif.Lemmas.FreshWindow
import Verif.Props.Accuracy
import Verif.Props.Look

namespace Wrtstat
open Aggregator

set_option autoImplicit false

/-- The events accepted are, in this order, those of the windows that have been closed and those of the current one.  Every record
received, waiting or inside the separator belongs to one of the windows closed, and is what a reducer that has seen nothing, with a
current mode that satisfies `P`, returns for the calls of that window in order; received and waiting records are completed with
percentiles and thinned, but those handed over by `separate` (if `raw`) are as the reducer returned them. -/
def ByWindow (env : Env) (opt : AggregatorOpts) (raw : Bool) (P : Mode → Prop) (o : AObs) : Prop :=
  ∃ (gR gA gS segs : List (List (Int × AddArg))) (cur : List (Int × AddArg)),
    (gR ++ gA ++ gS).Perm segs ∧ o.accepted = segs.flatten ++ cur ∧
    List.Forall₂ (fun g d => (∃ m w, P m ∧ OfUnused env opt.toReducerOpts m (g.map Prod.snd) w ∧
        (Aggregator.finish env.nth opt.outSize w = .ok d ∨ raw = true ∧ d = w)) ∧
      ∀ e ∈ g, d.ts ≤ e.1 ∧ e.1 < d.ts + opt.step) gR o.received ∧
    List.Forall₂ (fun g d => (∃ m w, P m ∧ OfUnused env opt.toReducerOpts m (g.map Prod.snd) w ∧
        Aggregator.finish env.nth opt.outSize w = .ok d) ∧
      ∀ e ∈ g, d.ts ≤ e.1 ∧ e.1 < d.ts + opt.step) gA o.a.agList ∧
    List.Forall₂ (fun g d => (∃ m, P m ∧ OfUnused env opt.toReducerOpts m (g.map Prod.snd) d) ∧
      ∀ e ∈ g, d.ts ≤ e.1 ∧ e.1 < d.ts + opt.step) gS o.a.sep.sepList ∧
    ∃ m, P m ∧ o.a.sep.reducer = (cur.map Prod.snd).foldl (Reducer.add env) (unused opt.toReducerOpts m)

/-- The claim: what came before a window does not matter. -/
def C121_FullClaim : Prop :=
  ∀ (env : Env) (opt : AggregatorOpts) (a0 : Aggregator) (ops : List AOp) (o : AObs), 0 < opt.step → Fresh env opt a0 →
    (∀ op ∈ ops, op.clockOk) → execAll env { a := a0 } ops = .ok o →
    ByWindow env opt (ops.any AOp.sepHandler) (fun m => m = (Reducer.new opt.toReducerOpts).curMode) o

/-- All that may come from earlier windows is the current mode, and not even that unless `adapt` is chosen and may change it. -/
theorem C121_windows_partial (env : Env) (opt : AggregatorOpts) (a0 : Aggregator) (ops : List AOp) (o : AObs) (hs : 0 < opt.step)
    (h0 : Fresh env opt a0) (hc : ∀ op ∈ ops, op.clockOk) (h : execAll env { a := a0 } ops = .ok o) :
    ByWindow env opt (ops.any AOp.sepHandler)
      (fun m => Steady opt.toReducerOpts → m = (Reducer.new opt.toReducerOpts).curMode) o := by
  obtain ⟨gR, gA, gS, segs, cur, g⟩ := ogood_execAll (raw := ops.any AOp.sepHandler) hs ops (ogood_fresh hs h0) hc
    (fun op ho hsh => List.any_eq_true.2 ⟨op, ho, hsh⟩) h
  refine ⟨gR, gA, gS, segs, cur, g.whole, g.order, g.rec_.imp ?_, g.wait.imp ?_, g.sep.ofs.imp fun _ _ h => h, g.sep.seen⟩
  · rintro x d ⟨⟨w, ⟨m, hm, hw⟩, hf⟩ | ⟨hr, m, hm, hw⟩, ht⟩
    · exact ⟨⟨m, w, hm, hw, .inl hf⟩, ht⟩
    · exact ⟨⟨m, d, hm, hw, .inr ⟨hr, rfl⟩⟩, ht⟩
  · rintro x d ⟨⟨w, ⟨m, hm, hw⟩, hf⟩, ht⟩
    exact ⟨⟨m, w, hm, hw, hf⟩, ht⟩

/-- So with steady options windows do not depend on each other. -/
theorem C121_steady_partial (env : Env) (opt : AggregatorOpts) (a0 : Aggregator) (ops : List AOp) (o : AObs) (hs : 0 < opt.step)
    (h0 : Fresh env opt a0) (hc : ∀ op ∈ ops, op.clockOk) (hst : Steady opt.toReducerOpts)
    (h : execAll env { a := a0 } ops = .ok o) :
    ByWindow env opt (ops.any AOp.sepHandler) (fun m => m = (Reducer.new opt.toReducerOpts).curMode) o := by
  have := C121_windows_partial env opt a0 ops o hs h0 hc h
  simpa only [hst, forall_const] using this

theorem unused_new (opt : ReducerOpts) : unused opt (Reducer.new opt).curMode = Reducer.new opt := rfl

/-! ### What the percentiles delivered tell of the values recorded -/

/-- What is known of the windows of an aggregator with steady options, a record of which carries samples. -/
theorem tells_window {env : Env} {opt : AggregatorOpts} {T : List AddArg → AggData → Prop}
    (hT : ∀ (as : List AddArg) (r' : Reducer) (d0 rec : AggData) (t : Int),
      Reducer.detach env (as.foldl (Reducer.add env) (Reducer.new opt.toReducerOpts)) = .ok (some d0, r') → d0.data ≠ [] →
      Aggregator.finish env.nth opt.outSize { d0 with ts := t } = .ok rec → T as rec)
    {a0 : Aggregator} {ops : List AOp} {o : AObs} (hs : 0 < opt.step) (h0 : Fresh env opt a0) (hc : ∀ op ∈ ops, op.clockOk)
    (hsh : ops.any AOp.sepHandler = false) (hst : Steady opt.toReducerOpts) (h : execAll env { a := a0 } ops = .ok o) :
    ∃ (gs segs : List (List (Int × AddArg))) (cur : List (Int × AddArg)),
      gs.Subperm segs ∧ o.accepted = segs.flatten ++ cur ∧
      List.Forall₂ (fun g d => (∀ e ∈ g, d.ts ≤ e.1 ∧ e.1 < d.ts + opt.step) ∧ (d.data ≠ [] → T (g.map Prod.snd) d))
        gs (o.received ++ o.a.agList) := by
  obtain ⟨gR, gA, gS, segs, cur, h1, h2, h3, h4, _⟩ := C121_steady_partial env opt a0 ops o hs h0 hc hst h
  have key : ∀ {g : List (Int × AddArg)} {w d : AggData}, OfUnused env opt.toReducerOpts (Reducer.new opt.toReducerOpts).curMode
      (g.map Prod.snd) w → Aggregator.finish env.nth opt.outSize w = .ok d → d.data ≠ [] → T (g.map Prod.snd) d := by
    intro g w d ⟨d0, r', hd, hw⟩ hf hne
    rw [unused_new] at hd
    rw [hw] at hf
    obtain ⟨d', e, hdel⟩ := Aggregator.finish_spec env.nth opt.outSize { d0 with ts := w.ts }
    rw [hf] at e
    cases e
    refine hT _ r' d0 d w.ts hd (fun h0 => hne ?_) hf
    refine List.eq_nil_iff_forall_not_mem.2 fun x hx => ?_
    have := hdel.samples x
    simp only [h0, List.count_nil] at this
    exact absurd (List.count_pos_iff.2 hx) (by omega)
  refine ⟨gR ++ gA, segs, cur, (List.sublist_append_left _ gS).subperm.trans h1.subperm, h2, List.rel_append (h3.imp ?_) (h4.imp ?_)⟩
  · rintro g d ⟨⟨m, w, rfl, hw, hf | ⟨hr, _⟩⟩, ht⟩
    · exact ⟨ht, key hw hf⟩
    · rw [hsh] at hr; cases hr
  · rintro g d ⟨⟨m, w, rfl, hw, hf⟩, ht⟩
    exact ⟨ht, key hw hf⟩

/-- An aggregator that sorts its rows and keeps doing so: the percentiles of a record are those of the values of its window up to
`n (n - 1) / 2` in rank, if these fill `n` rows. -/
theorem C119_aggregator_partial (env : Env) (opt : AggregatorOpts) (a0 : Aggregator) (ops : List AOp) (o : AObs) (hs : 0 < opt.step)
    (h0 : Fresh env opt a0) (hc : ∀ op ∈ ops, op.clockOk) (hsh : ops.any AOp.sepHandler = false)
    (hst : Steady opt.toReducerOpts) (hm : SortsRows opt.toReducerOpts) (h : execAll env { a := a0 } ops = .ok o) :
    ∃ (gs segs : List (List (Int × AddArg))) (cur : List (Int × AddArg)),
      gs.Subperm segs ∧ o.accepted = segs.flatten ++ cur ∧
      List.Forall₂ (fun g d => (∀ e ∈ g, d.ts ≤ e.1 ∧ e.1 < d.ts + opt.step) ∧ (d.data ≠ [] →
        ∀ n ≤ opt.levels, (allValues (g.map Prod.snd)).length = n * opt.limit →
          TellsPercentiles (allValues (g.map Prod.snd)) (n * (n - 1) / 2) d.toPerc)) gs (o.received ++ o.a.agList) :=
  tells_window (T := fun as d => ∀ n ≤ opt.levels, (allValues as).length = n * opt.limit →
      TellsPercentiles (allValues as) (n * (n - 1) / 2) d.toPerc)
    (fun as r' d0 rec t hd hne hf n hn hN => C119_percentiles_partial env opt.toReducerOpts as r' d0 rec opt.outSize n t hm hN hn hd hne hf)
    hs h0 hc hsh hst h

/-- In every mode that is kept: no percentile of a record is too high by more than that. -/
theorem C119_aggregator_low_partial (env : Env) (opt : AggregatorOpts) (a0 : Aggregator) (ops : List AOp) (o : AObs) (hs : 0 < opt.step)
    (h0 : Fresh env opt a0) (hc : ∀ op ∈ ops, op.clockOk) (hsh : ops.any AOp.sepHandler = false)
    (hst : Steady opt.toReducerOpts) (h : execAll env { a := a0 } ops = .ok o) :
    ∃ (gs segs : List (List (Int × AddArg))) (cur : List (Int × AddArg)),
      gs.Subperm segs ∧ o.accepted = segs.flatten ++ cur ∧
      List.Forall₂ (fun g d => (∀ e ∈ g, d.ts ≤ e.1 ∧ e.1 < d.ts + opt.step) ∧ (d.data ≠ [] →
        ∀ n ≤ opt.levels, (allValues (g.map Prod.snd)).length = n * opt.limit →
          let N := (allValues (g.map Prod.snd)).length
          let below := fun v => (allValues (g.map Prod.snd)).countP (fun x => decide (x < v))
          below d.perc50 ≤ N * 50 / 100 + n * (n - 1) / 2 ∧ below d.perc80 ≤ N * 80 / 100 + n * (n - 1) / 2 ∧
          below d.perc95 ≤ N * 95 / 100 + n * (n - 1) / 2 ∧ below d.perc99 ≤ N * 99 / 100 + n * (n - 1) / 2))
        gs (o.received ++ o.a.agList) :=
  tells_window (T := fun as d => ∀ n ≤ opt.levels, (allValues as).length = n * opt.limit →
      let N := (allValues as).length
      let below := fun v => (allValues as).countP (fun x => decide (x < v))
      below d.perc50 ≤ N * 50 / 100 + n * (n - 1) / 2 ∧ below d.perc80 ≤ N * 80 / 100 + n * (n - 1) / 2 ∧
      below d.perc95 ≤ N * 95 / 100 + n * (n - 1) / 2 ∧ below d.perc99 ≤ N * 99 / 100 + n * (n - 1) / 2)
    (fun as r' d0 rec t hd hne hf n hn hN => C119_never_high_partial env opt.toReducerOpts as r' d0 rec opt.outSize n t hN hn hd hne hf)
    hs h0 hc hsh hst h

/-! ### A window that depends on the one before

The witness of C85: a window of 35 events makes a reducer in `adapt` mode sort the rows of the next one. -/

/-- The second window alone. -/
def alone : M (Option AggData) := do
  let (d, _) ← Reducer.detach ExLook.env (([.many (ExLook.values 68) 68] : List AddArg).foldl (Reducer.add ExLook.env)
    (Reducer.new ExLook.opt.toReducerOpts))
  match d with
  | none => .ok none
  | some d => (Aggregator.finish ExLook.env.nth 0 { d with ts := 1010 }).map some

theorem alone_eq : alone.map (fun d => d.map fun d => d.perc50) = .ok (some 22) := by decide +kernel

def lookOps : List AOp := ExLook.ops ++ [.forcePop]

/-- The second window after the first. -/
def after : M (List (Int × Int × Nat) × List (Int × AddArg)) :=
  (execAll ExLook.env { a := ExLook.a0 } lookOps).map
    fun o => (o.received.map (fun d => (d.ts, d.perc50, d.count)), o.accepted)

theorem after_eq : after = .ok ([(1010, 35, 68)],
    [(1000, .many (ExLook.values 35) 35), (1010, .many (ExLook.values 68) 68)]) := by decide +kernel

/-- The median of the second window is 35 after the first, and 22 without it. -/
theorem C121_refuted : ¬ C121_FullClaim := by
  intro hall
  have hs := after_eq
  unfold after at hs
  cases ho : execAll ExLook.env { a := ExLook.a0 } lookOps with
  | error e => rw [ho] at hs; cases hs
  | ok o =>
    rw [ho] at hs
    simp only [Except.map, Except.ok.injEq, Prod.mk.injEq] at hs
    obtain ⟨h1, h2⟩ := hs
    have hclk : ∀ op ∈ lookOps, op.clockOk := by simp [lookOps, ExLook.ops, AOp.clockOk]
    have hthis := hall ExLook.env ExLook.opt ExLook.a0 lookOps o (by decide) ExLook.fresh hclk ho
    obtain ⟨gR, gA, gS, segs, cur, hp, hacc, hR, _⟩ := hthis
    obtain ⟨d, hd⟩ := List.length_eq_one_iff.1 (show o.received.length = 1 by simpa using congrArg List.length h1)
    rw [hd] at h1 hR
    simp only [List.map_cons, List.map_nil, List.cons.injEq, Prod.mk.injEq, and_true] at h1
    obtain ⟨hts, h50, _⟩ := h1
    cases hR with
    | cons hg hr =>
      rename_i g gs
      cases hr
      obtain ⟨⟨m, w, rfl, ⟨d0, r', hdet, hw⟩, hf⟩, ht⟩ := hg
      have hf : Aggregator.finish ExLook.env.nth 0 w = .ok d := by
        rcases hf with hf | ⟨hr, _⟩
        · exact hf
        · exact absurd hr (by decide +kernel)
      -- the events of the record
      have hsub : g.Subperm o.accepted := by
        have e1 : g.Sublist (([g] ++ gA ++ gS).flatten) := by simp
        have e2 : (([g] ++ gA ++ gS).flatten).Perm segs.flatten := hp.flatten
        rw [hacc]
        exact (e1.subperm.trans e2.subperm).trans (List.sublist_append_left _ _).subperm
      rw [h2] at hsub
      have hall2 : ∀ e ∈ g, e = (1010, .many (ExLook.values 68) 68) := by
        intro e he
        have h3 := hsub.subset he
        have h4 := ht e he
        rw [hts] at h4
        rcases List.mem_cons.1 h3 with rfl | h3
        · simp at h4
        · simpa using h3
      have hrep := List.eq_replicate_iff.2 ⟨rfl, hall2⟩
      have hcnt := hsub.count_le ((1010, .many (ExLook.values 68) 68) : Int × AddArg)
      rw [hrep, List.count_replicate_self] at hcnt
      have hc1 : List.count ((1010, .many (ExLook.values 68) 68) : Int × AddArg)
          [(1000, .many (ExLook.values 35) 35), (1010, .many (ExLook.values 68) 68)] = 1 := by decide +kernel
      rw [hc1] at hcnt
      rcases Nat.le_one_iff_eq_zero_or_eq_one.1 hcnt with hz | hz
      · rw [hz] at hrep
        rw [hrep] at hdet
        revert hdet
        simp only [List.replicate_zero, List.map_nil, List.foldl_nil]
        intro hdet
        have : Reducer.detach ExLook.env (unused ExLook.opt.toReducerOpts (Reducer.new ExLook.opt.toReducerOpts).curMode) =
          .ok (none, Reducer.new ExLook.opt.toReducerOpts) := rfl
        rw [this] at hdet
        cases hdet
      · rw [hz] at hrep
        rw [hrep] at hdet
        simp only [List.replicate_one, List.map_cons, List.map_nil, unused_new] at hdet
        have hwts : w.ts = 1010 := by
          obtain ⟨d', e, hdel⟩ := Aggregator.finish_spec ExLook.env.nth 0 w
          rw [hf] at e
          cases e
          rw [← hdel.ts, hts]
        have ha := alone_eq
        unfold alone at ha
        rw [hdet] at ha
        simp only [bind_ok'] at ha
        rw [hw, hwts] at hf
        rw [hf] at ha
        simp only [Except.map, Option.map_some, Except.ok.injEq, Option.some.injEq] at ha
        rw [h50] at ha
        revert ha
        decide

example : ¬ Steady ExLook.opt.toReducerOpts := by
  unfold Steady; decide

end Wrtstat
