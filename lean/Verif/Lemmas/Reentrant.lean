/-
Runs with handlers that use the aggregator they are called from: every event recorded is reported once.

The invariant is that of `Lemmas/Partition.lean` for the same run with other times of the events: the times of the events
of the current window are chosen anew when `_next_time` is advanced over events recorded by the handler.
-/
import Verif.Lemmas.Partition
import Verif.Lemmas.RegistryStep
import Verif.Model.Reentrant

namespace Wrtstat
namespace Aggregator

set_option autoImplicit false

open Reducer (GoodA)

/-- The recorded events, in some order, form groups for the records received and waiting. -/
def Parted (env : Env) (opt : AggregatorOpts) (Q : List AddArg → AggData → Prop) (o : AObs) : Prop :=
  ∃ acc gR gA gS cur, PGood env opt Q { o with accepted := acc } gR gA gS cur ∧
    (acc.map Prod.snd).Perm (o.accepted.map Prod.snd)

/-- Operations without re-entrance do not look at the events recorded. -/
theorem exec_accepted {env : Env} {o o' : AObs} {op : AOp} (h : exec env o op = .ok o') (acc : List (Int × AddArg)) :
    ∃ ext, o'.accepted = o.accepted ++ ext ∧
      exec env { o with accepted := acc } op = .ok { o' with accepted := acc ++ ext } := by
  cases op with
  | add clk1 clk2 ts x =>
    simp only [exec] at h ⊢
    cases ha : o.a.add env clk1 clk2 ts x with
    | error e => rw [ha] at h; cases h
    | ok p =>
      obtain ⟨b, a'⟩ := p
      rw [ha] at h
      cases h
      simp only [bind_ok', AObs.record]
      split_ifs
      · exact ⟨_, rfl, rfl⟩
      · exact ⟨[], by simp, by simp⟩
  | push clk1 clk2 ts x handler =>
    simp only [exec] at h ⊢
    cases ha : o.a.push env clk1 clk2 ts x handler with
    | error e => rw [ha] at h; cases h
    | ok p =>
      obtain ⟨b, out, a'⟩ := p
      rw [ha] at h
      cases h
      simp only [bind_ok', AObs.record]
      split_ifs
      · exact ⟨_, rfl, rfl⟩
      · exact ⟨[], by simp, by simp⟩
  | separate clk ts handler force =>
    simp only [exec] at h ⊢
    cases ha : o.a.separate env clk ts handler force with
    | error e => rw [ha] at h; cases h
    | ok p => rw [ha] at h; cases h; exact ⟨[], by simp, by simp [bind_ok']⟩
  | pop => simp only [exec] at h ⊢; cases h; exact ⟨[], by simp, by simp⟩
  | forcePop =>
    simp only [exec] at h ⊢
    cases ha : o.a.forcePop env with
    | error e => rw [ha] at h; cases h
    | ok p => rw [ha] at h; cases h; exact ⟨[], by simp, by simp [bind_ok']⟩
  | look =>
    simp only [exec] at h ⊢
    cases ha : o.a.aggregateCurrent env with
    | error e => rw [ha] at h; cases h
    | ok p => rw [ha] at h; cases h; exact ⟨[], by simp, by simp [bind_ok']⟩
  | enable v => cases h; exact ⟨[], by simp, by simp [exec]⟩

theorem parted_exec {env : Env} {opt : AggregatorOpts} {Q : List AddArg → AggData → Prop}
    (hQ : ∀ as d, Report env opt as d → Q as d) (hs : 0 < opt.step) {o o' : AObs} (g : Parted env opt Q o) (op : AOp)
    (hc : op.clockOk) (hsh : op.sepHandler = true → ∀ as d, Summary env opt.limit opt.levels as d → Q as d)
    (h : exec env o op = .ok o') : Parted env opt Q o' := by
  obtain ⟨acc, gR, gA, gS, cur, g, hp⟩ := g
  obtain ⟨ext, e1, e2⟩ := exec_accepted h acc
  obtain ⟨gR', gA', gS', cur', g'⟩ := pgood_exec hQ hs g op hc hsh e2
  refine ⟨acc ++ ext, gR', gA', gS', cur', g', ?_⟩
  rw [e1, List.map_append, List.map_append]
  exact hp.append_right _

/-- The window may be moved over the events it holds. -/
theorem parted_next {env : Env} {opt : AggregatorOpts} {Q : List AddArg → AggData → Prop} (hs : 0 < opt.step) {o : AObs}
    (g : Parted env opt Q o) (n : Int) :
    Parted env opt Q { o with a := { o.a with sep := { o.a.sep with next := n } } } := by
  obtain ⟨acc, gR, gA, gS, cur, ⟨hout, hsep, hrec, hwait, hperm⟩, hp⟩ := g
  have hm : ((cur.map fun e => (n - opt.step, e.2)).map Prod.snd) = cur.map Prod.snd := by simp
  refine ⟨gR.flatten ++ gA.flatten ++ gS.flatten ++ cur.map fun e => (n - opt.step, e.2), gR, gA, gS,
    cur.map fun e => (n - opt.step, e.2), ⟨hout, ⟨hsep.step, ?_, ?_, hsep.recs⟩, hrec, hwait, List.Perm.refl _⟩, ?_⟩
  · rw [hm]; exact hsep.red
  · intro e he
    obtain ⟨e', _, rfl⟩ := List.mem_map.1 he
    simp only
    omega
  · refine List.Perm.trans ?_ hp
    rw [List.map_append, hm, ← List.map_append]
    exact hperm.map _

/-- Detaching the current window and handing it over. -/
theorem parted_detach {env : Env} {opt : AggregatorOpts} {Q : List AddArg → AggData → Prop} {o : AObs}
    (g : Parted env opt Q o) {raw : Bool}
    (hQ : ∀ as d, Report env opt as d → Q as d)
    (hraw : raw = true → ∀ as d, Summary env opt.limit opt.levels as d → Q as d)
    {d : Option AggData} {r : Reducer} (h : o.a.sep.reducer.detach env = .ok (d, r)) :
    match (generalizing := false) d with
    | none => Parted env opt Q { o with a := { o.a with sep := { o.a.sep with reducer := r } } }
    | some d => ∀ d', handOver env raw o.a { d with ts := o.a.sep.next - o.a.sep.step } = .ok d' →
        Parted env opt Q { o with a := { o.a with sep := { o.a.sep with reducer := r } }, received := o.received ++ [d'] } := by
  obtain ⟨acc, gR, gA, gS, cur, ⟨hout, ⟨hstep, hred, hwin, hrecs⟩, hrec, hwait, hperm⟩, hp⟩ := g
  have hst := hstep.1
  simp only at hred hwin hstep hst
  rcases Reducer.detach_spec hred with ⟨e, e', _⟩ | ⟨hne, r1, er, g1, _, _, _, _, ⟨a, _, e⟩ | ⟨_, e⟩⟩
  · rw [e'] at h
    cases h
    exact ⟨acc, gR, gA, gS, cur, ⟨hout, ⟨hstep, hred, hwin, hrecs⟩, hrec, hwait, hperm⟩, hp⟩
  · have hsum := summary_of_detach hred e
    have hg' := Reducer.goodA_clear g1
    rw [e] at h
    cases h
    intro d' hd
    have key : Group opt.step Q cur d' := by
      unfold handOver at hd
      cases raw with
      | true =>
        cases hd
        refine ⟨hraw rfl _ _ (summary_ts hsum), fun e he => ?_⟩
        have := hwin e he
        simp only
        omega
      | false =>
        obtain ⟨d'', ed, hdel⟩ := finish_spec env.nth o.a.outSize
          { Reducer.resultOf o.a.sep.reducer (r1.data.headD []) a with ts := o.a.sep.next - o.a.sep.step }
        simp only [Bool.false_eq_true, if_false] at hd
        rw [ed] at hd
        cases hd
        simp only at hout
        rw [hout] at hdel
        refine ⟨hQ _ _ ⟨_, summary_ts hsum, hdel⟩, fun e he => ?_⟩
        have := hwin e he
        rw [hdel.ts]
        simp only
        omega
    refine ⟨acc, gR ++ [cur], gA, gS, [], ⟨hout, ⟨hstep, hg', by simp, hrecs⟩,
      List.rel_append hrec (.cons key .nil), hwait, ?_⟩, hp⟩
    refine List.Perm.trans ?_ hperm
    have := perm_ins gR.flatten gA.flatten gS.flatten [] cur
    simpa using this
  · rw [e] at h; cases h

/-- Recording an event. -/
theorem parted_add {env : Env} {opt : AggregatorOpts} {Q : List AddArg → AggData → Prop} (hs : 0 < opt.step) {o : AObs}
    (g : Parted env opt Q o) (t : Int) (x : AddArg) :
    Parted env opt Q { o with a := { o.a with sep := { o.a.sep with reducer := o.a.sep.reducer.add env x } }
                              accepted := o.accepted ++ [(t, x)] } := by
  obtain ⟨acc, gR, gA, gS, cur, ⟨hout, ⟨hstep, hred, hwin, hrecs⟩, hrec, hwait, hperm⟩, hp⟩ := g
  refine ⟨acc ++ [(o.a.sep.next - opt.step, x)], gR, gA, gS, cur ++ [(o.a.sep.next - opt.step, x)],
    ⟨hout, ⟨hstep, ?_, ?_, hrecs⟩, hrec, hwait, ?_⟩, ?_⟩
  · rw [List.map_append]
    exact Reducer.goodA_add hred x
  · intro e he
    rcases List.mem_append.1 he with he | he
    · exact hwin e he
    · simp only [List.mem_singleton] at he
      subst he
      simp only
      omega
  · rw [← List.append_assoc]
    exact hperm.append_right _
  · rw [List.map_append, List.map_append]
    exact hp.append_right _

theorem foldlM_inv {σ α : Type} {f : σ → α → M σ} {I : σ → Prop} (l : List α)
    (hf : ∀ a ∈ l, ∀ s s', I s → f s a = .ok s' → I s') : ∀ {s s' : σ}, I s → l.foldlM f s = .ok s' → I s' := by
  induction l with
  | nil => intro s s' h e; cases e; exact h
  | cons a l ih =>
    intro s s' h e
    rw [List.foldlM_cons] at e
    cases hx : f s a with
    | error _ => rw [hx] at e; cases e
    | ok s1 =>
      rw [hx] at e
      exact ih (fun a' h' => hf a' (by simp [h'])) (hf a (by simp) _ _ h hx) e

theorem parted_execR {env : Env} {opt : AggregatorOpts} {Q : List AddArg → AggData → Prop} {H : AggData → List AOp}
    (hQ : ∀ as d, Report env opt as d → Q as d) (hs : 0 < opt.step) (hH : ∀ d, ∀ op ∈ H d, op.clockOk)
    (hHs : ∀ d, ∀ op ∈ H d, op.sepHandler = true → ∀ as d, Summary env opt.limit opt.levels as d → Q as d) (k : Nat) :
    (∀ op o o', op.clockOk → (op.sepHandler = true → ∀ as d, Summary env opt.limit opt.levels as d → Q as d) →
      Parted env opt Q o → execR env H k o op = .ok o' → Parted env opt Q o') ∧
    (∀ raw ts o o', (raw = true → ∀ as d, Summary env opt.limit opt.levels as d → Q as d) →
      Parted env opt Q o → loopR env H raw k ts o = .ok o' → Parted env opt Q o') := by
  induction k with
  | zero =>
    refine ⟨fun op o o' _ _ _ h => ?_, fun raw ts o o' _ _ h => ?_⟩
    · rw [execR] at h; cases h
    · rw [loopR] at h; cases h
  | succ k ih =>
    refine ⟨fun op o o' hc hsh g h => ?_, fun raw ts o o' hraw g h => ?_⟩
    · have plain : exec env o op = .ok o' → Parted env opt Q o' := parted_exec hQ hs g op hc hsh
      cases op with
      | push clk1 clk2 ts x handler =>
        cases handler with
        | false => exact plain (by rw [execR] at h; exact h; simp; simp)
        | true =>
          rw [execR] at h
          by_cases he : o.a.enabled = true
          · rw [if_neg (by simp [he])] at h
            cases h1 : o.a.sep.getTs clk1 ts with
            | error e => rw [h1] at h; cases h
            | ok t =>
              cases h2 : o.a.sep.getTs clk2 t with
              | error e => rw [h1, bind_ok', h2] at h; cases h
              | ok t' =>
                rw [h1, bind_ok', h2, bind_ok'] at h
                cases h3 : loopR env H false k t' o with
                | error e => rw [h3] at h; cases h
                | ok o1 =>
                  rw [h3, bind_ok'] at h
                  have g1 := ih.2 false t' o o1 (fun h => by cases h) g h3
                  split_ifs at h
                  · cases h; exact g1
                  · cases h; exact parted_add hs g1 t x
          · rw [if_pos (by simpa using he)] at h
            cases h
            exact g
      | separate clk ts handler force =>
        cases handler with
        | false => exact plain (by rw [execR] at h; exact h; simp; simp)
        | true =>
          rw [execR] at h
          cases h1 : o.a.sep.getTs clk ts with
          | error e => rw [h1] at h; cases h
          | ok t =>
            rw [h1, bind_ok'] at h
            cases h3 : loopR env H true k t o with
            | error e => rw [h3] at h; cases h
            | ok o1 =>
              rw [h3, bind_ok'] at h
              obtain ⟨acc, gR, gA, gS, cur, g1, hp⟩ := ih.2 true t o o1 (fun _ => hsh rfl) g h3
              cases h4 : aggregate0_ env.nth o1.a with
              | error e => rw [h4] at h; cases h
              | ok a =>
                rw [h4] at h
                cases h
                exact ⟨acc, _, _, _, _, pgood_aggregate0 g1 h4, hp⟩
      | add => exact plain (by rw [execR] at h; exact h; simp; simp)
      | pop => exact plain (by rw [execR] at h; exact h; simp; simp)
      | forcePop => exact plain (by rw [execR] at h; exact h; simp; simp)
      | look => exact plain (by rw [execR] at h; exact h; simp; simp)
      | enable => exact plain (by rw [execR] at h; exact h; simp; simp)
    · rw [loopR] at h
      split_ifs at h with hn
      · cases h1 : o.a.sep.reducer.detach env with
        | error e => rw [h1] at h; cases h
        | ok p =>
          obtain ⟨d, r⟩ := p
          have g1 := parted_detach g hQ hraw h1
          rw [h1, bind_ok'] at h
          simp only at h
          cases d with
          | none =>
            rw [bind_ok'] at h
            exact ih.2 raw ts _ o' hraw (parted_next hs g1 _) h
          | some d =>
            simp only at h g1
            obtain ⟨o1, h2, h⟩ := bind_inv h
            obtain ⟨d', h3, h2⟩ := bind_inv h2
            have g2 := g1 d' h3
            have g3 := foldlM_inv (I := Parted env opt Q) (H d')
              (fun op hop o o' g h => ih.1 op o o' (hH d' op hop) (hHs d' op hop) g h) g2 h2
            exact ih.2 raw ts _ o' hraw (parted_next hs g3 _) h
      · cases h; exact g

theorem parted_fresh {env : Env} {opt : AggregatorOpts} {Q : List AddArg → AggData → Prop} (hs : 0 < opt.step)
    {a : Aggregator} (h : Fresh env opt a) : Parted env opt Q { a := a } :=
  ⟨[], [], [], [], [], pgood_fresh hs h, List.Perm.refl _⟩

theorem parted_execAllR {env : Env} {opt : AggregatorOpts} {Q : List AddArg → AggData → Prop} {H : AggData → List AOp}
    (hQ : ∀ as d, Report env opt as d → Q as d) (hs : 0 < opt.step) (hH : ∀ d, ∀ op ∈ H d, op.clockOk)
    (hHs : ∀ d, ∀ op ∈ H d, op.sepHandler = true → ∀ as d, Summary env opt.limit opt.levels as d → Q as d) (k : Nat)
    (ops : List AOp) (hc : ∀ op ∈ ops, op.clockOk)
    (hsh : ∀ op ∈ ops, op.sepHandler = true → ∀ as d, Summary env opt.limit opt.levels as d → Q as d) {o o' : AObs}
    (g : Parted env opt Q o) (h : execAllR env H k o ops = .ok o') : Parted env opt Q o' :=
  foldlM_inv ops (fun op hop o o' g h => (parted_execR hQ hs hH hHs k).1 op o o' (hc op hop) (hsh op hop) g h) g h

end Aggregator
end Wrtstat
