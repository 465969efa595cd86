/-
C83: whatever threads do with a registry at the same time, each aggregator sees one sequence of operations, and each call
is made of operations in these sequences.
-/
import Verif.Lemmas.ConcSweep
import Verif.Props.ConcRegistry
import Verif.Props.Aggregator

namespace Wrtstat
namespace Registry

set_option autoImplicit false

open Aggregator (AOp AObs Trans)
open Relation

variable {T : Type} [Fintype T] [DecidableEq T]

/-- In every state that threads can bring a registry to, each aggregator ever created, in the registry or removed from
it, is what a single thread would have obtained from a new aggregator by the operations logged for it, in the order of the
log, and what it has handed out is what these operations give; operations and records concern no other aggregators. -/
theorem C83_serial (env : Env) (P : RegOp → Prop) (opt : RegistryOpts) (s : CReg T)
    (h : ReflTransGen (CReg.Step env P) (CReg.init (Registry.new opt)) s) :
    (∀ k < s.r.nextRef, ∃ a, s.aggOf k = some a ∧ Life env opt.toAggregatorOpts s.log s.out k a) ∧
      (∀ e ∈ s.log, e.2.1 < s.r.nextRef) ∧ ∀ e ∈ s.out, e.2.1 < s.r.nextRef := by
  have hs := serial_reach h
  refine ⟨fun k hk => ?_, hs.logs, hs.outs⟩
  obtain ⟨a, ha⟩ := (hs.all k).1 hk
  exact ⟨a, ha, hs.life k a ha⟩

/-- Each call that a thread has completed is made of operations on aggregators and of records they handed out, in the order
of the log, and its answer is what they say; beyond these the thread has done nothing, except for the call it is in. -/
theorem C83_calls (env : Env) (P : RegOp → Prop) (opt : RegistryOpts) (s : CReg T) (t : T)
    (h : ReflTransGen (CReg.Step env P) (CReg.init (Registry.new opt)) s) (hr : Room opt s.r.nextRef) :
    ∃ (cs : List ((RegOp × Resp) × List (Nat × AOp) × List (Nat × AggData))) (l : List (Nat × AOp)) (o : List (Nat × AggData)),
      resOf t s.hist = cs.map Prod.fst ∧
      askedBy t s.log = (cs.flatMap fun c => c.2.1) ++ l ∧ gotBy t s.out = (cs.flatMap fun c => c.2.2) ++ o ∧
      (∀ c ∈ cs, Done env opt s.born s.log t c.1.1 c.1.2 c.2.1 c.2.2) ∧ (s.pc t = .idle → l = [] ∧ o = []) := by
  obtain ⟨cs, l, o, h1, h2, h3, h4, h5⟩ := (told_reach h hr).2 t
  refine ⟨cs, l, o, h1, h2, h3, h4, fun hi => ?_⟩
  rw [hi] at h5
  exact h5

/-- Names: the aggregator at a position of the registry was created for the name and the id that the registry has now. -/
theorem C83_names (env : Env) (P : RegOp → Prop) (opt : RegistryOpts) (s : CReg T)
    (h : ReflTransGen (CReg.Step env P) (CReg.init (Registry.new opt)) s) (hr : Room opt s.r.nextRef) :
    s.born.length = s.r.nextRef ∧ ∀ (i : Nat) (c : Cell), s.r.agarr[i]? = some (some c) →
      ∃ (nm : Name) (id : Nat), s.born[c.ref]? = some (nm, id) ∧ s.r.dict.dict.lookup nm = some id ∧
        s.r.getAggregator id = .ok (some c) := by
  obtain ⟨hn, -⟩ := told_reach h hr
  refine ⟨(serial_reach h).born, fun i c hc => ?_⟩
  obtain ⟨nm, id, h1, h2, h3⟩ := hn.live i c hc
  refine ⟨nm, id, h1, hn.rinv.dict_lookup.2 h2, ?_⟩
  obtain ⟨f1, f2⟩ := hn.rinv.id_form h2
  have hb := hn.rinv.bound hr
  rw [hn.rinv.get hr f1 (by omega) (hn.rinv.id_ne_bad hr f2), h3, hc]
  rfl

/-- `pop_all` asks every aggregator that is in the registry from the call to the return for its records. -/
theorem C83_pop_all (env : Env) (P : RegOp → Prop) (opt : RegistryOpts) (s0 s : CReg T) (t : T) (force : Bool) (clk : Nat → Int) (resp : Resp)
    (h0 : ReflTransGen (CReg.Step env P) (CReg.init (Registry.new opt)) s0) (hc : s0.pc t = .want (.popAll force clk))
    (h : ReflTransGen (CReg.Step env P) s0 s) (hd : s.pc t = .leave (.popAll force clk) resp)
    (hi : invOf t s.hist = invOf t s0.hist) (hr : Room opt s.r.nextRef)
    (k : Nat) (hk0 : ∃ a, At s0.r k a) (hk : ∃ a, At s.r k a) :
    ∃ x nm id, s.log = s0.log ++ x ∧ s.born[k]? = some (nm, id) ∧ (some t, k, .separate (clk id) 0 false force) ∈ x ∧
      (some t, k, if force then .forcePop else .pop) ∈ x := by
  have := sweep_all h0 hc hk0 h hr hi
  rw [hd] at this
  obtain ⟨id, nm, h1, ⟨x, h2, h3⟩, ⟨x', h4, h5⟩⟩ := this.2 hk
  rw [h2] at h4
  rw [← List.append_cancel_left h4] at h5
  exact ⟨x, nm, id, h2, h1, h3, h5⟩

/-- `enable(v)` asks every aggregator that is in the registry from the call to the return to be enabled or disabled. -/
theorem C83_enable (env : Env) (P : RegOp → Prop) (opt : RegistryOpts) (s0 s : CReg T) (t : T) (v : Bool) (resp : Resp)
    (h0 : ReflTransGen (CReg.Step env P) (CReg.init (Registry.new opt)) s0) (hc : s0.pc t = .want (.enable v))
    (h : ReflTransGen (CReg.Step env P) s0 s) (hd : s.pc t = .leave (.enable v) resp)
    (hi : invOf t s.hist = invOf t s0.hist) (hr : Room opt s.r.nextRef)
    (k : Nat) (hk0 : ∃ a, At s0.r k a) (hk : ∃ a, At s.r k a) :
    ∃ x, s.log = s0.log ++ x ∧ (some t, k, .enable v) ∈ x := by
  have := enab_all h0 hc hk0 h hr hi
  rw [hd] at this
  exact this.2 hk

/-- Exactly once: the events that the threads have recorded with an aggregator split into groups, one for each record it
has handed out to some thread, one for each record waiting, one for each completed window still inside, and the rest. -/
theorem C83_once (env : Env) (P : RegOp → Prop) (opt : RegistryOpts) (s : CReg T) (hs : 0 < opt.step)
    (h : ReflTransGen (CReg.Step env P) (CReg.init (Registry.new opt)) s) (k : Nat) (hk : k < s.r.nextRef)
    (hc : ∀ e ∈ s.log, e.2.1 = k → e.2.2.clockOk) :
    ∃ (a a0 : Aggregator) (ops : List AOp) (o : AObs), s.aggOf k = some a ∧ Aggregator.Fresh env opt.toAggregatorOpts a0 ∧
      ops = (s.log.filter fun e => e.2.1 = k).map (fun e => e.2.2) ∧ Aggregator.execAll env { a := a0 } ops = .ok o ∧ o.a = a ∧
      o.received = forRef k (s.out.map Prod.snd) ∧
      ∃ (gR gA gS : List (List (Int × AddArg))) (cur : List (Int × AddArg)),
        (gR.flatten ++ gA.flatten ++ gS.flatten ++ cur).Perm o.accepted ∧
        List.Forall₂ (fun g d => ((if ops.any AOp.sepHandler then Summary env opt.limit opt.levels (g.map Prod.snd) d
            ∨ Report env opt.toAggregatorOpts (g.map Prod.snd) d else Report env opt.toAggregatorOpts (g.map Prod.snd) d)) ∧
          ∀ e ∈ g, d.ts ≤ e.1 ∧ e.1 < d.ts + opt.step) gR (forRef k (s.out.map Prod.snd)) ∧
        List.Forall₂ (fun g d => Report env opt.toAggregatorOpts (g.map Prod.snd) d ∧
          ∀ e ∈ g, d.ts ≤ e.1 ∧ e.1 < d.ts + opt.step) gA a.agList ∧
        List.Forall₂ (fun g d => Summary env opt.limit opt.levels (g.map Prod.snd) d ∧
          ∀ e ∈ g, d.ts ≤ e.1 ∧ e.1 < d.ts + opt.step) gS a.sep.sepList ∧
        a.sep.reducer.totalCount = sumCount (cur.map Prod.snd) ∧
        ∀ e ∈ cur, a.sep.currentTime ≤ e.1 ∧ e.1 < a.sep.nextTime := by
  obtain ⟨h1, -, -⟩ := C83_serial env P opt s h
  obtain ⟨a, ha, q, now, a0, bs, rest, l1, -, l3, -, o, l5, rfl, l7⟩ := h1 k hk
  have hops : bs ++ rest.map (fun e => e.2.2) = (s.log.filter fun e => e.2.1 = k).map (fun e => e.2.2) := by
    rw [l3, List.map_append, List.map_map]
    congr 1
    exact (List.map_id bs).symm
  rw [hops] at l5
  have hcl : ∀ op ∈ (s.log.filter fun e => e.2.1 = k).map (fun e => e.2.2), op.clockOk := by
    intro op hop
    obtain ⟨e, he, rfl⟩ := List.mem_map.1 hop
    obtain ⟨he1, he2⟩ := List.mem_filter.1 he
    exact hc e he1 (by simpa using he2)
  obtain ⟨gR, gA, gS, cur, p1, p2, p3, p4, p5, p6⟩ := C22_exactly_once env opt.toAggregatorOpts a0 _ o hs (.new l1) hcl l5
  exact ⟨o.a, a0, _, o, ha, .new l1, rfl, l5, rfl, l7, gR, gA, gS, cur, p1, by rw [← l7]; exact p2, p3, p4, p5, p6⟩

/-! ### Two threads -/

/-- Thread `true` is in the middle of `add(name, data)`, having created the aggregator; thread `false` records an event with
it, then `true` adds its data; `false` pops all, between which `true` records another event. -/
def exCalls : List (CReg.Turn Bool) :=
  [.call true (.addData { clk := 1000 } ['a'] 0 0 { ts := 1003, count := 1, min := 5, max := 5, data := [5] }), .go true] ++
    CReg.alone false (.addId 1 0 0 1004 7 1) 3 ++ [.go true, .go true, .go true] ++
    [.call false (.popAll true fun _ => 1005), .go false, .go false, .go false] ++ CReg.alone true (.addId 1 0 0 1006 9 1) 3

def exCalls' : List (CReg.Turn Bool) := [.go false, .go false, .go false]

/-- The aggregator has seen three events by two threads, in the order of its mutex, then the two operations of
`pop_all`, which answers with one record for the window, of all three events. -/
example : (match CReg.play exactEnv (CReg.init (Registry.new exConcOpt)) (exCalls ++ exCalls') with
    | some s => decide (s.born = [(['a'], 1)] ∧ s.log.map (fun e => (e.1, e.2.1)) = [(some false, 0), (some true, 0), (some false, 0),
        (some true, 0), (some false, 0)] ∧ (gotBy false s.out).map (fun d => (d.1, d.2.count, d.2.data)) = [(0, 3, [5, 7, 9])] ∧
        gotBy true s.out = [])
    | none => false) = true := by decide +kernel

end Registry
end Wrtstat
