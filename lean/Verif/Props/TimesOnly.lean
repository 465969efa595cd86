/-
C129: what is recorded, and which windows are reported when, depends on times only.
-/
import Verif.Lemmas.TwoRuns
import Verif.Props.Aggregator

namespace Wrtstat

set_option autoImplicit false

open Aggregator

/-- Reducers that agree on whether there is something to report. -/
def emptyTwins (env env' : Env) (n n' : Nat) : Twins env env' n n' where
  R r r' := r'.empty = r.empty
  X _ _ := True
  D d d' := d'.ts = d.ts
  F d d' := d'.ts = d.ts
  add {r r' x x'} _ _ := by rw [Reducer.add_empty, Reducer.add_empty]
  detach {r r' q q' o o'} g h h' := by
    unfold Reducer.detach at h h'
    rw [g] at h'
    by_cases he : r.empty = true
    · rw [if_pos he] at h h'
      cases h; cases h'
      exact ⟨g, .none⟩
    · rw [if_neg he] at h h'
      obtain ⟨r1, _, h⟩ := bind_inv h
      obtain ⟨a, _, h⟩ := bind_inv h
      obtain ⟨r1', _, h'⟩ := bind_inv h'
      obtain ⟨a', _, h'⟩ := bind_inv h'
      cases h; cases h'
      exact ⟨rfl, .some rfl⟩
  setTs _ _ := rfl
  finish {d d' x x'} g h h' := by
    obtain ⟨y, e, hd⟩ := finish_spec env.nth n d
    obtain ⟨y', e', hd'⟩ := finish_spec env'.nth n' d'
    rw [e] at h
    rw [e'] at h'
    cases h; cases h'
    rw [hd.ts, hd'.ts, g]
  raw g := g

theorem map_of_forall2 {α β γ : Type} {f : α → γ} {g : β → γ} {l : List α} {l' : List β} (h : List.Forall₂ (fun a b => g b = f a) l l') :
    l'.map g = l.map f := by
  induction h with
  | nil => rfl
  | cons h _ ih => rw [List.map_cons, List.map_cons, h, ih]

/-- Two aggregators with the same step and resolution that begin with the same window, all other options, the values and counts handed
over, the rounding and the `nth_element` being whatever they are: after the same operations at the same times the same calls have
been accepted, records of the same windows have been received in the same order and are still held, and the current window is the
same. -/
theorem C129_times (env env' : Env) (opt opt' : AggregatorOpts) (a0 b0 : Aggregator) (ops ops' : List AOp) (o o' : AObs)
    (hs : 0 < opt.step) (hstep : opt'.step = opt.step) (hres : opt'.resolution = opt.resolution) (ha : Fresh env opt a0)
    (hb : Fresh env' opt' b0) (hn : b0.sep.nextTime = a0.sep.nextTime) (he : b0.enabled = a0.enabled)
    (hl : List.Forall₂ (AOp.Like fun _ _ => True) ops ops')
    (h : execAll env { a := a0 } ops = .ok o) (h' : execAll env' { a := b0 } ops' = .ok o') :
    o'.accepted.map Prod.fst = o.accepted.map Prod.fst ∧ o'.received.map (·.ts) = o.received.map (·.ts) ∧
    o'.a.agList.map (·.ts) = o.a.agList.map (·.ts) ∧ o'.a.size = o.a.size ∧ o'.a.sep.size = o.a.sep.size ∧
    o'.a.sep.nextTime = o.a.sep.nextTime ∧ o'.a.sep.currentTime = o.a.sep.currentTime := by
  have g := Twins.O.execAll (T := emptyTwins env env' opt.outSize opt'.outSize) hl
    (Twins.O.start hs hstep hres ha hb rfl rfl hn he (fun g g' => by
      show b0.sep.reducer.empty = a0.sep.reducer.empty
      rw [g.emp, g'.emp])) h h'
  refine ⟨?_, map_of_forall2 g.received, map_of_forall2 g.a.list, g.a.list.length_eq.symm, g.a.sep.list.length_eq.symm, g.a.sep.next, ?_⟩
  · exact map_of_forall2 (g.accepted.imp fun _ _ h => h.1.symm)
  · show o'.a.sep.next - o'.a.sep.step = o.a.sep.next - o.a.sep.step
    rw [g.a.sep.next, g.a.sep.step]

/-- The same as one may say it of two new aggregators: whether the next call is accepted does not depend on what was handed over. -/
theorem C129_accepted (env env' : Env) (opt opt' : AggregatorOpts) (clk rand t0 : Int) (a0 b0 : Aggregator) (ops ops' : List AOp)
    (o o' : AObs) (hs : 0 < opt.step) (hstep : opt'.step = opt.step) (hres : opt'.resolution = opt.resolution)
    (hso : opt'.soiled = opt.soiled) (ha : Aggregator.new opt clk rand t0 = .ok a0) (hb : Aggregator.new opt' clk rand t0 = .ok b0)
    (hl : List.Forall₂ (AOp.Like fun _ _ => True) ops ops') (h : execAll env { a := a0 } ops = .ok o)
    (h' : execAll env' { a := b0 } ops' = .ok o') (c1 c2 ts : Int) (x x' : AddArg) (ok ok' : Bool) (a a' : Aggregator)
    (hx : o.a.add env c1 c2 ts x = .ok (ok, a)) (hx' : o'.a.add env' c1 c2 ts x' = .ok (ok', a')) : ok' = ok := by
  have hn : b0.sep.nextTime = a0.sep.nextTime ∧ b0.enabled = a0.enabled := by
    unfold Aggregator.new Separator.new at ha hb
    rw [hstep, hres, hso] at hb
    obtain ⟨s, e, ha⟩ := bind_inv ha
    obtain ⟨t, et, e⟩ := bind_inv e
    obtain ⟨s', e', hb⟩ := bind_inv hb
    obtain ⟨t', et', e'⟩ := bind_inv e'
    rw [et] at et'
    cases et'; cases e; cases e'; cases ha; cases hb
    exact ⟨rfl, rfl⟩
  have g := Twins.O.execAll (T := emptyTwins env env' opt.outSize opt'.outSize) hl
    (Twins.O.start hs hstep hres (.new ha) (.new hb) rfl rfl hn.1 hn.2 (fun g g' => by
      show b0.sep.reducer.empty = a0.sep.reducer.empty
      rw [g.emp, g'.emp])) h h'
  exact (g.a.add (x := x) (x' := x') trivial hx hx').1

/-- The history of the examples of C22, and the same times with other values, counts and options. -/
example : (execAll exactEnv { a := exANew } exAOps).toOption.map
    (fun o => (o.accepted.map Prod.fst, o.received.map (·.ts), o.a.sep.nextTime)) = some ([1000, 1010, 1040], [1000], 1050) ∧
    (execAll exactEnv { a := { exANew with sep := { exANew.sep with reducer := Reducer.new { limit := 1, levels := 0 } }, outSize := 0 } }
      [.add 0 0 1003 (.init []), .push 1012 1012 0 (.reduced {}) false, .add 0 0 1008 (.one 100 7), .look, .enable false,
        .add 0 0 1013 (.one (-3) 0), .enable true, .pop, .separate 0 1047 false false, .add 0 0 1048 (.many [] 0)]).toOption.map
      (fun o => (o.accepted.map Prod.fst, o.received.map (·.ts), o.a.sep.nextTime)) = some ([1000, 1010, 1040], [1000], 1050) := by
  decide +kernel

end Wrtstat
