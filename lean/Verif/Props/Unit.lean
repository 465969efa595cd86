/-
C152: the unit in which time is told does not matter.
-/
import Verif.Lemmas.Unit
import Verif.Props.Aggregator

namespace Wrtstat

set_option autoImplicit false

open Aggregator

/-- The two ways to ask for the time agree, and a coarse reading is a fine one truncated. -/
theorem C152_clock (r r' : Resolution) (ns : Int) (h : r ≠ .none) (h' : r.number ≤ r'.number) :
    nowNumber r.number ns = nowOf r ns ∧ nowOf r ns = (nowOf r' ns).tdiv (r'.number / r.number) := by
  constructor
  · cases r <;> first | exact absurd rfl h | rfl
  · cases r <;> cases r' <;>
      first
      | exact absurd rfl h
      | exact absurd h' (by decide)
      | (show Int.tdiv _ _ = (Int.tdiv _ _).tdiv _
         rw [tdiv_tdiv_pos (by decide)]
         rfl)

/-- An aggregator made with a step told in a unit `f` times smaller is the same, told in that unit; so is one cleared.  The random
beginning of the first window (`soiled_start_ts`) is not. -/
theorem C152_start (opt : AggregatorOpts) (f clk rand ts : Int) (res : Resolution) (hs : 0 < opt.step) (hf : 0 < f)
    (hr : res = .none ↔ opt.resolution = .none) (hz : opt.resolution ≠ .none → ts.tdiv f = 0 → ts = 0) :
    (opt.soiled = 0 → Aggregator.new { opt with step := f * opt.step, resolution := res } clk rand ts =
      (Aggregator.new opt (clk.tdiv f) rand (ts.tdiv f)).map (finer f res)) ∧
    ∀ a : Aggregator, a.sep.step = opt.step → a.sep.resolution = opt.resolution →
      (a.finer f res).clear clk ts = (a.clear (clk.tdiv f) (ts.tdiv f)).map (finer f res) := by
  constructor
  · intro h0
    have e : Separator.getTsWith (f * opt.step) res clk ts =
        (Separator.getTsWith opt.step opt.resolution (clk.tdiv f) (ts.tdiv f)).map (f * ·) :=
      Separator.getTs_finer (clk := clk) (ts := ts)
        (s := { reducer := Reducer.new opt.toReducerOpts, step := opt.step, next := 0, resolution := opt.resolution }) hs hf hr hz
    unfold Aggregator.new Separator.new
    simp only
    rw [e]
    simp only [except_bind_map, except_map_bind, bind_assoc]
    congr 1
    funext t
    show Except.ok _ = Except.ok _
    simp only [finer, Separator.finer, List.map_nil, h0, ne_eq, not_true, if_false]
    rw [show f * t + f * opt.step = f * (t + opt.step) by ring]
  · intro a e1 e2
    have e : (a.finer f res).sep.getTs clk ts = _ :=
      Separator.getTs_finer (f := f) (res := res) (clk := clk) (ts := ts) (s := a.sep) (by omega) hf (by rw [e2]; exact hr)
        (by rw [e2]; exact hz)
    unfold clear Separator.clear
    rw [e]
    simp only [except_bind_map, except_map_bind, bind_assoc]
    congr 1
    funext t
    show Except.ok _ = Except.ok _
    have es : (a.finer f res).sep.step = f * a.sep.step := rfl
    rw [es]
    simp only [finer, Separator.finer, List.map_nil]
    rw [show f * t + f * a.sep.step = f * (t + a.sep.step) by ring]

/-- Whatever is done with an aggregator, told in a unit `f` times smaller: the same events are recorded, the same records received,
and a fault occurs in the one history if it does in the other. -/
theorem C152_history (env : Env) (opt : AggregatorOpts) (a0 : Aggregator) (ops : List AOp) (f : Int) (res : Resolution)
    (hs : 0 < opt.step) (hf : 0 < f) (hr : res = .none ↔ opt.resolution = .none) (h0 : Fresh env opt a0)
    (hc : ∀ op ∈ ops, (op.times (·.tdiv f)).clockOk)
    (hz : ∀ op ∈ ops, opt.resolution ≠ .none → op.stamp.tdiv f = 0 → op.stamp = 0) :
    execAll env (({ a := a0 } : AObs).finer f res) ops =
      (execAll env { a := a0 } (ops.map (AOp.times (·.tdiv f)))).map (AObs.finer f res) := by
  have key : ∀ (ops : List AOp) (o : AObs), (∃ gR gA gS cur, PGood env opt (fun _ _ => True) o gR gA gS cur) →
      (∀ op ∈ ops, (op.times (·.tdiv f)).clockOk) → (∀ op ∈ ops, opt.resolution ≠ .none → op.stamp.tdiv f = 0 → op.stamp = 0) →
      execAll env (o.finer f res) ops = (execAll env o (ops.map (AOp.times (·.tdiv f)))).map (AObs.finer f res) := by
    intro ops
    induction ops with
    | nil => intro o _ _ _; rfl
    | cons op ops ih =>
      intro o ⟨gR, gA, gS, cur, g⟩ h1 h2
      obtain ⟨e1, e2⟩ := g.sep.step
      have e1 : o.a.sep.step = opt.step := e1
      have e2 : o.a.sep.resolution = opt.resolution := e2
      have hop := exec_finer (env := env) (o := o) (op := op) (res := res) (by omega) hf (by rw [e2]; exact hr)
        (by rw [e2]; exact h2 op List.mem_cons_self)
      unfold execAll at ih ⊢
      rw [List.map_cons, List.foldlM_cons, List.foldlM_cons, hop, except_bind_map, except_map_bind]
      cases he : exec env o (op.times (·.tdiv f)) with
      | error e => rfl
      | ok o' =>
        rw [bind_ok', bind_ok']
        exact ih o' (pgood_exec (fun _ _ _ => trivial) hs g _ (h1 op List.mem_cons_self) (fun _ _ _ _ => trivial) he)
          (fun x hx => h1 x (List.mem_cons_of_mem _ hx)) (fun x hx => h2 x (List.mem_cons_of_mem _ hx))
  exact key ops _ ⟨_, _, _, _, pgood_fresh hs h0⟩ hc hz

theorem times_times (g g' : Int → Int) (op : AOp) : (op.times g).times g' = op.times fun t => g' (g t) := by
  cases op <;> rfl

/-- So the resolution is a matter of unit: with times in nanoseconds, each told in the unit of the resolution, an aggregator of
a finer resolution and a step of the same duration does the same. -/
theorem C152_resolution (env : Env) (opt : AggregatorOpts) (a0 : Aggregator) (ops : List AOp) (r : Resolution) (hs : 0 < opt.step)
    (hn : opt.resolution ≠ .none) (hr : opt.resolution.number ≤ r.number) (h0 : Fresh env opt a0) (hc : ∀ op ∈ ops, op.clockOk)
    (hz : ∀ op ∈ ops, op.stamp = 0 ∨ 10 ^ 9 ≤ op.stamp) :
    execAll env (({ a := a0 } : AObs).finer (r.number / opt.resolution.number) r) (ops.map (AOp.times (nowOf r))) =
      (execAll env { a := a0 } (ops.map (AOp.times (nowOf opt.resolution)))).map
        (AObs.finer (r.number / opt.resolution.number) r) := by
  have hrn : r ≠ .none := by
    rintro rfl
    revert hr hn
    cases opt.resolution <;> decide
  have hf : 0 < r.number / opt.resolution.number := by
    revert hr hn hrn
    cases opt.resolution <;> cases r <;> decide
  have hclk : ∀ t, (nowOf r t).tdiv (r.number / opt.resolution.number) = nowOf opt.resolution t :=
    fun t => ((C152_clock opt.resolution r t hn hr).2).symm
  have hcomp : ∀ op : AOp, (op.times (nowOf r)).times (·.tdiv (r.number / opt.resolution.number)) = op.times (nowOf opt.resolution) := by
    intro op
    rw [times_times]
    congr 1
    funext t
    exact hclk t
  have hnn : ∀ t, 0 ≤ t → 0 ≤ nowOf opt.resolution t := by
    intro t ht
    cases opt.resolution <;> first | exact Int.tdiv_nonneg ht (by decide) | exact le_refl _
  have hpos : ∀ t, 10 ^ 9 ≤ t → nowOf opt.resolution t ≠ 0 := by
    intro t ht
    have h1 : ∀ u : Int, 0 < u → u ≤ 10 ^ 9 → t.tdiv u ≠ 0 := by
      intro u hu hu'
      rw [Int.tdiv_eq_ediv_of_nonneg (by omega)]
      have : 1 ≤ t / u := by
        rw [Int.le_ediv_iff_mul_le hu]
        omega
      omega
    revert hn
    cases opt.resolution <;> intro hn <;> first | exact absurd rfl hn | exact h1 _ (by decide) (by decide)
  have := C152_history env opt a0 (ops.map (AOp.times (nowOf r))) (r.number / opt.resolution.number) r hs hf
    ⟨fun e => absurd e hrn, fun e => absurd e hn⟩ h0 (fun op ho => by
      obtain ⟨op, hm, rfl⟩ := List.mem_map.1 ho
      rw [hcomp]
      have := hc op hm
      cases op <;> simp only [AOp.times, AOp.clockOk] at this ⊢
      · exact ⟨hnn _ this.1, hnn _ this.2⟩
      · exact ⟨hnn _ this.1, hnn _ this.2⟩
      · exact hnn _ this) (fun op ho _ e => by
      obtain ⟨op, hm, rfl⟩ := List.mem_map.1 ho
      have hst : ∀ (g : Int → Int), g 0 = 0 → (op.times g).stamp = g op.stamp := by
        intro g hg
        cases op <;> first | rfl | exact hg.symm
      have hz0 : nowOf r 0 = 0 := by cases r <;> rfl
      rw [hst _ hz0] at e ⊢
      rw [hclk] at e
      rcases hz op hm with h | h
      · rw [h]; exact hz0
      · exact absurd e (hpos _ h))
  rw [this, List.map_map]
  congr 3
  funext op
  exact hcomp op

/-! ### Concrete cases -/

/-- Events at 1003.9, 1004.2, "now" (1012.6) and 1057 seconds, in nanoseconds. -/
def exUnitOps : List AOp :=
  [.add 0 0 1003900000000 (.one 5 2), .push 0 0 1004200000000 (.many [7, 2] 2) true, .add 1012600000000 1012600000001 0 (.one 9 1),
   .add 0 0 1057000000000 (.one 3 4), .pop, .forcePop]

/-- In seconds with a step of 10, and in milliseconds with a step of 10000. -/
example : (execAll exactEnv { a := exANew } (exUnitOps.map (AOp.times (nowOf .seconds)))).toOption.map
      (fun o => (o.received.map fun d => (d.ts, d.count, d.data))) = some [(1000, 4, [2, 5, 7]), (1050, 4, [3])] := by decide +kernel

example : (execAll exactEnv { a := exANew.finer 1000 .milliseconds } (exUnitOps.map (AOp.times (nowOf .milliseconds)))).toOption.map
      (fun o => (o.received.map fun d => (d.ts, d.count, d.data))) = some [(1000000, 4, [2, 5, 7]), (1050000, 4, [3])] := by
  decide +kernel

/-- Half a second after the epoch is "now" in seconds, and a time of its own in milliseconds. -/
example : (execAll exactEnv { a := exANew } [.add (nowOf .seconds 1063000000000) 0 (nowOf .seconds 500000000) (.one 5 1)]).toOption.map
      (fun o => o.accepted.map (·.1)) = some [1060] ∧
    (execAll exactEnv { a := exANew.finer 1000 .milliseconds }
      [.add (nowOf .milliseconds 1063000000000) 0 (nowOf .milliseconds 500000000) (.one 5 1)]).toOption.map
      (fun o => o.accepted.map (·.1)) = some [] := by decide +kernel

end Wrtstat
