/-
C163: an aggregator shared by threads is a desk at which the books are kept, one call after the other.
-/
import Verif.Props.Account
import Verif.Props.Monitor
import Verif.Props.MultiMt
import Verif.Props.Reducer

namespace Wrtstat

set_option autoImplicit false

open Aggregator

namespace Aggregator

/-- The books of C161, and whether pushers can be made (not after `clear`). What is handed over by a call is in `made`, until the next call. -/
structure Desk extends Fullbook where
  live : Bool := true
deriving DecidableEq

/-- An event is answered yes if the aggregator is switched off, or the event is not before the page that is open once the page is turned. -/
def Desk.takes (opt : AggregatorOpts) (D : Desk) (clk1 clk2 ts : Int) : Bool :=
  let T := align opt.step (meant opt.resolution clk1 ts)
  D.en = false ∨ (D.toDaybook.turn opt.step (align opt.step (meant opt.resolution clk2 T))).begins ≤ T

/-- The desk after a call that is one of those of C161. -/
def Desk.after (opt : AggregatorOpts) (D : Desk) (op : AOp) : Desk :=
  { op.fullbook opt { D.toFullbook with made := [] } with live := D.live }

/-- Records that tell of the slips. -/
def Tell (env : Env) (opt : AggregatorOpts) (l : List Slip) (out : List AggData) : Prop := List.Forall₂ (Slip.Says env opt) l out

/-- A call at the desk: its result, and the desk after it. -/
def Desk.Spec (env : Env) (opt : AggregatorOpts) (D : Desk) : MtOp → M MtRet → Desk → Prop
  | .add c1 c2 ts x, r, D' => r = .ok (.bool (D.takes opt c1 c2 ts)) ∧ D' = D.after opt (.add c1 c2 ts x)
  | .push c1 c2 ts x h, r, D' =>
    D' = D.after opt (.push c1 c2 ts x h) ∧ ∃ out, r = .ok (.handed (D.takes opt c1 c2 ts) out) ∧ Tell env opt D'.made out
  | .separate c ts h f, r, D' =>
    D' = D.after opt (.separate c ts h f) ∧ ∃ out, Tell env opt D'.made out ∧
      r = .ok (.handed (f || decide (D.begins + opt.step ≤ align opt.step (meant opt.resolution c ts))) out)
  | .pop, r, D' => D' = D.after opt .pop ∧ ∃ x : Option AggData, r = .ok (.record x) ∧ Tell env opt D'.made x.toList
  | .forcePop, r, D' => D' = D.after opt .forcePop ∧ ∃ x : Option AggData, r = .ok (.record x) ∧ Tell env opt D'.made x.toList
  | .aggregateCurrent, r, D' => D' = D.after opt .look ∧ ∃ x : Option AggData, r = .ok (.record x) ∧
      Tell env opt (if D.on = [] then [] else [⟨D.begins, D.on, false⟩]) x.toList
  | .enable v, r, D' => r = .ok .unit ∧ D' = D.after opt (.enable v)
  | .createPusher h, r, D' => r = .ok (.pusher { token := D.live, handler := h }) ∧ D' = D
  | .size, r, D' => r = .ok (.num D.queue.length) ∧ D' = D
  | .clear c ts, r, D' => r = .ok .unit ∧ D' = { begins := align opt.step (meant opt.resolution c ts), en := D.en, live := false }

/-- The values of the call are between `m` and `M`. -/
def _root_.Wrtstat.MtOp.within (m M : Int) : MtOp → Prop
  | .add _ _ _ x => ∀ v ∈ x.values, m ≤ v ∧ v ≤ M
  | .push _ _ _ x _ => ∀ v ∈ x.values, m ≤ v ∧ v ≤ M
  | _ => True

/-- The desk and the aggregator agree. -/
structure AtDesk (env : Env) (opt : AggregatorOpts) (m M : Int) (D : Desk) (a : Aggregator) : Prop where
  books : FBooked env opt { D.toFullbook with made := [] } { a := a }
  live : a.alive = D.live
  within : ∀ x ∈ D.on, ∀ v ∈ x.values, m ≤ v ∧ v ≤ M

theorem atDesk_of {env : Env} {opt : AggregatorOpts} {m M : Int} {D : Desk} {a : Aggregator} {out : List AggData} {acc : List (Int × AddArg)}
    (B : FBooked env opt D.toFullbook ⟨a, out, acc⟩) (hl : a.alive = D.live) (hw : ∀ x ∈ D.on, ∀ v ∈ x.values, m ≤ v ∧ v ≤ M) :
    AtDesk env opt m M D a :=
  ⟨⟨B.page.congr rfl rfl, B.out, B.raw, B.tray, B.en, B.queue, .nil⟩, hl, hw⟩

/-- Nothing is on the page but what was, and the event. -/
theorem on_after {opt : AggregatorOpts} {D : Desk} {op : AOp} {x : AddArg} (h : x ∈ (D.after opt op).on) :
    x ∈ D.on ∨ (∃ c1 c2 ts, op = .add c1 c2 ts x) ∨ ∃ c1 c2 ts hd, op = .push c1 c2 ts x hd := by
  have hturn : ∀ (P : Daybook) (T : Int) (y : AddArg), y ∈ (P.turn opt.step T).on → y ∈ P.on := by
    intro P T y hy
    unfold Daybook.turn at hy
    split at hy
    · cases hy
    · exact hy
  have hnote : ∀ (F : Fullbook) (T T2 : Int) (z : AddArg) (hd : Bool), x ∈ (F.note opt.step T T2 z hd).on → x ∈ F.on ∨ x = z := by
    intro F T T2 z hd hx
    unfold Fullbook.note at hx
    simp only at hx
    split at hx
    · exact .inl hx
    split at hx
    · exact .inl (hturn _ _ _ hx)
    split at hx
    · rcases List.mem_append.1 hx with hx | hx
      · exact .inl (hturn _ _ _ hx)
      · exact .inr (List.mem_singleton.1 hx)
    · rcases List.mem_append.1 hx with hx | hx
      · exact .inl (hturn _ _ _ hx)
      · exact .inr (List.mem_singleton.1 hx)
  unfold Desk.after at h
  cases op with
  | add c1 c2 ts z =>
    rcases hnote _ _ _ _ _ h with h | h
    · exact .inl h
    · exact .inr (.inl ⟨c1, c2, ts, by rw [h]⟩)
  | push c1 c2 ts z hd =>
    rcases hnote _ _ _ _ _ h with h | h
    · exact .inl h
    · exact .inr (.inr ⟨c1, c2, ts, hd, by rw [h]⟩)
  | separate c ts hd f => exact .inl (hturn { D.toDaybook with made := [] } (align opt.step (meant opt.resolution c ts)) x h)
  | pop =>
    simp only [AOp.fullbook] at h
    cases hq : D.queue with
    | nil => simp only [hq] at h; exact .inl h
    | cons s q => simp only [hq] at h; exact .inl h
  | forcePop =>
    simp only [AOp.fullbook] at h
    cases hq : D.tray with
    | nil => simp only [hq] at h; cases h
    | cons s q => simp only [hq] at h; exact .inl h
  | look => exact .inl h
  | enable v => exact .inl h

theorem within_after {opt : AggregatorOpts} {D : Desk} {op : AOp} {m M : Int} (hw : ∀ x ∈ D.on, ∀ v ∈ x.values, m ≤ v ∧ v ≤ M)
    (hv : ∀ v ∈ op.vals, m ≤ v ∧ v ≤ M) : ∀ x ∈ (D.after opt op).on, ∀ v ∈ x.values, m ≤ v ∧ v ≤ M := by
  intro x hx
  rcases on_after hx with h | ⟨_, _, _, rfl⟩ | ⟨_, _, _, _, rfl⟩
  · exact hw x h
  · exact hv
  · exact hv

/-- With values between representable bounds nothing on the page can fault. -/
theorem page_total {env : Env} {opt : AggregatorOpts} {m M : Int} {D : Desk} {a : Aggregator} (B : Reducer.Bounds env m M)
    (A : AtDesk env opt m M D a) : (∃ x, a.sep.getCurrent env = .ok x) ∧ ∃ x r', a.sep.reducer.detach env = .ok (x, r') := by
  have hv : ∀ v ∈ allValues D.on, m ≤ v ∧ v ≤ M := by
    intro v hv
    obtain ⟨x, hx, hv⟩ := List.mem_flatMap.1 hv
    exact A.within x hx v hv
  have g := A.books.page.red
  obtain ⟨y, e⟩ := Separator.getReduced_ok B g hv
  refine ⟨?_, Reducer.detach_total B g hv⟩
  unfold Separator.getCurrent
  rw [e]
  exact ⟨_, rfl⟩

theorem desk_push_total {env : Env} {opt : AggregatorOpts} {m M : Int} {D : Desk} {a : Aggregator} (hs : 0 < opt.step)
    (B : Reducer.Bounds env m M) (A : AtDesk env opt m M D a) (c1 c2 ts : Int) (x : AddArg) (h : Bool) :
    ∃ b out s', a.sep.push env c1 c2 ts x h = .ok (b, out, s') := by
  obtain ⟨-, y, r', hd⟩ := page_total B A
  have hst : a.sep.step = opt.step := A.books.page.step
  rcases Separator.push_result c1 c2 ts x h (by rw [hst]; exact hs) A.books.page.red with ⟨⟨ok, out, s'⟩, e⟩ | ⟨_, e⟩
  · exact ⟨_, _, _, e⟩
  · rw [hd] at e; cases e

/-- What a look shows. -/
theorem page_look {env : Env} {opt : AggregatorOpts} {a : Aggregator} {D : Daybook} {x : Option AggData} (P : OnPage env opt a.sep D)
    (ho : a.outSize = opt.outSize) (hx : a.aggregateCurrent env = .ok x) :
    Tell env opt (if D.on = [] then [] else [⟨D.begins, D.on, false⟩]) x.toList := by
  have P1 : OnPage env opt { a.sep with sepList := [] } D := P.sepList []
  obtain ⟨b, hb⟩ : ∃ b, b = { a with sep := { a.sep with sepList := [] } } := ⟨_, rfl⟩
  have hx' : b.aggregateCurrent env = .ok x := by rw [hb]; exact hx
  have P' : OnPage env opt b.sep D := by rw [hb]; exact P1
  have ho' : b.outSize = opt.outSize := by rw [hb]; exact ho
  have hl : b.sep.sepList = [] := by rw [hb]
  rcases look_force P'.red ho' hl with ⟨⟨a', e⟩, e'⟩ | ⟨raw, raw', d, d', a', e, e', hi, -, -, -, -, hS', hD', -⟩ | ⟨-, e'⟩
  · rw [e'] at hx'
    cases hx'
    exact (page_force P' ho' hl e).1
  · rw [e'] at hx'
    cases hx'
    have hF := (page_force P' ho' hl e).1
    by_cases hne : D.on = []
    · rw [if_pos hne] at hF; cases hF
    · rw [if_neg hne] at hF ⊢
      cases hF with
      | cons k1 _ =>
        have : d'.ts = d.ts := congrArg ReducedInfo.ts hi
        exact .cons ⟨this.trans k1.1, _, hS', hD'⟩ .nil
  · rw [e'] at hx'; cases hx'

theorem desk_takes {env : Env} {opt : AggregatorOpts} {m M : Int} {D : Desk} {a : Aggregator} (hs : 0 < opt.step)
    (A : AtDesk env opt m M D a) (he : a.enabled = true) {c1 c2 ts : Int} {x : AddArg} {h b : Bool} {out : List AggData} {s' : Separator}
    (hp : a.sep.push env c1 c2 ts x h = .ok (b, out, s')) : b = D.takes opt c1 c2 ts := by
  have hen : D.en = true := by rw [← he]; exact A.books.en.symm
  have P : OnPage env opt a.sep D.toDaybook := A.books.page.congr rfl rfl
  obtain ⟨-, -, -, -, hc⟩ := page_push_any hs P hp
  unfold Desk.takes
  simp only [hen, Bool.true_eq_false, false_or]
  rcases hc with ⟨c1, c2, -⟩ | ⟨c1, c2, -⟩
  · rw [c2]; symm; simpa using c1
  · rw [c2]; symm; simpa using c1

/-- A call of the aggregator is a call at the desk, and does not fault. -/
theorem desk_step {env : Env} {opt : AggregatorOpts} {m M : Int} {D : Desk} {a : Aggregator} (hs : 0 < opt.step) (B : Reducer.Bounds env m M)
    (A : AtDesk env opt m M D a) (op : MtOp) (hop : op.within m M) :
    ∃ r a' D', a.mtExec env op = .ok (r, a') ∧ D.Spec env opt op (.ok r) D' ∧ AtDesk env opt m M D' a' := by
  have hbk := A.books
  cases op with
  | add c1 c2 ts x =>
    by_cases he : a.enabled = true
    · obtain ⟨b, out, s', hp⟩ := desk_push_total hs B A c1 c2 ts x false
      have hb := desk_takes hs A he hp
      have : ∃ a', a.add env c1 c2 ts x = .ok (b, a') := by
        unfold Aggregator.add Separator.add
        rw [if_neg (by simp [he]), hp]
        simp only [bind_ok']
        cases b with
        | false => exact ⟨_, rfl⟩
        | true =>
          obtain ⟨l, e, -⟩ := aggregate0_spec env.nth { a with sep := s' }
          simp only [Bool.true_eq_false, if_false, e, bind_ok']
          exact ⟨_, rfl⟩
      obtain ⟨a', ha⟩ := this
      refine ⟨.bool b, a', D.after opt (.add c1 c2 ts x), by simp only [Aggregator.mtExec, ha, bind_ok'], ⟨by rw [hb], rfl⟩, ?_⟩
      exact atDesk_of (acc := []) (fbooked_add hs hbk ha) ((add_alive ha).1.trans A.live) (within_after A.within hop)
    · have ha : a.add env c1 c2 ts x = .ok (true, a) := by
        unfold Aggregator.add
        rw [if_pos (by simpa using he)]
      have hen : D.en = false := by
        have := hbk.en
        simp only at this
        rw [← this]; simpa using he
      refine ⟨.bool true, a, D.after opt (.add c1 c2 ts x), by simp only [Aggregator.mtExec, ha, bind_ok'], ⟨?_, rfl⟩, ?_⟩
      · simp [Desk.takes, hen]
      · exact atDesk_of (acc := []) (fbooked_add hs hbk ha) A.live (within_after A.within hop)
  | push c1 c2 ts x h =>
    have : ∃ out a', a.push env c1 c2 ts x h = .ok (D.takes opt c1 c2 ts, out, a') := by
      by_cases he : a.enabled = true
      · obtain ⟨b, out, s', hp⟩ := desk_push_total hs B A c1 c2 ts x h
        have hb := desk_takes hs A he hp
        subst hb
        unfold Aggregator.push
        rw [if_neg (by simp [he])]
        cases h with
        | false =>
          simp only [if_true]
          unfold Aggregator.add Separator.add
          rw [if_neg (by simp [he]), hp]
          simp only [bind_ok']
          cases hb : D.takes opt c1 c2 ts with
          | false => exact ⟨_, _, rfl⟩
          | true =>
            obtain ⟨l, e, -⟩ := aggregate0_spec env.nth { a with sep := s' }
            simp only [Bool.true_eq_false, if_false, e, bind_ok']
            exact ⟨_, _, rfl⟩
        | true =>
          obtain ⟨l, el, -⟩ := mapM_finish env.nth a.outSize out
          simp only [Bool.true_eq_false, if_false, hp, bind_ok', el]
          exact ⟨_, _, rfl⟩
      · have hen : D.en = false := by
          have := hbk.en
          simp only at this
          rw [← this]; simpa using he
        unfold Aggregator.push
        rw [if_pos (by simpa using he)]
        refine ⟨[], a, ?_⟩
        simp [Desk.takes, hen]
    obtain ⟨out, a', ha⟩ := this
    have hx : Aggregator.exec env { a := a } (.push c1 c2 ts x h) =
        .ok ⟨a', [] ++ out, AObs.record { a := a } (D.takes opt c1 c2 ts) c1 ts x⟩ := by simp only [Aggregator.exec, ha, bind_ok']
    have F := fbooked_exec hs hbk _ hx
    refine ⟨_, a', D.after opt (.push c1 c2 ts x h), by simp only [Aggregator.mtExec, ha, bind_ok'], ⟨rfl, out, rfl, F.made⟩, ?_⟩
    exact atDesk_of F ((exec_alive hx).1.trans A.live) (within_after A.within hop)
  | separate c ts h f =>
    obtain ⟨-, y, r', hd⟩ := page_total B A
    have hst : a.sep.step = opt.step := hbk.page.step
    have hres : a.sep.resolution = opt.resolution := hbk.page.res
    rcases Separator.separate_result c ts h f (by rw [hst]; exact hs) hbk.page.red with ⟨⟨b, out, s'⟩, e⟩ | ⟨_, e⟩
    · obtain ⟨l, el, -⟩ := aggregate0_spec env.nth { a with sep := s' }
      have ha : ∃ a', a.separate env c ts h f = .ok (b, out, a') := by
        unfold Aggregator.separate
        rw [e]
        simp only [bind_ok', el]
        exact ⟨_, rfl⟩
      obtain ⟨a', ha⟩ := ha
      obtain ⟨-, -, -, hb⟩ := Separator.separate_effect (by rw [hst]; exact hs) hbk.page.red e
      rw [hst, hres, hbk.page.begins] at hb
      have hx : Aggregator.exec env { a := a } (.separate c ts h f) = .ok ⟨a', [] ++ out, []⟩ := by simp only [Aggregator.exec, ha, bind_ok']
      have F := fbooked_exec hs hbk _ hx
      refine ⟨.handed b out, a', D.after opt (.separate c ts h f), by simp only [Aggregator.mtExec, ha, bind_ok'], ⟨rfl, out, F.made, ?_⟩, ?_⟩
      · congr 2
        rw [Bool.eq_iff_iff, hb]
        simp
      · exact atDesk_of F ((exec_alive hx).1.trans A.live) (within_after A.within (by simp [AOp.vals]))
    · rw [hd] at e; cases e
  | pop =>
    have hx := fbooked_exec hs hbk .pop rfl
    refine ⟨_, _, D.after opt .pop, rfl, ⟨rfl, _, rfl, ?_⟩, ?_⟩
    · exact hx.made
    · refine atDesk_of hx ?_ (within_after A.within (by simp [AOp.vals]))
      exact (exec_alive (env := env) (o := { a := a }) (op := .pop) rfl).1.trans A.live
  | forcePop =>
    obtain ⟨-, y, r', hd⟩ := page_total B A
    have : ∃ x a', a.forcePop env = .ok (x, a') := by
      unfold Aggregator.forcePop Separator.forcePop Separator.pop
      cases hl : a.sep.sepList with
      | cons r l =>
        obtain ⟨d', ed, -⟩ := finish_spec env.nth a.outSize r
        simp only [bind_ok', ed]
        exact ⟨_, _, rfl⟩
      | nil =>
        simp only [hd, bind_ok']
        cases y with
        | none => exact ⟨_, _, rfl⟩
        | some d =>
          obtain ⟨d', ed, -⟩ := finish_spec env.nth a.outSize { d with ts := a.sep.next - a.sep.step }
          simp only [Option.map_some, ed, bind_ok']
          exact ⟨_, _, rfl⟩
    obtain ⟨x, a', ha⟩ := this
    have hx : Aggregator.exec env { a := a } .forcePop = .ok ⟨a', [] ++ x.toList, []⟩ := by simp only [Aggregator.exec, ha, bind_ok']
    have F := fbooked_exec hs hbk _ hx
    refine ⟨_, a', D.after opt .forcePop, by simp only [Aggregator.mtExec, ha, bind_ok'], ⟨rfl, x, rfl, F.made⟩, ?_⟩
    exact atDesk_of F ((exec_alive hx).1.trans A.live) (within_after A.within (by simp [AOp.vals]))
  | aggregateCurrent =>
    obtain ⟨⟨cx, hcx⟩, -⟩ := page_total B A
    have : ∃ x, a.aggregateCurrent env = .ok x := by
      unfold Aggregator.aggregateCurrent
      rw [hcx]
      cases cx with
      | none => exact ⟨_, rfl⟩
      | some d =>
        obtain ⟨d', e, -⟩ := finish_spec env.nth a.outSize d
        simp only [e, bind_ok']
        exact ⟨_, rfl⟩
    obtain ⟨x, ha⟩ := this
    refine ⟨_, a, D.after opt .look, by simp only [Aggregator.mtExec, ha, bind_ok'], ⟨rfl, x, rfl, page_look (D := D.toDaybook) (hbk.page.congr rfl rfl) hbk.out ha⟩, ?_⟩
    exact atDesk_of hbk A.live A.within
  | enable v =>
    have hx := fbooked_exec hs hbk (.enable v) rfl
    exact ⟨_, _, D.after opt (.enable v), rfl, ⟨rfl, rfl⟩, atDesk_of hx A.live (within_after A.within (by simp [AOp.vals]))⟩
  | createPusher h =>
    refine ⟨_, _, D, rfl, ⟨?_, rfl⟩, A⟩
    simp only [Aggregator.createPusher, A.live]
  | size =>
    refine ⟨_, _, D, rfl, ⟨?_, rfl⟩, A⟩
    have := hbk.queue.length_eq
    simp only [Aggregator.size]
    rw [← this]
  | clear c ts =>
    have hst : a.sep.step = opt.step := hbk.page.step
    have hres : a.sep.resolution = opt.resolution := hbk.page.res
    have hg := Separator.getTs_eq (step := a.sep.step) (res := a.sep.resolution) (clk := c) (ts := ts) (by omega)
    have e : a.mtExec env (.clear c ts) = .ok (.unit,
        { a with sep := { a.sep with next := align opt.step (meant opt.resolution c ts) + opt.step, reducer := a.sep.reducer.clear, sepList := [] },
                 agList := [], alive := false }) := by
      simp only [Aggregator.mtExec, Aggregator.clear, Separator.clear, Separator.getTs, hg, bind_ok']
      rw [hst, hres]
    refine ⟨_, _, _, e, ⟨rfl, rfl⟩, ⟨⟨⟨hst, hres, rfl, ?_⟩, hbk.out, by simp, .nil, hbk.en, .nil, .nil⟩, rfl, by simp⟩⟩
    exact Reducer.goodA_clear hbk.page.red

/-- A sequence of calls of the aggregator is one of calls at the desk. -/
theorem desk_legal {T : Type} {env : Env} {opt : AggregatorOpts} {mi ma : Int} (hs : 0 < opt.step) (B : Reducer.Bounds env mi ma)
    {l : List (T × MtOp × M MtRet)} {a a1 : Aggregator} (h : Legal (Aggregator.MtSpec env) a l a1) :
    ∀ {D : Desk}, AtDesk env opt mi ma D a → (∀ e ∈ l, e.2.1.within mi ma) → ∃ D1, Legal (Desk.Spec env opt) D l D1 := by
  induction h with
  | nil s => intro D _ _; exact ⟨D, .nil D⟩
  | cons s s1 s2 t op r l h _ ih =>
    intro D A hw
    obtain ⟨r0, a', D', e, hsp, A'⟩ := desk_step hs B A op (hw (t, op, r) (by simp))
    unfold Aggregator.MtSpec at h
    rw [e] at h
    obtain ⟨rfl, rfl⟩ := h
    obtain ⟨D1, h1⟩ := ih A' (fun e he => hw e (by simp [he]))
    exact ⟨D1, .cons D D' D1 t op _ l hsp h1⟩

end Aggregator

section Trim

variable {T S Op Ret : Type} [DecidableEq T]

omit [DecidableEq T] in
theorem Legal.before {spec : S → Op → Ret → S → Prop} {l1 : List (T × Op × Ret)} : ∀ {s s2 : S} {l2 : List (T × Op × Ret)},
    Legal spec s (l1 ++ l2) s2 → ∃ s1, Legal spec s l1 s1 := by
  induction l1 with
  | nil => intro s s2 l2 _; exact ⟨s, .nil s⟩
  | cons e l1 ih =>
    intro s s2 l2 h
    cases h with
    | cons _ s1 _ t op r _ hs h =>
      obtain ⟨s3, h3⟩ := ih h
      exact ⟨s3, .cons s s1 s3 t op r l1 hs h3⟩

theorem mem_opsOf {t : T} {op : Op} {r : Ret} {l : List (T × Op × Ret)} (h : (t, op, r) ∈ l) : (op, r) ∈ opsOf t l := by
  unfold opsOf
  rw [List.mem_filterMap]
  exact ⟨_, h, by simp⟩

theorem opsOf_mono {t : T} {l l' : List (T × Op × Ret)} (h : l <+: l') : opsOf t l <+: opsOf t l' := by
  obtain ⟨r, rfl⟩ := h
  unfold opsOf
  rw [List.filterMap_append]
  exact List.prefix_append _ _

theorem resOf_mono {t : T} {h h' : List (HEv T Op Ret)} (e : h <+: h') : resOf t h <+: resOf t h' := by
  obtain ⟨r, rfl⟩ := e
  unfold resOf
  rw [List.filterMap_append]
  exact List.prefix_append _ _

/-- Only calls that were made are needed to explain a history. -/
theorem Linearizable.made {spec : S → Op → Ret → S → Prop} {s0 : S} {h : List (HEv T Op Ret)} (H : Linearizable spec s0 h) :
    ∃ lin : List (T × Op × Ret), (∃ s1, Legal spec s0 lin s1) ∧ (∀ e ∈ lin, e.2.1 ∈ invOf e.1 h) ∧
      ∀ h1 h2, h = h1 ++ h2 → ∃ l1 l2, lin = l1 ++ l2 ∧
        ∀ t, resOf t h1 <+: opsOf t l1 ∧ (opsOf t l1).map Prod.fst <+: invOf t h1 := by
  obtain ⟨lin, ⟨s1, hl⟩, H⟩ := H
  obtain ⟨L, R, rfl, hL⟩ := H h [] (by simp)
  refine ⟨L, hl.before, ?_, ?_⟩
  · rintro ⟨t, op, r⟩ he
    exact (hL t).2.subset (List.mem_map.2 ⟨(op, r), mem_opsOf he, rfl⟩)
  · intro h1 h2 e
    obtain ⟨l1, l2, e', hp⟩ := H h1 h2 e
    by_cases hlen : l1.length ≤ L.length
    · have : l1 <+: L := List.prefix_of_prefix_length_le ⟨l2, e'.symm⟩ ⟨R, rfl⟩ hlen
      obtain ⟨l3, rfl⟩ := this
      exact ⟨l1, l3, rfl, hp⟩
    · have : L <+: l1 := List.prefix_of_prefix_length_le ⟨R, rfl⟩ ⟨l2, e'.symm⟩ (by omega)
      refine ⟨L, [], by simp, fun t => ⟨?_, ?_⟩⟩
      · exact (resOf_mono ⟨h2, e.symm⟩).trans (hL t).1
      · exact ((opsOf_mono this).map _).trans (hp t).2

end Trim

/-! ### C163 -/

/-- Whatever threads do with an aggregator they share, their calls are explained by calls at the desk, one after the other: nothing faults, and the
answers and records are those of the books. -/
theorem C163_desk {T L : Type} [DecidableEq T] (env : Env) (opt : AggregatorOpts) (mi ma : Int) (hs : 0 < opt.step) (B : Reducer.Bounds env mi ma)
    (b : Body Aggregator MtOp (M MtRet) L) (hb : ∀ op a r a', b.Runs (b.start op) a r a' → a.MtSpec env op r a')
    (clk rand ts : Int) (a0 : Aggregator) (h0 : Aggregator.new opt clk rand ts = .ok a0)
    (m : Mon T Aggregator MtOp (M MtRet) L) (h : Mon.Reach b a0 m) (hw : ∀ t, ∀ op ∈ invOf t m.hist, op.within mi ma) :
    Linearizable (Desk.Spec env opt) { begins := Multi.firstPage opt clk rand ts } m.hist := by
  obtain ⟨lin, ⟨a1, hl⟩, hm, hp⟩ := (C56_linearizable env b hb a0 h).made
  have A : AtDesk env opt mi ma { begins := Multi.firstPage opt clk rand ts } a0 := by
    have S := Single.shows_new (env := env) hs h0
    refine ⟨⟨S.page.congr rfl rfl, S.out, by simp, ?_, S.clean.2.2, ?_, .nil⟩, ?_, by simp⟩
    · show List.Forall₂ _ [] a0.sep.sepList
      rw [S.clean.2.1]; exact .nil
    · show List.Forall₂ _ [] a0.agList
      rw [S.clean.1]; exact .nil
    · unfold Aggregator.new at h0
      obtain ⟨s, -, h0⟩ := bind_inv h0
      cases h0
      rfl
  exact ⟨lin, desk_legal hs B hl A (fun e he => hw e.1 _ (hm e he)), hp⟩

open Multi Single in
/-- Threads that share a multi aggregator: the critical sections of their calls can be put in one order, respecting the order in each thread and in
real time, in which the requests handed over and the answers given about any name are those of its account (C162). -/
theorem C163_names {T L : Type} [DecidableEq T] {n : Nat} [NeZero n] (env : Env) (opt : MultiOpts) (hash : Name → Nat)
    (b : Body AggMap (MuSec n) (M MuRes) L) (hb : ∀ sec s r s', b.Runs (b.start sec) s r s' → s.SecSpec env opt sec r s')
    (mi ma : Int) (B : Reducer.Bounds env mi ma) (hs : 0 < opt.step) (P : MuCall → Prop) (hP : ∀ c, P c → c.fine mi ma)
    (m : Sharded T (Fin n) AggMap (MuSec n) (M MuRes) MuCall (M MuRes) L) (h : MuReach n hash b P m) :
    ∃ lin : List (T × (MuCall × MuSec n) × M MuRes),
      (∀ h1 h2, m.shist = h1 ++ h2 → ∃ l1 l2, lin = l1 ++ l2 ∧
        ∀ t, resOf t h1 <+: opsOf t l1 ∧ (opsOf t l1).map Prod.fst <+: invOf t h1) ∧
      (∀ e ∈ lin, ∃ r, e.2.2 = .ok r) ∧
      ∀ name, let A : Account := (lin.flatMap fun e => e.2.1.2.forName hash name).foldl (NOp.enter opt.toAggregatorOpts) {}
        List.Forall₂ (Entry.Says env opt.toAggregatorOpts) A.made (about name (lin.flatMap fun e => (okRes e.2.2).out)) ∧
        about name (lin.flatMap fun e => e.2.1.2.answer (okRes e.2.2)) = A.said := by
  obtain ⟨lin, h1, h2, h3⟩ := C87_names env opt hash b hb mi ma B hs P hP m h
  refine ⟨lin, h1, h2, fun name => ?_⟩
  obtain ⟨no, e1, e2, e3⟩ := h3 name
  have K := nexecAll_agreed (env := env) (A := {}) (no := {}) hs _ ⟨.nil, rfl, rfl, rfl⟩ e1
  exact ⟨e2 ▸ K.made, e3.trans K.said.symm⟩

/-- Calls at the desk: two events of one window, a look, an event that turns the page, its slip fetched, `clear`. -/
example : let D0 : Desk := { begins := 1000 }
    let D1 := D0.after exAOpt (.add 0 0 1003 (.one 5 1))
    let D2 := D1.after exAOpt (.push 0 0 1004 (.many [2, 8] 2) true)
    let D3 := D2.after exAOpt (.add 0 0 1012 (.one 6 1))
    let D4 := D3.after exAOpt .pop
    D2 = { begins := 1000, on := [.one 5 1, .many [2, 8] 2] } ∧
    D3 = { begins := 1010, on := [.one 6 1], queue := [⟨1000, [.one 5 1, .many [2, 8] 2], false⟩] } ∧
    D4 = { begins := 1010, on := [.one 6 1], made := [⟨1000, [.one 5 1, .many [2, 8] 2], false⟩] } ∧
    D3.takes exAOpt 0 0 1009 = false ∧ D3.takes exAOpt 0 0 1019 = true ∧ { D3 with en := false }.takes exAOpt 0 0 3 = true := by
  decide +kernel

/-- A desk where nothing was noted hands nothing over. -/
example (env : Env) (opt : AggregatorOpts) (D' : Desk) (d : AggData) : ¬ Desk.Spec env opt { begins := 0 } .pop (.ok (.record (some d))) D' := by
  rintro ⟨rfl, x, hx, h⟩
  cases hx
  cases h

/-- One thread adds while another pops: if the event turns no page, nothing can be popped, whoever is served first. -/
example (a0 : Aggregator) (h0 : Aggregator.new exAOpt 0 0 1003 = .ok a0) (d : AggData) (b : Bool) :
    ¬ ∃ m : Mon Bool Aggregator MtOp (M MtRet) MtPos, Mon.Reach (Aggregator.mtBody exactEnv) a0 m ∧
      m.hist = [.inv true (.add 0 0 1004 (.one 7 1)), .inv false .pop, .res true (.add 0 0 1004 (.one 7 1)) (.ok (.bool b)),
        .res false .pop (.ok (.record (some d)))] := by
  rintro ⟨m, hr, hh⟩
  have hw : ∀ t, ∀ op ∈ invOf t m.hist, op = .add 0 0 1004 (.one 7 1) ∨ op = .pop := by
    intro t op hop
    rw [hh] at hop
    cases t <;> simp [invOf] at hop <;> simp [hop]
  obtain ⟨lin, ⟨D1, hl⟩, hm, hp⟩ := (C163_desk exactEnv exAOpt 1 9 (by decide) exBounds (Aggregator.mtBody exactEnv)
    (C56_bodies exactEnv) 0 0 1003 a0 h0 m hr (by
      intro t op hop
      rcases hw t op hop with rfl | rfl
      · simp [MtOp.within, AddArg.values]
      · trivial)).made
  have key : ∀ (l : List (Bool × MtOp × M MtRet)) (D D1 : Desk), D.begins = 1000 → D.queue = [] → D.tray = [] → Legal (Desk.Spec exactEnv exAOpt) D l D1 →
      (∀ e ∈ l, e.2.1 = .add 0 0 1004 (.one 7 1) ∨ e.2.1 = .pop) → (false, .pop, .ok (.record (some d))) ∉ l := by
    intro l
    induction l with
    | nil => simp
    | cons e l ih =>
      intro D D1 h1 h2 ht hl ho hmem
      cases hl with
      | cons _ D2 _ t op r _ hs hl =>
        rcases ho (t, op, r) (by simp) with rfl | rfl
        · obtain ⟨rfl, rfl⟩ := hs
          rcases List.mem_cons.1 hmem with h | h
          · cases h
          · have hT : align exAOpt.step (meant exAOpt.resolution 0 1004) = 1000 := by decide
            have hT2 : align exAOpt.step (meant exAOpt.resolution 0 1000) = 1000 := by decide
            have e : (D.after exAOpt (.add 0 0 1004 (.one 7 1))).begins = 1000 ∧ (D.after exAOpt (.add 0 0 1004 (.one 7 1))).queue = [] ∧
                (D.after exAOpt (.add 0 0 1004 (.one 7 1))).tray = [] := by
              simp only [Desk.after, AOp.fullbook, hT, hT2, Fullbook.note, Daybook.turn, Daybook.slip, h1]
              by_cases hen : D.en = false
              · simp [hen, h2, ht]
              · simp [hen, h2, ht, exAOpt, finished]
            exact ih _ _ e.1 e.2.1 e.2.2 hl (fun e he => ho e (by simp [he])) h
        · obtain ⟨rfl, x, rfl, hx⟩ := hs
          have e2 : D.after exAOpt .pop = { D with made := [] } := by simp [Desk.after, AOp.fullbook, h2]
          rw [e2] at hx hl
          cases x with
          | some y => cases hx
          | none =>
            rcases List.mem_cons.1 hmem with h | h
            · simp at h
            · exact ih { D with made := [] } _ h1 h2 ht hl (fun e he => ho e (by simp [he])) h
  obtain ⟨l1, l2, rfl, h3⟩ := hp m.hist [] (by simp)
  have : (MtOp.pop, (.ok (.record (some d)) : M MtRet)) ∈ opsOf false l1 := (h3 false).1.subset (by rw [hh]; simp [resOf])
  unfold opsOf at this
  obtain ⟨⟨t, e⟩, he, hte⟩ := List.mem_filterMap.1 this
  simp only [Option.ite_none_right_eq_some, Option.some.injEq] at hte
  obtain ⟨rfl, rfl⟩ := hte
  exact key _ _ _ rfl rfl rfl hl (fun e he => hw e.1 _ (hm e he)) (List.mem_append_left _ he)

end Wrtstat
