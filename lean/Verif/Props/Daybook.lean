/-
C160: an aggregator keeps the books a client could keep by hand.
-/
import Verif.Props.Late
import Verif.Props.Look
import Verif.Props.RegistryLate

namespace Wrtstat

set_option autoImplicit false

open Aggregator

namespace Aggregator

/-- Events that are reported together. -/
structure Slip where
  /-- the beginning of their window -/
  time : Int
  events : List AddArg
  /-- handed to the handler of `separate`, and so without percentiles -/
  raw : Bool
deriving DecidableEq

/-- The books of an aggregator, kept by hand: the window that is open, what is on its page, the slips that wait for `pop`, the slips handed over,
and whether the aggregator is switched on. -/
structure Daybook where
  begins : Int
  on : List AddArg := []
  queue : List Slip := []
  made : List Slip := []
  en : Bool := true
deriving DecidableEq

/-- The slip made when the page is turned at time `T`: none if the window is not over or the page is empty. -/
def Daybook.slip (D : Daybook) (step T : Int) (raw : Bool) : List Slip :=
  if D.begins + step ≤ T ∧ D.on ≠ [] then [⟨D.begins, D.on, raw⟩] else []

/-- At time `T` the page is turned if its window is over. -/
def Daybook.turn (D : Daybook) (step T : Int) : Daybook :=
  if D.begins + step ≤ T then { D with begins := windowOf D.begins step T, on := [] } else D

/-- An event of time `T`: if it is not late, the page is turned (to a handler if there is one) and the event noted. -/
def Daybook.note (D : Daybook) (step T : Int) (x : AddArg) (handler : Bool) : Daybook :=
  if D.en = false ∨ T < D.begins then D
  else { D.turn step T with
    on := (D.turn step T).on ++ [x]
    queue := D.queue ++ if handler then [] else D.slip step T false
    made := D.made ++ if handler then D.slip step T false else [] }

def AOp.book (opt : AggregatorOpts) (D : Daybook) : AOp → Daybook
  | .add clk _ ts x => D.note opt.step (align opt.step (meant opt.resolution clk ts)) x false
  | .push clk _ ts x handler => D.note opt.step (align opt.step (meant opt.resolution clk ts)) x handler
  | .separate clk ts handler _ =>
    let T := align opt.step (meant opt.resolution clk ts)
    { D.turn opt.step T with
      queue := D.queue ++ if handler then [] else D.slip opt.step T false
      made := D.made ++ if handler then D.slip opt.step T true else [] }
  | .pop =>
    match D.queue with
    | [] => D
    | s :: q => { D with queue := q, made := D.made ++ [s] }
  | .forcePop => { D with on := [], made := D.made ++ if D.on = [] then [] else [⟨D.begins, D.on, false⟩] }
  | .look => D
  | .enable v => { D with en := v }

/-- The books after a history. -/
def daybook (opt : AggregatorOpts) (begins : Int) (en : Bool) (ops : List AOp) : Daybook := ops.foldl (AOp.book opt) { begins := begins, en := en }

/-- The record has the time of the slip and tells of its events, all of them and nothing else. -/
def Slip.Says (env : Env) (opt : AggregatorOpts) (s : Slip) (d : AggData) : Prop :=
  d.ts = s.time ∧ if s.raw then Summary env opt.limit opt.levels s.events d ∧ d.toPerc = {} else Report env opt s.events d

/-- The separator has the page that is open. -/
structure OnPage (env : Env) (opt : AggregatorOpts) (s : Separator) (D : Daybook) : Prop where
  step : s.step = opt.step
  res : s.resolution = opt.resolution
  begins : s.next = D.begins + opt.step
  red : Reducer.GoodA env opt.toReducerOpts s.reducer D.on

/-- The books kept by hand agree with the aggregator. -/
structure Booked (env : Env) (opt : AggregatorOpts) (D : Daybook) (o : AObs) : Prop where
  page : OnPage env opt o.a.sep D
  out : o.a.outSize = opt.outSize
  sepList : o.a.sep.sepList = []
  en : o.a.enabled = D.en
  queue : List.Forall₂ (Slip.Says env opt) D.queue o.a.agList
  made : List.Forall₂ (Slip.Says env opt) D.made o.received

theorem OnPage.congr {env : Env} {opt : AggregatorOpts} {s : Separator} {D D' : Daybook} (h : OnPage env opt s D)
    (h1 : D'.begins = D.begins) (h2 : D'.on = D.on) : OnPage env opt s D' :=
  ⟨h.step, h.res, h1 ▸ h.begins, h2 ▸ h.red⟩

theorem OnPage.sepList {env : Env} {opt : AggregatorOpts} {s : Separator} {D : Daybook} (h : OnPage env opt s D) (l : List AggData) :
    OnPage env opt { s with sepList := l } D :=
  ⟨h.step, h.res, h.begins, h.red⟩

/-- A separation, in terms of the page. -/
theorem page_effect {env : Env} {opt : AggregatorOpts} {s s' : Separator} {D : Daybook} {as' : List AddArg} {T : Int} {handler : Bool}
    {pub out : List AggData} (hs : 0 < opt.step) (P : OnPage env opt s D)
    (eff : Separator.SepEffect env opt.toReducerOpts s s' D.on as' T handler pub out) :
    OnPage env opt s' (D.turn opt.step T) ∧ as' = (D.turn opt.step T).on ∧
      List.Forall₂ (Slip.Says env opt) (D.slip opt.step T true) pub := by
  have hst := P.step
  have hn := P.begins
  have f1 : s'.step = opt.step := eff.frame.1.trans hst
  have f2 : s'.resolution = opt.resolution := eff.frame.2.trans P.res
  have hg := eff.good
  unfold Daybook.turn Daybook.slip
  rcases eff.cases with ⟨c1, c2, c3, c4⟩ | ⟨c1, c2, c3, ⟨k, c4, -⟩, c5, c6⟩
  · rw [if_neg (by omega), if_neg (by omega), c2]
    subst c3 c4
    exact ⟨P, rfl, .nil⟩
  · rw [hn] at c1
    rw [if_pos c1]
    subst c5
    rw [hst] at c3 c4
    have hw : s'.next = windowOf D.begins opt.step T + opt.step := by
      rw [windowOf_eq (k + 1 - 1) hs]
      · rw [c4, hn]; ring
      · rw [c4, hn] at c3; nlinarith
      · rw [c4, hn] at c2; nlinarith
    refine ⟨⟨f1, f2, hw, hg⟩, rfl, ?_⟩
    rcases c6 with ⟨e1, e2⟩ | ⟨e1, d, e2, e3, e4⟩
    · rw [if_neg (by simp [e1]), e2]
      exact .nil
    · rw [if_pos ⟨c1, e1⟩, e2]
      refine .cons ⟨?_, e4, ?_⟩ .nil
      rotate_left
      · rcases eff.took with ⟨t1, -⟩ | ⟨d0, t1, t2⟩
        · rw [e2] at t1; cases t1
        · rw [e2] at t1
          cases t1
          obtain ⟨-, r1, -, -, -, -, -, -, -, a, -, hd⟩ := Reducer.detach_some P.red t2
          rw [hd]
          rfl
      rw [e3, hn, hst]
      show _ = D.begins
      omega

theorem slip_finish {env : Env} {opt : AggregatorOpts} {D : Daybook} {T : Int} {pub l : List AggData}
    (h : List.Forall₂ (Slip.Says env opt) (D.slip opt.step T true) pub) (hl : List.Forall₂ (Delivered opt.outSize) pub l) :
    List.Forall₂ (Slip.Says env opt) (D.slip opt.step T false) l := by
  unfold Daybook.slip at h ⊢
  by_cases hc : D.begins + opt.step ≤ T ∧ D.on ≠ []
  · rw [if_pos hc] at h ⊢
    cases h with
    | cons h1 h2 =>
      cases h2
      cases hl with
      | cons k1 k2 =>
        cases k2
        refine .cons ⟨k1.ts.trans h1.1, ?_⟩ .nil
        exact ⟨_, h1.2.1, k1⟩
  · rw [if_neg hc] at h ⊢
    cases h
    cases hl
    exact .nil

/-- `add` and `push`, in terms of the page. -/
theorem page_push {env : Env} {opt : AggregatorOpts} {s s' : Separator} {D : Daybook} {clk1 clk2 ts : Int} {x : AddArg} {handler b : Bool}
    {out : List AggData} (hs : 0 < opt.step) (P : OnPage env opt s D)
    (ht : opt.resolution = .none ∨ align opt.step (meant opt.resolution clk1 ts) ≠ 0)
    (h : s.push env clk1 clk2 ts x handler = .ok (b, out, s')) :
    let T := align opt.step (meant opt.resolution clk1 ts)
    ∃ pub, out = (if handler then pub else []) ∧ s'.sepList = (if handler then s.sepList else s.sepList ++ pub) ∧
      ((T < D.begins ∧ b = false ∧ pub = [] ∧ OnPage env opt s' D) ∨
       (D.begins ≤ T ∧ b = true ∧ OnPage env opt s' { D.turn opt.step T with on := (D.turn opt.step T).on ++ [x] } ∧
        List.Forall₂ (Slip.Says env opt) (D.slip opt.step T true) pub)) := by
  intro T
  have hst := P.step
  obtain ⟨s1, pub, as', eff, hb, hs'⟩ := Separator.push_effect (by rw [hst]; exact hs) P.red h
  rw [hst, P.res] at eff hb
  have hT2 : align opt.step (meant opt.resolution clk2 T) = T := by
    unfold meant
    rw [if_neg (by tauto)]
    exact Separator.align_idem (Int.ne_of_gt hs) _
  rw [show align opt.step (meant opt.resolution clk1 ts) = T from rfl, hT2] at eff
  rw [show align opt.step (meant opt.resolution clk1 ts) = T from rfl] at hb
  obtain ⟨P1, ha, hF⟩ := page_effect hs P eff
  have hn1 : s1.next - s1.step = (D.turn opt.step T).begins := by rw [P1.begins, P1.step]; omega
  rw [hn1] at hb
  have hsl : s'.sepList = s1.sepList := by rw [hs']; split <;> rfl
  refine ⟨pub, eff.lists.1, hsl.trans eff.lists.2, ?_⟩
  by_cases hlt : T < D.begins
  · have e : D.turn opt.step T = D := by unfold Daybook.turn; rw [if_neg (by omega)]
    have e' : D.slip opt.step T true = [] := by unfold Daybook.slip; rw [if_neg (by omega)]
    rw [e] at hb P1
    rw [e'] at hF
    cases hF
    have hbf : b = false := by
      rw [Bool.eq_false_iff, ne_eq, hb]; omega
    subst hbf
    simp only [Bool.false_eq_true, if_false] at hs'
    subst hs'
    exact .inl ⟨hlt, rfl, rfl, P1⟩
  · have hbt : b = true := by
      rw [hb]
      unfold Daybook.turn
      split
      · exact windowOf_le hs
      · omega
    subst hbt
    simp only [if_true] at hs'
    subst hs'
    refine .inr ⟨by omega, rfl, ⟨P1.step, P1.res, P1.begins, ?_⟩, hF⟩
    have hg := P1.red
    exact Reducer.goodA_add hg x

theorem turn_rest (D : Daybook) (step T : Int) :
    (D.turn step T).queue = D.queue ∧ (D.turn step T).made = D.made ∧ (D.turn step T).en = D.en := by
  unfold Daybook.turn
  split <;> exact ⟨rfl, rfl, rfl⟩

theorem booked_add {env : Env} {opt : AggregatorOpts} {D : Daybook} {o : AObs} (hs : 0 < opt.step) (B : Booked env opt D o)
    {clk1 clk2 ts : Int} {x : AddArg} (ht : opt.resolution = .none ∨ align opt.step (meant opt.resolution clk1 ts) ≠ 0) {b : Bool}
    {a' : Aggregator} {acc : List (Int × AddArg)} (h : o.a.add env clk1 clk2 ts x = .ok (b, a')) :
    Booked env opt (D.note opt.step (align opt.step (meant opt.resolution clk1 ts)) x false) ⟨a', o.received, acc⟩ := by
  unfold Daybook.note
  by_cases he : o.a.enabled = true
  · have hen : D.en = true := B.en ▸ he
    unfold Aggregator.add Separator.add at h
    rw [if_neg (by simp [he])] at h
    obtain ⟨⟨ok, s'⟩, hp, h⟩ := bind_inv h
    obtain ⟨⟨b1, out1, s1⟩, hp, hq⟩ := bind_inv hp
    cases hq
    obtain ⟨pub, -, hsl, hc⟩ := page_push hs B.page ht hp
    simp only [Bool.false_eq_true, if_false, B.sepList, List.nil_append] at hsl
    rcases hc with ⟨c1, c2, c3, P⟩ | ⟨c1, c2, P, hF⟩
    · subst c2
      cases h
      rw [if_pos (.inr c1)]
      exact ⟨P, B.out, by rw [hsl, c3], B.en, B.queue, B.made⟩
    · subst c2
      simp only [Bool.true_eq_false, if_false] at h
      obtain ⟨a1, ha, h⟩ := bind_inv h
      cases h
      obtain ⟨l, e, hl⟩ := aggregate0_spec env.nth { o.a with sep := s' }
      rw [e] at ha
      cases ha
      rw [if_neg (by simp [hen]; omega)]
      simp only [hsl, B.out] at hl
      obtain ⟨-, -, t3⟩ := turn_rest D opt.step (align opt.step (meant opt.resolution clk1 ts))
      refine ⟨(P.sepList []).congr rfl rfl, B.out, rfl, ?_, ?_, ?_⟩
      · exact B.en.trans t3.symm
      · exact List.rel_append B.queue (slip_finish hF hl)
      · simpa using B.made
  · unfold Aggregator.add at h
    rw [if_pos (by simpa using he)] at h
    cases h
    rw [if_pos (.inl (by rw [← B.en]; simpa using he))]
    exact ⟨B.page, B.out, B.sepList, B.en, B.queue, B.made⟩

/-- `force_pop`, in terms of the page. -/
theorem page_force {env : Env} {opt : AggregatorOpts} {a a' : Aggregator} {D : Daybook} {x : Option AggData} (P : OnPage env opt a.sep D)
    (ho : a.outSize = opt.outSize) (hl : a.sep.sepList = []) (h : a.forcePop env = .ok (x, a')) :
    List.Forall₂ (Slip.Says env opt) (if D.on = [] then [] else [⟨D.begins, D.on, false⟩]) x.toList ∧
      OnPage env opt a'.sep { D with on := [] } ∧ a'.outSize = a.outSize ∧ a'.sep.sepList = [] ∧ a'.enabled = a.enabled ∧ a'.agList = a.agList := by
  unfold Aggregator.forcePop Separator.forcePop Separator.pop at h
  rw [hl] at h
  simp only at h
  rcases Reducer.detach_spec P.red with ⟨e, e', _⟩ | ⟨hne, r1, er, g1, _, _, _, _, ⟨y, _, e⟩ | ⟨_, e⟩⟩
  · rw [e'] at h
    cases h
    rw [if_pos e]
    exact ⟨.nil, P.congr rfl e.symm, rfl, hl, rfl, rfl⟩
  · have hsum := summary_of_detach P.red e
    rw [e] at h
    simp only [bind_ok', Option.map_some] at h
    obtain ⟨d', ed, hdel⟩ := Aggregator.finish_spec env.nth a.outSize
      { Reducer.resultOf a.sep.reducer (r1.data.headD []) y with ts := a.sep.next - a.sep.step }
    simp only at ed
    rw [ed] at h
    cases h
    rw [if_neg hne]
    rw [ho] at hdel
    refine ⟨.cons ⟨?_, _, summary_ts hsum, hdel⟩ .nil, ⟨P.step, P.res, P.begins, Reducer.goodA_clear g1⟩, rfl, hl, rfl, rfl⟩
    rw [hdel.ts]
    show a.sep.next - a.sep.step = D.begins
    rw [P.begins, P.step]
    omega
  · rw [e] at h; cases h

theorem booked_exec {env : Env} {opt : AggregatorOpts} {D : Daybook} {o o' : AObs} (hs : 0 < opt.step) (B : Booked env opt D o) (op : AOp)
    (ht : op.timeOk opt) (h : Aggregator.exec env o op = .ok o') : Booked env opt (op.book opt D) o' := by
  cases op with
  | add clk1 clk2 ts x =>
    obtain ⟨⟨b, a'⟩, h1, h⟩ := bind_inv h
    cases h
    exact booked_add hs B ht h1
  | push clk1 clk2 ts x handler =>
    obtain ⟨⟨b, out, a'⟩, ha, h⟩ := bind_inv h
    cases h
    by_cases he : o.a.enabled = true
    · have hen : D.en = true := B.en ▸ he
      unfold Aggregator.push at ha
      rw [if_neg (by simp [he])] at ha
      cases handler with
      | false =>
        simp only [if_true] at ha
        obtain ⟨⟨b1, a1⟩, h1, ha⟩ := bind_inv ha
        cases ha
        rw [List.append_nil]
        exact booked_add hs B ht h1
      | true =>
        simp only [Bool.true_eq_false, if_false] at ha
        obtain ⟨⟨ok, out1, s'⟩, hp, ha⟩ := bind_inv ha
        obtain ⟨l, el, ha⟩ := bind_inv ha
        cases ha
        obtain ⟨l', el', hl⟩ := mapM_finish env.nth o.a.outSize out1
        rw [el'] at el
        cases el
        obtain ⟨pub, hout, hsl, hc⟩ := page_push hs B.page ht hp
        simp only [if_true] at hout hsl
        subst hout
        simp only [AOp.book, Daybook.note]
        rcases hc with ⟨c1, c2, c3, P⟩ | ⟨c1, c2, P, hF⟩
        · subst c3
          cases hl
          rw [if_pos (.inr c1)]
          exact ⟨P, B.out, by rw [hsl, B.sepList], B.en, B.queue, by simpa using B.made⟩
        · rw [if_neg (by simp [hen]; omega)]
          rw [B.out] at hl
          obtain ⟨-, -, t3⟩ := turn_rest D opt.step (align opt.step (meant opt.resolution clk1 ts))
          refine ⟨P.congr rfl rfl, B.out, by rw [hsl, B.sepList], B.en.trans t3.symm, by simpa using B.queue, ?_⟩
          exact List.rel_append B.made (slip_finish hF hl)
    · unfold Aggregator.push at ha
      rw [if_pos (by simpa using he)] at ha
      cases ha
      simp only [AOp.book, Daybook.note]
      rw [if_pos (.inl (by rw [← B.en]; simpa using he))]
      exact ⟨B.page, B.out, B.sepList, B.en, B.queue, by simpa using B.made⟩
  | separate clk ts handler force =>
    obtain ⟨⟨b, out, a'⟩, ha, h⟩ := bind_inv h
    cases h
    obtain ⟨⟨res, out1, s'⟩, hp, ha⟩ := bind_inv ha
    obtain ⟨a1, hag, ha⟩ := bind_inv ha
    cases ha
    obtain ⟨pub, as', eff, -⟩ := Separator.separate_effect (by rw [B.page.step]; exact hs) B.page.red hp
    rw [B.page.step, B.page.res] at eff
    obtain ⟨P, -, hF⟩ := page_effect hs B.page eff
    obtain ⟨e1, e2⟩ := eff.lists
    obtain ⟨l, e, hl⟩ := aggregate0_spec env.nth { o.a with sep := s' }
    rw [e] at hag
    cases hag
    obtain ⟨-, -, t3⟩ := turn_rest D opt.step (align opt.step (meant opt.resolution clk ts))
    rw [B.sepList] at e2
    simp only [AOp.book]
    cases handler with
    | true =>
      simp only [if_true] at e1 e2 ⊢
      simp only [e2] at hl
      cases hl
      subst e1
      exact ⟨(P.sepList []).congr rfl rfl, B.out, rfl, B.en.trans t3.symm, by simpa using B.queue, List.rel_append B.made hF⟩
    | false =>
      simp only [Bool.false_eq_true, if_false, List.nil_append] at e1 e2 ⊢
      simp only [e2, B.out] at hl
      subst e1
      exact ⟨(P.sepList []).congr rfl rfl, B.out, rfl, B.en.trans t3.symm, List.rel_append B.queue (slip_finish hF hl), by simpa using B.made⟩
  | pop =>
    simp only [Aggregator.exec] at h
    cases h
    have hq := B.queue
    simp only [AOp.book, Aggregator.pop]
    cases hD : D.queue with
    | nil =>
      rw [hD] at hq
      cases ha : o.a.agList with
      | cons d l => rw [ha] at hq; cases hq
      | nil =>
        have e : o.a.agList = [] := ha
        simp only [Option.toList_none, List.append_nil]
        exact ⟨B.page, B.out, B.sepList, B.en, by rw [hD]; show List.Forall₂ _ [] o.a.agList; rw [e]; exact .nil, B.made⟩
    | cons s q =>
      rw [hD] at hq
      cases ha : o.a.agList with
      | nil => rw [ha] at hq; cases hq
      | cons d l =>
        rw [ha] at hq
        cases hq with
        | cons h1 h2 =>
          exact ⟨B.page.congr rfl rfl, B.out, B.sepList, B.en, h2, List.rel_append B.made (.cons h1 .nil)⟩
  | forcePop =>
    obtain ⟨⟨d, a'⟩, h1, h⟩ := bind_inv h
    cases h
    obtain ⟨hF, P, e1, e2, e3, e4⟩ := page_force B.page B.out B.sepList h1
    exact ⟨P.congr rfl rfl, e1.trans B.out, e2, e3.trans B.en, e4 ▸ B.queue, List.rel_append B.made hF⟩
  | look =>
    obtain ⟨_, _, h⟩ := bind_inv h
    cases h
    exact B
  | enable v =>
    cases h
    exact ⟨B.page.congr rfl rfl, B.out, B.sepList, rfl, B.queue, B.made⟩

theorem booked_execAll {env : Env} {opt : AggregatorOpts} (hs : 0 < opt.step) (ops : List AOp) : ∀ {D : Daybook} {o o' : AObs},
    Booked env opt D o → (∀ op ∈ ops, op.timeOk opt) → Aggregator.execAll env o ops = .ok o' → Booked env opt (ops.foldl (AOp.book opt) D) o' := by
  induction ops with
  | nil => intro D o o' B _ h; cases h; exact B
  | cons op ops ih =>
    intro D o o' B ht h
    unfold Aggregator.execAll at h
    rw [List.foldlM_cons] at h
    obtain ⟨o1, hx, h⟩ := bind_inv h
    exact ih (booked_exec hs B op (ht op (by simp)) hx) (fun p hp => ht p (by simp [hp])) h

end Aggregator

theorem booked_fresh {env : Env} {opt : AggregatorOpts} {a : Aggregator} (hs : 0 < opt.step) (h : Fresh env opt a) :
    Booked env opt { begins := a.sep.currentTime, en := a.enabled } { a := a } := by
  have g := pgood_fresh (Q := fun _ _ => True) hs h
  have hst : a.sep.step = opt.step := g.sep.step.1
  obtain ⟨k1, k2⟩ := fresh_keep h
  refine ⟨⟨hst, g.sep.step.2, ?_, g.sep.red⟩, g.out, k1, rfl, ?_, .nil⟩
  · simp only [Separator.currentTime, hst]; omega
  · show List.Forall₂ _ [] a.agList
    rw [k2]; exact .nil

/-! ### C160 -/

/-- The records received are, one by one and in order, the slips handed over in the books kept by hand; those that wait for `pop` are the slips in
the queue, `size()` is their number, and `current_time()` and `enabled` are as in the books. -/
theorem C160_daybook (env : Env) (opt : AggregatorOpts) (a0 : Aggregator) (ops : List AOp) (o : AObs) (hs : 0 < opt.step)
    (h0 : Fresh env opt a0) (ht : ∀ op ∈ ops, op.timeOk opt) (h : execAll env { a := a0 } ops = .ok o) :
    let D := daybook opt a0.sep.currentTime a0.enabled ops
    List.Forall₂ (Slip.Says env opt) D.made o.received ∧ List.Forall₂ (Slip.Says env opt) D.queue o.a.agList ∧
      o.a.size = D.queue.length ∧ o.a.sep.currentTime = D.begins ∧ o.a.enabled = D.en := by
  have B := booked_execAll hs ops (booked_fresh hs h0) ht h
  refine ⟨B.made, B.queue, B.queue.length_eq.symm, ?_, B.en⟩
  have h1 := B.page.begins
  have h2 := B.page.step
  simp only [Separator.currentTime, h1, h2, daybook]
  omega

/-- A look at the current window shows what is on the open page. -/
theorem C160_look (env : Env) (opt : AggregatorOpts) (a0 : Aggregator) (ops : List AOp) (o : AObs) (x : Option AggData) (hs : 0 < opt.step)
    (h0 : Fresh env opt a0) (ht : ∀ op ∈ ops, op.timeOk opt) (h : execAll env { a := a0 } ops = .ok o)
    (hx : o.a.aggregateCurrent env = .ok x) :
    let D := daybook opt a0.sep.currentTime a0.enabled ops
    (x = none ↔ D.on = []) ∧ ∀ d, x = some d → d.ts = D.begins ∧ Report env opt D.on d := by
  intro D
  have B : Booked env opt D o := booked_execAll hs ops (booked_fresh hs h0) ht h
  rcases look_force B.page.red B.out B.sepList with ⟨⟨a', e⟩, e'⟩ | ⟨raw, raw', d, d', a', e, e', hi, -, -, -, -, hS', hD', -⟩ | ⟨-, e'⟩
  · rw [e'] at hx
    cases hx
    have := (page_force B.page B.out B.sepList e).1
    refine ⟨⟨fun _ => ?_, fun _ => rfl⟩, by simp⟩
    by_contra hne
    rw [if_neg hne] at this
    cases this
  · rw [e'] at hx
    cases hx
    have hF := (page_force B.page B.out B.sepList e).1
    have hne : D.on ≠ [] := by
      intro he
      rw [if_pos he] at hF
      cases hF
    rw [if_neg hne] at hF
    refine ⟨by simp [hne], ?_⟩
    intro d2 hd
    cases hd
    cases hF with
    | cons k1 _ =>
      refine ⟨?_, _, hS', hD'⟩
      have : d'.ts = d.ts := congrArg ReducedInfo.ts hi
      rw [this]
      exact k1.1
  · rw [e'] at hx; cases hx

open Registry in
/-- Name by name, a registry keeps the same books: of the calls made to the aggregator of the name since it was created. -/
theorem C160_registry (env : Env) (opt : RegistryOpts) (ops : List RegOp) (o : RObs) (hs : 0 < opt.step) (h0 : opt.soiled = 0)
    (hr : Room opt ops.length) (hid : ∀ op ∈ ops, op.idOk opt) (h : rexecAll env { r := Registry.new opt } ops = .ok o)
    (hc : ∀ p ∈ o.asked, p.2.timeOk opt.toAggregatorOpts) (name : Name) (c : Cell) (hcell : o.r.cellOf name = some c) :
    ∃ clk now, let D := daybook opt.toAggregatorOpts (align opt.step (meant opt.resolution clk now)) true (forRef c.ref o.asked)
      List.Forall₂ (Slip.Says env opt.toAggregatorOpts) D.made (forRef c.ref o.received) ∧
      List.Forall₂ (Slip.Says env opt.toAggregatorOpts) D.queue c.agg.agList ∧ c.agg.sep.currentTime = D.begins ∧ c.agg.enabled = D.en := by
  obtain ⟨clk, rand, now, a0, hn, ob, he, ha, hrec⟩ := C29_isolated_partial hr hid h name c hcell
  obtain ⟨e1, e2⟩ := new_begins hs h0 hn
  obtain ⟨k1, k2, -, k3, k4⟩ := C160_daybook env opt.toAggregatorOpts a0 _ ob hs (.new hn) (by
    intro op hop
    obtain ⟨p, hp, rfl⟩ := List.mem_map.1 hop
    exact hc p (List.mem_filter.1 hp).1) he
  rw [e1, e2] at k1 k2 k3 k4
  rw [ha] at k2 k3 k4
  rw [hrec] at k1
  exact ⟨clk, now, k1, k2, k3, k4⟩

/-- The history of the example of C22, and its books: two windows are over, the first was popped. -/
example : daybook exAOpt 1000 true exAOps = { begins := 1040, on := [.one 6 1], queue := [⟨1010, [.one 8 3], false⟩], made :=
      [⟨1000, [.many [5, 9, 2, 7] 4], false⟩] } ∧
    exAObs.received.map (fun d => (d.ts, d.count)) = [(1000, 4)] ∧ exAObs.a.agList.map (fun d => (d.ts, d.count)) = [(1010, 3)] := by
  decide +kernel

/-- A record waits when `force_pop` is called: the open page is handed over before it. A late event and one given to an aggregator switched off are
noted nowhere, `separate` hands over a page without percentiles, and a page handed over early is continued. -/
example : let ops : List AOp := [.add 0 0 1003 (.one 5 1), .add 0 0 1017 (.one 7 2), .forcePop, .add 0 0 1018 (.one 3 1), .add 0 0 1009 (.one 4 1),
      .pop, .push 0 0 1025 (.one 9 1) true, .enable false, .push 0 0 1026 (.one 2 1) true, .separate 0 1061 true false, .pop, .forcePop]
    daybook exAOpt 1000 true ops = { begins := 1060, en := false, made := [⟨1010, [.one 7 2], false⟩, ⟨1000, [.one 5 1], false⟩,
      ⟨1010, [.one 3 1], false⟩, ⟨1020, [.one 9 1], true⟩] } ∧
    ((execAll exactEnv { a := exANew } ops).toOption.any fun o => decide (o.received.map (fun d => (d.ts, d.count, d.perc100)) =
      [(1010, 2, 7), (1000, 1, 5), (1010, 1, 3), (1020, 1, 0)]) && decide (o.a.size = 0)) = true := by
  decide +kernel

end Wrtstat
