/-
C161: the books of an aggregator without exception, events of time zero included.
-/
import Verif.Props.Daybook

namespace Wrtstat

set_option autoImplicit false

open Aggregator

namespace Aggregator

/-- The books of C160 with a tray, for slips that were made by an event that was then refused. They have no percentiles yet. -/
structure Fullbook extends Daybook where
  tray : List Slip := []
deriving DecidableEq

/-- Slips as they are handed over, with percentiles. -/
def finished (l : List Slip) : List Slip := l.map fun s => { s with raw := false }

/-- An event of time `T` that turns the page at time `T2` (which is `T`, unless that is zero and zero means now). -/
def Fullbook.note (D : Fullbook) (step T T2 : Int) (x : AddArg) (handler : Bool) : Fullbook :=
  let P := D.toDaybook.turn step T2
  let new := D.toDaybook.slip step T2 true
  if D.en = false then D
  else if T < P.begins then
    { P with tray := D.tray ++ (if handler then [] else new), made := D.made ++ finished (if handler then new else []) }
  else if handler then { P with on := P.on ++ [x], tray := D.tray, made := D.made ++ finished new }
  else { P with on := P.on ++ [x], tray := [], queue := D.queue ++ finished (D.tray ++ new) }

def AOp.fullbook (opt : AggregatorOpts) (D : Fullbook) : AOp → Fullbook
  | .add clk clk2 ts x =>
    let T := align opt.step (meant opt.resolution clk ts)
    D.note opt.step T (align opt.step (meant opt.resolution clk2 T)) x false
  | .push clk clk2 ts x handler =>
    let T := align opt.step (meant opt.resolution clk ts)
    D.note opt.step T (align opt.step (meant opt.resolution clk2 T)) x handler
  | .separate clk ts handler _ =>
    let T := align opt.step (meant opt.resolution clk ts)
    let new := D.toDaybook.slip opt.step T true
    { D.toDaybook.turn opt.step T with
      tray := []
      queue := D.queue ++ finished (D.tray ++ if handler then [] else new)
      made := D.made ++ if handler then new else [] }
  | .pop =>
    match D.queue with
    | [] => D
    | s :: q => { D with queue := q, made := D.made ++ [s] }
  | .forcePop =>
    match D.tray with
    | s :: l => { D with tray := l, made := D.made ++ finished [s] }
    | [] => { D with on := [], made := D.made ++ if D.on = [] then [] else [⟨D.begins, D.on, false⟩] }
  | .look => D
  | .enable v => { D with en := v }

/-- The books after a history. -/
def fullbook (opt : AggregatorOpts) (begins : Int) (en : Bool) (ops : List AOp) : Fullbook :=
  ops.foldl (AOp.fullbook opt) { begins := begins, en := en }

/-- The books kept by hand agree with the aggregator. -/
structure FBooked (env : Env) (opt : AggregatorOpts) (D : Fullbook) (o : AObs) : Prop where
  page : OnPage env opt o.a.sep D.toDaybook
  out : o.a.outSize = opt.outSize
  raw : ∀ s ∈ D.tray, s.raw = true
  tray : List.Forall₂ (Slip.Says env opt) D.tray o.a.sep.sepList
  en : o.a.enabled = D.en
  queue : List.Forall₂ (Slip.Says env opt) D.queue o.a.agList
  made : List.Forall₂ (Slip.Says env opt) D.made o.received

theorem slip_raw {D : Daybook} {step T : Int} : ∀ s ∈ D.slip step T true, s.raw = true := by
  intro s hs
  unfold Daybook.slip at hs
  split at hs
  · rw [List.mem_singleton.1 hs]
  · cases hs

theorem raw_append {l l' : List Slip} (h : ∀ s ∈ l, s.raw = true) (h' : ∀ s ∈ l', s.raw = true) : ∀ s ∈ l ++ l', s.raw = true := by
  intro s hs
  rcases List.mem_append.1 hs with hs | hs
  · exact h s hs
  · exact h' s hs

theorem says_finished {env : Env} {opt : AggregatorOpts} {l : List Slip} (hr : ∀ s ∈ l, s.raw = true) : ∀ {pub out : List AggData},
    List.Forall₂ (Slip.Says env opt) l pub → List.Forall₂ (Delivered opt.outSize) pub out →
    List.Forall₂ (Slip.Says env opt) (finished l) out := by
  induction l with
  | nil => intro pub out h h'; cases h; cases h'; exact .nil
  | cons s l ih =>
    intro pub out h h'
    cases h with
    | cons h1 h2 =>
      cases h' with
      | cons k1 k2 =>
        refine .cons ⟨k1.ts.trans h1.1, ?_⟩ (ih (fun s hs => hr s (by simp [hs])) h2 k2)
        have := h1.2
        rw [if_pos (hr s (by simp))] at this
        exact ⟨_, this.1, k1⟩

/-- `add` and `push`, in terms of the page, whatever the time. -/
theorem page_push_any {env : Env} {opt : AggregatorOpts} {s s' : Separator} {D : Daybook} {clk1 clk2 ts : Int} {x : AddArg} {handler b : Bool}
    {out : List AggData} (hs : 0 < opt.step) (P : OnPage env opt s D) (h : s.push env clk1 clk2 ts x handler = .ok (b, out, s')) :
    let T := align opt.step (meant opt.resolution clk1 ts)
    let T2 := align opt.step (meant opt.resolution clk2 T)
    ∃ pub, out = (if handler then pub else []) ∧ s'.sepList = (if handler then s.sepList else s.sepList ++ pub) ∧
      List.Forall₂ (Slip.Says env opt) (D.slip opt.step T2 true) pub ∧
      ((T < (D.turn opt.step T2).begins ∧ b = false ∧ OnPage env opt s' (D.turn opt.step T2)) ∨
       ((D.turn opt.step T2).begins ≤ T ∧ b = true ∧ OnPage env opt s' { D.turn opt.step T2 with on := (D.turn opt.step T2).on ++ [x] })) := by
  intro T T2
  have hst := P.step
  obtain ⟨s1, pub, as', eff, hb, hs'⟩ := Separator.push_effect (by rw [hst]; exact hs) P.red h
  rw [hst, P.res] at eff hb
  rw [show align opt.step (meant opt.resolution clk1 ts) = T from rfl] at eff hb
  rw [show align opt.step (meant opt.resolution clk2 T) = T2 from rfl] at eff
  obtain ⟨P1, ha, hF⟩ := page_effect hs P eff
  have hn1 : s1.next - s1.step = (D.turn opt.step T2).begins := by rw [P1.begins, P1.step]; omega
  rw [hn1] at hb
  have hsl : s'.sepList = s1.sepList := by rw [hs']; split <;> rfl
  refine ⟨pub, eff.lists.1, hsl.trans eff.lists.2, hF, ?_⟩
  by_cases hlt : T < (D.turn opt.step T2).begins
  · have hbf : b = false := by
      rw [Bool.eq_false_iff, ne_eq, hb]; omega
    subst hbf
    simp only [Bool.false_eq_true, if_false] at hs'
    subst hs'
    exact .inl ⟨hlt, rfl, P1⟩
  · have hbt : b = true := by
      rw [hb]; omega
    subst hbt
    simp only [if_true] at hs'
    subst hs'
    refine .inr ⟨by omega, rfl, ⟨P1.step, P1.res, P1.begins, ?_⟩⟩
    exact Reducer.goodA_add P1.red x

theorem fbooked_add {env : Env} {opt : AggregatorOpts} {D : Fullbook} {o : AObs} (hs : 0 < opt.step) (B : FBooked env opt D o)
    {clk1 clk2 ts : Int} {x : AddArg} {b : Bool} {a' : Aggregator} {acc : List (Int × AddArg)} (h : o.a.add env clk1 clk2 ts x = .ok (b, a')) :
    FBooked env opt (AOp.fullbook opt D (.add clk1 clk2 ts x)) ⟨a', o.received, acc⟩ := by
  simp only [AOp.fullbook, Fullbook.note]
  by_cases he : o.a.enabled = true
  · have hen : D.en = true := B.en ▸ he
    unfold Aggregator.add Separator.add at h
    rw [if_neg (by simp [he])] at h
    obtain ⟨⟨ok, s'⟩, hp, h⟩ := bind_inv h
    obtain ⟨⟨b1, out1, s1⟩, hp, hq⟩ := bind_inv hp
    cases hq
    obtain ⟨pub, -, hsl, hF, hc⟩ := page_push_any hs B.page hp
    simp only [Bool.false_eq_true, if_false] at hsl
    rw [if_neg (by simp [hen])]
    generalize hT : align opt.step (meant opt.resolution clk1 ts) = T at *
    generalize hT2 : align opt.step (meant opt.resolution clk2 T) = T2 at *
    obtain ⟨t1, t2, t3⟩ := turn_rest D.toDaybook opt.step T2
    rcases hc with ⟨c1, c2, P⟩ | ⟨c1, c2, P⟩
    · subst c2
      cases h
      rw [if_pos c1]
      refine ⟨P.congr rfl rfl, B.out, ?_, ?_, B.en.trans t3.symm, ?_, ?_⟩
      · simpa using raw_append B.raw slip_raw
      · simp only [Bool.false_eq_true, if_false, hsl]
        exact List.rel_append B.tray hF
      · simp only [t1]; exact B.queue
      · simpa [finished] using B.made
    · subst c2
      simp only [Bool.true_eq_false, if_false] at h
      obtain ⟨a1, ha, h⟩ := bind_inv h
      cases h
      obtain ⟨l, e, hl⟩ := aggregate0_spec env.nth { o.a with sep := s' }
      rw [e] at ha
      cases ha
      rw [if_neg (by omega), if_neg (by simp)]
      simp only [hsl, B.out] at hl
      refine ⟨(P.sepList []).congr rfl rfl, B.out, by simp, .nil, B.en.trans t3.symm, ?_, ?_⟩
      · exact List.rel_append B.queue (says_finished (raw_append B.raw slip_raw) (List.rel_append B.tray hF) hl)
      · simp only [t2]; exact B.made
  · unfold Aggregator.add at h
    rw [if_pos (by simpa using he)] at h
    cases h
    rw [if_pos (by rw [← B.en]; simpa using he)]
    exact ⟨B.page, B.out, B.raw, B.tray, B.en, B.queue, B.made⟩

theorem fbooked_exec {env : Env} {opt : AggregatorOpts} {D : Fullbook} {o o' : AObs} (hs : 0 < opt.step) (B : FBooked env opt D o) (op : AOp)
    (h : Aggregator.exec env o op = .ok o') : FBooked env opt (op.fullbook opt D) o' := by
  cases op with
  | add clk1 clk2 ts x =>
    obtain ⟨⟨b, a'⟩, h1, h⟩ := bind_inv h
    cases h
    exact fbooked_add hs B h1
  | push clk1 clk2 ts x handler =>
    obtain ⟨⟨b, out, a'⟩, ha, h⟩ := bind_inv h
    cases h
    by_cases he : o.a.enabled = true
    · have hen : D.en = true := B.en ▸ he
      unfold Aggregator.push at ha
      rw [if_neg (by simp [he])] at ha
      cases handler with
      | false =>
        simp only [if_true] at ha
        obtain ⟨⟨b1, a1⟩, h1, ha⟩ := bind_inv ha
        cases ha
        rw [List.append_nil]
        exact fbooked_add hs B h1
      | true =>
        simp only [Bool.true_eq_false, if_false] at ha
        obtain ⟨⟨ok, out1, s'⟩, hp, ha⟩ := bind_inv ha
        obtain ⟨l, el, ha⟩ := bind_inv ha
        cases ha
        obtain ⟨l', el', hl⟩ := mapM_finish env.nth o.a.outSize out1
        rw [el'] at el
        cases el
        obtain ⟨pub, hout, hsl, hF, hc⟩ := page_push_any hs B.page hp
        simp only [if_true] at hout hsl
        subst hout
        simp only [AOp.fullbook, Fullbook.note]
        rw [if_neg (by simp [hen])]
        rw [B.out] at hl
        generalize hT : align opt.step (meant opt.resolution clk1 ts) = T at *
        generalize hT2 : align opt.step (meant opt.resolution clk2 T) = T2 at *
        obtain ⟨t1, t2, t3⟩ := turn_rest D.toDaybook opt.step T2
        have hm := List.rel_append B.made (says_finished slip_raw hF hl)
        rcases hc with ⟨c1, c2, P⟩ | ⟨c1, c2, P⟩
        · rw [if_pos c1]
          refine ⟨P.congr rfl rfl, B.out, ?_, ?_, B.en.trans t3.symm, ?_, ?_⟩
          · simpa using B.raw
          · simp only [if_true, List.append_nil, hsl]; exact B.tray
          · simp only [t1]; exact B.queue
          · simpa using hm
        · rw [if_neg (by omega), if_pos trivial]
          refine ⟨P.congr rfl rfl, B.out, B.raw, ?_, B.en.trans t3.symm, ?_, hm⟩
          · simp only [hsl]; exact B.tray
          · simp only [t1]; exact B.queue
    · unfold Aggregator.push at ha
      rw [if_pos (by simpa using he)] at ha
      cases ha
      simp only [AOp.fullbook, Fullbook.note]
      rw [if_pos (by rw [← B.en]; simpa using he)]
      exact ⟨B.page, B.out, B.raw, B.tray, B.en, B.queue, by simpa using B.made⟩
  | separate clk ts handler force =>
    obtain ⟨⟨b, out, a'⟩, ha, h⟩ := bind_inv h
    cases h
    obtain ⟨⟨res, out1, s'⟩, hp, ha⟩ := bind_inv ha
    obtain ⟨a1, hag, ha⟩ := bind_inv ha
    cases ha
    obtain ⟨pub, as', eff, -⟩ := Separator.separate_effect (by rw [B.page.step]; exact hs) B.page.red hp
    rw [B.page.step, B.page.res] at eff
    obtain ⟨P, -, hF⟩ := page_effect hs B.page eff
    obtain ⟨e1, e2⟩ := eff.lists
    obtain ⟨l, e, hl⟩ := aggregate0_spec env.nth { o.a with sep := s' }
    rw [e] at hag
    cases hag
    simp only [AOp.fullbook]
    generalize hT : align opt.step (meant opt.resolution clk ts) = T at *
    obtain ⟨t1, t2, t3⟩ := turn_rest D.toDaybook opt.step T
    cases handler with
    | true =>
      simp only [if_true] at e1 e2 ⊢
      simp only [e2, B.out] at hl
      subst e1
      refine ⟨(P.sepList []).congr rfl rfl, B.out, by simp, .nil, B.en.trans t3.symm, ?_, List.rel_append B.made hF⟩
      rw [List.append_nil]
      exact List.rel_append B.queue (says_finished B.raw B.tray hl)
    | false =>
      simp only [Bool.false_eq_true, if_false] at e1 e2 ⊢
      simp only [e2, B.out] at hl
      subst e1
      refine ⟨(P.sepList []).congr rfl rfl, B.out, by simp, .nil, B.en.trans t3.symm, ?_, by simpa using B.made⟩
      exact List.rel_append B.queue (says_finished (raw_append B.raw slip_raw) (List.rel_append B.tray hF) hl)
  | pop =>
    simp only [Aggregator.exec] at h
    cases h
    have hq := B.queue
    simp only [AOp.fullbook, Aggregator.pop]
    cases hD : D.queue with
    | nil =>
      rw [hD] at hq
      cases ha : o.a.agList with
      | cons d l => rw [ha] at hq; cases hq
      | nil =>
        have e : o.a.agList = [] := ha
        simp only [Option.toList_none, List.append_nil]
        exact ⟨B.page, B.out, B.raw, B.tray, B.en, by rw [hD]; show List.Forall₂ _ [] o.a.agList; rw [e]; exact .nil, B.made⟩
    | cons s q =>
      rw [hD] at hq
      cases ha : o.a.agList with
      | nil => rw [ha] at hq; cases hq
      | cons d l =>
        rw [ha] at hq
        cases hq with
        | cons h1 h2 =>
          exact ⟨B.page.congr rfl rfl, B.out, B.raw, B.tray, B.en, h2, List.rel_append B.made (.cons h1 .nil)⟩
  | forcePop =>
    obtain ⟨⟨d, a'⟩, h1, h⟩ := bind_inv h
    cases h
    simp only [AOp.fullbook]
    have htr := B.tray
    cases hD : D.tray with
    | nil =>
      rw [hD] at htr
      have hl : o.a.sep.sepList = [] := by
        cases ha : o.a.sep.sepList with
        | nil => rfl
        | cons x l => rw [ha] at htr; cases htr
      obtain ⟨hF, P, e1, e2, e3, e4⟩ := page_force B.page B.out hl h1
      refine ⟨P.congr rfl rfl, e1.trans B.out, by simp, ?_, e3.trans B.en, e4 ▸ B.queue, List.rel_append B.made hF⟩
      simp only [e2]
      exact .nil
    | cons s tl =>
      rw [hD] at htr
      cases ha : o.a.sep.sepList with
      | nil => rw [ha] at htr; cases htr
      | cons x l =>
        rw [ha] at htr
        cases htr with
        | cons k1 k2 =>
          unfold Aggregator.forcePop Separator.forcePop Separator.pop at h1
          rw [ha] at h1
          simp only [bind_ok'] at h1
          obtain ⟨d', ed, hdel⟩ := Aggregator.finish_spec env.nth o.a.outSize x
          rw [ed] at h1
          cases h1
          rw [B.out] at hdel
          have hr := B.raw
          rw [hD] at hr
          refine ⟨(B.page.sepList l).congr rfl rfl, B.out, fun s hs => hr s (by simp [hs]), k2, B.en, B.queue, ?_⟩
          refine List.rel_append B.made (says_finished (l := [s]) (pub := [x]) ?_ (.cons k1 .nil) (.cons hdel .nil))
          intro s' hs'
          rw [List.mem_singleton.1 hs']
          exact hr s (by simp)
  | look =>
    obtain ⟨_, _, h⟩ := bind_inv h
    cases h
    exact B
  | enable v =>
    cases h
    exact ⟨B.page.congr rfl rfl, B.out, B.raw, B.tray, rfl, B.queue, B.made⟩

theorem fbooked_execAll {env : Env} {opt : AggregatorOpts} (hs : 0 < opt.step) (ops : List AOp) : ∀ {D : Fullbook} {o o' : AObs},
    FBooked env opt D o → Aggregator.execAll env o ops = .ok o' → FBooked env opt (ops.foldl (AOp.fullbook opt) D) o' := by
  induction ops with
  | nil => intro D o o' B h; cases h; exact B
  | cons op ops ih =>
    intro D o o' B h
    unfold Aggregator.execAll at h
    rw [List.foldlM_cons] at h
    obtain ⟨o1, hx, h⟩ := bind_inv h
    exact ih (fbooked_exec hs B op hx) h

end Aggregator

theorem fbooked_fresh {env : Env} {opt : AggregatorOpts} {a : Aggregator} (hs : 0 < opt.step) (h : Fresh env opt a) :
    FBooked env opt { begins := a.sep.currentTime, en := a.enabled } { a := a } := by
  have B := booked_fresh hs h
  refine ⟨B.page.congr rfl rfl, B.out, by simp, ?_, rfl, B.queue, .nil⟩
  rw [B.sepList]
  exact .nil

/-! ### C161 -/

/-- Without exception, the records received are the slips handed over in the books kept by hand, and those that wait are the slips in the queue and
in the tray. -/
theorem C161_fullbook (env : Env) (opt : AggregatorOpts) (a0 : Aggregator) (ops : List AOp) (o : AObs) (hs : 0 < opt.step)
    (h0 : Fresh env opt a0) (h : execAll env { a := a0 } ops = .ok o) :
    let D := fullbook opt a0.sep.currentTime a0.enabled ops
    List.Forall₂ (Slip.Says env opt) D.made o.received ∧ List.Forall₂ (Slip.Says env opt) D.queue o.a.agList ∧
      List.Forall₂ (Slip.Says env opt) D.tray o.a.sep.sepList ∧ o.a.size = D.queue.length ∧ o.a.sep.size = D.tray.length ∧
      o.a.sep.currentTime = D.begins ∧ o.a.enabled = D.en := by
  have B := fbooked_execAll hs ops (fbooked_fresh hs h0) h
  refine ⟨B.made, B.queue, B.tray, B.queue.length_eq.symm, B.tray.length_eq.symm, ?_, B.en⟩
  have h1 := B.page.begins
  have h2 := B.page.step
  simp only [Separator.currentTime, h1, h2, fullbook]
  omega

/-- A look shows what is on the open page, whatever is in the tray. -/
theorem C161_look (env : Env) (opt : AggregatorOpts) (a0 : Aggregator) (ops : List AOp) (o : AObs) (x : Option AggData) (hs : 0 < opt.step)
    (h0 : Fresh env opt a0) (h : execAll env { a := a0 } ops = .ok o) (hx : o.a.aggregateCurrent env = .ok x) :
    let D := fullbook opt a0.sep.currentTime a0.enabled ops
    (x = none ↔ D.on = []) ∧ ∀ d, x = some d → d.ts = D.begins ∧ Report env opt D.on d := by
  intro D
  have B : FBooked env opt D o := fbooked_execAll hs ops (fbooked_fresh hs h0) h
  have P : OnPage env opt { o.a.sep with sepList := [] } D.toDaybook := B.page.sepList []
  obtain ⟨a, ha⟩ : ∃ a, a = { o.a with sep := { o.a.sep with sepList := [] } } := ⟨_, rfl⟩
  have hx' : a.aggregateCurrent env = .ok x := by rw [ha]; exact hx
  have P' : OnPage env opt a.sep D.toDaybook := by rw [ha]; exact P
  have ho : a.outSize = opt.outSize := by rw [ha]; exact B.out
  have hl : a.sep.sepList = [] := by rw [ha]
  rcases look_force P'.red ho hl with ⟨⟨a', e⟩, e'⟩ | ⟨raw, raw', d, d', a', e, e', hi, -, -, -, -, hS', hD', -⟩ | ⟨-, e'⟩
  · rw [e'] at hx'
    cases hx'
    have := (page_force P' ho hl e).1
    refine ⟨⟨fun _ => ?_, fun _ => rfl⟩, by simp⟩
    by_contra hne
    rw [if_neg hne] at this
    cases this
  · rw [e'] at hx'
    cases hx'
    have hF := (page_force P' ho hl e).1
    have hne : D.on ≠ [] := by
      intro he
      rw [if_pos he] at hF
      cases hF
    rw [if_neg hne] at hF
    refine ⟨by simp [hne], ?_⟩
    intro d2 hd
    cases hd
    cases hF with
    | cons k1 _ =>
      refine ⟨?_, _, hS', hD'⟩
      have : d'.ts = d.ts := congrArg ReducedInfo.ts hi
      rw [this]
      exact k1.1
  · rw [e'] at hx'; cases hx'

open Registry in
/-- Name by name, a registry keeps the same books, without exception. -/
theorem C161_registry (env : Env) (opt : RegistryOpts) (ops : List RegOp) (o : RObs) (hs : 0 < opt.step) (h0 : opt.soiled = 0)
    (hr : Room opt ops.length) (hid : ∀ op ∈ ops, op.idOk opt) (h : rexecAll env { r := Registry.new opt } ops = .ok o)
    (name : Name) (c : Cell) (hcell : o.r.cellOf name = some c) :
    ∃ clk now, let D := fullbook opt.toAggregatorOpts (align opt.step (meant opt.resolution clk now)) true (forRef c.ref o.asked)
      List.Forall₂ (Slip.Says env opt.toAggregatorOpts) D.made (forRef c.ref o.received) ∧
      List.Forall₂ (Slip.Says env opt.toAggregatorOpts) D.queue c.agg.agList ∧
      List.Forall₂ (Slip.Says env opt.toAggregatorOpts) D.tray c.agg.sep.sepList ∧
      c.agg.sep.currentTime = D.begins ∧ c.agg.enabled = D.en := by
  obtain ⟨clk, rand, now, a0, hn, ob, he, ha, hrec⟩ := C29_isolated_partial hr hid h name c hcell
  obtain ⟨e1, e2⟩ := new_begins hs h0 hn
  obtain ⟨k1, k2, k5, -, -, k3, k4⟩ := C161_fullbook env opt.toAggregatorOpts a0 _ ob hs (.new hn) he
  rw [e1, e2] at k1 k2 k3 k4 k5
  rw [ha] at k2 k3 k4 k5
  rw [hrec] at k1
  exact ⟨clk, now, k1, k2, k5, k3, k4⟩

namespace Aggregator

theorem finished_slip (D : Daybook) (step T : Int) : finished (D.slip step T true) = D.slip step T false := by
  unfold Daybook.slip finished
  split <;> rfl

theorem note_timely (D : Daybook) {step T : Int} (hs : 0 < step) (x : AddArg) (handler : Bool) :
    Fullbook.note ⟨D, []⟩ step T T x handler = ⟨D.note step T x handler, []⟩ := by
  unfold Fullbook.note Daybook.note
  by_cases he : D.en = false
  · simp [he]
  by_cases hT : T < D.begins
  · have ht : D.turn step T = D := by unfold Daybook.turn; rw [if_neg (by omega)]
    have hsl : D.slip step T true = [] := by unfold Daybook.slip; rw [if_neg (by omega)]
    obtain ⟨b, on, q, m, en⟩ := D
    simp only [he, ht, hsl, hT, or_true, if_true]
    simp [finished]
  · have hb : ¬ T < (D.turn step T).begins := by
      unfold Daybook.turn
      split
      · have := windowOf_le (org := D.begins) (t := T) hs
        simpa using this
      · exact hT
    obtain ⟨t1, t2, t3⟩ := turn_rest D step T
    cases handler <;> simp [he, hT, hb, finished_slip, t1, t2]

theorem timely_again {opt : AggregatorOpts} {clk clk2 ts : Int} (hs : 0 < opt.step)
    (h : opt.resolution = .none ∨ align opt.step (meant opt.resolution clk ts) ≠ 0) :
    align opt.step (meant opt.resolution clk2 (align opt.step (meant opt.resolution clk ts))) = align opt.step (meant opt.resolution clk ts) := by
  generalize hm : meant opt.resolution clk ts = t at *
  have : meant opt.resolution clk2 (align opt.step t) = align opt.step t := by
    unfold meant
    rw [if_neg (by rintro ⟨h1, h2⟩; rcases h with h | h <;> contradiction)]
  rw [this]
  exact Separator.align_idem (Int.ne_of_gt hs) _

end Aggregator

/-- Without an event of time zero the tray stays empty, and the books are those of C160. -/
theorem C161_timely (opt : AggregatorOpts) (begins : Int) (en : Bool) (ops : List AOp) (hs : 0 < opt.step) (ht : ∀ op ∈ ops, op.timeOk opt) :
    fullbook opt begins en ops = ⟨daybook opt begins en ops, []⟩ := by
  unfold fullbook daybook
  generalize ({ begins := begins, en := en } : Daybook) = D
  induction ops generalizing D with
  | nil => rfl
  | cons op ops ih =>
    have e : op.fullbook opt ⟨D, []⟩ = ⟨op.book opt D, []⟩ := by
      have h1 := ht op (by simp)
      cases op with
      | add clk clk2 ts x =>
        simp only [AOp.timeOk] at h1
        simp only [AOp.fullbook, AOp.book]
        rw [timely_again hs h1]
        exact note_timely D hs x false
      | push clk clk2 ts x handler =>
        simp only [AOp.timeOk] at h1
        simp only [AOp.fullbook, AOp.book]
        rw [timely_again hs h1]
        exact note_timely D hs x handler
      | separate clk ts handler force =>
        simp only [AOp.fullbook, AOp.book]
        cases handler
        · simp [finished_slip]
        · simp [finished]
      | pop =>
        simp only [AOp.fullbook, AOp.book]
        cases D.queue <;> rfl
      | forcePop => rfl
      | look => rfl
      | enable v => rfl
    rw [List.foldl_cons, List.foldl_cons]
    exact (congrArg (fun F => ops.foldl (AOp.fullbook opt) F) e).trans (ih (fun op h => ht op (by simp [h])) _)

/-- An event of a time that is aligned to zero, refused with a page turned by the clock: what was on the page waits in the tray, where `pop` does
not find it and `force_pop` does. -/
def exTrayOps : List AOp := [.add 0 0 1003 (.one 5 1), .add 1024 1024 5 (.one 7 1)]

def exTray : AObs := (execAll exactEnv { a := exANew } exTrayOps).toOption.getD { a := exANew }

example : fullbook exAOpt 1000 true exTrayOps = { begins := 1020, tray := [⟨1000, [.one 5 1], true⟩] } ∧
    exTray.a.sep.sepList.map (fun d => (d.ts, d.count, d.avg)) = [(1000, 1, 5)] ∧ exTray.a.agList = [] ∧ exTray.a.sep.currentTime = 1020 := by
  decide +kernel

/-- The next event that is accepted brings it to the queue, before what is on the page. -/
example : fullbook exAOpt 1000 true (exTrayOps ++ [.pop, .add 0 0 1021 (.one 9 1), .add 0 0 1031 (.one 2 1)]) =
      { begins := 1030, on := [.one 2 1], queue := [⟨1000, [.one 5 1], false⟩, ⟨1020, [.one 9 1], false⟩] } ∧
    ((execAll exactEnv exTray [.pop, .add 0 0 1021 (.one 9 1), .add 0 0 1031 (.one 2 1)]).toOption.any fun o =>
      o.a.agList.map (fun d => (d.ts, d.count, d.avg)) = [(1000, 1, 5), (1020, 1, 9)] ∧ o.received = []) ∧
    ((execAll exactEnv exTray [.pop, .forcePop]).toOption.any fun o => o.received.map (fun d => (d.ts, d.count, d.avg)) = [(1000, 1, 5)]) := by
  decide +kernel

end Wrtstat
