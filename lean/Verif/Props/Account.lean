/-
C162: the books of a multi aggregator without exception: events of time zero, clocks that run back and random starts included, and its answers.
-/
import Verif.Props.Fullbook
import Verif.Props.Ledger

namespace Wrtstat

set_option autoImplicit false

open Multi Single
open Aggregator

namespace Multi

/-- The books of one name: the beginning of the window that is open (if the name is known), the pushes noted on its page, the entries made, and the
answers given. -/
structure Account where
  page : Option Int := none
  on : List ReducedData := []
  made : List Entry := []
  said : List Bool := []
deriving DecidableEq

/-- The first page of a name, opened by a push of time `ts` when the clock shows `clk`: the window of that time, moved back by what `rand` gives if
starts are at random. -/
def firstPage (opt : AggregatorOpts) (clk rand ts : Int) : Int :=
  align opt.step (meant opt.resolution clk ts) - if opt.soiled = 0 then 0 else (Int.bmod (rand * rand) (2 ^ 64)).tmod opt.soiled

/-- A push of time `T` that turns the page at time `T2`; `t` is the beginning of the window that is open. -/
def Account.note (A : Account) (step t T T2 : Int) (v : ReducedData) (seen : Bool) : Account :=
  let over := t + step ≤ T2
  let t' := if over then windowOf t step T2 else t
  let on := if over then [] else A.on
  { page := some t'
    on := if t' ≤ T then on ++ [v] else on
    made := A.made ++ if over ∧ A.on ≠ [] then [⟨t, A.on, false⟩] else []
    said := A.said ++ if seen then [decide (t' ≤ T)] else [] }

def Account.push (opt : AggregatorOpts) (A : Account) (p : PushArg) (seen : Bool) : Account :=
  let T := align opt.step (meant opt.resolution p.clk1 p.v.ts)
  A.note opt.step (A.page.getD (firstPage opt p.clk p.rand p.v.ts)) T (align opt.step (meant opt.resolution p.clk2 T)) p.v seen

def MOp.enter (opt : AggregatorOpts) (name : Name) (A : Account) : MOp → Account
  | .push p _ => if p.name = name then A.push opt p true else A
  | .multiPush ps _ => (ps.filter fun p => p.name = name).foldl (fun A p => A.push opt p false) A
  | .del n => if n = name then { page := none, on := [], made := A.made, said := A.said ++ [A.page.isSome] } else A
  | .pushout force _ _ =>
    match A.page with
    | some t => if force ∧ A.on ≠ [] then { A with on := [], made := A.made ++ [⟨t, A.on, true⟩] } else A
    | none => A

/-- The books of a name after a history. -/
def account (opt : AggregatorOpts) (name : Name) (ops : List MOp) : Account := ops.foldl (MOp.enter opt name) {}

end Multi

namespace Single

def NOp.enter (opt : AggregatorOpts) (A : Account) : NOp → Account
  | .push v clk rand clk1 clk2 seen => A.push opt { name := [], v := v, clk := clk, rand := rand, clk1 := clk1, clk2 := clk2 } seen
  | .del => { page := none, on := [], made := A.made, said := A.said ++ [A.page.isSome] }
  | .pop force =>
    match A.page with
    | some t => if force ∧ A.on ≠ [] then { A with on := [], made := A.made ++ [⟨t, A.on, true⟩] } else A
    | none => A

/-- The page that is open, as the aggregator sees it. -/
def pageOf (t : Int) (vs : List ReducedData) : Daybook := { begins := t, on := vs.map AddArg.reduced }

/-- The books agree with the aggregator of the name. -/
structure Shows (env : Env) (opt : AggregatorOpts) (a : Aggregator) (t : Int) (vs : List ReducedData) : Prop where
  clean : Clean a
  out : a.outSize = opt.outSize
  page : OnPage env opt a.sep (pageOf t vs)

/-- The books agree with the life of the name. -/
structure Agreed (env : Env) (opt : AggregatorOpts) (A : Account) (no : NObs) : Prop where
  made : List.Forall₂ (Entry.Says env opt) A.made no.delivered
  said : A.said = no.answers
  life : match no.life with
    | none => A.page = none ∧ A.on = []
    | some ao => ∃ t, A.page = some t ∧ Shows env opt ao.a t A.on

theorem shows_new {env : Env} {opt : AggregatorOpts} {clk rand ts : Int} {a : Aggregator} (hs : 0 < opt.step)
    (h : Aggregator.new opt clk rand ts = .ok a) : Shows env opt a (firstPage opt clk rand ts) [] := by
  have B := booked_fresh hs (Fresh.new (env := env) h)
  refine ⟨clean_new env h, B.out, ?_⟩
  have e : a.sep.currentTime = firstPage opt clk rand ts := by
    unfold Aggregator.new Separator.new Separator.getTsWith at h
    rw [if_neg (by omega)] at h
    simp only [bind_ok'] at h
    cases h
    simp only [Separator.currentTime, firstPage, align, meant]
    have hm : (if ts ≠ 0 ∨ opt.resolution = .none then ts else clk) = if ts = 0 ∧ opt.resolution ≠ .none then clk else ts := by
      by_cases hz : ts = 0 ∧ opt.resolution ≠ .none
      · rw [if_pos hz, if_neg (by tauto)]
      · rw [if_neg hz, if_pos (by tauto)]
    rw [hm]
    by_cases h0 : opt.soiled = 0
    · simp [h0]
    · simp only [h0, ne_eq, not_false_eq_true, if_true, if_false]; omega
  rw [← e]
  exact B.page.congr rfl rfl

/-- A push, in terms of the books. -/
theorem shows_push {env : Env} {opt : AggregatorOpts} {a a' : Aggregator} {A : Account} {t : Int} (hs : 0 < opt.step)
    (H : Shows env opt a t A.on) {v : ReducedData} {clk1 clk2 : Int} {b seen : Bool} {out : List AggData}
    (h : a.push env clk1 clk2 v.ts (.reduced v) true = .ok (b, out, a')) :
    let T := align opt.step (meant opt.resolution clk1 v.ts)
    let A' := A.note opt.step t T (align opt.step (meant opt.resolution clk2 T)) v seen
    ∃ made, A'.made = A.made ++ made ∧ List.Forall₂ (Entry.Says env opt) made (out.map AggData.asReduced) ∧
      A'.said = A.said ++ (if seen then [b] else []) ∧ ∃ t', A'.page = some t' ∧ Shows env opt a' t' A'.on := by
  intro T
  generalize hT2 : align opt.step (meant opt.resolution clk2 T) = T2
  intro A'
  have hcl := H.clean
  have hcl' : Clean a' := by
    refine clean_exec (env := env) (op := .push clk1 clk2 v.ts (.reduced v) true) (ao := { a := a })
      (ao' := { a := a', received := [] ++ out, accepted := AObs.record { a := a } b clk1 v.ts (.reduced v) }) hcl rfl ?_
    simp only [Aggregator.exec, h, bind_ok']
  unfold Aggregator.push at h
  rw [if_neg (by simp [hcl.2.2]), if_neg (by simp)] at h
  obtain ⟨⟨ok, out1, s'⟩, hp, h1⟩ := bind_inv h
  obtain ⟨l, el, h2⟩ := bind_inv h1
  clear h h1
  simp only [Except.ok.injEq, Prod.mk.injEq] at h2
  obtain ⟨hok, hout, ha'⟩ := h2
  subst hok hout ha'
  obtain ⟨l', el', hl⟩ := mapM_finish env.nth a.outSize out1
  rw [el'] at el
  cases el
  obtain ⟨pub, hpub, -, hF, hc⟩ := page_push_any hs H.page hp
  simp only [if_true] at hpub
  subst hpub
  rw [show align opt.step (meant opt.resolution clk1 v.ts) = T from rfl, hT2] at hF hc
  have hsl : (pageOf t A.on).slip opt.step T2 true =
      if t + opt.step ≤ T2 ∧ A.on ≠ [] then [⟨t, A.on.map AddArg.reduced, true⟩] else [] := by
    simp only [Daybook.slip, pageOf, ne_eq, List.map_eq_nil_iff]
  have htn : (pageOf t A.on).turn opt.step T2 =
      pageOf (if t + opt.step ≤ T2 then windowOf t opt.step T2 else t) (if t + opt.step ≤ T2 then [] else A.on) := by
    unfold Daybook.turn
    by_cases ho : t + opt.step ≤ T2
    · rw [if_pos (show (pageOf t A.on).begins + opt.step ≤ T2 from ho), if_pos ho, if_pos ho]; rfl
    · rw [if_neg (show ¬ (pageOf t A.on).begins + opt.step ≤ T2 from ho), if_neg ho, if_neg ho]
  rw [hsl] at hF
  rw [htn] at hc
  refine ⟨_, rfl, ?_, ?_, _, rfl, hcl', H.out, ?_⟩
  · split at hF
    · rename_i hc'
      rw [if_pos hc']
      cases hF with
      | cons k1 k2 =>
        cases k2
        cases hl with
        | cons j1 j2 =>
          cases j2
          refine .cons ⟨_, ⟨_, k1.2.1, by rw [← H.out]; exact j1⟩, j1.ts.trans k1.1, rfl⟩ .nil
    · rename_i hc'
      rw [if_neg hc']
      cases hF
      cases hl
      exact .nil
  · rcases hc with ⟨c1, c2, -⟩ | ⟨c1, c2, -⟩
    · subst c2
      have : ¬ (if t + opt.step ≤ T2 then windowOf t opt.step T2 else t) ≤ T := by simpa [pageOf] using c1
      simp only [A', Account.note, this, decide_false]
    · subst c2
      have : (if t + opt.step ≤ T2 then windowOf t opt.step T2 else t) ≤ T := by simpa [pageOf] using c1
      simp only [A', Account.note, this, decide_true]
  · rcases hc with ⟨c1, c2, P⟩ | ⟨c1, c2, P⟩
    · have : ¬ (if t + opt.step ≤ T2 then windowOf t opt.step T2 else t) ≤ T := by simpa [pageOf] using c1
      simp only [A', Account.note]
      rw [if_neg this]
      exact P
    · have : (if t + opt.step ≤ T2 then windowOf t opt.step T2 else t) ≤ T := by simpa [pageOf] using c1
      simp only [A', Account.note]
      rw [if_pos this]
      refine P.congr ?_ ?_
      · rfl
      · simp [pageOf]

theorem nexec_agreed {env : Env} {opt : AggregatorOpts} {A : Account} {no no' : NObs} (hs : 0 < opt.step) (K : Agreed env opt A no) (op : NOp)
    (h : nexec env opt no op = .ok no') : Agreed env opt (op.enter opt A) no' := by
  obtain ⟨hm, hsd, K⟩ := K
  cases op with
  | push v clk rand clk1 clk2 seen =>
    simp only [nexec] at h
    obtain ⟨ao, hb, h⟩ := bind_inv h
    obtain ⟨⟨b, out, a'⟩, hp, h⟩ := bind_inv h
    obtain ⟨ao', hx, h⟩ := bind_inv h
    cases h
    have hao : ao'.a = a' := by
      simp only [Aggregator.exec, hp, bind_ok'] at hx
      cases hx
      rfl
    have H : Shows env opt ao.a (A.page.getD (firstPage opt clk rand v.ts)) A.on := by
      cases hl : no.life with
      | some ao0 =>
        rw [hl] at K hb
        cases hb
        obtain ⟨t, e1, H⟩ := K
        rw [e1]
        exact H
      | none =>
        rw [hl] at K hb
        obtain ⟨e1, e2⟩ := K
        simp only [born] at hb
        cases hn : Aggregator.new opt clk rand v.ts with
        | error e => rw [hn] at hb; cases hb
        | ok a0 =>
          rw [hn] at hb
          cases hb
          rw [e1, e2]
          exact shows_new hs hn
    obtain ⟨made, k1, k2, k3, t', k4, k5⟩ := shows_push (seen := seen) hs H hp
    refine ⟨?_, ?_, t', k4, hao ▸ k5⟩
    · exact k1 ▸ List.rel_append hm k2
    · exact k3.trans (by rw [hsd])
  | del =>
    cases h
    refine ⟨hm, ?_, rfl, rfl⟩
    simp only [NOp.enter, hsd]
    congr 2
    cases hl : no.life with
    | none => rw [hl] at K; rw [K.1]; rfl
    | some ao => rw [hl] at K; obtain ⟨t, e, -⟩ := K; rw [e]; rfl
  | pop force =>
    simp only [nexec] at h
    cases hl : no.life with
    | none =>
      rw [hl] at h K
      cases h
      simp only [NOp.enter, K.1]
      exact ⟨hm, hsd, by rw [hl]; exact K⟩
    | some ao =>
      rw [hl] at h K
      obtain ⟨ao', hx, h⟩ := bind_inv h
      cases h
      obtain ⟨t, e1, H⟩ := K
      simp only [NOp.enter, e1]
      cases force with
      | false =>
        have hpop : ao.a.pop = (none, ao.a) := by
          have : ao.a.agList = [] := H.clean.1
          simp only [Aggregator.pop, this]
        simp only [Bool.false_eq_true, if_false, false_and, Aggregator.exec, hpop] at hx ⊢
        cases hx
        exact ⟨by simpa using hm, hsd, t, e1, H⟩
      | true =>
        simp only [if_true, true_and, Aggregator.exec] at hx ⊢
        obtain ⟨⟨x, a'⟩, hf, hx⟩ := bind_inv hx
        cases hx
        obtain ⟨hF, P, o1, o2, o3, o4⟩ := page_force H.page H.out H.clean.2.1 hf
        have hcl : Clean a' := ⟨o4.trans H.clean.1, o2, o3.trans H.clean.2.2⟩
        by_cases hon : A.on = []
        · rw [if_neg (by simp [hon])]
          rw [if_pos (by simp [pageOf, hon])] at hF
          have hx : x.toList = [] := by
            generalize x.toList = l at hF
            cases hF; rfl
          refine ⟨by simpa [hx] using hm, hsd, t, e1, hcl, o1.trans H.out, P.congr rfl ?_⟩
          simp [pageOf, hon]
        · rw [if_pos (by simpa using hon)]
          rw [if_neg (by simpa [pageOf] using hon)] at hF
          refine ⟨?_, hsd, t, rfl, hcl, o1.trans H.out, P.congr rfl rfl⟩
          simp only [List.drop_left]
          refine List.rel_append hm ?_
          generalize x.toList = l at hF
          cases hF with
          | cons k1 k2 =>
            cases k2
            exact .cons ⟨_, k1.2, k1.1, rfl⟩ .nil

theorem nexecAll_agreed {env : Env} {opt : AggregatorOpts} (hs : 0 < opt.step) (ops : List NOp) :
    ∀ {A : Account} {no no' : NObs}, Agreed env opt A no → nexecAll env opt no ops = .ok no' → Agreed env opt (ops.foldl (NOp.enter opt) A) no' := by
  induction ops with
  | nil => intro A no no' f h; cases h; exact f
  | cons op ops ih =>
    intro A no no' f h
    unfold nexecAll at h
    rw [List.foldlM_cons] at h
    obtain ⟨n1, hx, h⟩ := bind_inv h
    exact ih (nexec_agreed hs f op hx) h

end Single

theorem Multi.account_forName (opt : AggregatorOpts) (name : Name) (ops : List MOp) :
    Multi.account opt name ops = (forName name ops).foldl (NOp.enter opt) {} := by
  unfold Multi.account
  generalize ({} : Account) = A
  induction ops generalizing A with
  | nil => rfl
  | cons op ops ih =>
    rw [List.foldl_cons, ih]
    simp only [forName, List.flatMap_cons, List.foldl_append]
    congr 1
    cases op with
    | push p h =>
      simp only [MOp.forName, MOp.enter]
      split <;> rfl
    | multiPush ps h =>
      simp only [MOp.forName, MOp.enter, List.foldl_map]
      rfl
    | del n =>
      simp only [MOp.forName, MOp.enter]
      split <;> rfl
    | pushout _ _ _ => rfl

/-! ### C162 -/

/-- Without exception, the requests handed over for a name are the entries of its books, the answers given about it are those in its books, and it is
known if it has a page. -/
theorem C162_account (env : Env) (hash : Name → Nat) (opt : MultiOpts) (ops : List MOp) (o : MObs) (hs : 0 < opt.step) (hz : 0 < opt.hashSize)
    (h : mexecAll env { m := Multi.new hash opt } ops = .ok o) (name : Name) :
    let A := account opt.toAggregatorOpts name ops
    List.Forall₂ (Entry.Says env opt.toAggregatorOpts) A.made (about name o.delivered) ∧ about name o.answers = A.said ∧
      (o.m.find name).map (fun a => a.sep.currentTime) = A.page := by
  intro A
  obtain ⟨no, e1, a1, a2, a3⟩ := C39_sharded env hash opt ops o hz h name
  have K : Agreed env opt.toAggregatorOpts A no := by
    show Agreed _ _ (account _ _ _) _
    rw [Multi.account_forName]
    exact Single.nexecAll_agreed (A := {}) (no := {}) hs _ ⟨.nil, rfl, rfl, rfl⟩ e1
  refine ⟨a1 ▸ K.made, a2.trans K.said.symm, ?_⟩
  rw [a3]
  have := K.life
  cases hl : no.life with
  | none => rw [hl] at this; exact this.1.symm
  | some ao =>
    rw [hl] at this
    obtain ⟨t, e, H⟩ := this
    rw [e]
    have h1 := H.page.begins
    have h2 := H.page.step
    simp only [Option.map_some, Separator.currentTime, h1, h2, pageOf]
    congr 1
    omega

open ExMulti in
/-- A push whose time is aligned to zero, with the clock at 1024: the page is turned and handed over, the push refused, and 1012 is late then. The name
is deleted; a push without a time opens the page of the clock (1051) and turns it at once, as the clock shows 1062 a moment later; a clock that runs
back makes the next one late. Starts are moved back by 4. -/
example : let so : MultiOpts := { ExMulti.opt with soiled := 5 }
    let ops : List MOp := [.push { arg na 1003 [5] with rand := 2 } true, .push { arg na 5 [7] with clk2 := 1024 } true,
      .multiPush [arg na 1012 [9], arg na 1027 [1]] true, .push (arg nb 1004 [8, 6]) true, .del na, .del na,
      .push { arg na 0 [2] with clk := 1051, rand := 3, clk1 := 1062, clk2 := 1062 } true, .push { arg na 0 [4] with clk1 := 1040, clk2 := 1040 } true,
      .push (arg na 1073 [3]) true]
    account so.toAggregatorOpts na ops = { page := some 1066, on := [red 1073 [3]], made :=
      [⟨996, [red 1003 [5]], false⟩, ⟨1056, [red 0 [2]], false⟩], said := [true, false, true, false, true, false, true] } ∧
    Passes (mexecAll exactEnv { m := Multi.new (fun n => n.length) so } ops) (fun o =>
      decide ((about na o.delivered).map (fun d => (d.ts, d.count, d.avg)) = [(996, 1, 5), (1056, 1, 2)]) &&
      decide (about na o.answers = [true, false, true, false, true, false, true]) &&
      decide ((o.m.find na).map (fun a => a.sep.currentTime) = some 1066)) = true := by
  decide +kernel

end Wrtstat
