/-
C156: what a multi aggregator refuses.
-/
import Verif.Props.Multi
import Verif.Props.Late

namespace Wrtstat

set_option autoImplicit false

open Multi Single
open Aggregator

/-- The clock of a push does not run backwards while the aggregator is built, and the push is not of time zero (unless zero is an ordinary time). -/
def Multi.PushArg.timely (opt : AggregatorOpts) (p : PushArg) : Prop :=
  0 ≤ p.clk1 ∧ 0 ≤ p.clk2 ∧ p.clk ≤ p.clk1 ∧ (opt.resolution = .none ∨ align opt.step (meant opt.resolution p.clk1 p.v.ts) ≠ 0)

instance (opt : AggregatorOpts) (p : PushArg) : Decidable (p.timely opt) := by
  unfold Multi.PushArg.timely; infer_instance

def Multi.MOp.timely (opt : AggregatorOpts) : MOp → Prop
  | .push p _ => p.timely opt
  | .multiPush ps _ => ∀ p ∈ ps, p.timely opt
  | _ => True

instance (opt : AggregatorOpts) (op : MOp) : Decidable (op.timely opt) := by
  cases op <;> simp only [Multi.MOp.timely] <;> infer_instance

/-- The aligned time of a push. -/
def Multi.PushArg.time (opt : AggregatorOpts) (p : PushArg) : Int := align opt.step (meant opt.resolution p.clk1 p.v.ts)

def Multi.MOp.note (opt : AggregatorOpts) (name : Name) (l : List Int) : MOp → List Int
  | .push p _ => if p.name = name then l ++ [p.time opt] else l
  | .multiPush ps _ => l ++ ((ps.filter fun p => p.name = name).map fun p => p.time opt)
  | .del n => if n = name then [] else l
  | .pushout _ _ _ => l

/-- The times of the pushes of a name since it was last deleted. -/
def Multi.since (opt : AggregatorOpts) (name : Name) (ops : List MOp) : List Int := ops.foldl (MOp.note opt name) []

namespace Single

/-- The same, of one name. -/
def NOp.note (opt : AggregatorOpts) (l : List Int) : NOp → List Int
  | .push v _ _ clk1 _ _ => l ++ [align opt.step (meant opt.resolution clk1 v.ts)]
  | .del => []
  | .pop _ => l

def NOp.timely (opt : AggregatorOpts) : NOp → Prop
  | .push v clk _ clk1 clk2 _ => 0 ≤ clk1 ∧ 0 ≤ clk2 ∧ clk ≤ clk1 ∧
      (opt.resolution = .none ∨ align opt.step (meant opt.resolution clk1 v.ts) ≠ 0)
  | _ => True

/-- What the times of the pushes say about a life: it begins at the first, and its window is the latest. -/
def Follows (env : Env) (opt : AggregatorOpts) (l : List Int) (no : NObs) : Prop :=
  (∀ t ∈ l, opt.step ∣ t) ∧
  match no.life with
  | none => l = []
  | some ao => (∃ gR gA gS cur, PGood env opt (fun _ _ => True) ao gR gA gS cur) ∧ ao.a.enabled = true ∧
      ao.a.sep.currentTime ∈ l ∧ ∀ t ∈ l, t ≤ ao.a.sep.currentTime

theorem step_dvd_align {step : Int} (t : Int) : step ∣ align step t := Dvd.intro_left _ rfl

theorem windowOf_dvd {org step t : Int} (h1 : step ∣ org) (h2 : step ∣ t) : windowOf org step t = t := by
  unfold windowOf
  rw [Int.ediv_mul_cancel (Int.dvd_sub h2 h1)]
  omega

theorem push_follows {env : Env} {opt : AggregatorOpts} {l : List Int} {ao : AObs} (hs : 0 < opt.step)
    (g : ∃ gR gA gS cur, PGood env opt (fun _ _ => True) ao gR gA gS cur) (he : ao.a.enabled = true)
    (hd : opt.step ∣ ao.a.sep.currentTime) {v : ReducedData} {clk1 clk2 : Int} (hc : 0 ≤ clk1 ∧ 0 ≤ clk2)
    (ht : opt.resolution = .none ∨ align opt.step (meant opt.resolution clk1 v.ts) ≠ 0)
    (hle : ∀ t ∈ l, t ≤ ao.a.sep.currentTime)
    (hin : ao.a.sep.currentTime ∈ l ∨ ao.a.sep.currentTime ≤ align opt.step (meant opt.resolution clk1 v.ts))
    {b : Bool} {out : List AggData} {a' : Aggregator} {ao' : AObs} (hp : ao.a.push env clk1 clk2 v.ts (.reduced v) true = .ok (b, out, a'))
    (hx : Aggregator.exec env ao (.push clk1 clk2 v.ts (.reduced v) true) = .ok ao') :
    (b = true ↔ ao.a.sep.currentTime ≤ align opt.step (meant opt.resolution clk1 v.ts)) ∧
    (∃ gR gA gS cur, PGood env opt (fun _ _ => True) ao' gR gA gS cur) ∧ ao'.a.enabled = true ∧
    ao'.a.sep.currentTime ∈ l ++ [align opt.step (meant opt.resolution clk1 v.ts)] ∧
    ∀ t ∈ l ++ [align opt.step (meant opt.resolution clk1 v.ts)], t ≤ ao'.a.sep.currentTime := by
  obtain ⟨_, _, _, _, g⟩ := g
  have hh := horizon_exec hs g (.push clk1 clk2 v.ts (.reduced v) true) ht hx
  refine ⟨(push_horizon hs g ht hp).2 he, pgood_exec (fun _ _ _ => trivial) hs g (.push clk1 clk2 v.ts (.reduced v) true) hc (fun _ _ _ _ => trivial) hx, ?_⟩
  have h1 : ao'.a.enabled = (ao.horizon.next opt (.push clk1 clk2 v.ts (.reduced v) true)).en := congrArg Horizon.en hh
  have h2 : ao'.a.sep.currentTime = (ao.horizon.next opt (.push clk1 clk2 v.ts (.reduced v) true)).cur := congrArg Horizon.cur hh
  rw [h1, h2]
  have e1 : ao.horizon.en = true := he
  have e2 : ao.horizon.cur = ao.a.sep.currentTime := rfl
  simp only [Horizon.next, e1, e2, true_and]
  have hw := windowOf_dvd hd (step_dvd_align (step := opt.step) (meant opt.resolution clk1 v.ts))
  generalize align opt.step (meant opt.resolution clk1 v.ts) = T at *
  by_cases hT : ao.a.sep.currentTime ≤ T
  · simp only [if_pos hT, hw, List.mem_append, List.mem_singleton, or_true, true_and]
    rintro t (h | rfl)
    · exact (hle t h).trans hT
    · exact le_refl _
  · simp only [if_neg hT, e1, e2, List.mem_append, List.mem_singleton, true_and]
    refine ⟨.inl (hin.resolve_right hT), ?_⟩
    rintro t (h | rfl)
    · exact hle t h
    · omega

theorem nexec_follows {env : Env} {opt : AggregatorOpts} {l : List Int} {no no' : NObs} (hs : 0 < opt.step) (h0 : opt.soiled = 0)
    (f : Follows env opt l no) (op : NOp) (ht : op.timely opt) (h : nexec env opt no op = .ok no') :
    Follows env opt (op.note opt l) no' ∧
    no'.answers = no.answers ++ match op with
      | .push v _ _ clk1 _ seen => if seen then [decide (∀ t ∈ l, t ≤ align opt.step (meant opt.resolution clk1 v.ts))] else []
      | .del => [decide (l ≠ [])]
      | .pop _ => [] := by
  obtain ⟨hdv, f⟩ := f
  cases op with
  | push v clk rand clk1 clk2 seen =>
    simp only [nexec] at h
    obtain ⟨ao, hb, h⟩ := bind_inv h
    obtain ⟨⟨b, out, a'⟩, hp, h⟩ := bind_inv h
    obtain ⟨ao', hx, h⟩ := bind_inv h
    cases h
    obtain ⟨c1, c2, cc, ct⟩ := ht
    have pre : (∃ gR gA gS cur, PGood env opt (fun _ _ => True) ao gR gA gS cur) ∧ ao.a.enabled = true ∧ opt.step ∣ ao.a.sep.currentTime ∧
        (∀ t ∈ l, t ≤ ao.a.sep.currentTime) ∧
        (ao.a.sep.currentTime ∈ l ∨ (l = [] ∧ ao.a.sep.currentTime ≤ align opt.step (meant opt.resolution clk1 v.ts))) := by
      cases hl : no.life with
      | some ao0 =>
        rw [hl] at f hb
        cases hb
        obtain ⟨g, he, hin, hle⟩ := f
        exact ⟨g, he, hdv _ hin, hle, .inl hin⟩
      | none =>
        rw [hl] at f hb
        simp only at f
        simp only [born] at hb
        cases hn : Aggregator.new opt clk rand v.ts with
        | error e => rw [hn] at hb; cases hb
        | ok a0 =>
          rw [hn] at hb
          cases hb
          have g := pgood_fresh (Q := fun _ _ => True) hs (Fresh.new (env := env) hn)
          have e : a0.enabled = true ∧ a0.sep.currentTime = align opt.step (meant opt.resolution clk v.ts) := by
            unfold Aggregator.new Separator.new Separator.getTsWith at hn
            rw [if_neg (by omega)] at hn
            simp only [h0, ne_eq, not_true_eq_false, if_false] at hn
            cases hn
            refine ⟨rfl, ?_⟩
            simp only [Separator.currentTime, align, meant]
            by_cases hz : v.ts = 0 ∧ opt.resolution ≠ .none
            · rw [if_pos hz, if_neg (by tauto)]; omega
            · rw [if_neg hz, if_pos (by tauto)]; omega
          subst f
          refine ⟨⟨_, _, _, _, g⟩, e.1, e.2 ▸ step_dvd_align _, by simp, .inr ⟨rfl, ?_⟩⟩
          show a0.sep.currentTime ≤ _
          rw [e.2]
          apply align_mono hs
          unfold meant
          split <;> omega
    obtain ⟨g, he, hd, hle, hin⟩ := pre
    obtain ⟨k1, k2, k3, k4, k5⟩ := push_follows hs g he hd ⟨c1, c2⟩ ct hle (hin.imp id (·.2)) hp hx
    refine ⟨⟨?_, k2, k3, k4, k5⟩, ?_⟩
    · intro t ht
      rcases List.mem_append.1 ht with ht | ht
      · exact hdv t ht
      · rw [List.mem_singleton.1 ht]; exact step_dvd_align _
    · cases seen with
      | false => rfl
      | true =>
        simp only [if_true]
        refine congrArg (fun x => no.answers ++ [x]) ?_
        rw [Bool.eq_iff_iff, k1, decide_eq_true_iff]
        refine ⟨fun h t ht => (hle t ht).trans h, fun h => ?_⟩
        rcases hin with hin | ⟨-, hin⟩
        · exact h _ hin
        · exact hin
  | del =>
    cases h
    refine ⟨⟨by simp [NOp.note], rfl⟩, ?_⟩
    simp only
    congr 2
    cases hl : no.life with
    | none => rw [hl] at f; simp only at f; simp [f]
    | some ao =>
      rw [hl] at f
      obtain ⟨-, -, hin, -⟩ := f
      simp [List.ne_nil_of_mem hin]
  | pop force =>
    simp only [nexec] at h
    cases hl : no.life with
    | none =>
      rw [hl] at h f
      cases h
      exact ⟨⟨hdv, by rw [hl]; exact f⟩, by simp⟩
    | some ao =>
      rw [hl] at h f
      obtain ⟨ao', hx, h⟩ := bind_inv h
      cases h
      obtain ⟨⟨gR, gA, gS, cur, g⟩, he, hin, hle⟩ := f
      have key : ∀ op : AOp, (op = .pop ∨ op = .forcePop) → Aggregator.exec env ao op = .ok ao' →
          (∃ gR gA gS cur, PGood env opt (fun _ _ => True) ao' gR gA gS cur) ∧ ao'.horizon = ao.horizon := by
        rintro op ho hx
        refine ⟨pgood_exec (fun _ _ _ => trivial) hs g op ?_ (fun _ _ _ _ => trivial) hx, ?_⟩
        · rcases ho with rfl | rfl <;> exact trivial
        · rw [horizon_exec hs g op (by rcases ho with rfl | rfl <;> exact trivial) hx]
          rcases ho with rfl | rfl <;> rfl
      obtain ⟨g', hh⟩ := key _ (by cases force <;> simp) hx
      have e1 : ao'.a.enabled = ao.a.enabled := congrArg Horizon.en hh
      have e2 : ao'.a.sep.currentTime = ao.a.sep.currentTime := congrArg Horizon.cur hh
      refine ⟨⟨hdv, g', e1.trans he, ?_, ?_⟩, by simp⟩
      · rw [e2]; exact hin
      · rw [e2]; exact hle

theorem nexecAll_follows {env : Env} {opt : AggregatorOpts} (hs : 0 < opt.step) (h0 : opt.soiled = 0) (ops : List NOp) :
    ∀ {l : List Int} {no no' : NObs}, Follows env opt l no → (∀ op ∈ ops, op.timely opt) → nexecAll env opt no ops = .ok no' →
      Follows env opt (ops.foldl (NOp.note opt) l) no' := by
  induction ops with
  | nil => intro l no no' f _ h; cases h; exact f
  | cons op ops ih =>
    intro l no no' f ht h
    unfold nexecAll at h
    rw [List.foldlM_cons] at h
    obtain ⟨n1, hx, h⟩ := bind_inv h
    exact ih (nexec_follows hs h0 f op (ht op (by simp)) hx).1 (fun o ho => ht o (by simp [ho])) h

end Single

theorem Multi.since_forName (opt : AggregatorOpts) (name : Name) (ops : List MOp) :
    Multi.since opt name ops = (forName name ops).foldl (NOp.note opt) [] := by
  unfold Multi.since
  generalize ([] : List Int) = l
  induction ops generalizing l with
  | nil => rfl
  | cons op ops ih =>
    rw [List.foldl_cons, ih]
    simp only [forName, List.flatMap_cons, List.foldl_append]
    congr 1
    cases op with
    | push p h =>
      simp only [MOp.forName, MOp.note]
      split <;> rfl
    | multiPush ps h =>
      simp only [MOp.forName, MOp.note]
      generalize (ps.filter fun p => decide (p.name = name)) = qs
      induction qs generalizing l with
      | nil => simp
      | cons q qs ihq =>
        simp only [List.map_cons, List.foldl_cons, NOp.note]
        rw [← ihq]
        simp [Multi.PushArg.time]
    | del n =>
      simp only [MOp.forName, MOp.note]
      split <;> rfl
    | pushout _ _ _ => rfl

theorem forName_timely {opt : AggregatorOpts} {ops : List MOp} (hc : ∀ op ∈ ops, op.timely opt) (name : Name) :
    ∀ op ∈ forName name ops, op.timely opt := by
  intro op hop
  obtain ⟨mop, hm, hop⟩ := List.mem_flatMap.1 hop
  have := hc mop hm
  cases mop with
  | push p h =>
    simp only [MOp.forName] at hop
    split at hop
    · rw [List.mem_singleton.1 hop]; exact this
    · cases hop
  | multiPush ps h =>
    obtain ⟨p, hp, rfl⟩ := List.mem_map.1 hop
    exact this p (List.mem_filter.1 hp).1
  | del n =>
    simp only [MOp.forName] at hop
    split at hop
    · rw [List.mem_singleton.1 hop]; exact trivial
    · cases hop
  | pushout force h ord =>
    rw [List.mem_singleton.1 hop]; exact trivial

theorem mexecAll_snoc {env : Env} {o0 o o' : MObs} {ops : List MOp} {op : MOp} (h : mexecAll env o0 ops = .ok o)
    (hx : mexec env o op = .ok o') : mexecAll env o0 (ops ++ [op]) = .ok o' := by
  unfold mexecAll at h ⊢
  rw [List.foldlM_append, h]
  show (mexec env o op >>= fun n => (pure n : M MObs)) = _
  rw [hx]
  rfl

/-- How the next answer about a name follows from the times of its pushes. -/
theorem C156_step {env : Env} {hash : Name → Nat} {opt : MultiOpts} {ops : List MOp} {op : MOp} {nop : NOp} {o o' : MObs} {name : Name}
    (hs : 0 < opt.step) (hz : 0 < opt.hashSize) (h0 : opt.soiled = 0) (ht : ∀ x ∈ ops, x.timely opt.toAggregatorOpts)
    (htx : op.timely opt.toAggregatorOpts) (hn : op.forName name = [nop])
    (h : mexecAll env { m := Multi.new hash opt } ops = .ok o) (hx : mexec env o op = .ok o') :
    ∃ no no' : NObs, Single.Follows env opt.toAggregatorOpts (Multi.since opt.toAggregatorOpts name ops) no ∧
      Single.nexec env opt.toAggregatorOpts no nop = .ok no' ∧ about name o.answers = no.answers ∧ about name o'.answers = no'.answers ∧
      nop.timely opt.toAggregatorOpts := by
  obtain ⟨no, e1, -, a1, -⟩ := C39_sharded env hash opt ops o hz h name
  have hh : mexecAll env { m := Multi.new hash opt } (ops ++ [op]) = .ok o' := by
    exact mexecAll_snoc h hx
  obtain ⟨no', e2, -, a2, -⟩ := C39_sharded env hash opt _ o' hz hh name
  have hf : forName name (ops ++ [op]) = forName name ops ++ [nop] := by simp [forName, hn]
  rw [hf] at e2
  unfold nexecAll at e1 e2
  rw [List.foldlM_append, e1] at e2
  obtain ⟨n1, e3, e2⟩ := bind_inv (show (nexec env opt.toAggregatorOpts no nop >>= fun n => (pure n : M NObs)) = .ok no' from e2)
  cases e2
  refine ⟨no, no', ?_, e3, a1, a2, ?_⟩
  · rw [Multi.since_forName]
    exact Single.nexecAll_follows hs h0 _ ⟨by simp, rfl⟩ (forName_timely ht name) e1
  · have : nop ∈ forName name [op] := by simp [forName, hn]
    exact forName_timely (ops := [op]) (by simpa using htx) name nop this

/-! ### C156 -/

/-- A push is accepted if and only if no push of the same name, since the name was last deleted, is of a later time. -/
theorem C156_push (env : Env) (hash : Name → Nat) (opt : MultiOpts) (ops : List MOp) (o : MObs) (p : PushArg) (handler b : Bool)
    (l : List PushReq) (m' : Multi) (hs : 0 < opt.step) (hz : 0 < opt.hashSize) (h0 : opt.soiled = 0)
    (ht : ∀ op ∈ ops, op.timely opt.toAggregatorOpts) (hp : p.timely opt.toAggregatorOpts)
    (h : mexecAll env { m := Multi.new hash opt } ops = .ok o)
    (hx : o.m.push env p.name p.v p.clk p.rand p.clk1 p.clk2 handler = .ok (b, l, m')) :
    b = true ↔ ∀ t ∈ Multi.since opt.toAggregatorOpts p.name ops, t ≤ p.time opt.toAggregatorOpts := by
  obtain ⟨no, no', f, e, a1, a2, tl⟩ := C156_step (op := .push p handler) (name := p.name) (nop := .push p.v p.clk p.rand p.clk1 p.clk2 true)
    (o' := { m := m', delivered := o.delivered ++ l, answers := o.answers ++ [(p.name, b)] }) hs hz h0 ht hp (by simp [MOp.forName]) h
    (by simp only [mexec, hx]; rfl)
  have k := (Single.nexec_follows hs h0 f _ tl e).2
  rw [← a1, ← a2] at k
  simp only [about, List.filter_append, List.map_append, List.append_cancel_left_eq] at k
  simp only [List.filter_cons, decide_true, if_true, List.filter_nil, List.map_cons, List.map_nil, List.cons.injEq, and_true] at k
  rw [k, decide_eq_true_iff]
  rfl

/-- A name is deleted, with the answer true, if and only if it was pushed since it was last deleted. -/
theorem C156_del (env : Env) (hash : Name → Nat) (opt : MultiOpts) (ops : List MOp) (o : MObs) (name : Name) (b : Bool)
    (m' : Multi) (hs : 0 < opt.step) (hz : 0 < opt.hashSize) (h0 : opt.soiled = 0)
    (ht : ∀ op ∈ ops, op.timely opt.toAggregatorOpts)
    (h : mexecAll env { m := Multi.new hash opt } ops = .ok o) (hx : o.m.del name = .ok (b, m')) :
    b = true ↔ Multi.since opt.toAggregatorOpts name ops ≠ [] := by
  obtain ⟨no, no', f, e, a1, a2, tl⟩ := C156_step (op := .del name) (name := name) (nop := .del)
    (o' := { o with m := m', answers := o.answers ++ [(name, b)] }) hs hz h0 ht trivial (by simp [MOp.forName]) h
    (by simp only [mexec, hx]; rfl)
  have k := (Single.nexec_follows hs h0 f _ tl e).2
  rw [← a1, ← a2] at k
  simp only [about, List.filter_append, List.map_append, List.append_cancel_left_eq] at k
  simp only [List.filter_cons, decide_true, if_true, List.filter_nil, List.map_cons, List.map_nil, List.cons.injEq, and_true] at k
  rw [k, decide_eq_true_iff]

/-- A name pushed once more after `del` begins anew: any time is accepted. -/
theorem C156_again (env : Env) (hash : Name → Nat) (opt : MultiOpts) (ops : List MOp) (o o1 : MObs) (p : PushArg) (handler b : Bool)
    (l : List PushReq) (m' : Multi) (hs : 0 < opt.step) (hz : 0 < opt.hashSize) (h0 : opt.soiled = 0)
    (ht : ∀ op ∈ ops, op.timely opt.toAggregatorOpts) (hp : p.timely opt.toAggregatorOpts)
    (h : mexecAll env { m := Multi.new hash opt } ops = .ok o) (hd : mexec env o (.del p.name) = .ok o1)
    (hx : o1.m.push env p.name p.v p.clk p.rand p.clk1 p.clk2 handler = .ok (b, l, m')) : b = true := by
  have hh : mexecAll env { m := Multi.new hash opt } (ops ++ [.del p.name]) = .ok o1 := by
    exact mexecAll_snoc h hd
  rw [C156_push env hash opt _ o1 p handler b l m' hs hz h0 (by
    intro op hop
    rcases List.mem_append.1 hop with hop | hop
    · exact ht op hop
    · rw [List.mem_singleton.1 hop]; exact trivial) hp hh hx]
  simp [Multi.since, MOp.note]

open ExMulti in
/-- `a` at 1012, then at 1009 and 1005 it is late, and after `del` it is not; `b` at 1004 is not concerned. -/
example : Passes (mexecAll exactEnv { m := Multi.new (fun n => n.length) opt } [.push (arg na 1003 [5]) true, .push (arg na 1012 [9]) true,
      .push (arg na 1009 [4]) true, .push (arg nb 1004 [8, 6]) true, .push (arg na 1010 [4]) true, .multiPush [arg na 1031 [7]] true,
      .push (arg na 1029 [1]) true, .del na, .push (arg na 1005 [2]) true]) (fun o =>
    decide (o.answers = [(na, true), (na, true), (na, false), (nb, true), (na, true), (na, false), (na, true), (na, true)])) = true ∧
    Multi.since opt.toAggregatorOpts na [.push (arg na 1003 [5]) true, .push (arg nb 1004 [8, 6]) true, .push (arg na 1012 [9]) true,
      .del na, .push (arg na 1003 [5]) true, .multiPush [arg na 1031 [7], arg nb 1031 [7]] true] = [1000, 1030] := by
  decide +kernel

open ExMulti in
example (hash : Name → Nat) (o : MObs) (b : Bool) (l : List PushReq) (m' : Multi)
    (h : mexecAll exactEnv { m := Multi.new hash opt } [.push (arg na 1012 [9]) true, .push (arg nb 1004 [8, 6]) true] = .ok o)
    (hx : o.m.push exactEnv na (red 1009 [4]) 0 0 0 0 true = .ok (b, l, m')) : b = false := by
  have := C156_push exactEnv hash opt _ o { name := na, v := red 1009 [4], clk := 0, rand := 0, clk1 := 0, clk2 := 0 } true b l m'
    (by decide) (by decide) (by decide) (by decide) (by decide) h hx
  have e : ¬ ∀ t ∈ Multi.since opt.toAggregatorOpts na [.push (arg na 1012 [9]) true, .push (arg nb 1004 [8, 6]) true],
      t ≤ ({ name := na, v := red 1009 [4], clk := 0, rand := 0, clk1 := 0, clk2 := 0 } : PushArg).time opt.toAggregatorOpts := by decide +kernel
  exact Bool.eq_false_iff.2 fun hb => e (this.1 hb)

end Wrtstat
