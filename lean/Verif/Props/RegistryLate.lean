/-
C157: what a registry refuses.
-/
import Verif.Props.Registry
import Verif.Props.MultiLate

namespace Wrtstat

set_option autoImplicit false

open Registry Aggregator

/-- Whether an aggregator is switched on after a history, if it was before. -/
def Aggregator.onAfter (ops : List AOp) : Bool := ops.foldl AOp.after true

/-- An event of aligned time `T` is not before the beginning of an aggregator nor before any of the calls made so far. -/
def Aggregator.InTime (opt : AggregatorOpts) (clk now : Int) (ops : List AOp) (T : Int) : Prop :=
  align opt.step (meant opt.resolution clk now) ≤ T ∧ ∀ t ∈ moments opt true ops, t ≤ T

theorem fold_en {opt : AggregatorOpts} (ops : List AOp) : ∀ s : Horizon, (ops.foldl (Horizon.next opt) s).en = ops.foldl AOp.after s.en := by
  induction ops with
  | nil => intro s; rfl
  | cons op ops ih =>
    intro s
    rw [List.foldl_cons, List.foldl_cons, ih]
    congr 1
    cases op <;> simp only [Horizon.next, AOp.after] <;> (try split) <;> rfl

theorem moments_dvd {opt : AggregatorOpts} (ops : List AOp) : ∀ (en : Bool), ∀ t ∈ moments opt en ops, opt.step ∣ t := by
  induction ops with
  | nil => intro en t ht; simp [moments] at ht
  | cons op ops ih =>
    intro en t ht
    simp only [moments, List.mem_append] at ht
    rcases ht with ht | ht
    · cases op <;> cases en <;> simp [AOp.moment] at ht <;> (subst ht; exact Single.step_dvd_align _)
    · exact ih _ t ht

/-- A new aggregator without a random start begins at the aligned time it is built at, and is switched on. -/
theorem new_begins {opt : AggregatorOpts} {clk rand now : Int} {a0 : Aggregator} (hs : 0 < opt.step) (h0 : opt.soiled = 0)
    (h : Aggregator.new opt clk rand now = .ok a0) :
    a0.enabled = true ∧ a0.sep.currentTime = align opt.step (meant opt.resolution clk now) := by
  unfold Aggregator.new Separator.new Separator.getTsWith at h
  rw [if_neg (by omega)] at h
  simp only [h0, ne_eq, not_true_eq_false, if_false] at h
  cases h
  refine ⟨rfl, ?_⟩
  simp only [Separator.currentTime, align, meant]
  by_cases hz : now = 0 ∧ opt.resolution ≠ .none
  · rw [if_pos hz, if_neg (by tauto)]; omega
  · rw [if_neg hz, if_pos (by tauto)]; omega

/-- The answer of an aggregator built without a random start. -/
theorem answer_iff {env : Env} {opt : AggregatorOpts} {clk rand now : Int} {a0 : Aggregator} {ops : List AOp} {o : AObs} (hs : 0 < opt.step)
    (h0 : opt.soiled = 0) (hn : Aggregator.new opt clk rand now = .ok a0) (hc : ∀ op ∈ ops, op.clockOk ∧ op.timeOk opt)
    (h : execAll env { a := a0 } ops = .ok o) {c c2 ts : Int} {x : AddArg} {b : Bool} {a' : Aggregator}
    (htx : (AOp.add c c2 ts x).timeOk opt) (hx : o.a.add env c c2 ts x = .ok (b, a')) :
    b = true ↔ onAfter ops = false ∨ InTime opt clk now ops (align opt.step (meant opt.resolution c ts)) := by
  have hf := Fresh.new (env := env) hn
  obtain ⟨e1, e2⟩ := new_begins hs h0 hn
  have hh := horizon_execAll hs ops (pgood_fresh hs hf) (fun op hop => (hc op hop).1) (fun op hop => (hc op hop).2) h
  have hen : o.a.enabled = onAfter ops := by
    have : o.a.enabled = (ops.foldl (Horizon.next opt) ({ a := a0 } : AObs).horizon).en := congrArg Horizon.en hh
    rw [this, fold_en]
    show ops.foldl AOp.after a0.enabled = _
    rw [e1]
    rfl
  cases hb : o.a.enabled with
  | false =>
    rw [hb] at hen
    unfold Aggregator.add at hx
    rw [if_pos hb] at hx
    cases hx
    simp [← hen]
  | true =>
    rw [C153_add env opt a0 ops o hs hf (fun op hop => (hc op hop).1) (fun op hop => (hc op hop).2) h hb c c2 ts x b a' htx hx, ← hen, hb, e1, e2]
    simp only [Bool.true_eq_false, false_or, InTime]
    refine and_congr_right fun _ => ?_
    constructor
    · intro k t ht
      have := k t ht
      rwa [Single.windowOf_dvd (Single.step_dvd_align _) (moments_dvd ops _ t ht)] at this
    · intro k t ht
      rw [Single.windowOf_dvd (Single.step_dvd_align _) (moments_dvd ops _ t ht)]
      exact k t ht

/-! ### C157 -/

/-- By id or by name: an event for a live name is refused if and only if its aggregator is switched on and the event is of a window before the one
the aggregator began with or before that of a call made to the aggregator. -/
theorem C157_add (env : Env) (opt : RegistryOpts) (ops : List RegOp) (o : RObs) (hs : 0 < opt.step) (h0 : opt.soiled = 0)
    (hr : Room opt ops.length) (hid : ∀ op ∈ ops, op.idOk opt) (h : rexecAll env { r := Registry.new opt } ops = .ok o)
    (hc : ∀ p ∈ o.asked, p.2.clockOk ∧ p.2.timeOk opt.toAggregatorOpts) (name : Name) (c : Cell) (hcell : o.r.cellOf name = some c) :
    ∃ clk now,
      (∀ (id : Nat), o.r.getName id = name → ∀ (clk1 clk2 ts v : Int) (count : Nat) (b : Bool) (r' : Registry),
        (AOp.add clk1 clk2 ts (.one v count)).timeOk opt.toAggregatorOpts → o.r.addId env id clk1 clk2 ts v count = .ok (b, r') →
        (b = true ↔ onAfter (forRef c.ref o.asked) = false ∨
          InTime opt.toAggregatorOpts clk now (forRef c.ref o.asked) (align opt.step (meant opt.resolution clk1 ts)))) ∧
      ∀ (q : Ask) (clk1 clk2 : Int) (rd : ReducedData) (b : Bool) (r' : Registry),
        (AOp.add clk1 clk2 rd.ts (.reduced rd)).timeOk opt.toAggregatorOpts → o.r.addData env q name clk1 clk2 rd = .ok (b, r') →
        (b = true ↔ onAfter (forRef c.ref o.asked) = false ∨
          InTime opt.toAggregatorOpts clk now (forRef c.ref o.asked) (align opt.step (meant opt.resolution clk1 rd.ts))) := by
  obtain ⟨clk, rand, now, a0, hn, ob, he, ha, -⟩ := C29_isolated_partial hr hid h name c hcell
  have hi := inv_execAll (env := env) ops (o := { r := Registry.new opt }) (rinv_new opt) (hr.mono (by omega)) h
  rw [Nat.zero_add] at hi
  have hne : name ≠ [] := by
    obtain ⟨_, hm, _⟩ := hi.cellOf_some hr hcell
    exact hi.nonempty _ hm
  have hops : ∀ op ∈ forRef c.ref o.asked, op.clockOk ∧ op.timeOk opt.toAggregatorOpts := by
    intro op hop
    obtain ⟨p, hp, rfl⟩ := List.mem_map.1 hop
    exact hc p (List.mem_filter.1 hp).1
  have live : ∀ id, (name, id) ∈ o.r.dict.dict → o.r.getAggregator id = .ok (some c) := by
    intro id hm
    obtain ⟨c', k1, -, k2, -⟩ := hi.cellOf_live hr hm
    rw [hcell] at k1
    cases k1
    exact k2
  refine ⟨clk, now, fun id hg clk1 clk2 ts v count b r' htx hx => ?_, fun q clk1 clk2 rd b r' htx hx => ?_⟩
  · unfold addId at hx
    rw [live id ((getName_live hi hne).1 hg)] at hx
    obtain ⟨⟨b1, a'⟩, hadd, hy⟩ := bind_inv (show (c.agg.add env clk1 clk2 ts (.one v count) >>= fun p => _) = _ from hx)
    cases hy
    rw [← ha] at hadd
    exact answer_iff hs h0 hn hops he htx hadd
  · unfold addData at hx
    obtain ⟨⟨id, r1⟩, hcr, hx⟩ := bind_inv hx
    rcases create_cases hi hr hcr with ⟨h1, _⟩ | ⟨hm, rfl⟩ | ⟨_, hn', _⟩
    · exact absurd h1 hne
    · simp only at hx
      rw [live id hm] at hx
      obtain ⟨⟨b1, a'⟩, hadd, hy⟩ := bind_inv (show (c.agg.add env clk1 clk2 rd.ts (.reduced rd) >>= fun p => _) = _ from hx)
      cases hy
      rw [← ha] at hadd
      exact answer_iff hs h0 hn hops he htx hadd
    · obtain ⟨id', hm, _⟩ := hi.cellOf_some hr hcell
      exact absurd (List.mem_map_of_mem hm) hn'

theorem mem_moments {opt : AggregatorOpts} {op : AOp} {t : Int} (ops : List AOp) : ∀ en : Bool, op ∈ ops → (∀ en, op.moment opt en = some t) →
    t ∈ moments opt en ops := by
  induction ops with
  | nil => intro en h _; cases h
  | cons x ops ih =>
    intro en h hm
    simp only [moments, List.mem_append]
    rcases List.mem_cons.1 h with rfl | h
    · left; rw [hm]; simp
    · right; exact ih _ h hm

/-- `pop_all` closes the past: after it an event of a window before the time of the call is refused, whatever name it is for. -/
theorem C157_pop_all (env : Env) (opt : RegistryOpts) (ops : List RegOp) (o o1 : RObs) (force : Bool) (clk : Nat → Int) (hs : 0 < opt.step)
    (h0 : opt.soiled = 0) (hr : Room opt (ops.length + 1)) (hid : ∀ op ∈ ops, op.idOk opt)
    (h : rexecAll env { r := Registry.new opt } ops = .ok o) (hp : rexec env o (.popAll force clk) = .ok o1)
    (hc : ∀ p ∈ o1.asked, p.2.clockOk ∧ p.2.timeOk opt.toAggregatorOpts) (name : Name) (c : Cell) (hcell : o1.r.cellOf name = some c)
    (hon : onAfter (forRef c.ref o1.asked) = true) (id : Nat) (hg : o1.r.getName id = name) (clk1 clk2 ts v : Int) (count : Nat) (b : Bool)
    (r' : Registry) (htx : (AOp.add clk1 clk2 ts (.one v count)).timeOk opt.toAggregatorOpts)
    (hx : o1.r.addId env id clk1 clk2 ts v count = .ok (b, r'))
    (hlate : align opt.step (meant opt.resolution clk1 ts) < align opt.step (meant opt.resolution (clk id) 0)) : b = false := by
  have hh : rexecAll env { r := Registry.new opt } (ops ++ [.popAll force clk]) = .ok o1 := by
    unfold rexecAll at h ⊢
    rw [List.foldlM_append, h]
    show (rexec env o (.popAll force clk) >>= fun n => (pure n : M RObs)) = _
    rw [hp]
    rfl
  have hid' : ∀ op ∈ ops ++ [.popAll force clk], op.idOk opt := by
    intro op hop
    rcases List.mem_append.1 hop with hop | hop
    · exact hid op hop
    · rw [List.mem_singleton.1 hop]; intro id h; cases h
  obtain ⟨clk', now', k, -⟩ := C157_add env opt _ o1 hs h0 (by simpa using hr) hid' hh hc name c hcell
  have := (k id hg clk1 clk2 ts v count b r' htx hx).1
  refine Bool.eq_false_iff.2 fun hb => ?_
  rcases this hb with e | ⟨-, e⟩
  · rw [hon] at e; cases e
  · have hi := inv_execAll (env := env) ops (o := { r := Registry.new opt }) (rinv_new opt) (hr.mono (by omega)) h
    rw [Nat.zero_add] at hi
    have hr0 := hr.mono (m := ops.length) (by omega)
    unfold rexec at hp
    obtain ⟨⟨resp, r1⟩, hstep, hp⟩ := bind_inv hp
    cases hp
    simp only [Registry.step] at hstep
    obtain ⟨⟨l, r2⟩, hpop, hstep⟩ := bind_inv hstep
    cases hstep
    obtain ⟨hseff, -⟩ := seff_popAll hi hr0 hpop
    have hne : name ≠ [] := by
      have hi1 := inv_execAll (env := env) _ (o := { r := Registry.new opt }) (rinv_new opt) (by simpa using hr.mono (by simp)) hh
      obtain ⟨_, hm, _⟩ := hi1.cellOf_some (by simpa using hr) hcell
      exact hi1.nonempty _ hm
    have hg0 : o.r.getName id = name := by
      simp only [Registry.getName, hseff.dict] at hg ⊢
      exact hg
    have hm := (getName_live hi hne).1 hg0
    obtain ⟨c0, k1, k2, -⟩ := hi.cellOf_live hr0 hm
    have href : c.ref = c0.ref := by
      have := hseff.cellOf hi hr0 name
      rw [hcell, k1] at this
      simpa using this
    have hmem : AOp.separate (clk id) 0 false force ∈ forRef c.ref (o.asked ++ o.r.asked (.popAll force clk)) := by
      unfold forRef
      refine List.mem_map.2 ⟨(c.ref, .separate (clk id) 0 false force), List.mem_filter.2 ⟨List.mem_append_right _ ?_, by simp⟩, rfl⟩
      simp only [Registry.asked]
      refine List.mem_flatMap.2 ⟨(name, id), hm, ?_⟩
      simp only [Registry.toId, k2]
      simp [href]
    have := e _ (mem_moments _ true hmem (t := align opt.step (meant opt.resolution (clk id) 0)) (fun _ => rfl))
    omega

/-- The answers of a history. -/
def exRAnswers (r : Registry) : List RegOp → M (List Resp)
  | [] => .ok []
  | op :: ops => do
    let (x, r) ← r.step exactEnv op
    let l ← exRAnswers r ops
    .ok (x :: l)

/-- `a` (id 7) at 1013, then at 1009 it is late and `b` (id 12) is not; after `pop_all` at 1025 both are late at 1019; while the registry is switched
off nothing is recorded and nothing refused. -/
example : ((exRAnswers (Registry.new exROpt) [.create { clk := 1000 } ['a'] 0, .create { clk := 1000 } ['b'] 0, .addId 7 0 0 1013 5 1,
      .addId 7 0 0 1009 5 1, .addId 12 0 0 1009 6 1, .addData {} ['a'] 0 0 { ts := 1009, count := 1, min := 1, max := 1, data := [1] },
      .popAll false (fun _ => 1025), .addId 7 0 0 1019 6 1, .addId 12 0 0 1019 6 1, .addId 12 0 0 1020 6 1, .enable false,
      .addId 12 0 0 1000 6 1]).toOption.map fun l => l.filterMap fun x => match x with | .bool b => some b | _ => none) =
    some [true, false, true, false, false, false, true, true] := by
  decide +kernel

example : onAfter [.separate 5 0 false false, .enable false, .enable true] = true ∧
    InTime exAOpt 0 1000 [.add 0 0 1013 (.one 5 1), .pop] 1010 ∧ ¬ InTime exAOpt 0 1000 [.add 0 0 1013 (.one 5 1), .pop] 1000 := by
  refine ⟨rfl, ⟨by decide, by decide +kernel⟩, ?_⟩
  rintro ⟨-, h⟩
  exact absurd (h 1010 (by decide +kernel)) (by decide)

/-- In the example the condition of the theorem is met, and what is asked of `b`, whose aggregator is the second, is one event of 1000. -/
example : (∀ p ∈ exRObs.asked, p.2.clockOk ∧ p.2.timeOk exROpt.toAggregatorOpts) ∧ (exRObs.r.cellOf ['b']).map Cell.ref = some 1 ∧
    exRObs.r.getName 12 = ['b'] ∧ moments exROpt.toAggregatorOpts true (forRef 1 exRObs.asked) = [1000] := by
  decide +kernel

end Wrtstat
