/-
Properties of the registry (C28-C34).

Every theorem is about the registries a client can reach: `rexecAll env { r := Registry.new opt } ops
= .ok o` for some history `ops` of registry, pusher and aggregator operations.  `Room opt n` says that
`id_step` is positive and that `n` more names cannot exhaust the 64-bit ids.
-/
import Verif.Lemmas.RegistryMore
import Verif.Model.Instances

namespace Wrtstat
namespace Registry

open Aggregator (AOp AObs Trans)

/-! ### An example -/

def exROpt : RegistryOpts :=
  { limit := 3, levels := 2, step := 10, resolution := .seconds, outSize := 2, idInit := 2, idStep := 5 }

/-- Two names, a deletion, and reuse of the id by a third name. -/
def exROps : List RegOp :=
  [.create { clk := 1000 } ['a'] 0, .create { clk := 1000 } ['b'] 0, .addId 7 0 0 1001 5 1, .addId 12 0 0 1002 6 2,
   .del ['a'], .addData {} ['c'] 0 0 { ts := 1003, count := 4, min := 1, max := 3, data := [1, 3] }]

def exRObs : RObs :=
  match rexecAll exactEnv { r := Registry.new exROpt } exROps with
  | .ok o => o
  | .error _ => { r := Registry.new exROpt }

theorem exRRun : rexecAll exactEnv { r := Registry.new exROpt } exROps = .ok exRObs := by
  have h : (match rexecAll exactEnv { r := Registry.new exROpt } exROps with | .ok _ => true | .error _ => false) = true := by
    decide +kernel
  unfold exRObs
  cases hr : rexecAll exactEnv { r := Registry.new exROpt } exROps with
  | ok o => rfl
  | error e => rw [hr] at h; cases h

variable {env : Env} {opt : RegistryOpts} {ops ops' : List RegOp} {o : RObs}

/-! ### C28 -/

/-- The names given by `get_name` and the ids given by `create_aggregator` are in bijection: `id` has
the name `name` exactly when `create_aggregator(name)` returns `id` and creates nothing. -/
theorem C28_bijection (hr : Room opt ops.length) (h : rexecAll env { r := Registry.new opt } ops = .ok o)
    (name : Name) (h0 : name ≠ []) (id : Nat) :
    o.r.getName id = name ↔ ∀ q now, o.r.createAggregator env q name now = .ok (id, o.r) := by
  have hi := inv_execAll (env := env) ops (o := { r := Registry.new opt }) (rinv_new opt) (hr.mono (by omega)) h
  rw [Nat.zero_add] at hi
  rw [getName_live hi h0]
  constructor
  · intro hm q now
    exact create_live hi hr hm
  · intro hc
    rcases create_cases hi hr (hc {} 0) with ⟨h1, _⟩ | ⟨hm, _⟩ | ⟨_, _, hc, _⟩
    · exact absurd h1 h0
    · exact hm
    · have := hc.next
      omega

/-- Creation: the name has the id returned, which is not `bad_id`, and every other live name keeps
its own, different id. -/
theorem C28_create (hr : Room opt ops.length) (h : rexecAll env { r := Registry.new opt } ops = .ok o)
    (q : Ask) (name : Name) (now : Int) (h0 : name ≠ []) (id : Nat) (r1 : Registry)
    (hc : o.r.createAggregator env q name now = .ok (id, r1)) :
    r1.getName id = name ∧ id ≠ badId ∧ ∀ name' id', o.r.getName id' = name' → name' ≠ [] →
      r1.getName id' = name' ∧ (name' ≠ name → id' ≠ id) := by
  have hi := inv_execAll (env := env) ops (o := { r := Registry.new opt }) (rinv_new opt) (hr.mono (by omega)) h
  rw [Nat.zero_add] at hi
  rcases create_cases hi hr hc with ⟨h1, _⟩ | ⟨hm, rfl⟩ | ⟨_, hn, hcr, hi1⟩
  · exact absurd h1 h0
  · refine ⟨(getName_live hi h0).2 hm, hi.id_ne_bad hr (hi.id_form hm).2, ?_⟩
    intro name' id' hg h0'
    refine ⟨hg, ?_⟩
    rintro hne rfl
    exact hne (hi.id_eq ((getName_live hi h0').1 hg) hm)
  · have hm : (name, id) ∈ r1.dict.dict := by rw [hcr.dict]; simp
    refine ⟨(getName_live hi1 h0).2 hm, ?_, ?_⟩
    · have hf := (hi1.id_form hm).2
      have h1 := hi1.cle
      have h2 := hr.2
      have h3 := hr.1
      rw [Nat.add_mul] at *
      unfold badId idMod at *
      omega
    · intro name' id' hg h0'
      have hm' : (name', id') ∈ r1.dict.dict := by
        rw [hcr.dict]
        exact List.mem_cons_of_mem _ ((getName_live hi h0').1 hg)
      refine ⟨(getName_live hi1 h0').2 hm', ?_⟩
      rintro hne rfl
      exact hne (hi1.id_eq hm' hm)

/-- The id of a name does not change until the name is deleted, whatever else happens (including
deletions of other names and reuse of their ids). -/
theorem C28_stable (hr : Room opt (ops.length + 1 + ops'.length))
    (h : rexecAll env { r := Registry.new opt } ops = .ok o)
    (q : Ask) (name : Name) (now : Int) (h0 : name ≠ []) (id : Nat) (r1 : Registry)
    (hc : o.r.createAggregator env q name now = .ok (id, r1)) (o' : RObs)
    (h' : rexecAll env { r := r1 } ops' = .ok o') (hd : .del name ∉ ops') :
    o'.r.getName id = name ∧ ∀ q' now', o'.r.createAggregator env q' name now' = .ok (id, o'.r) := by
  have hi := inv_execAll (env := env) ops (o := { r := Registry.new opt }) (rinv_new opt) (hr.mono (by omega)) h
  rw [Nat.zero_add] at hi
  have hr0 := hr.mono (m := ops.length) (by omega)
  obtain ⟨hm, hi1⟩ : (name, id) ∈ r1.dict.dict ∧ RInv opt (ops.length + 1) r1 := by
    rcases create_cases hi hr0 hc with ⟨h1, _⟩ | ⟨hm, rfl⟩ | ⟨_, hn, hcr, hi1⟩
    · exact absurd h1 h0
    · exact ⟨hm, hi.mono (by omega)⟩
    · exact ⟨by rw [hcr.dict]; simp, hi1⟩
  have hi2 := inv_execAll ops' (o := { r := r1 }) hi1 hr h'
  have hm2 := name_execAll ops' (o := { r := r1 }) hi1 hr h' hm hd
  exact ⟨(getName_live hi2 h0).2 hm2, fun q' now' => create_live hi2 hr hm2⟩

/-- With `id_step` 0 nothing can be created: the position of an id is computed by a division by 0. -/
theorem C28_step_zero (h0 : opt.idStep = 0) (q : Ask) (name : Name) (now : Int) (hn : name ≠ []) :
    (Registry.new opt).createAggregator env q name now = .error .divByZero := by
  unfold createAggregator
  rw [if_neg hn]
  simp [Registry.new, Dict.createId, Dict.id2pos, h0]
  rfl

/-- Id 7 was the id of "a", it is now the id of "c"; "b" kept 12. -/
example : exRObs.r.getName 7 = ['c'] ∧ exRObs.r.getName 12 = ['b'] := by decide +kernel

example : exRObs.r.createAggregator exactEnv { clk := 7, rand := 8 } ['b'] 9 = .ok (12, exRObs.r) :=
  (C28_bijection (by decide) exRRun ['b'] (by decide) 12).1 (by decide +kernel) _ _

/-! ### C29 -/

/-- The aggregator of a live name is a newly built one after exactly the operations addressed to it
(by its name, its id or its pushers) since its creation, and everything received for it came from
these operations. -/
theorem C29_isolated_partial (hr : Room opt ops.length) (hid : ∀ op ∈ ops, op.idOk opt)
    (h : rexecAll env { r := Registry.new opt } ops = .ok o) (name : Name) (c : Cell)
    (hc : o.r.cellOf name = some c) :
    ∃ clk rand now a0, Aggregator.new opt.toAggregatorOpts clk rand now = .ok a0 ∧
      Trans env a0 (forRef c.ref o.asked) c.agg (forRef c.ref o.received) := by
  have s := sim_execAll ops (sim_new env opt) (hr.mono (by omega)) hid h
  rw [Nat.zero_add] at s
  obtain ⟨id, hm, _, k⟩ := s.inv.cellOf_some hr hc
  exact s.cell name id c hm k

theorem asked_not_addressed {n : Nat} {r : Registry} (hi : RInv opt n r) (hr : Room opt n) {name : Name} {c : Cell}
    (hc : r.cellOf name = some c) {op : RegOp} (hna : ¬ op.addresses r name) : forRef c.ref (r.asked op) = [] := by
  obtain ⟨id0, hm0, _, k0⟩ := hi.cellOf_some hr hc
  have h0 : name ≠ [] := hi.nonempty _ hm0
  have toid : ∀ {id : Nat} {l : List AOp}, r.getName id ≠ name → forRef c.ref (r.toId id l) = [] := by
    intro id l hne
    unfold toId
    cases hca : r.cellAt id with
    | none => rfl
    | some c' =>
      simp only [Option.toList_some, List.flatMap_cons, List.flatMap_nil, List.append_nil]
      apply forRef_other
      intro hre
      obtain ⟨nm, hm, _, k⟩ := hi.cellAt_some hr hca
      have h1 := hi.refs _ _ _ _ k k0 hre
      have h2 := posOf_inj (hi.id_form hm).1 (hi.id_form hm0).1 h1
      subst h2
      exact hne ((getName_live hi h0).2 hm0)
  have hb : ∀ {q : Ask} {n : Name}, forRef c.ref (r.births q n) = [] := by
    intro q n
    unfold births
    split_ifs
    · apply forRef_other
      have := hi.refLt _ _ k0
      omega
    · rfl
  cases op with
  | create q n now => exact hb
  | addId id c1 c2 now v count => exact toid hna
  | addData q n c1 c2 rd =>
    simp only [asked]
    rw [forRef_append, hb, List.nil_append]
    split_ifs with hn
    · rfl
    · apply forRef_key
      intro x hx
      simp only [List.mem_singleton] at hx
      subst hx
      simp only [refFor]
      cases hcn : r.cellOf n with
      | none =>
        have := hi.refLt _ _ k0
        simp only [Option.map_none, Option.getD_none]
        omega
      | some c' =>
        simp only [Option.map_some, Option.getD_some]
        intro hre
        obtain ⟨id, hm, _, k⟩ := hi.cellOf_some hr hcn
        have h1 := hi.refs _ _ _ _ k k0 hre
        have h2 := posOf_inj (hi.id_form hm).1 (hi.id_form hm0).1 h1
        subst h2
        exact hna (hi.id_eq hm hm0)
  | pop id => exact toid hna
  | forcePop id => exact toid hna
  | popAll force clk => exact absurd trivial hna
  | getName id => rfl
  | setInit v => rfl
  | pusherId id hd => rfl
  | pusherName q n now hd => exact hb
  | call p c1 c2 ts x =>
    simp only [asked]
    split_ifs
    · apply forRef_key
      intro x hx
      simp only [List.mem_singleton] at hx
      subst hx
      simp only [RegOp.addresses, hc, Option.map_some, Option.some.injEq] at hna
      exact fun e => hna e.symm
    · rfl
  | enable v => exact absurd trivial hna
  | del n => rfl
  | direct id op => exact toid hna

/-- The claim: an operation that is not addressed to a live name leaves its aggregator as it is. -/
def Isolation (env : Env) (P : RegistryOpts → RegOp → Prop) : Prop :=
  ∀ (opt : RegistryOpts) (ops : List RegOp) (o : RObs), Room opt ops.length →
    rexecAll env { r := Registry.new opt } ops = .ok o →
    ∀ (name : Name) (c : Cell) (op : RegOp) (resp : Resp) (r' : Registry), P opt op → o.r.cellOf name = some c →
      ¬ op.addresses o.r name → o.r.step env op = .ok (resp, r') → r'.cellOf name = some c

/-- It holds for all operations on names, pushers, the registry as a whole, and ids of the form the
registry gives out (no restriction with the default `id_step` 1). -/
theorem C29_step_partial (env : Env) : Isolation env (fun opt op => op.idOk opt) := by
  intro opt ops o hr h name c op resp r' hid hc hna hs
  have hi := inv_execAll (env := env) ops (o := { r := Registry.new opt }) (rinv_new opt) (hr.mono (by omega)) h
  rw [Nat.zero_add] at hi
  obtain ⟨hi', he⟩ := eff_step hi hr hid hs
  obtain ⟨id, hm, _, k⟩ := hi.cellOf_some hr hc
  have hg : ¬ op.removes name := by
    rintro rfl
    exact hna rfl
  obtain ⟨c', k', e', t⟩ := he.cell name id c hm hg k
  rw [asked_not_addressed hi hr hc hna] at t
  obtain ⟨ob, t1, t2, _⟩ := t
  cases t1
  simp only at t2
  have hcc : c' = c := by
    cases c; cases c'
    simp only at e' t2
    rw [e', t2]
  subst hcc
  have hm' := he.dict name id hm hg
  unfold cellOf
  rw [hi'.dict_lookup.2 hm']
  simp only [Option.bind_some]
  obtain ⟨f1, f2⟩ := hi'.id_form hm'
  have hb : r'.dict.counter + 2 * opt.idStep < idMod := by
    have h1 := hi'.cle
    have h2 := hr.2
    rw [Nat.add_mul] at *
    omega
  have h3 := hr.1
  have hbad : id ≠ badId := by
    unfold badId idMod at *
    omega
  have : r'.getAggregator id = .ok (some c') := by
    unfold getAggregator
    rw [if_neg hbad, id2pos_ok hi'.step h3 f1 (by omega)]
    simp [bind_ok', k']
  rw [this]
  rfl

/-- Without the restriction it fails: with `id_step` 5 the ids 6 to 10 share a position, so an event for
the id 6, which belongs to nobody, is recorded in the aggregator with id 7. -/
theorem C29_refuted : ¬ Isolation exactEnv (fun _ _ => True) := by
  intro h
  have hc : (exRObs.r.cellOf ['c']).isSome = true := by decide +kernel
  obtain ⟨c, hc⟩ := Option.isSome_iff_exists.1 hc
  have hs : ∃ r', exRObs.r.step exactEnv (.addId 6 0 0 1004 9 1) = .ok (.bool true, r') ∧
      (r'.cellOf ['c']).map (fun c => c.agg.sep.reducer.totalCount) = some 5 := by
    have : (match exRObs.r.step exactEnv (.addId 6 0 0 1004 9 1) with
      | .ok (x, r') => decide (x = .bool true) && decide ((r'.cellOf ['c']).map (fun c => c.agg.sep.reducer.totalCount) = some 5)
      | .error _ => false) = true := by decide +kernel
    cases hx : exRObs.r.step exactEnv (.addId 6 0 0 1004 9 1) with
    | error e => rw [hx] at this; cases this
    | ok p =>
      obtain ⟨x, r'⟩ := p
      rw [hx] at this
      simp only [Bool.and_eq_true, decide_eq_true_eq] at this
      exact ⟨r', by rw [this.1], this.2⟩
  obtain ⟨r', h1, h2⟩ := hs
  have h3 := h exROpt exROps exRObs (by decide) exRRun ['c'] c (.addId 6 0 0 1004 9 1) _ r' trivial hc
    (by simp only [RegOp.addresses]; decide +kernel) h1
  have h4 : (exRObs.r.cellOf ['c']).map (fun c => c.agg.sep.reducer.totalCount) = some 4 := by decide +kernel
  rw [h3] at h2
  rw [hc] at h4
  rw [h4] at h2
  cases h2

/-- "b" only got its own event, also after "a" was deleted and "c" got an event. -/
example : ∃ c, exRObs.r.cellOf ['b'] = some c ∧ c.agg.sep.reducer.totalCount = 2 ∧
    forRef c.ref exRObs.asked = [.add 0 0 1002 (.one 6 2)] := by
  have : (match exRObs.r.cellOf ['b'] with
    | some c => decide (c.agg.sep.reducer.totalCount = 2) && decide (forRef c.ref exRObs.asked = [.add 0 0 1002 (.one 6 2)])
    | none => false) = true := by decide +kernel
  cases hc : exRObs.r.cellOf ['b'] with
  | none => rw [hc] at this; cases this
  | some c =>
    rw [hc] at this
    simp only [Bool.and_eq_true, decide_eq_true_eq] at this
    exact ⟨c, rfl, this⟩

/-! ### C30 -/

/-- The claim: an id that is not the id of a live aggregator is refused. -/
def UnknownIds (env : Env) (P : RegistryOpts → Nat → Prop) : Prop :=
  ∀ (opt : RegistryOpts) (ops : List RegOp) (o : RObs), Room opt ops.length →
    rexecAll env { r := Registry.new opt } ops = .ok o →
    ∀ id, P opt id → o.r.getName id = [] →
      (∀ clk1 clk2 now v count, o.r.addId env id clk1 clk2 now v count = .ok (false, o.r)) ∧
      o.r.pop id = .ok (none, o.r) ∧ o.r.forcePop env id = .ok (none, o.r) ∧
      (∀ handler, o.r.pusherId id handler = .ok none)

/-- It holds for all ids of the form the registry gives out, and `bad_id`. -/
theorem C30_unknown_partial (env : Env) : UnknownIds env IdOk := by
  intro opt ops o hr h id hid hn
  have hi := inv_execAll (env := env) ops (o := { r := Registry.new opt }) (rinv_new opt) (hr.mono (by omega)) h
  rw [Nat.zero_add] at hi
  have hg := hi.get_dead hr hid ((getName_dead hi).1 hn)
  refine ⟨?_, ?_, ?_, ?_⟩
  · intro c1 c2 now v count
    simp [addId, hg, bind_ok']
  · simp [pop, hg, bind_ok']
  · simp [forcePop, hg, bind_ok']
  · intro hd
    simp [pusherId, hg, bind_ok']

/-- With the default `id_step` it holds for all 64-bit ids. -/
theorem C30_default_step (env : Env) : UnknownIds env (fun opt id => opt.idStep = 1 ∧ id < 2 ^ 64) := by
  intro opt ops o hr h id hid hn
  refine C30_unknown_partial env opt ops o hr h id ?_ hn
  right
  rw [hid.1]
  refine ⟨by simp [Nat.mod_one], ?_⟩
  have := hid.2
  unfold idMod
  omega

/-- With a larger `id_step` it fails: nobody has the id 6, yet an event for it is recorded. -/
theorem C30_refuted : ¬ UnknownIds exactEnv (fun _ id => id < 2 ^ 64) := by
  intro h
  have := (h exROpt exROps exRObs (by decide) exRRun 6 (by decide) (by decide +kernel)).1 0 0 1004 9 1
  have h2 : (match exRObs.r.addId exactEnv 6 0 0 1004 9 1 with | .ok (b, _) => b | .error _ => false) = true := by
    decide +kernel
  rw [this] at h2
  cases h2

/-- Id 17 is not in use. -/
example : exRObs.r.pop 17 = .ok (none, exRObs.r) :=
  (C30_unknown_partial exactEnv exROpt exROps exRObs (by decide) exRRun 17 (by decide) (by decide +kernel)).2.1

/-! ### C31 -/

/-- The claim about the answer: `del` returns true iff the name was live. -/
def DelAnswers (env : Env) : Prop :=
  ∀ (opt : RegistryOpts) (ops : List RegOp) (o : RObs), Room opt ops.length →
    rexecAll env { r := Registry.new opt } ops = .ok o →
    ∀ name b r', o.r.del name = .ok (b, r') → (b = true ↔ (o.r.cellOf name).isSome)

/-- It always returns false. -/
theorem C31_refuted : ¬ DelAnswers exactEnv := by
  intro h
  have h1 : (match exRObs.r.del ['b'] with | .ok (b, _) => !b | .error _ => false) = true := by decide +kernel
  cases hd : exRObs.r.del ['b'] with
  | error e => rw [hd] at h1; cases h1
  | ok p =>
    obtain ⟨b, r'⟩ := p
    rw [hd] at h1
    have h2 := h exROpt exROps exRObs (by decide) exRRun ['b'] b r' hd
    have h3 : (exRObs.r.cellOf ['b']).isSome = true := by decide +kernel
    rw [h3] at h2
    simp only [iff_true] at h2
    rw [h2] at h1
    cases h1

/-- Everything else: `del` succeeds; for a name that is not live it changes nothing; otherwise the
name has no aggregator any more, its id has no name, and its pushers do nothing, in whatever way the
registry is used afterwards, even when the id is given to another name. -/
theorem C31_removed_partial (hr : Room opt (ops.length + ops'.length))
    (h : rexecAll env { r := Registry.new opt } ops = .ok o) (name : Name) :
    ∃ r1, o.r.del name = .ok (false, r1) ∧ r1.cellOf name = none ∧
      (o.r.cellOf name = none → r1 = o.r) ∧
      (∀ id, o.r.getName id = name → name ≠ [] → r1.getName id = []) ∧
      ∀ c, o.r.cellOf name = some c → ∀ (o' : RObs), rexecAll env { r := r1 } ops' = .ok o' →
        ∀ (p : RPusher) (c1 c2 ts : Int) (x : AddArg), p.ref = c.ref →
          o'.r.call env p c1 c2 ts x = .ok ([], o'.r) := by
  have hi := inv_execAll (env := env) ops (o := { r := Registry.new opt }) (rinv_new opt) (hr.mono (by omega)) h
  rw [Nat.zero_add] at hi
  have hr0 := hr.mono (m := ops.length) (by omega)
  obtain ⟨r1, hd⟩ := del_total hi hr0 name
  refine ⟨r1, hd, ?_⟩
  rcases (del_cases hi hr0 hd).2 with ⟨hn, rfl⟩ | ⟨id, hm, hi1, e1, e2, e3, e4, e5, e6⟩
  · refine ⟨RInv.cellOf_dead hn, fun _ => rfl, ?_, ?_⟩
    · intro id hg h0
      exact absurd (List.mem_map.2 ⟨_, (getName_live hi h0).1 hg, rfl⟩) hn
    · intro c hc
      rw [RInv.cellOf_dead hn] at hc
      cases hc
  · obtain ⟨c0, k1, _, _, k4⟩ := hi.cellOf_live hr0 hm
    refine ⟨?_, ?_, ?_, ?_⟩
    · apply RInv.cellOf_dead
      intro hx
      obtain ⟨⟨nm, i⟩, hx1, hx2⟩ := List.mem_map.1 hx
      rw [e1] at hx1
      simp only at hx2
      simpa [hx2] using (List.mem_filter.1 hx1).2
    · intro hc
      rw [k1] at hc
      cases hc
    · intro id' hg h0
      rw [getName_dead hi1]
      cases hl : r1.dict.index.lookup id' with
      | none => rfl
      | some nm =>
        exfalso
        have h1 := hi1.index_lookup.1 hl
        rw [e1] at h1
        obtain ⟨h2, h3⟩ := List.mem_filter.1 h1
        have := hi.id_eq h2 ((getName_live hi h0).1 hg)
        simp [this] at h3
    · intro c hc o' h' p c1 c2 ts x hp
      rw [k1] at hc
      obtain rfl : c0 = c := Option.some.inj hc
      have hdead : Dead r1 c0.ref := by
        refine ⟨by rw [e5]; exact hi.refLt _ _ k4, ?_⟩
        intro p d hpd hre
        rw [e6] at hpd
        by_cases he : p = posOf opt.idStep (opt.idInit % opt.idStep) id
        · subst he
          rw [List.getElem?_set_self' ] at hpd
          simp only [Option.map_eq_map, Option.map_eq_some_iff] at hpd
          obtain ⟨_, _, hpd⟩ := hpd
          cases hpd
        · rw [List.getElem?_set_ne (Ne.symm he)] at hpd
          exact he (hi.refs _ _ _ _ hpd k4 hre)
      have hdead' := dead_execAll ops' (o := { r := r1 }) hi1 (by simpa using hr) h' hdead
      have hi2 := inv_execAll ops' (o := { r := r1 }) hi1 (by simpa using hr) h'
      unfold call
      rw [hp, dead_find hi2 hdead']

/-- A name created again after its deletion gets a newly built aggregator. -/
theorem C31_fresh (hr : Room opt ops.length) (h : rexecAll env { r := Registry.new opt } ops = .ok o) (name : Name)
    (h0 : name ≠ []) (hn : o.r.cellOf name = none) (q : Ask) (now : Int) (id : Nat) (r1 : Registry)
    (hc : o.r.createAggregator env q name now = .ok (id, r1)) :
    ∃ c a0, r1.getAggregator id = .ok (some c) ∧ (∀ nm c', o.r.cellOf nm = some c' → c'.ref ≠ c.ref) ∧
      Aggregator.new opt.toAggregatorOpts q.clk q.rand now = .ok a0 ∧ Trans env a0 (o.r.birth q) c.agg [] := by
  have hi := inv_execAll (env := env) ops (o := { r := Registry.new opt }) (rinv_new opt) (hr.mono (by omega)) h
  rw [Nat.zero_add] at hi
  rcases create_cases hi hr hc with ⟨h1, _⟩ | ⟨hm, rfl⟩ | ⟨_, _, hcr, hi1⟩
  · exact absurd h1 h0
  · obtain ⟨c0, k1, _⟩ := hi.cellOf_live hr hm
    rw [hn] at k1
    cases k1
  · obtain ⟨a0, a, h1, h2, h3⟩ := hcr.cell
    have hm : (name, id) ∈ r1.dict.dict := by rw [hcr.dict]; simp
    have hf := hi1.id_form hm
    have hb : r1.dict.counter + 2 * opt.idStep < idMod := by
      have h1 := hi1.cle
      have h2 := hr.2
      rw [Nat.add_mul] at *
      omega
    have hp := hr.1
    have hbad : id ≠ badId := by
      unfold badId idMod at *
      omega
    refine ⟨⟨o.r.nextRef, a⟩, a0, ?_, ?_, h1, h2⟩
    · unfold getAggregator
      rw [if_neg hbad, id2pos_ok hi1.step hp hf.1 (by omega)]
      simp [bind_ok', h3]
    · intro nm c' hc'
      obtain ⟨_, _, _, k⟩ := hi.cellOf_some hr hc'
      have := hi.refLt _ _ k
      simp only
      omega

/-- A pusher of "a" made before the deletion: the call after reuse of the id 7 by "c" does nothing. -/
example : ∃ r, rexecAll exactEnv { r := Registry.new exROpt } (exROps.take 4) = .ok r ∧
    (r.r.pusherId 7 true = .ok (some { ref := 0, p := { token := true, handler := true } })) ∧
    exRObs.r.call exactEnv { ref := 0, p := { token := true, handler := true } } 0 0 2000 (.one 1 1) =
      .ok ([], exRObs.r) := by
  have h : (match rexecAll exactEnv { r := Registry.new exROpt } (exROps.take 4) with
    | .ok r => decide (r.r.pusherId 7 true = .ok (some { ref := 0, p := { token := true, handler := true } }))
    | .error _ => false) = true := by decide +kernel
  cases hx : rexecAll exactEnv { r := Registry.new exROpt } (exROps.take 4) with
  | error e => rw [hx] at h; cases h
  | ok r =>
    rw [hx] at h
    exact ⟨r, rfl, by simpa using h, by decide +kernel⟩

/-! ### C32 -/

/-- `pop_all` (`force = false`) and `force_pop_all`: everything reported is reported under the name of
a live aggregator, at most once per name, and what is reported under a live name is exactly what
`separate(force)` followed by `pop` (or `force_pop`) on its own aggregator gives. -/
theorem C32_pop_all (hr : Room opt ops.length) (h : rexecAll env { r := Registry.new opt } ops = .ok o)
    (force : Bool) (clk : Nat → Int) (l : List (Name × AggData)) (r' : Registry)
    (hp : o.r.popAll env force clk = .ok (l, r')) :
    (l.map Prod.fst).Nodup ∧ (∀ p ∈ l, (o.r.cellOf p.1).isSome) ∧
    ∀ name id c, o.r.getName id = name → o.r.cellOf name = some c →
      ∃ b a1 d a2, c.agg.separate env (clk id) 0 false force = .ok (b, [], a1) ∧
        (if force then a1.forcePop env else .ok a1.pop) = .ok (d, a2) ∧
        r'.cellOf name = some { c with agg := a2 } ∧ (l.filter fun p => p.1 = name) = d.toList.map fun d => (name, d) := by
  have hi := inv_execAll (env := env) ops (o := { r := Registry.new opt }) (rinv_new opt) (hr.mono (by omega)) h
  rw [Nat.zero_add] at hi
  obtain ⟨hs, hl⟩ := seff_popAll hi hr hp
  have key : ∀ name id c, (name, id) ∈ o.r.dict.dict → o.r.cellOf name = some c →
      ∃ b a1 d a2, c.agg.separate env (clk id) 0 false force = .ok (b, [], a1) ∧
        (if force then a1.forcePop env else .ok a1.pop) = .ok (d, a2) ∧
        r'.cellOf name = some { c with agg := a2 } ∧ (l.filter fun p => p.1 = name) = d.toList.map fun d => (name, d) := by
    intro name id c hm hc
    obtain ⟨c', h1, h2, ob, t1, t2, t3⟩ := popAll_name hi hr hp hm hc
    unfold popOps Aggregator.execAll at t1
    simp only [List.foldlM_cons, List.foldlM_nil] at t1
    obtain ⟨o1, t4, t5⟩ := bind_inv t1
    obtain ⟨o2, t6, t7⟩ := bind_inv t5
    cases t7
    obtain ⟨⟨b, out, a1⟩, t8, t9⟩ := bind_inv t4
    cases t9
    have hout : out = [] := by
      obtain ⟨⟨b', out', s⟩, h3, h4⟩ := bind_inv t8
      have := Aggregator.sep_out_nil' h3
      subst this
      obtain ⟨_, _, h5⟩ := bind_inv h4
      cases h5
      rfl
    subst hout
    simp only [List.append_nil] at t6
    have fin : ∀ d : Option AggData, ob.received = d.toList →
        (l.filter fun p => p.1 = name) = d.toList.map fun d => (name, d) := by
      intro d hd
      rw [hd] at t3
      rw [t3, List.map_map]
      have : ∀ p ∈ l.filter (fun p => p.1 = name), ((fun d => (name, d)) ∘ Prod.snd) p = p := by
        intro p hp
        have := (List.mem_filter.1 hp).2
        simp only [decide_eq_true_eq] at this
        simp only [Function.comp, ← this]
      rw [List.map_congr_left this, List.map_id']
    cases force with
    | true =>
      simp only [if_true] at t6 ⊢
      obtain ⟨⟨d, a2⟩, t10, t11⟩ := bind_inv t6
      cases t11
      refine ⟨b, a1, d, a2, t8, t10, ?_, fin d (by simp)⟩
      rw [h1, ← h2, show a2 = c'.agg from t2]
    | false =>
      simp only [Bool.false_eq_true, if_false] at t6 ⊢
      cases t6
      refine ⟨b, a1, a1.pop.1, a1.pop.2, t8, rfl, ?_, fin _ (List.nil_append _)⟩
      rw [h1, ← h2, show a1.pop.2 = c'.agg from t2]
  have hlive : ∀ p ∈ l, (o.r.cellOf p.1).isSome := by
    intro p hp
    obtain ⟨⟨nm, id⟩, hm, he⟩ := List.mem_map.1 (hl p hp)
    simp only at he
    subst he
    obtain ⟨c, k, _⟩ := hi.cellOf_live hr hm
    rw [k]; rfl
  refine ⟨?_, hlive, ?_⟩
  · rw [List.nodup_iff_count_le_one]
    intro nm
    by_cases hm : nm ∈ l.map Prod.fst
    · obtain ⟨p, hp, rfl⟩ := List.mem_map.1 hm
      obtain ⟨⟨nm, id⟩, hm, he⟩ := List.mem_map.1 (hl p hp)
      simp only at he
      subst he
      obtain ⟨c, k, _⟩ := hi.cellOf_live hr hm
      obtain ⟨_, _, d, _, _, _, _, hf⟩ := key p.1 id c hm k
      rw [List.count_eq_countP, List.countP_map, List.countP_eq_length_filter]
      have e : l.filter ((fun x => x == p.1) ∘ Prod.fst) = l.filter (fun q => q.1 = p.1) := by
        apply List.filter_congr
        intro q _
        simp only [Function.comp]
        by_cases hq : q.1 = p.1 <;> simp [hq]
      rw [e, hf, List.length_map]
      cases d <;> simp
    · rw [List.count_eq_zero_of_not_mem hm]; omega
  · intro name id c hg hc
    have h0 : name ≠ [] := by
      obtain ⟨id, hm, _⟩ := hi.cellOf_some hr hc
      exact hi.nonempty _ hm
    exact key name id c ((getName_live hi h0).1 hg) hc

/-- In particular `pop_all` reports every aggregator with a completed window, starting with the oldest:
if `pop` would have returned `d`, so does `pop_all`. -/
theorem C32_complete (hr : Room opt ops.length) (h : rexecAll env { r := Registry.new opt } ops = .ok o)
    (clk : Nat → Int) (l : List (Name × AggData)) (r' : Registry)
    (hp : o.r.popAll env false clk = .ok (l, r')) (name : Name) (c : Cell) (hc : o.r.cellOf name = some c)
    (d : AggData) (hd : c.agg.pop.1 = some d) : (name, d) ∈ l := by
  have hi := inv_execAll (env := env) ops (o := { r := Registry.new opt }) (rinv_new opt) (hr.mono (by omega)) h
  rw [Nat.zero_add] at hi
  obtain ⟨id, hm, _⟩ := hi.cellOf_some hr hc
  have h0 : name ≠ [] := hi.nonempty _ hm
  obtain ⟨_, _, hk⟩ := C32_pop_all hr h false clk l r' hp
  obtain ⟨b, a1, d', a2, h1, h2, _, h4⟩ := hk name id c ((getName_live hi h0).2 hm) hc
  simp only [Bool.false_eq_true, if_false] at h2
  have hpre : ∃ t, a1.agList = c.agg.agList ++ t := by
    obtain ⟨⟨b', out', s⟩, h5, h6⟩ := bind_inv h1
    obtain ⟨a', h7, h8⟩ := bind_inv h6
    cases h8
    obtain ⟨l', _, h9⟩ := bind_inv h7
    cases h9
    exact ⟨_, rfl⟩
  obtain ⟨t, ht⟩ := hpre
  have : d' = some d := by
    unfold Aggregator.pop at hd h2
    rw [ht] at h2
    cases hl : c.agg.agList with
    | nil => rw [hl] at hd; cases hd
    | cons x xs =>
      rw [hl] at hd h2
      simp only [List.cons_append, Except.ok.injEq, Prod.mk.injEq] at hd h2
      rw [← h2.1, ← hd]
  subst this
  have : (name, d) ∈ l.filter (fun p => p.1 = name) := by rw [h4]; simp
  exact (List.mem_filter.1 this).1

/-- At time 2000 both live aggregators have a completed window. -/
example : (match exRObs.r.popAll exactEnv false (fun _ => 2000) with
    | .ok (l, _) => l.map fun p => (p.1, p.2.ts, p.2.count)
    | .error _ => []) = [(['c'], 1000, 4), (['b'], 1000, 2)] := by decide +kernel

/-! ### C33 -/

/-- After `enable(false)`, as long as nothing is enabled again: every live aggregator is either one
that existed at `enable(false)` or one built later, and it only went through the operations addressed
to it that are not events, as if no event had been offered. -/
theorem C33_disabled (hr : Room opt (ops.length + ops'.length))
    (h : rexecAll env { r := Registry.new opt } ops = .ok o) (o' : RObs)
    (hid : ∀ op ∈ ops', op.idOk opt) (hen : ∀ op ∈ ops', ¬ op.enables)
    (h' : rexecAll env { r := o.r.enable false } ops' = .ok o') (name : Name) (c : Cell)
    (hc : o'.r.cellOf name = some c) :
    c.agg.enabled = false ∧ ∃ a0, Origin opt (o.r.enable false) name c.ref a0 ∧
      Trans env a0 ((forRef c.ref o'.asked).filter fun op => !op.event) c.agg (forRef c.ref o'.received) := by
  have hi := inv_execAll (env := env) ops (o := { r := Registry.new opt }) (rinv_new opt) (hr.mono (by omega)) h
  rw [Nat.zero_add] at hi
  have q := quiet_execAll ops' (quiet_enable (env := env) hi (hr.mono (by omega))) hr hid hen h'
  obtain ⟨id, hm, _, k⟩ := q.inv.cellOf_some hr hc
  exact q.cell name id c hm k

/-- The same for histories in which arbitrary ids are used, also ids that are answered for by another
aggregator (see C30): no event is ever recorded. -/
theorem C33_any_id (hr : Room opt (ops.length + ops'.length))
    (h : rexecAll env { r := Registry.new opt } ops = .ok o) (o' : RObs) (hen : ∀ op ∈ ops', ¬ op.enables)
    (h' : rexecAll env { r := o.r.enable false } ops' = .ok o') (name : Name) (c : Cell)
    (hc : o'.r.cellOf name = some c) :
    c.agg.enabled = false ∧ ∃ a0 aops out, Origin opt (o.r.enable false) name c.ref a0 ∧
      (∀ op ∈ aops, op.event = false) ∧ Trans env a0 aops c.agg out := by
  have hi := inv_execAll (env := env) ops (o := { r := Registry.new opt }) (rinv_new opt) (hr.mono (by omega)) h
  rw [Nat.zero_add] at hi
  have q := still_execAll ops' (o := { r := o.r.enable false }) (still_enable (env := env) hi (hr.mono (by omega))) hr hen h'
  obtain ⟨id, hm, _, k⟩ := q.inv.cellOf_some hr hc
  exact q.cell name id c hm k

/-- `enable(true)` makes every aggregator and every later one record again. -/
theorem C33_enabled (r : Registry) : (r.enable true).enabled = true ∧
    ∀ (p : Nat) (c : Cell), (r.enable true).agarr[p]? = some (some c) → c.agg.enabled = true := by
  refine ⟨rfl, ?_⟩
  intro p c hc
  simp only [enable, List.getElem?_map, Option.map_eq_some_iff] at hc
  obtain ⟨x, h1, h2⟩ := hc
  cases x with
  | none => simp at h2
  | some c0 => simp only [Option.some.injEq] at h2; obtain ⟨_, _, h2⟩ := h2; rw [← h2]; rfl

/-- Events for an existing and a new name while disabled, then after enabling. -/
example : (match rexecAll exactEnv { r := exRObs.r.enable false }
      [.addId 12 0 0 1005 1 1, .addData {} ['d'] 0 0 { ts := 1003, count := 4, data := [1] }, .addId 17 0 0 1005 1 1] with
    | .ok o' => [['b'], ['d']].map fun n => (o'.r.cellOf n).map fun c => c.agg.sep.reducer.totalCount
    | .error _ => []) = [some 2, some 0] ∧
    (match rexecAll exactEnv { r := exRObs.r.enable false }
      [.addData {} ['d'] 0 0 { ts := 1003, count := 4, data := [1] }, .enable true, .addId 17 0 0 1005 1 1] with
    | .ok o' => [['b'], ['d']].map fun n => (o'.r.cellOf n).map fun c => c.agg.sep.reducer.totalCount
    | .error _ => []) = [some 2, some 1] := by decide +kernel

/-! ### C34

The claim fails for the same events as C14: those whose time is aligned to 0. -/

/-- The claim: the summary that creates an aggregator is recorded in it.  `rand` is a value of
`std::rand()`. -/
def FirstAccepted (env : Env) (P : RegistryOpts → Int → Int → ReducedData → Prop) : Prop :=
  ∀ (opt : RegistryOpts) (ops : List RegOp) (o : RObs), Room opt ops.length → 0 < opt.step →
    rexecAll env { r := Registry.new opt } ops = .ok o →
    ∀ (q : Ask) (name : Name) (c1 c2 : Int) (rd : ReducedData), o.r.enabled = true → o.r.hasInit = false →
      name ≠ [] → o.r.cellOf name = none → 0 ≤ q.rand ∧ q.rand < 2 ^ 31 → 0 ≤ q.clk → q.clk ≤ c1 → c1 ≤ c2 →
      P opt c1 c2 rd →
      ∃ r1 c, o.r.addData env q name c1 c2 rd = .ok (true, r1) ∧ r1.cellOf name = some c ∧
        c.agg.sep.reducer = (Reducer.new opt.toReducerOpts).add env (.reduced rd) ∧
        c.agg.sep.currentTime ≤ align opt.step (meant opt.resolution c1 rd.ts) ∧
        align opt.step (meant opt.resolution c1 rd.ts) < c.agg.sep.nextTime

/-- Counterexample: step 10, a summary of time 5 arriving at time 1005. -/
theorem C34_refuted : ¬ FirstAccepted exactEnv (fun _ _ _ _ => True) := by
  intro h
  obtain ⟨r1, c, h1, _⟩ := h exROpt exROps exRObs (by decide) (by decide) exRRun { clk := 1005 } ['d'] 1005 1005
    { ts := 5, count := 4, data := [1] } (by decide +kernel) (by decide +kernel) (by decide) (by decide +kernel)
    (by decide) (by decide) (by decide) (by decide) trivial
  have h2 : (match exRObs.r.addData exactEnv { clk := 1005 } ['d'] 1005 1005 { ts := 5, count := 4, data := [1] } with
    | .ok (b, _) => !b | .error _ => false) = true := by decide +kernel
  rw [h1] at h2
  cases h2

/-- The claim for all other summaries, and for those too if the clock is still in the first window of all. -/
theorem C34_first_partial (env : Env) : FirstAccepted env (fun opt c1 c2 rd =>
    opt.resolution = .none ∨ align opt.step (meant opt.resolution c1 rd.ts) ≠ 0 ∨ align opt.step c2 = 0) := by
  intro opt ops o hr hs h q name c1 c2 rd hen hin h0 hn hra hq1 hq2 hq3 hts
  have hi := inv_execAll (env := env) ops (o := { r := Registry.new opt }) (rinv_new opt) (hr.mono (by omega)) h
  rw [Nat.zero_add] at hi
  have hn' : name ∉ o.r.dict.dict.map Prod.fst := by
    intro hm
    obtain ⟨⟨nm, id⟩, hm1, he⟩ := List.mem_map.1 hm
    simp only at he
    subst he
    obtain ⟨c, k, _⟩ := hi.cellOf_live hr hm1
    rw [hn] at k
    cases k
  obtain ⟨a0, ha0⟩ : ∃ a0, Aggregator.new opt.toAggregatorOpts q.clk q.rand rd.ts = .ok a0 := by
    unfold Aggregator.new Separator.new
    rw [Separator.getTs_eq (by omega)]
    exact ⟨_, rfl⟩
  have hco : construct env o.r q rd.ts = .ok a0 := by
    unfold construct
    rw [hi.ropt, ha0]
    simp [bind_ok', hen, hin]
  obtain ⟨id, r1, e1, e2, e3⟩ := create_total hi hr hn' h0 hco
  obtain ⟨next, k1, k2, k3⟩ := Aggregator.add_new (env := env) (c1 := c1) (c2 := c2) (x := .reduced rd) hs hra ha0
    (.inr (.inr hq2)) hts
  generalize ha1 : ({ a0 with sep := { a0.sep with next := next, reducer := (Reducer.new opt.toReducerOpts).add env (.reduced rd) } } : Aggregator) = a1 at k1
  have hadd : o.r.addData env q name c1 c2 rd = .ok (true, r1.update o.r.nextRef a1) := by
    unfold addData
    rw [e1]
    simp only [bind_ok']
    rw [e3]
    simp only [bind_ok', k1]
  have hst : a0.sep.step = opt.step := by
    obtain ⟨s, h1, h2⟩ := bind_inv ha0
    cases h2
    exact (Separator.sgood_new (env := env) h1).step.1
  rcases create_cases hi hr e1 with ⟨h1, _⟩ | ⟨hm, _⟩ | ⟨_, _, hcr, hi1⟩
  · exact absurd h1 h0
  · exact absurd (List.mem_map.2 ⟨_, hm, rfl⟩) hn'
  have hm : (name, id) ∈ r1.dict.dict := by rw [hcr.dict]; simp
  have hcell : (r1.update o.r.nextRef a1).cellOf name = some { ref := o.r.nextRef, agg := a1 } := by
    unfold cellOf
    have hl : (r1.update o.r.nextRef a1).dict.dict.lookup name = some id := hi1.dict_lookup.2 hm
    rw [hl]
    simp only [Option.bind_some]
    unfold getAggregator at e3 ⊢
    by_cases hb : id = badId
    · rw [if_pos hb] at e3; cases e3
    rw [if_neg hb] at e3 ⊢
    obtain ⟨pos, f1, f2⟩ := bind_inv e3
    have f1' : (r1.update o.r.nextRef a1).dict.id2pos id = .ok pos := f1
    rw [f1']
    simp only [bind_ok']
    simp only [Except.ok.injEq] at f2
    have f3 : r1.agarr[pos]? = some (some { ref := o.r.nextRef, agg := a0 }) := by
      cases hx : r1.agarr[pos]? with
      | none => rw [hx] at f2; cases f2
      | some y => rw [hx] at f2; simp only [Option.join_some] at f2; rw [f2]
    simp [update, f3, Except.toOption]
  refine ⟨_, _, hadd, hcell, ?_, ?_, ?_⟩
  · simp only [← ha1]
  · simp only [← ha1, Separator.currentTime, hst]; exact k2
  · simp only [← ha1, Separator.nextTime]; exact k3

/-- With a randomly moved first window. -/
example : ∃ r1 c, (Registry.new { exROpt with soiled := 7 }).addData exactEnv { clk := 1005, rand := 12345 } ['a'] 1006 1006
    { ts := 1003, count := 4, data := [1] } = .ok (true, r1) ∧ r1.cellOf ['a'] = some c ∧
      c.agg.sep.reducer = (Reducer.new exROpt.toReducerOpts).add exactEnv (.reduced { ts := 1003, count := 4, data := [1] }) := by
  obtain ⟨r1, c, h1, h2, h3, _⟩ := C34_first_partial exactEnv { exROpt with soiled := 7 } [] _ (by decide) (by decide) rfl
    { clk := 1005, rand := 12345 } ['a'] 1006 1006
    { ts := 1003, count := 4, data := [1] } (by decide) (by decide) (by decide) (by decide) (by decide) (by decide) (by decide)
    (by decide) (by decide)
  exact ⟨r1, c, h1, h2, h3⟩

end Registry
end Wrtstat
