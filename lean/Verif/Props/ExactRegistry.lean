/-
What exactly calls with ids that were never given out do: C29, C30.
-/
import Verif.Props.Registry
import Verif.Lemmas.RegistryCount

namespace Wrtstat
namespace Registry

set_option autoImplicit false

open Aggregator (AOp AObs Trans)

/-- Two ids lie in the same block of `step` consecutive ids, counted from 1. -/
def Block (step a b : Nat) : Prop := ∃ k, k * step < a ∧ a ≤ (k + 1) * step ∧ k * step < b ∧ b ≤ (k + 1) * step

theorem block_iff {step a b : Nat} (h0 : 0 < step) (hb : 0 < b) :
    Block step a b ↔ (a + step - 1) / step = (b + step - 1) / step := by
  have key : ∀ k x, (k * step < x ∧ x ≤ (k + 1) * step) ↔ (x + step - 1) / step = k + 1 := by
    intro k x
    rw [Nat.div_eq_iff (by omega), Nat.add_mul, Nat.one_mul]
    omega
  unfold Block
  constructor
  · rintro ⟨k, h1, h2, h3, h4⟩
    rw [(key k a).1 ⟨h1, h2⟩, (key k b).1 ⟨h3, h4⟩]
  · intro h
    have hp : 0 < (b + step - 1) / step := Nat.div_pos (by omega) h0
    obtain ⟨k, hk⟩ : ∃ k, (b + step - 1) / step = k + 1 := ⟨(b + step - 1) / step - 1, by omega⟩
    obtain ⟨h1, h2⟩ := (key k a).2 (by rw [h, hk])
    obtain ⟨h3, h4⟩ := (key k b).2 hk
    exact ⟨k, h1, h2, h3, h4⟩

/-- Within a block there is one id of each form. -/
theorem block_form {step a b : Nat} (h : Block step a b) (hf : a % step = b % step) : a = b := by
  obtain ⟨k, h1, h2, h3, h4⟩ := h
  rw [Nat.add_mul, Nat.one_mul] at h2 h4
  rcases Nat.le_total a b with hab | hab
  · have : (b - a) % step = 0 := Nat.sub_mod_eq_zero_of_mod_eq hf.symm
    have := Nat.mod_eq_of_lt (show b - a < step by omega)
    omega
  · have : (a - b) % step = 0 := Nat.sub_mod_eq_zero_of_mod_eq hf
    have := Nat.mod_eq_of_lt (show a - b < step by omega)
    omega

variable {opt : RegistryOpts} {n : Nat} {r : Registry}

/-- Ids given out are beyond the initial one. -/
def Beyond (opt : RegistryOpts) (d : Dict) : Prop := ∀ id, id ∈ d.free ∨ id ∈ d.dict.map Prod.snd → opt.idInit < id

theorem beyond_createId {d : Dict} (h : Beyond opt d) (hc : opt.idInit ≤ d.counter) (hs : 0 < d.step) (hm : d.counter + d.step < idMod)
    (pick : Nat) (name : Name) : Beyond opt (d.createId pick name).2 := by
  unfold Dict.createId
  split
  · exact h
  · split
    · intro id hid
      simp only [List.map_cons, List.mem_cons] at hid
      rcases hid with hid | rfl | hid
      · exact h id (.inl hid)
      · rw [Nat.mod_eq_of_lt hm]; omega
      · exact h id (.inr hid)
    · rename_i x hf
      intro id hid
      simp only [List.map_cons, List.mem_cons] at hid
      rcases hid with hid | rfl | hid
      · exact h id (.inl (List.mem_of_mem_erase hid))
      · exact h _ (.inl (List.mem_of_getElem? hf))
      · exact h id (.inr hid)

theorem create_dict {env : Env} {q : Ask} {name : Name} {now : Int} {id : Nat} {r' : Registry}
    (h : r.createAggregator env q name now = .ok (id, r')) : r'.dict = r.dict ∨ r'.dict = (r.dict.createId q.pick name).2 := by
  unfold createAggregator at h
  split_ifs at h
  · cases h; exact .inl rfl
  simp only at h
  obtain ⟨p, _, h⟩ := bind_inv h
  split at h
  · cases h; exact .inr rfl
  · obtain ⟨a, _, h⟩ := bind_inv h
    cases h
    exact .inr rfl

theorem beyond_del {name : Name} {b : Bool} {r' : Registry} (hi : RInv opt n r) (h : Beyond opt r.dict) (hd : r.del name = .ok (b, r')) :
    Beyond opt r'.dict := by
  unfold del at hd
  simp only at hd
  split_ifs at hd
  · cases hd; exact h
  obtain ⟨p, _, hd⟩ := bind_inv hd
  split_ifs at hd
  cases hd
  unfold Dict.freeId
  split
  · exact h
  · rename_i nm hl
    intro id hid
    simp only [List.mem_insert_iff, List.mem_map, List.mem_filter] at hid
    rcases hid with (rfl | hid) | ⟨p, ⟨hp, _⟩, rfl⟩
    · exact h _ (.inr (List.mem_map.2 ⟨_, hi.index_lookup.1 hl, rfl⟩))
    · exact h id (.inl hid)
    · exact h _ (.inr (List.mem_map.2 ⟨_, hp, rfl⟩))

theorem del_counter {name : Name} {b : Bool} {r' : Registry} (hd : r.del name = .ok (b, r')) : r'.dict.counter = r.dict.counter := by
  unfold del at hd
  simp only at hd
  split_ifs at hd
  · cases hd; rfl
  obtain ⟨p, _, hd⟩ := bind_inv hd
  split_ifs at hd
  cases hd
  unfold Dict.freeId
  split <;> rfl

theorem beyond_execAll {env : Env} (ops : List RegOp) : ∀ {o : RObs}, Room opt ops.length →
    rexecAll env { r := Registry.new opt } ops = .ok o → Beyond opt o.r.dict ∧ opt.idInit ≤ o.r.dict.counter := by
  induction ops using List.reverseRecOn with
  | nil =>
    intro o _ h
    cases h
    refine ⟨?_, le_rfl⟩
    intro id hid
    simp [new] at hid
  | append_singleton ops op ih =>
    intro o hr h
    rw [rexecAll_append] at h
    obtain ⟨o1, h1, h2⟩ := bind_inv h
    obtain ⟨o2, h3, h4⟩ := rexecAll_cons h2
    cases h4
    obtain ⟨resp, h5, -⟩ := rexec_inv h3
    rw [List.length_append, List.length_singleton] at hr
    have hr0 : Room opt ops.length := hr.mono (by omega)
    obtain ⟨hb, hc⟩ := ih hr0 h1
    have hi : RInv opt ops.length o1.r := by
      have := inv_execAll ops (n := 0) (rinv_new opt) (by rwa [Nat.zero_add]) h1
      rwa [Nat.zero_add] at this
    have hbd := hi.bound hr0
    have hs0 := hr.1
    have hcr : ∀ {q : Ask} {name : Name} {now : Int} {id : Nat} {r2 : Registry},
        o1.r.createAggregator env q name now = .ok (id, r2) → Beyond opt r2.dict ∧ opt.idInit ≤ r2.dict.counter := by
      intro q name now id r2 hx
      have hst := hi.step
      rcases create_dict hx with e | e
      · rw [e]; exact ⟨hb, hc⟩
      · rw [e]
        refine ⟨beyond_createId hb hc (by omega) (by omega) _ _, ?_⟩
        unfold Dict.createId
        split
        · exact hc
        · split
          · rw [hst, Nat.mod_eq_of_lt (by omega)]
            simp only
            omega
          · exact hc
    rcases step_size h5 with hs | ⟨q, name, now, id, r2, hx, hs⟩ | ⟨name, b, hx⟩
    · rw [hs.1]; exact ⟨hb, hc⟩
    · rw [hs.1]; exact hcr hx
    · refine ⟨beyond_del hi hb hx, ?_⟩
      rw [del_counter hx]
      exact hc

/-- What `get_aggregator` finds for any 64-bit id. -/
theorem RInv.get_any (h : RInv opt n r) (hp : ∀ nm id, (nm, id) ∈ r.dict.dict → 0 < id) (hr : Room opt n) {id : Nat} (hid : id < 2 ^ 64) (o : Option Cell) :
    r.getAggregator id = .ok o ↔ (∃ nm id', (nm, id') ∈ r.dict.dict ∧ Block opt.idStep id id' ∧ o = r.cellOf nm) ∨
      ((∀ nm id', (nm, id') ∈ r.dict.dict → ¬ Block opt.idStep id id') ∧ o = none) := by
  have h0 := hr.1
  have hbnd := h.bound hr
  have hblk : ∀ nm id', (nm, id') ∈ r.dict.dict → Block opt.idStep id id' → id + opt.idStep < idMod := by
    intro nm id' hm ⟨k, h1, h2, h3, h4⟩
    have := (h.id_form hm).2
    rw [Nat.add_mul, Nat.one_mul] at h2
    omega
  have hpos : ∀ nm id', (nm, id') ∈ r.dict.dict → posOf opt.idStep (opt.idInit % opt.idStep) id' = (id' + opt.idStep - 1) / opt.idStep := by
    intro nm id' hm
    obtain ⟨f1, f2⟩ := h.id_form hm
    have e := id2pos_ok h.step h0 f1 (by omega)
    unfold Dict.id2pos at e
    rw [h.step, if_neg (by omega)] at e
    have hm' : (id' + opt.idStep + (idMod - 1)) % idMod = id' + opt.idStep - 1 := by
      have := hp _ _ hm
      unfold idMod at *
      omega
    rw [hm'] at e
    exact (Except.ok.inj e).symm
  by_cases hw : id + opt.idStep ≤ idMod ∧ id ≠ badId ∧ 0 < id
  · obtain ⟨hw1, hw2, hw3⟩ := hw
    have hm' : (id + opt.idStep + (idMod - 1)) % idMod = id + opt.idStep - 1 := by
      unfold idMod at *
      omega
    have hg : r.getAggregator id = .ok (r.agarr[(id + opt.idStep - 1) / opt.idStep]?.join) := by
      unfold getAggregator Dict.id2pos
      rw [if_neg hw2, h.step, if_neg (by omega), hm', bind_ok']
    rw [hg]
    cases hc : r.agarr[(id + opt.idStep - 1) / opt.idStep]?.join with
    | none =>
      have hno : ∀ nm id', (nm, id') ∈ r.dict.dict → ¬ Block opt.idStep id id' := by
        intro nm id' hm hb
        obtain ⟨c, hc'⟩ := h.live nm id' hm
        rw [hpos nm id' hm, ← (block_iff h0 (hp _ _ hm)).1 hb] at hc'
        rw [hc'] at hc
        cases hc
      constructor
      · intro e
        cases e
        exact .inr ⟨hno, rfl⟩
      · rintro (⟨nm, id', hm, hb, _⟩ | ⟨_, rfl⟩)
        · exact absurd hb (hno nm id' hm)
        · rfl
    | some c =>
      have hc2 : r.agarr[(id + opt.idStep - 1) / opt.idStep]? = some (some c) := by
        cases hx : r.agarr[(id + opt.idStep - 1) / opt.idStep]? with
        | none => rw [hx] at hc; cases hc
        | some o' =>
          rw [hx] at hc
          exact congrArg some hc
      obtain ⟨nm, id', hm, e1, _, e2⟩ := h.mem_cell hr hc2
      rw [hpos nm id' hm] at e2
      have hb := (block_iff h0 (hp _ _ hm)).2 e2.symm
      constructor
      · intro e
        cases e
        exact .inl ⟨nm, id', hm, hb, e1.symm⟩
      · rintro (⟨nm', id'', hm', hb', rfl⟩ | ⟨hno, _⟩)
        · have e3 := (block_iff h0 (hp _ _ hm')).1 hb'
          have : id'' = id' := by
            have f1 := (h.id_form hm).1
            have f2 := (h.id_form hm').1
            exact block_form ((block_iff h0 (hp _ _ hm)).2 (by omega)) (by omega)
          subst this
          rw [h.id_eq hm' hm, e1]
        · exact absurd hb (hno nm id' hm)
  · have hg : r.getAggregator id = .ok none := by
      unfold getAggregator
      by_cases hbad : id = badId
      · rw [if_pos hbad]
      · rw [if_neg hbad]
        have hz : (id + opt.idStep + (idMod - 1)) % idMod / opt.idStep = 0 := by
          refine Nat.div_eq_of_lt ?_
          have : ¬ (id + opt.idStep ≤ idMod ∧ 0 < id) := fun hx => hw ⟨hx.1, hbad, hx.2⟩
          unfold idMod at *
          omega
        unfold Dict.id2pos
        rw [h.step, if_neg (by omega), hz, bind_ok']
        cases hc : r.agarr[0]? with
        | none => rfl
        | some o' =>
          cases o' with
          | none => rfl
          | some c =>
            obtain ⟨nm, id', hm, _, _, e2⟩ := h.mem_cell hr hc
            rw [hpos nm id' hm] at e2
            have := Nat.div_pos (show opt.idStep ≤ id' + opt.idStep - 1 by have := hp _ _ hm; omega) h0
            omega
    have hno : ∀ nm id', (nm, id') ∈ r.dict.dict → ¬ Block opt.idStep id id' := by
      intro nm id' hm hb
      have h1 := hblk nm id' hm hb
      obtain ⟨k, h2, _⟩ := hb
      refine hw ⟨by omega, ?_, by omega⟩
      unfold badId idMod at *
      omega
    rw [hg]
    constructor
    · intro e
      cases e
      exact .inr ⟨hno, rfl⟩
    · rintro (⟨nm, id', hm, hb, _⟩ | ⟨_, rfl⟩)
      · exact absurd hb (hno nm id' hm)
      · rfl

/-- The operation with another id. -/
def RegOp.redirect (id' : Nat) : RegOp → RegOp
  | .addId _ clk1 clk2 now v count => .addId id' clk1 clk2 now v count
  | .pop _ => .pop id'
  | .forcePop _ => .forcePop id'
  | .pusherId _ handler => .pusherId id' handler
  | .direct _ op => .direct id' op
  | op => op

/-- The answer to an operation with an id nobody has. -/
def RegOp.refusal : RegOp → Resp
  | .addId .. => .bool false
  | .pop _ => .record none
  | .forcePop _ => .record none
  | .pusherId .. => .pusher none
  | _ => .handed []

theorem step_redirect {env : Env} {op : RegOp} {id id' : Nat} (ht : op.target = some id) (hg : r.getAggregator id = r.getAggregator id') :
    r.step env op = r.step env (op.redirect id') := by
  cases op <;> simp only [RegOp.target, Option.some.injEq, reduceCtorEq] at ht <;> subst ht
  · simp only [step, RegOp.redirect, Registry.addId, hg]
  · simp only [step, RegOp.redirect, Registry.pop, hg]
  · simp only [step, RegOp.redirect, Registry.forcePop, hg]
  · simp only [step, RegOp.redirect, Registry.pusherId, hg]
  · simp only [step, RegOp.redirect, hg]

theorem step_refused {env : Env} {op : RegOp} {id : Nat} (ht : op.target = some id) (hg : r.getAggregator id = .ok none) :
    r.step env op = .ok (op.refusal, r) := by
  cases op <;> simp only [RegOp.target, Option.some.injEq, reduceCtorEq] at ht <;> subst ht
  · simp [step, RegOp.refusal, Registry.addId, hg, bind_ok']
  · simp [step, RegOp.refusal, Registry.pop, hg, bind_ok']
  · simp [step, RegOp.refusal, Registry.forcePop, hg, bind_ok']
  · simp [step, RegOp.refusal, Registry.pusherId, hg, bind_ok']
  · simp [step, RegOp.refusal, hg, bind_ok']

/-! ### C30 -/

/-- For every 64-bit id: an operation with it does what it does with the live id of the same block of `id_step` ids, of which there is
at most one, and is refused exactly if there is none. -/
theorem C30_exact_partial (env : Env) (opt : RegistryOpts) (ops : List RegOp) (o : RObs) (hr : Room opt ops.length)
    (h : rexecAll env { r := Registry.new opt } ops = .ok o) (id : Nat) (hid : id < 2 ^ 64) :
    (∀ id' id'', o.r.getName id' ≠ [] → o.r.getName id'' ≠ [] → Block opt.idStep id id' → Block opt.idStep id id'' → id' = id'') ∧
    (∀ id', o.r.getName id' ≠ [] → Block opt.idStep id id' → ∀ op, RegOp.target op = some id →
      o.r.step env op = o.r.step env (op.redirect id')) ∧
    ((∀ op, RegOp.target op = some id → o.r.step env op = .ok (op.refusal, o.r)) ↔
      ∀ id', o.r.getName id' ≠ [] → ¬ Block opt.idStep id id') := by
  have hi := inv_execAll (env := env) ops (o := { r := Registry.new opt }) (rinv_new opt) (hr.mono (by omega)) h
  rw [Nat.zero_add] at hi
  have hp : ∀ nm id, (nm, id) ∈ o.r.dict.dict → 0 < id := fun nm id hm => by
    have := (beyond_execAll ops hr h).1 id (.inr (List.mem_map.2 ⟨_, hm, rfl⟩))
    omega
  have hl : ∀ {id' : Nat}, o.r.getName id' ≠ [] → (o.r.getName id', id') ∈ o.r.dict.dict := fun h0 => (getName_live hi h0).1 rfl
  have hb := hi.bound hr
  have hlt : ∀ {id' : Nat}, o.r.getName id' ≠ [] → id' < 2 ^ 64 := fun h0 => by
    have := (hi.id_form (hl h0)).2
    unfold idMod at hb
    omega
  have hself : ∀ {id' : Nat}, o.r.getName id' ≠ [] → Block opt.idStep id' id' := fun h0 => (block_iff hr.1 (hp _ _ (hl h0))).2 rfl
  have hget : ∀ id', o.r.getName id' ≠ [] → Block opt.idStep id id' → ∃ c, o.r.getAggregator id = .ok (some c) ∧
      o.r.getAggregator id' = .ok (some c) := by
    intro id' h0 hbl
    obtain ⟨c, h1, _, h2, _⟩ := hi.cellOf_live hr (hl h0)
    exact ⟨c, (hi.get_any hp hr hid _).2 (.inl ⟨_, id', hl h0, hbl, h1.symm⟩), h2⟩
  refine ⟨?_, ?_, ?_⟩
  · intro id' id'' h1 h2 b1 b2
    have e1 := (block_iff hr.1 (hp _ _ (hl h1))).1 b1
    have e2 := (block_iff hr.1 (hp _ _ (hl h2))).1 b2
    have f1 := (hi.id_form (hl h1)).1
    have f2 := (hi.id_form (hl h2)).1
    exact block_form ((block_iff hr.1 (hp _ _ (hl h2))).2 (by omega)) (by omega)
  · intro id' h0 hbl op ht
    obtain ⟨c, h1, h2⟩ := hget id' h0 hbl
    exact step_redirect ht (h1.trans h2.symm)
  · constructor
    · intro hx id' h0 hbl
      obtain ⟨c, h1, _⟩ := hget id' h0 hbl
      have := hx (.pusherId id false) rfl
      simp [step, Registry.pusherId, h1, bind_ok', RegOp.refusal] at this
    · intro hno op ht
      refine step_refused ht ((hi.get_any hp hr hid _).2 (.inr ⟨?_, rfl⟩))
      intro nm id' hm
      refine hno id' ?_
      rw [(getName_live hi (hi.nonempty _ hm)).2 hm]
      exact hi.nonempty _ hm

/-! ### C29 -/

/-- Every operation that is not addressed to a live name, and whose id, if it takes one, is not in the block of the id of the name,
leaves its aggregator as it is.  (An id in the block counts as the id of the name: `C30_exact_partial`.) -/
theorem C29_exact_partial (env : Env) (opt : RegistryOpts) (ops : List RegOp) (o : RObs) (hr : Room opt ops.length)
    (h : rexecAll env { r := Registry.new opt } ops = .ok o) (name : Name) (nid : Nat) (c : Cell) (op : RegOp) (resp : Resp)
    (r' : Registry) (hc : o.r.cellOf name = some c) (hn : o.r.getName nid = name) (hna : ¬ op.addresses o.r name)
    (ht : ∀ id, op.target = some id → id < 2 ^ 64 ∧ ¬ Block opt.idStep id nid)
    (hs : o.r.step env op = .ok (resp, r')) : r'.cellOf name = some c := by
  have hi := inv_execAll (env := env) ops (o := { r := Registry.new opt }) (rinv_new opt) (hr.mono (by omega)) h
  rw [Nat.zero_add] at hi
  obtain ⟨_, hm0, _, _⟩ := hi.cellOf_some hr hc
  have h0 : name ≠ [] := hi.nonempty _ hm0
  cases htg : op.target with
  | none => exact C29_step_partial env opt ops o hr h name c op resp r' (by intro id hx; rw [htg] at hx; cases hx) hc hna hs
  | some id =>
    obtain ⟨h64, hnb⟩ := ht id htg
    obtain ⟨e1, e2, e3⟩ := C30_exact_partial env opt ops o hr h id h64
    by_cases hex : ∃ id', o.r.getName id' ≠ [] ∧ Block opt.idStep id id'
    · obtain ⟨id', g1, g2⟩ := hex
      rw [e2 id' g1 g2 op htg] at hs
      have hne : o.r.getName id' ≠ name := by
        intro e
        have m1 := (getName_live hi h0).1 e
        have m2 := (getName_live hi h0).1 hn
        rw [hi.name_eq m1 m2] at g2
        exact hnb g2
      refine C29_step_partial env opt ops o hr h name c (op.redirect id') resp r' ?_ hc ?_ hs
      · intro i hx
        have hii : i = id' := by
          cases op <;> simp only [RegOp.target, Option.some.injEq, reduceCtorEq] at htg <;>
            simpa [RegOp.redirect, RegOp.target] using hx.symm
        subst hii
        obtain ⟨f1, f2⟩ := hi.id_form ((getName_live hi g1).1 rfl)
        have := hi.bound hr
        exact .inr ⟨f1, by omega⟩
      · cases op <;> simp only [RegOp.target, Option.some.injEq, reduceCtorEq] at htg <;>
          simp only [RegOp.redirect, RegOp.addresses] <;> first | exact hne | exact fun hf => hf
    · have := e3.2 (fun id' g1 g2 => hex ⟨id', g1, g2⟩) op htg
      rw [this] at hs
      cases hs
      exact hc

/-- In the example the ids 6 to 10 count as 7, the id of "c"; the ids 11 to 15 as 12; all others are refused. -/
example : (List.range 18).map (fun id => match exRObs.r.step exactEnv (.addId id 0 0 1004 9 1) with
      | .ok (.bool true, r') => (r'.cellOf ['b']).map (fun c => c.agg.sep.reducer.totalCount)
      | _ => none) =
    [none, none, none, none, none, none, some 2, some 2, some 2, some 2, some 2, some 3, some 3, some 3, some 3, some 3, none, none] := by
  decide +kernel

/-! ### C34 -/

/-- A summary that creates an aggregator is accepted exactly if its time is not aligned to 0, or no resolution is set, or the clock itself
is still in the first window of all. -/
theorem C34_exact_partial (env : Env) (opt : RegistryOpts) (ops : List RegOp) (o : RObs) (hr : Room opt ops.length) (hs : 0 < opt.step)
    (h : rexecAll env { r := Registry.new opt } ops = .ok o) (q : Ask) (name : Name) (c1 c2 : Int) (rd : ReducedData)
    (hen : o.r.enabled = true) (hin : o.r.hasInit = false) (h0 : name ≠ []) (hn : o.r.cellOf name = none)
    (hra : 0 ≤ q.rand ∧ q.rand < 2 ^ 31) (hq1 : 0 ≤ q.clk) (hq2 : q.clk ≤ c1) (hq3 : c1 ≤ c2) :
    ∃ b r1, o.r.addData env q name c1 c2 rd = .ok (b, r1) ∧
      (b = true ↔ opt.resolution = .none ∨ align opt.step (meant opt.resolution c1 rd.ts) ≠ 0 ∨ align opt.step c2 = 0) := by
  by_cases hts : opt.resolution = .none ∨ align opt.step (meant opt.resolution c1 rd.ts) ≠ 0 ∨ align opt.step c2 = 0
  · obtain ⟨r1, c, k, _⟩ := C34_first_partial env opt ops o hr hs h q name c1 c2 rd hen hin h0 hn hra hq1 hq2 hq3 hts
    exact ⟨true, r1, k, fun _ => hts, fun _ => rfl⟩
  have hres : opt.resolution ≠ .none := fun e => hts (.inl e)
  have hz : align opt.step (meant opt.resolution c1 rd.ts) = 0 := by
    by_contra e; exact hts (.inr (.inl e))
  have hc2 : 0 < align opt.step c2 := by
    have : align opt.step c2 ≠ 0 := fun e => hts (.inr (.inr e))
    have : 0 ≤ align opt.step c2 := by
      unfold align
      exact Int.mul_nonneg (Int.tdiv_nonneg (by omega) (by omega)) (by omega)
    omega
  have hi := inv_execAll (env := env) ops (o := { r := Registry.new opt }) (rinv_new opt) (hr.mono (by omega)) h
  rw [Nat.zero_add] at hi
  have hn' : name ∉ o.r.dict.dict.map Prod.fst := by
    intro hm
    obtain ⟨⟨nm, id⟩, hm1, he⟩ := List.mem_map.1 hm
    simp only at he
    subst he
    obtain ⟨c, k, _⟩ := hi.cellOf_live hr hm1
    rw [hn] at k
    cases k
  obtain ⟨a0, ha0⟩ : ∃ a0, Aggregator.new opt.toAggregatorOpts q.clk q.rand rd.ts = .ok a0 := by
    unfold Aggregator.new Separator.new
    rw [Separator.getTs_eq (by omega)]
    exact ⟨_, rfl⟩
  have hco : construct env o.r q rd.ts = .ok a0 := by
    unfold construct
    rw [hi.ropt, ha0]
    simp [bind_ok', hen, hin]
  obtain ⟨id, r1, e1, e2, e3⟩ := create_total hi hr hn' h0 hco
  obtain ⟨a1, k1⟩ := Aggregator.add_new_late (env := env) (c1 := c1) (c2 := c2) (x := .reduced rd) hs hra ha0
    (.inr (.inr hq2)) hres hz hc2
  refine ⟨false, r1.update o.r.nextRef a1, ?_, by simp [hts]⟩
  unfold addData
  rw [e1]
  simp only [bind_ok']
  rw [e3]
  simp only [bind_ok', k1]

/-- Step 10: a summary of time 5 is accepted at time 9, and not at time 10. -/
example : (match (Registry.new exROpt).addData exactEnv { clk := 9 } ['d'] 9 9 { ts := 5, count := 4, data := [1] } with
      | .ok (b, _) => b | .error _ => false) = true ∧
    (match (Registry.new exROpt).addData exactEnv { clk := 9 } ['d'] 9 10 { ts := 5, count := 4, data := [1] } with
      | .ok (b, _) => b | .error _ => true) = false := by decide +kernel

end Registry
end Wrtstat
