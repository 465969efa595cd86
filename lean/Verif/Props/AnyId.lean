/-
C168: the folio without exception: ids of any form.
-/
import Verif.Props.Folio
import Verif.Props.ExactRegistry

namespace Wrtstat

set_option autoImplicit false

open Aggregator (AOp)

namespace Registry

/-- The id the registry takes for the id given: among `id_step` consecutive ids, counted from 1, the one of the form that is given out; none for 0 and
beyond the last block. -/
def regular (opt : RegistryOpts) (id : Nat) : Nat :=
  if id = 0 then badId
  else
    let i := (id - 1) / opt.idStep * opt.idStep + (if opt.idInit % opt.idStep = 0 then opt.idStep else opt.idInit % opt.idStep)
    if i + opt.idStep ≤ idMod then i else badId

/-- The operation with the id the registry takes for the one given. -/
def RegOp.regular (opt : RegistryOpts) (op : RegOp) : RegOp :=
  match op.target with
  | none => op
  | some id => op.redirect (Registry.regular opt id)

/-- Ids are 64-bit numbers. -/
def RegOp.word (op : RegOp) : Prop := ∀ id, op.target = some id → id < 2 ^ 64

variable {env : Env} {opt : RegistryOpts} {n : Nat} {r : Registry}

theorem RegOp.redirect_target {op : RegOp} {id : Nat} (h : op.target = some id) (id' : Nat) : (op.redirect id').target = some id' := by
  cases op <;> simp only [RegOp.target, reduceCtorEq] at h <;> rfl

theorem regular_ok (id : Nat) : IdOk opt (regular opt id) := by
  unfold regular
  by_cases h1 : id = 0
  · rw [if_pos h1]; exact .inl rfl
  rw [if_neg h1]
  dsimp only
  generalize (id - 1) / opt.idStep = k
  by_cases h2 : k * opt.idStep + (if opt.idInit % opt.idStep = 0 then opt.idStep else opt.idInit % opt.idStep) + opt.idStep ≤ idMod
  · rw [if_pos h2]
    refine .inr ⟨?_, h2⟩
    split_ifs with h3
    · rw [Nat.add_mod_right, Nat.mul_mod_left, h3]
    · rw [Nat.mul_add_mod_self_right, Nat.mod_mod]
  · rw [if_neg h2]; exact .inl rfl

theorem RegOp.regular_idOk (op : RegOp) : (op.regular opt).idOk opt := by
  intro id hid
  unfold RegOp.regular at hid
  cases ht : op.target with
  | none => rw [ht] at hid; rw [ht] at hid; cases hid
  | some i =>
    rw [ht] at hid
    simp only [RegOp.redirect_target ht, Option.some.injEq] at hid
    subst hid
    exact regular_ok i

/-- A live id in the block of an id is the one the registry takes for it. -/
theorem block_regular (h0 : 0 < opt.idStep) {id id' : Nat} (hb : Block opt.idStep id id') (hf : id' % opt.idStep = opt.idInit % opt.idStep)
    (hm : id' + opt.idStep ≤ idMod) : regular opt id = id' := by
  obtain ⟨k, h1, h2, h3, h4⟩ := hb
  have hk : (id - 1) / opt.idStep = k := by
    rw [Nat.div_eq_iff (by omega)]
    rw [Nat.add_mul, Nat.one_mul] at h2
    omega
  have hi : k * opt.idStep + (if opt.idInit % opt.idStep = 0 then opt.idStep else opt.idInit % opt.idStep) = id' := by
    rw [← hf]
    obtain ⟨d, rfl⟩ := Nat.exists_eq_add_of_lt h3
    rw [Nat.add_mul, Nat.one_mul] at h4
    have hd : d + 1 ≤ opt.idStep := by omega
    rw [Nat.add_assoc, Nat.mul_add_mod_self_right]
    congr 1
    rcases Nat.lt_or_ge (d + 1) opt.idStep with h | h
    · rw [Nat.mod_eq_of_lt h, if_neg (by omega)]
    · have : d + 1 = opt.idStep := by omega
      rw [this, Nat.mod_self, if_pos rfl]
  unfold regular
  rw [if_neg (by omega), hk]
  dsimp only
  rw [hi, if_pos hm]

theorem regular_block (h0 : 0 < opt.idStep) {id : Nat} (hn : regular opt id ≠ badId) : Block opt.idStep id (regular opt id) ∧ regular opt id < 2 ^ 64 := by
  unfold regular at hn ⊢
  by_cases h1 : id = 0
  · rw [if_pos h1] at hn; exact absurd rfl hn
  rw [if_neg h1] at hn ⊢
  dsimp only at hn ⊢
  by_cases h2 : (id - 1) / opt.idStep * opt.idStep + (if opt.idInit % opt.idStep = 0 then opt.idStep else opt.idInit % opt.idStep) + opt.idStep ≤ idMod
  · rw [if_pos h2]
    have hd := Nat.div_add_mod (id - 1) opt.idStep
    rw [Nat.mul_comm] at hd
    have hl := Nat.mod_lt (id - 1) h0
    have hc := Nat.mod_lt opt.idInit h0
    refine ⟨⟨(id - 1) / opt.idStep, by omega, by rw [Nat.add_mul]; omega, ?_, ?_⟩, ?_⟩
    · split_ifs <;> omega
    · rw [Nat.add_mul]; split_ifs <;> omega
    · unfold idMod at h2; omega
  · rw [if_neg h2] at hn; exact absurd rfl hn

/-- `get_aggregator` takes an id for its regular one. -/
theorem get_regular (hi : RInv opt n r) (hp : ∀ nm id, (nm, id) ∈ r.dict.dict → 0 < id) (hr : Room opt n) {id : Nat} (hid : id < 2 ^ 64) :
    r.getAggregator id = r.getAggregator (regular opt id) := by
  have h0 := hr.1
  have hbd := hi.bound hr
  by_cases hex : ∃ nm id', (nm, id') ∈ r.dict.dict ∧ Block opt.idStep id id'
  · obtain ⟨nm, id', hm, hb⟩ := hex
    obtain ⟨f1, f2⟩ := hi.id_form hm
    rw [block_regular h0 hb f1 (by omega)]
    obtain ⟨c, h1, -, h2, -⟩ := hi.cellOf_live hr hm
    rw [h2]
    exact (hi.get_any hp hr hid _).2 (.inl ⟨nm, id', hm, hb, h1.symm⟩)
  · have e : r.getAggregator id = .ok none :=
      (hi.get_any hp hr hid _).2 (.inr ⟨fun nm id' hm hb => hex ⟨nm, id', hm, hb⟩, rfl⟩)
    rw [e]
    by_cases hn : regular opt id = badId
    · rw [hn]; simp [getAggregator]
    · obtain ⟨k1, k2⟩ := regular_block h0 hn
      refine ((hi.get_any hp hr k2 _).2 (.inr ⟨fun nm id' hm hb => hex ⟨nm, id', hm, ?_⟩, rfl⟩)).symm
      have hpos := hp _ _ hm
      have hpos1 : 0 < regular opt id := by obtain ⟨k, _, _, h3, _⟩ := k1; omega
      rw [block_iff h0 hpos] at hb ⊢
      rw [block_iff h0 hpos1] at k1
      rw [k1, hb]

theorem step_regular (hi : RInv opt n r) (hp : ∀ nm id, (nm, id) ∈ r.dict.dict → 0 < id) (hr : Room opt n) {op : RegOp} (hw : op.word) :
    r.step env op = r.step env (op.regular opt) := by
  unfold RegOp.regular
  cases ht : op.target with
  | none => rfl
  | some id => exact step_redirect ht (get_regular hi hp hr (hw id ht))

end Registry

open Registry Aggregator

/-! ### C168 -/

theorem regular_hyps {env : Env} {opt : RegistryOpts} {ops : List RegOp} {o : RObs} (hr : Room opt ops.length)
    (h : rexecAll env { r := Registry.new opt } ops = .ok o) :
    RInv opt ops.length o.r ∧ ∀ nm id, (nm, id) ∈ o.r.dict.dict → 0 < id := by
  have hi := inv_execAll (env := env) ops (o := { r := Registry.new opt }) (rinv_new opt) (hr.mono (by omega)) h
  rw [Nat.zero_add] at hi
  refine ⟨hi, fun nm id hm => ?_⟩
  have := (beyond_execAll ops hr h).1 id (.inr (List.mem_map.2 ⟨_, hm, rfl⟩))
  have := hr.1
  omega

/-- An operation with any 64-bit id is the operation with its regular id: the same answer, the same state, the same fault. -/
theorem C168_step (env : Env) (opt : RegistryOpts) (ops : List RegOp) (o : RObs) (hr : Room opt ops.length)
    (h : rexecAll env { r := Registry.new opt } ops = .ok o) (op : RegOp) (hw : op.word) :
    o.r.step env op = o.r.step env (op.regular opt) := by
  obtain ⟨hi, hp⟩ := regular_hyps hr h
  exact step_regular hi hp hr hw

/-- A history with any ids leaves the registry as the history with their regular ids does. -/
theorem C168_history (env : Env) (opt : RegistryOpts) (ops : List RegOp) : ∀ (o : RObs), Room opt ops.length → (∀ op ∈ ops, op.word) →
    rexecAll env { r := Registry.new opt } ops = .ok o →
    ∃ o', rexecAll env { r := Registry.new opt } (ops.map (RegOp.regular opt)) = .ok o' ∧ o'.r = o.r := by
  induction ops using List.reverseRecOn with
  | nil => intro o _ _ h; cases h; exact ⟨_, rfl, rfl⟩
  | append_singleton ops op ih =>
    intro o hr hw h
    rw [List.length_append] at hr
    unfold rexecAll at h ih ⊢
    rw [List.foldlM_append] at h
    obtain ⟨o1, h1, h2⟩ := bind_inv h
    obtain ⟨o1', k1, k2⟩ := ih o1 (hr.mono (by omega)) (fun op ho => hw op (by simp [ho])) h1
    simp only [List.foldlM_cons, List.foldlM_nil] at h2
    obtain ⟨o2, h3, h4⟩ := bind_inv h2
    cases h4
    unfold rexec at h3
    obtain ⟨⟨resp, r1⟩, h5, h6⟩ := bind_inv h3
    cases h6
    rw [C168_step env opt ops o1 (hr.mono (by omega)) h1 op (hw op (by simp)), ← k2] at h5
    rw [List.map_append, List.foldlM_append, k1]
    simp only [bind_ok', List.map_cons, List.map_nil, List.foldlM_cons, List.foldlM_nil, rexec, h5]
    exact ⟨_, rfl, rfl⟩

/-- The folio of the regular ids gives every answer, whatever the ids. -/
theorem C168_answers (env : Env) (opt : RegistryOpts) (ops : List RegOp) (o : RObs) (hs : 0 < opt.step) (hr : Room opt (ops.length + 1))
    (hw : ∀ op ∈ ops, op.word) (h : rexecAll env { r := Registry.new opt } ops = .ok o) (op : RegOp) (hop : op.word) (resp : Resp)
    (r' : Registry) (hstep : o.r.step env op = .ok (resp, r')) :
    (folio opt (ops.map (RegOp.regular opt))).Answers env opt (op.regular opt) resp := by
  have hr0 : Room opt ops.length := hr.mono (by omega)
  obtain ⟨o', h1, h2⟩ := C168_history env opt ops o hr0 hw h
  rw [C168_step env opt ops o hr0 h op hop, ← h2] at hstep
  refine C164_answers env opt _ o' hs (by rw [List.length_map]; exact hr) ?_ h1 _ (RegOp.regular_idOk op) resp r' hstep
  intro x hx
  obtain ⟨y, -, rfl⟩ := List.mem_map.1 hx
  exact RegOp.regular_idOk y

/-- The leaves of this folio are the aggregators of the registry. -/
theorem C168_folio (env : Env) (opt : RegistryOpts) (ops : List RegOp) (o : RObs) (hs : 0 < opt.step) (hr : Room opt ops.length)
    (hw : ∀ op ∈ ops, op.word) (h : rexecAll env { r := Registry.new opt } ops = .ok o) :
    let F := folio opt (ops.map (RegOp.regular opt))
    (∀ nm, (o.r.cellOf nm).isSome = (F.leaf nm).isSome) ∧ o.r.enabled = F.en ∧ o.r.hasInit = F.init ∧
    ∀ nm L, F.leaf nm = some L → o.r.getName L.id = nm ∧ ∃ c, o.r.cellOf nm = some c ∧ c.ref = L.ref ∧
      Tell env opt.toAggregatorOpts L.book.queue c.agg.agList ∧
      Tell env opt.toAggregatorOpts L.book.tray c.agg.sep.sepList ∧ c.agg.sep.currentTime = L.book.begins ∧ c.agg.enabled = L.book.en := by
  intro F
  obtain ⟨o', h1, h2⟩ := C168_history env opt ops o hr hw h
  obtain ⟨k1, k2, k3, k4⟩ := C164_folio env opt _ o' hs (by rw [List.length_map]; exact hr) (by
    intro x hx
    obtain ⟨y, -, rfl⟩ := List.mem_map.1 hx
    exact RegOp.regular_idOk y) h1
  rw [h2] at k1 k2 k3 k4
  refine ⟨k1, k2, k3, fun nm L hL => ?_⟩
  obtain ⟨g1, c, g2, g3, -, g4⟩ := k4 nm L hL
  exact ⟨g1, c, g2, g3, g4⟩

/-- Ids 7 and 12 are live, with `id_step` 5: an event for 9 is one for 7, one for 11 or 15 is one for 12, and 3 is taken for 2, which nobody has. -/
example : exROpt.idStep = 5 ∧ regular exROpt 9 = 7 ∧ regular exROpt 11 = 12 ∧ regular exROpt 12 = 12 ∧ regular exROpt 15 = 12 ∧ regular exROpt 3 = 2 ∧
    regular exROpt 0 = badId ∧ regular exROpt badId = badId := by decide +kernel

end Wrtstat
