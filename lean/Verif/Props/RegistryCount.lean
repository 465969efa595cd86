/-
How many ids and positions a registry uses: C91.

`living` is the number of aggregators in the array of the registry.
-/
import Verif.Lemmas.RegistryCount
import Verif.Model.Instances

namespace Wrtstat
namespace Registry

set_option autoImplicit false

variable {env : Env} {opt : RegistryOpts}

/-- The claim: `aggregators_count()` is the number of aggregators. -/
def C91_FullClaim (env : Env) : Prop :=
  ∀ (opt : RegistryOpts) (ops : List RegOp) (o : RObs), Room opt ops.length →
    rexecAll env { r := Registry.new opt } ops = .ok o → o.r.aggregatorsCount = o.r.living

/-- One name. -/
def exCreateOne : List RegOp := [.create {} ['a'] 5]

/-- Four names, never more than two at a time. -/
def exCreateDel : List RegOp :=
  [.create {} ['a'] 5, .create {} ['b'] 5, .del ['a'], .del ['b'], .create {} ['c'] 6, .create { pick := 1 } ['d'] 6, .del ['c']]

/-- What is left of a run: the count, the living, the ids. -/
def sizes (o : M RObs) : M (Nat × Nat × List (Name × Nat)) := (fun o => (o.r.aggregatorsCount, o.r.living, o.r.dict.dict)) <$> o

theorem exCreateOne_sizes : sizes (rexecAll exactEnv { r := Registry.new {} } exCreateOne) = .ok (2, 1, [(['a'], 1)]) := by
  decide +kernel

/-- One aggregator and a count of two: position 0 is never used with the default options. -/
theorem C91_refuted : ¬ C91_FullClaim exactEnv := by
  intro h
  have h1 := exCreateOne_sizes
  cases e : rexecAll exactEnv { r := Registry.new {} } exCreateOne with
  | error f => rw [e] at h1; cases h1
  | ok o =>
    rw [e] at h1
    have h2 := h {} exCreateOne o (by decide +kernel) e
    have h3 : (o.r.aggregatorsCount, o.r.living, o.r.dict.dict) = (2, 1, [(['a'], 1)]) := Except.ok.inj h1
    rw [Prod.mk.injEq, Prod.mk.injEq] at h3
    omega

/-- The largest number of aggregators there has been at a time. -/
def IsPeak (env : Env) (opt : RegistryOpts) (ops : List RegOp) (k : Nat) : Prop :=
  (∃ pre o, pre <+: ops ∧ rexecAll env { r := Registry.new opt } pre = .ok o ∧ o.r.living = k) ∧
  ∀ pre o, pre <+: ops → rexecAll env { r := Registry.new opt } pre = .ok o → o.r.living ≤ k

theorem used_execAll (ops : List RegOp) : ∀ {o : RObs}, Room opt ops.length →
    rexecAll env { r := Registry.new opt } ops = .ok o → ∃ k, Used opt k o.r ∧ IsPeak env opt ops k := by
  induction ops using List.reverseRecOn with
  | nil =>
    intro o _ h
    cases h
    refine ⟨0, used_new opt, ⟨[], _, List.prefix_rfl, rfl, rfl⟩, ?_⟩
    intro pre o hp h
    rw [List.prefix_nil] at hp
    subst hp
    cases h
    exact le_rfl
  | append_singleton ops op ih =>
    intro o hr h
    have h' := h
    rw [rexecAll_append] at h
    obtain ⟨o1, h1, h2⟩ := bind_inv h
    obtain ⟨o2, h3, h4⟩ := rexecAll_cons h2
    cases h4
    obtain ⟨resp, h5, -⟩ := rexec_inv h3
    rw [List.length_append, List.length_singleton] at hr
    have hr0 : Room opt ops.length := hr.mono (by omega)
    obtain ⟨k, hu, ⟨pre, o0, hp, e0, hl⟩, hm⟩ := ih hr0 h1
    have hi : RInv opt ops.length o1.r := by
      have := inv_execAll ops (n := 0) (rinv_new opt) (by rwa [Nat.zero_add]) h1
      rwa [Nat.zero_add] at this
    have hi2 : RInv opt (ops.length + 1) o.r := (eff_any hi hr0 h5).1
    have all : ∀ m, k ≤ m → o.r.living ≤ m → ∀ pre o', pre <+: ops ++ [op] →
        rexecAll env { r := Registry.new opt } pre = .ok o' → o'.r.living ≤ m := by
      intro m h1 h2 pre o' hp e
      rcases List.prefix_concat_iff.1 (by simpa using hp) with rfl | hp
      · have e' : rexecAll env { r := Registry.new opt } (ops ++ [op]) = .ok o' := by simpa using e
        rw [h'] at e'
        cases e'
        exact h2
      · exact (hm pre o' hp e).trans h1
    rcases hu.step hi hr0 h5 with hu' | ⟨hu', hd⟩
    · refine ⟨k, hu', ⟨pre, o0, hp.trans (List.prefix_append _ _), e0, hl⟩, all k le_rfl ?_⟩
      rw [living_eq hi2]
      have := hu'.count
      omega
    · have hl : o.r.living = k + 1 := by rw [living_eq hi2, hd]
      exact ⟨k + 1, hu', ⟨ops ++ [op], o, List.prefix_rfl, h', hl⟩, all (k + 1) (by omega) (by omega)⟩

theorem posOf_ceil {step i k : Nat} (h0 : 0 < step) : posOf step (i % step) (i + k * step) = (i + step - 1) / step + k := by
  unfold posOf
  have h1 := Nat.div_add_mod i step
  have h2 : i + step - 1 = (i % step + step - 1) + step * (i / step) := by omega
  rw [h2, Nat.add_mul_div_left _ _ h0, Nat.add_mul_div_right _ _ h0]
  omega

/-- What `aggregators_count()` tells: with the largest number `k` of aggregators there has been at a time, it is 0 if `k` is,
and otherwise `k`, one, and the positions in front of the first id.  So it never goes down, and creating and removing does
not make it grow.  Missing: that it is the number of aggregators, which is false. -/
theorem C91_count_partial {ops : List RegOp} {o : RObs} (hr : Room opt ops.length)
    (h : rexecAll env { r := Registry.new opt } ops = .ok o) :
    ∃ k, IsPeak env opt ops k ∧
      o.r.aggregatorsCount = if k = 0 then 0 else k + (opt.idInit + opt.idStep - 1) / opt.idStep + 1 := by
  obtain ⟨k, hu, hk⟩ := used_execAll ops hr h
  refine ⟨k, hk, ?_⟩
  have := hu.len
  rw [hu.counter, posOf_ceil hr.1] at this
  unfold aggregatorsCount
  rw [this]
  split
  · rfl
  · omega

/-- It is never less than the number of aggregators. -/
theorem C91_enough (r : Registry) : r.living ≤ r.aggregatorsCount := List.countP_le_length

/-- Ids are used again before new ones are made: no id in use is beyond the one for the largest number of aggregators there
has been at a time. -/
theorem C91_ids {ops : List RegOp} {o : RObs} (hr : Room opt ops.length)
    (h : rexecAll env { r := Registry.new opt } ops = .ok o) {N : Nat}
    (hN : ∀ pre o', pre <+: ops → rexecAll env { r := Registry.new opt } pre = .ok o' → o'.r.living ≤ N) (id : Nat)
    (hid : o.r.getName id ≠ []) : id ≤ opt.idInit + N * opt.idStep := by
  obtain ⟨k, hu, ⟨pre, o0, hp, e0, hl⟩, -⟩ := used_execAll ops hr h
  have hi : RInv opt ops.length o.r := by
    have := inv_execAll ops (n := 0) (rinv_new opt) (by rwa [Nat.zero_add]) h
    rwa [Nat.zero_add] at this
  have hk : k ≤ N := hl ▸ hN pre o0 hp e0
  cases hx : o.r.dict.index.lookup id with
  | none => exact absurd (by simp [getName, Dict.getName, hx]) hid
  | some nm =>
    have := (hi.id_form (hi.index_lookup.1 hx)).2
    rw [hu.counter] at this
    exact this.trans (Nat.add_le_add_left (Nat.mul_le_mul_right _ hk) _)

/-- Two aggregators at most, at any time, out of four: the count stays at three and the ids at two. -/
example : sizes (rexecAll exactEnv { r := Registry.new {} } exCreateDel) = .ok (3, 1, [(['d'], 1)]) := by decide +kernel

/-- Ids from 10 in steps of 4: four positions are never used. -/
example : sizes (rexecAll exactEnv { r := Registry.new { idInit := 10, idStep := 4 } } (exCreateDel.take 2)) =
    .ok (6, 2, [(['b'], 18), (['a'], 14)]) := by decide +kernel

end Registry
end Wrtstat
