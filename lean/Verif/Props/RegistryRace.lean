/-
C74: the registry calls that take a name are two critical sections, one that creates the id and one that looks the
aggregator up.
-/
import Verif.Props.Registry
import Verif.Lemmas.MultiTotal

namespace Wrtstat
namespace Registry

set_option autoImplicit false

/-- The claim, for the operations that other threads make between the two: the aggregator found is the one of the name. -/
def C74_FullClaim (P : Name → List RegOp → Prop) : Prop :=
  ∀ (env : Env) (opt : RegistryOpts) (ops ops' : List RegOp) (o o' : RObs) (q : Ask) (name : Name) (now : Int) (id : Nat)
    (r1 : Registry) (c : Cell), P name ops' → Room opt (ops.length + 1 + ops'.length) →
    rexecAll env { r := Registry.new opt } ops = .ok o → o.r.createAggregator env q name now = .ok (id, r1) →
    rexecAll env { r := r1 } ops' = .ok o' → o'.r.getAggregator id = .ok (some c) → o'.r.cellOf name = some c

/-- If the name is removed and its id given to another name, the data of the call goes to the other name. -/
theorem C74_refuted : ¬ C74_FullClaim (fun _ _ => True) := by
  intro h
  have hw : Passes (do
      let (id, r1) ← (Registry.new exROpt).createAggregator exactEnv {} ['a'] 1003
      let o' ← rexecAll exactEnv { r := r1 } [.del ['a'], .create {} ['b'] 1003]
      let c ← o'.r.getAggregator id
      .ok (id, r1, o', c) : M (Nat × Registry × RObs × Option Cell))
      (fun x => decide (x.2.2.2.isSome = true ∧ x.2.2.2 = x.2.2.1.r.cellOf ['b'] ∧ x.2.2.1.r.cellOf ['a'] = none)) := by
    decide +kernel
  obtain ⟨⟨id, r1, o', c⟩, hx, hw⟩ := of_passes hw
  obtain ⟨⟨id1, r2⟩, e1, hx⟩ := bind_inv hx
  obtain ⟨o2, e2, hx⟩ := bind_inv hx
  obtain ⟨c2, e3, hx⟩ := bind_inv hx
  cases hx
  obtain ⟨h1, -, h3⟩ := of_decide_eq_true hw
  obtain ⟨c, rfl⟩ := Option.isSome_iff_exists.1 h1
  have := h exactEnv exROpt [] _ _ o' {} ['a'] 1003 id r1 c trivial (by decide +kernel) rfl e1 e2 e3
  simp only at h3
  rw [h3] at this
  cases this

/-- The claim holds if the name is not removed in between; there is then always an aggregator. -/
theorem C74_partial : C74_FullClaim (fun name ops' => .del name ∉ ops') := by
  intro env opt ops ops' o o' q name now id r1 c hd hr h hc h' hg
  have h0 : name ≠ [] := by
    rintro rfl
    unfold createAggregator at hc
    rw [if_pos rfl] at hc
    cases hc
    unfold getAggregator at hg
    rw [if_pos rfl] at hg
    cases hg
  have hi := inv_execAll (env := env) ops (o := { r := Registry.new opt }) (rinv_new opt) (hr.mono (by omega)) h
  rw [Nat.zero_add] at hi
  have hr0 := hr.mono (m := ops.length) (by omega)
  obtain ⟨hm, hi1⟩ : (name, id) ∈ r1.dict.dict ∧ RInv opt (ops.length + 1) r1 := by
    rcases create_cases hi hr0 hc with ⟨h1, _⟩ | ⟨hm, rfl⟩ | ⟨_, hn, hcr, hi1⟩
    · exact absurd h1 h0
    · exact ⟨hm, hi.mono (by omega)⟩
    · exact ⟨by rw [hcr.dict]; simp, hi1⟩
  have hi2 := inv_execAll ops' (o := { r := r1 }) hi1 hr h'
  have hm2 := name_execAll ops' (o := { r := r1 }) hi1 hr h' hm hd
  obtain ⟨c', k1, -, k2, -⟩ := hi2.cellOf_live hr hm2
  rw [hg] at k2
  cases k2
  exact k1

/-- Other names come and go in between. -/
example : Passes (do
      let (id, r1) ← (Registry.new exROpt).createAggregator exactEnv {} ['a'] 1003
      let o' ← rexecAll exactEnv { r := r1 } [.create {} ['b'] 1003, .del ['b'], .create {} ['c'] 1003]
      let c ← o'.r.getAggregator id
      .ok (o', c) : M (RObs × Option Cell))
    (fun x => decide (x.2.isSome = true ∧ x.2 = x.1.r.cellOf ['a'])) = true := by
  decide +kernel

end Registry
end Wrtstat
