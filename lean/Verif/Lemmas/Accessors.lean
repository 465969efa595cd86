/-
Lemmas on the initializer of a registry and on the pushers it makes.
-/
import Verif.Lemmas.Wrtstat

set_option autoImplicit false

namespace Wrtstat
namespace Aggregator

/-- Where the first window of a new aggregator starts. -/
theorem new_start {env : Env} {opt : AggregatorOpts} {clk rand now : Int} {a0 : Aggregator} (hs : 0 < opt.step)
    (hr : 0 ≤ rand ∧ rand < 2 ^ 31) (h : Aggregator.new opt clk rand now = .ok a0) :
    a0.sep.step = opt.step ∧ a0.sep.resolution = opt.resolution ∧ a0.sep.reducer = Reducer.new opt.toReducerOpts ∧
      a0.sep.sepList = [] ∧ a0.agList = [] ∧ a0.enabled = true ∧
      Reducer.GoodA env opt.toReducerOpts a0.sep.reducer [] ∧
      a0.sep.next - opt.step ≤ align opt.step (meant opt.resolution clk now) ∧
      (opt.soiled = 0 → a0.sep.next - opt.step = align opt.step (meant opt.resolution clk now)) := by
  obtain ⟨s, h1, h2⟩ := bind_inv h
  cases h2
  have hg := (Separator.sgood_new (env := env) h1).red
  simp only [eventsIn, List.filter_nil, List.map_nil] at hg
  unfold Separator.new at h1
  rw [Separator.getTs_eq (by omega)] at h1
  simp only [bind_ok'] at h1
  cases h1
  refine ⟨rfl, rfl, rfl, rfl, rfl, rfl, hg, ?_, ?_⟩
  · simp only
    split_ifs with hso
    · have : 0 ≤ (Int.bmod (rand * rand) (2 ^ 64)).tmod opt.soiled := by
        apply Int.tmod_nonneg
        have h3 : 0 ≤ rand * rand := Int.mul_nonneg hr.1 hr.1
        have h4 : rand * rand ≤ (2 ^ 31) * (2 ^ 31) :=
          Int.mul_le_mul hr.2.le hr.2.le hr.1 (by norm_num)
        rw [Int.bmod_eq_of_le (by norm_num; omega) (by norm_num at h4 ⊢; omega)]
        exact h3
      omega
    · omega
  · intro h0
    simp only [h0, ne_eq, not_true_eq_false, if_false]
    omega

/-- An event that is not older than the first window of a new aggregator. -/
theorem add_born {env : Env} {opt : AggregatorOpts} {clk rand now ts c1 c2 : Int} {a0 : Aggregator} {x : AddArg}
    (hs : 0 < opt.step) (hr : 0 ≤ rand ∧ rand < 2 ^ 31) (h : Aggregator.new opt clk rand now = .ok a0)
    (hle : align opt.step (meant opt.resolution clk now) ≤ align opt.step (meant opt.resolution c1 ts))
    (hts : opt.resolution = .none ∨ align opt.step (meant opt.resolution c1 ts) ≠ 0) :
    ∃ next, a0.add env c1 c2 ts x = .ok (true, { a0 with sep := { a0.sep with next := next, reducer := (Reducer.new opt.toReducerOpts).add env x } }) ∧
      next - opt.step ≤ align opt.step (meant opt.resolution c1 ts) ∧
      align opt.step (meant opt.resolution c1 ts) < next := by
  obtain ⟨hst, hre, hred, hl, -, he, hg, hn, -⟩ := new_start (env := env) hs hr h
  obtain ⟨⟨red, stp, nx, rsn, sl⟩, os, en, al, lv⟩ := a0
  simp only at hst hre hred hl hn hg he
  subst hst hre hred hl he
  generalize hT : align opt.step (meant opt.resolution c1 ts) = T at *
  have hT2 : align opt.step (meant opt.resolution c2 T) = T := by
    unfold meant
    rw [if_neg (by tauto), ← hT]
    exact Separator.align_idem (by omega) _
  have key : ∃ next b, Separator.separate env ⟨Reducer.new opt.toReducerOpts, opt.step, nx, opt.resolution, []⟩ c2 T
      false false = .ok (b, [], ⟨Reducer.new opt.toReducerOpts, opt.step, next, opt.resolution, []⟩) ∧
      next - opt.step ≤ T ∧ T < next := by
    unfold Separator.separate Separator.getTs
    simp only
    rw [Separator.getTs_eq (by omega), hT2]
    simp only [bind_ok', true_and]
    by_cases hlt : T < nx
    · rw [if_pos hlt]
      exact ⟨nx, false, rfl, by omega, hlt⟩
    · rw [if_neg hlt]
      obtain ⟨next', e1, e2, e3, e4, _⟩ := Separator.sepLoop_empty (ts := T) hs _ nx _ le_rfl hg
      rw [e1]
      simp only [bind_ok', Bool.false_eq_true, if_false, List.append_nil]
      exact ⟨next', true, rfl, e4 (by omega), e2⟩
  obtain ⟨next, b, k1, k2, k3⟩ := key
  refine ⟨next, ?_, k2, k3⟩
  unfold add Separator.add Separator.push Separator.getTs
  simp only
  rw [Separator.getTs_eq (by omega), hT]
  simp only [bind_ok', k1]
  rw [if_neg (by omega : ¬ T < next - opt.step)]
  simp [bind_ok', aggregate0_, pure, Except.pure]

/-- An event that is older is refused. -/
theorem add_stale {env : Env} {opt : AggregatorOpts} {clk rand now ts c1 c2 : Int} {a0 : Aggregator} {x : AddArg}
    (hs : 0 < opt.step) (hr : 0 ≤ rand ∧ rand < 2 ^ 31) (h0 : opt.soiled = 0)
    (h : Aggregator.new opt clk rand now = .ok a0)
    (hlt : align opt.step (meant opt.resolution c1 ts) < align opt.step (meant opt.resolution clk now))
    (hts : opt.resolution = .none ∨ align opt.step (meant opt.resolution c1 ts) ≠ 0) :
    a0.add env c1 c2 ts x = .ok (false, a0) := by
  obtain ⟨hst, hre, -, -, -, he, -, -, hn⟩ := new_start (env := env) hs hr h
  have hn := hn h0
  obtain ⟨⟨red, stp, nx, rsn, sl⟩, os, en, al, lv⟩ := a0
  simp only at hst hre hn he
  subst hst hre he
  generalize hT : align opt.step (meant opt.resolution c1 ts) = T at *
  have hT2 : align opt.step (meant opt.resolution c2 T) = T := by
    unfold meant
    rw [if_neg (by tauto), ← hT]
    exact Separator.align_idem (by omega) _
  unfold add Separator.add Separator.push Separator.separate Separator.getTs
  simp only
  rw [Separator.getTs_eq (by omega), hT]
  simp only [bind_ok']
  rw [Separator.getTs_eq (by omega), hT2]
  simp only [bind_ok', true_and]
  rw [if_pos (by omega : T < nx)]
  simp only [bind_ok']
  rw [if_pos (by omega : T < nx - opt.step)]
  simp [bind_ok']

end Aggregator

namespace Registry

open Aggregator (AOp AObs Trans)

variable {env : Env} {opt : RegistryOpts} {n : Nat} {r r' r'' : Registry}

theorem create_hasInit {q : Ask} {name : Name} {now : Int} {id : Nat}
    (h : r.createAggregator env q name now = .ok (id, r')) : r'.hasInit = r.hasInit := by
  unfold createAggregator at h
  split_ifs at h with h0
  · cases h; rfl
  simp only at h
  obtain ⟨p, _, h2⟩ := bind_inv h
  split at h2
  · cases h2; rfl
  · obtain ⟨a, _, h3⟩ := bind_inv h2
    cases h3; rfl

theorem popLoop_hasInit {force : Bool} {clk : Nat → Int} (is : List Nat) :
    ∀ {r : Registry} {l l' : List (Name × AggData)}, is.foldlM (popStep env force clk) (r, l) = .ok (r', l') →
      r'.hasInit = r.hasInit := by
  induction is with
  | nil => intro r l l' h; cases h; rfl
  | cons i is ih =>
    intro r l l' h
    simp only [List.foldlM_cons] at h
    obtain ⟨⟨r1, l1⟩, h1, h2⟩ := bind_inv h
    rw [ih h2]
    unfold popStep at h1
    simp only at h1
    obtain ⟨id, _, h3⟩ := bind_inv h1
    obtain ⟨o, _, h4⟩ := bind_inv h3
    cases o with
    | none => cases h4; rfl
    | some c =>
      obtain ⟨⟨b, out, a⟩, _, h5⟩ := bind_inv h4
      obtain ⟨⟨d, a2⟩, _, h6⟩ := bind_inv h5
      cases h6; rfl

theorem step_hasInit {op : RegOp} {resp : Resp} (h : r.step env op = .ok (resp, r')) :
    r'.hasInit = r.hasInit ∨ op = .setInit r'.hasInit := by
  cases op with
  | enable v => cases h; exact .inl rfl
  | create q name now =>
    obtain ⟨⟨id, r1⟩, h1, h2⟩ := bind_inv h
    cases h2; exact .inl (create_hasInit h1)
  | addId id c1 c2 now v count =>
    obtain ⟨⟨b, r1⟩, h1, h2⟩ := bind_inv h
    cases h2
    obtain ⟨o, h3, h4⟩ := bind_inv h1
    cases o with
    | none => cases h4; exact .inl rfl
    | some c =>
      obtain ⟨⟨ok, a⟩, h5, h6⟩ := bind_inv h4
      cases h6; exact .inl rfl
  | addData q name c1 c2 rd =>
    obtain ⟨⟨b, r1⟩, h1, h2⟩ := bind_inv h
    cases h2
    obtain ⟨⟨id, r2⟩, h3, h4⟩ := bind_inv h1
    obtain ⟨o, h5, h6⟩ := bind_inv h4
    cases o with
    | none => cases h6; exact .inl (create_hasInit h3)
    | some c =>
      obtain ⟨⟨ok, a⟩, h7, h8⟩ := bind_inv h6
      cases h8; exact .inl (create_hasInit (r' := r2) h3)
  | pop id =>
    obtain ⟨⟨b, r1⟩, h1, h2⟩ := bind_inv h
    cases h2
    obtain ⟨o, h3, h4⟩ := bind_inv h1
    cases o with
    | none => cases h4; exact .inl rfl
    | some c => cases h4; exact .inl rfl
  | forcePop id =>
    obtain ⟨⟨b, r1⟩, h1, h2⟩ := bind_inv h
    cases h2
    obtain ⟨o, h3, h4⟩ := bind_inv h1
    cases o with
    | none => cases h4; exact .inl rfl
    | some c =>
      obtain ⟨⟨ok, a⟩, h5, h6⟩ := bind_inv h4
      cases h6; exact .inl rfl
  | popAll force clk =>
    obtain ⟨⟨l, r1⟩, h1, h2⟩ := bind_inv h
    cases h2
    obtain ⟨⟨r2, l2⟩, h3, h4⟩ := bind_inv h1
    cases h4
    exact .inl (popLoop_hasInit _ h3)
  | getName id => cases h; exact .inl rfl
  | setInit v => cases h; exact .inr rfl
  | pusherId id hd =>
    obtain ⟨p, h1, h2⟩ := bind_inv h
    cases h2; exact .inl rfl
  | pusherName q name now hd =>
    obtain ⟨⟨p, r1⟩, h1, h2⟩ := bind_inv h
    cases h2
    obtain ⟨⟨id, r2⟩, h3, h4⟩ := bind_inv h1
    obtain ⟨p, h5, h6⟩ := bind_inv h4
    cases h6
    exact .inl (create_hasInit h3)
  | call p c1 c2 ts x =>
    obtain ⟨⟨l, r1⟩, h1, h2⟩ := bind_inv h
    cases h2
    unfold call at h1
    split at h1
    · cases h1; exact .inl rfl
    · obtain ⟨⟨out, a⟩, _, h6⟩ := bind_inv h1
      cases h6; exact .inl rfl
  | del name =>
    obtain ⟨⟨b, r1⟩, h1, h2⟩ := bind_inv h
    cases h2
    unfold del at h1
    simp only at h1
    split_ifs at h1
    · cases h1; exact .inl rfl
    · obtain ⟨p, _, h3⟩ := bind_inv h1
      split_ifs at h3
      cases h3; exact .inl rfl
  | direct id op =>
    obtain ⟨o, h3, h4⟩ := bind_inv h
    cases o with
    | none => cases h4; exact .inl rfl
    | some c =>
      obtain ⟨ob, h5, h6⟩ := bind_inv h4
      cases h6; exact .inl rfl

theorem hasInit_execAll (ops : List RegOp) : ∀ {o o' : RObs}, rexecAll env o ops = .ok o' →
    (∀ v, .setInit v ∉ ops) → o'.r.hasInit = o.r.hasInit := by
  induction ops with
  | nil => intro o o' h _; cases h; rfl
  | cons op ops ih =>
    intro o o' h hs
    obtain ⟨o1, h1, h2⟩ := rexecAll_cons h
    obtain ⟨resp, h3, _⟩ := rexec_inv h1
    rw [ih h2 fun v hv => hs v (List.mem_cons_of_mem _ hv)]
    rcases step_hasInit h3 with h4 | h4
    · exact h4
    · exact absurd (by rw [h4]; exact List.mem_cons_self) (hs o1.r.hasInit)

theorem getAggregator_update (r : Registry) (k id : Nat) (b : Aggregator) :
    (r.update k b).getAggregator id =
      (r.getAggregator id).map (Option.map fun c => if c.ref = k then { c with agg := b } else c) := by
  unfold getAggregator
  split_ifs
  · rfl
  · have hd : (r.update k b).dict.id2pos id = r.dict.id2pos id := rfl
    rw [hd]
    cases r.dict.id2pos id with
    | error e => rfl
    | ok pos =>
      simp only [bind_ok', update, List.getElem?_map, Except.map]
      cases r.agarr[pos]? with
      | none => rfl
      | some o => cases o <;> rfl

/-- The aggregator made for a new name. -/
theorem create_cell (hi : RInv opt n r) (hr : Room opt (n + 1)) {q : Ask} {name : Name} {now : Int} {a : Aggregator}
    (hn : r.cellOf name = none) (h0 : name ≠ []) (hc : construct env r q now = .ok a) :
    ∃ id r', r.createAggregator env q name now = .ok (id, r') ∧ r'.cellOf name = some { ref := r.nextRef, agg := a } := by
  have hr' := hr.mono (m := n) (by omega)
  have hn' : name ∉ r.dict.dict.map Prod.fst := by
    intro hm
    obtain ⟨⟨nm, id⟩, hm1, he⟩ := List.mem_map.1 hm
    simp only at he
    subst he
    obtain ⟨c, k, _⟩ := hi.cellOf_live hr' hm1
    rw [hn] at k
    cases k
  obtain ⟨id, r', e1, _, e3⟩ := create_total hi hr' hn' h0 hc
  refine ⟨id, r', e1, ?_⟩
  rcases create_cases hi hr' e1 with ⟨h1, _⟩ | ⟨hm, _⟩ | ⟨_, _, hcr, hi1⟩
  · exact absurd h1 h0
  · exact absurd (List.mem_map.2 ⟨_, hm, rfl⟩) hn'
  have hm : (name, id) ∈ r'.dict.dict := by rw [hcr.dict]; simp
  obtain ⟨c, k1, _, k2, _⟩ := hi1.cellOf_live hr hm
  rw [e3] at k2
  cases k2
  exact k1

end Registry
end Wrtstat
