/-
Consequences of the registry invariant used by the properties.
-/
import Verif.Lemmas.RegistryHist

namespace Wrtstat
namespace Aggregator

/-- A disabled aggregator ignores events. -/
theorem exec_disabled {env : Env} {o : AObs} (hd : o.a.enabled = false) {op : AOp} (he : op.event = true) :
    exec env o op = .ok o := by
  cases op with
  | add c1 c2 ts x => simp [exec, add, hd, bind_ok', AObs.record]
  | push c1 c2 ts x h => simp [exec, push, hd, bind_ok', AObs.record]
  | _ => simp [AOp.event] at he

/-- While it is disabled, an aggregator behaves as if no event was offered. -/
theorem execAll_disabled {env : Env} (ops : List AOp) : ∀ {o o' : AObs}, o.a.enabled = false →
    (∀ op ∈ ops, op ≠ .enable true) → execAll env o ops = .ok o' →
    execAll env o (ops.filter fun op => !op.event) = .ok o' ∧ o'.a.enabled = false := by
  induction ops with
  | nil => intro o o' hd _ h; cases h; exact ⟨rfl, hd⟩
  | cons op ops ih =>
    intro o o' hd hn h
    unfold execAll at *
    simp only [List.foldlM_cons] at h
    obtain ⟨o1, h1, h2⟩ := bind_inv h
    have hn' := fun x hx => hn x (List.mem_cons_of_mem _ hx)
    by_cases he : op.event = true
    · rw [exec_disabled hd he] at h1
      cases h1
      rw [List.filter_cons_of_neg (by simp [he])]
      exact ih hd hn' h2
    · rw [List.filter_cons_of_pos (by simp [he])]
      have hd1 : o1.a.enabled = false := by
        rcases (exec_alive h1).2 with h3 | h3
        · rw [h3]; exact hd
        · have := hn op List.mem_cons_self
          rw [h3] at this
          simpa using this
      obtain ⟨k1, k2⟩ := ih hd1 hn' h2
      refine ⟨?_, k2⟩
      simp only [List.foldlM_cons, h1, bind_ok']
      exact k1

theorem trans_disabled {env : Env} {a a' : Aggregator} {ops : List AOp} {out : List AggData}
    (hd : a.enabled = false) (hn : ∀ op ∈ ops, op ≠ .enable true) (h : Trans env a ops a' out) :
    Trans env a (ops.filter fun op => !op.event) a' out ∧ a'.enabled = false := by
  obtain ⟨o, h1, rfl, rfl⟩ := h
  obtain ⟨k1, k2⟩ := execAll_disabled ops hd hn h1
  exact ⟨⟨o, k1, rfl, rfl⟩, k2⟩

end Aggregator

namespace Registry

open Aggregator (AOp AObs Trans)

variable {env : Env} {opt : RegistryOpts} {n : Nat} {r r' r'' : Registry}

/-- An identity that is gone. -/
def Dead (r : Registry) (k : Nat) : Prop :=
  k < r.nextRef ∧ ∀ (p : Nat) (c : Cell), r.agarr[p]? = some (some c) → c.ref ≠ k

theorem dead_find (hi : RInv opt n r) {k : Nat} (h : Dead r k) : r.find k = none := by
  cases hf : r.find k with
  | none => rfl
  | some a =>
    obtain ⟨p, c, h1, h2, _⟩ := hi.find_eq.1 hf
    exact absurd h2 (h.2 p c h1)

/-- Whatever id is used, `get_aggregator` returns an aggregator of the registry or nothing. -/
theorem get_any {id : Nat} {o : Option Cell} (h : r.getAggregator id = .ok o) :
    o = none ∨ ∃ (p : Nat) (c : Cell), o = some c ∧ r.agarr[p]? = some (some c) := by
  unfold getAggregator at h
  split_ifs at h with hb
  · cases h; exact .inl rfl
  obtain ⟨p, _, h2⟩ := bind_inv h
  cases h2
  cases hp : r.agarr[p]? with
  | none => exact .inl rfl
  | some x =>
    cases x with
    | none => exact .inl rfl
    | some c => exact .inr ⟨p, c, rfl, hp⟩

theorem toId_mem {id : Nat} {ops : List AOp} {x : Nat × AOp} (h : x ∈ r.toId id ops) : x.2 ∈ ops := by
  unfold toId at h
  obtain ⟨c, _, h⟩ := List.mem_flatMap.1 h
  obtain ⟨op, h1, rfl⟩ := List.mem_map.1 h
  exact h1

theorem births_mem {q : Ask} {nm : Name} {x : Nat × AOp} (h : x ∈ r.births q nm) : x.2 ≠ .enable true := by
  unfold births at h
  split_ifs at h
  · obtain ⟨op, h1, rfl⟩ := List.mem_map.1 h
    simp only
    rintro rfl
    unfold birth at h1
    split_ifs at h1 <;> simp at h1
  · simp at h

theorem asked_enable {op : RegOp} (h : ¬ op.enables) {k : Nat} : ∀ x ∈ forRef k (r.asked op), x ≠ .enable true := by
  intro x hx
  unfold forRef at hx
  obtain ⟨⟨k', y⟩, h1, rfl⟩ := List.mem_map.1 hx
  have h2 := (List.mem_filter.1 h1).1
  simp only
  cases op with
  | create q n now => exact births_mem h2
  | addId id c1 c2 now v count =>
    have := toId_mem h2
    simp only [List.mem_singleton] at this
    rw [this]; simp
  | addData q n c1 c2 rd =>
    rcases List.mem_append.1 h2 with h2 | h2
    · exact births_mem h2
    · split_ifs at h2
      · simp at h2
      · simp only [List.mem_singleton, Prod.mk.injEq] at h2
        rw [h2.2]; simp
  | pop id =>
    have := toId_mem h2
    simp only [List.mem_singleton] at this
    rw [this]; simp
  | forcePop id =>
    have := toId_mem h2
    simp only [List.mem_singleton] at this
    rw [this]; simp
  | popAll force clk =>
    obtain ⟨p, _, h2⟩ := List.mem_flatMap.1 h2
    have := toId_mem h2
    simp only [List.mem_cons, List.not_mem_nil, or_false] at this
    rcases this with e | e
    · rw [e]; simp
    · rw [e]; split_ifs <;> simp
  | getName id => simp [asked] at h2
  | setInit v => simp [asked] at h2
  | pusherId id hd => simp [asked] at h2
  | pusherName q n now hd => exact births_mem h2
  | call p c1 c2 ts x =>
    simp only [asked] at h2
    split_ifs at h2
    · simp only [List.mem_singleton, Prod.mk.injEq] at h2
      rw [h2.2]; simp
    · simp at h2
  | enable v =>
    obtain ⟨p, _, h2⟩ := List.mem_flatMap.1 h2
    have := toId_mem h2
    simp only [List.mem_singleton] at this
    rw [this]
    simp only [RegOp.enables] at h
    simpa using h
  | del nm => simp [asked] at h2
  | direct id op =>
    have := toId_mem h2
    simp only [List.mem_singleton] at this
    rw [this]
    exact h

/-- The effect of every operation, also with ids never given out. -/
theorem eff_any (hi : RInv opt n r) (hr : Room opt n) {op : RegOp} {resp : Resp}
    (h : r.step env op = .ok (resp, r')) :
    RInv opt (n + 1) r' ∧ ∃ ask del, Eff env opt r r' op.removes ask del ∧
      (¬ op.enables → ∀ k, ∀ x ∈ forRef k ask, x ≠ .enable true) := by
  by_cases ht : op.target = none
  · obtain ⟨h1, h2⟩ := eff_step hi hr (op := op) (by intro id hid; rw [ht] at hid; cases hid) h
    exact ⟨h1, _, _, h2, fun hen k => asked_enable hen⟩
  have none_case : RInv opt (n + 1) r ∧ ∃ ask del, Eff env opt r r (fun _ => False) ask del ∧
      (¬ op.enables → ∀ k, ∀ x ∈ forRef k ask, x ≠ .enable true) :=
    ⟨hi.mono (by omega), [], [], eff_seff (seff_refl env r) (by simp) (by simp), by simp [forRef]⟩
  have some_case : ∀ {p : Nat} {c : Cell} {ops : List AOp} {a : Aggregator} {out : List AggData},
      r.agarr[p]? = some (some c) → Trans env c.agg ops a out → (¬ op.enables → ∀ x ∈ ops, x ≠ .enable true) →
      RInv opt (n + 1) (r.update c.ref a) ∧ ∃ ask del, Eff env opt r (r.update c.ref a) (fun _ => False) ask del ∧
        (¬ op.enables → ∀ k, ∀ x ∈ forRef k ask, x ≠ .enable true) := by
    intro p c ops a out hp ht hno
    have hs := seff_update hi hp ht
    refine ⟨(hs.inv hi).mono (by omega), _, _, eff_seff hs ?_ ?_, ?_⟩
    · intro x hx
      obtain ⟨_, _, rfl⟩ := List.mem_map.1 hx
      exact hi.refLt _ _ hp
    · intro x hx
      obtain ⟨_, _, rfl⟩ := List.mem_map.1 hx
      exact hi.refLt _ _ hp
    · intro hen k x hx
      unfold forRef at hx
      obtain ⟨y, h1, rfl⟩ := List.mem_map.1 hx
      obtain ⟨z, h2, rfl⟩ := List.mem_map.1 (List.mem_filter.1 h1).1
      exact hno hen z h2
  have fin : (∀ nm, op ≠ .del nm) → (RInv opt (n + 1) r' ∧ ∃ ask del, Eff env opt r r' (fun _ => False) ask del ∧
        (¬ op.enables → ∀ k, ∀ x ∈ forRef k ask, x ≠ .enable true)) →
      RInv opt (n + 1) r' ∧ ∃ ask del, Eff env opt r r' op.removes ask del ∧
        (¬ op.enables → ∀ k, ∀ x ∈ forRef k ask, x ≠ .enable true) := by
    rintro hd ⟨k1, ask, del, k2, k3⟩
    exact ⟨k1, ask, del, k2.regone (fun nm => by simp [RegOp.removes, hd nm]), k3⟩
  cases op with
  | addId id c1 c2 now v count =>
    refine fin (by simp) ?_
    obtain ⟨⟨b, r1⟩, h1, h2⟩ := bind_inv h
    cases h2
    unfold addId at h1
    obtain ⟨o, h3, h4⟩ := bind_inv h1
    rcases get_any h3 with rfl | ⟨p, c, rfl, hp⟩
    · cases h4; exact none_case
    · obtain ⟨⟨ok, a⟩, h5, h6⟩ := bind_inv h4
      cases h6
      have hx : Aggregator.exec env { a := c.agg } (.add c1 c2 now (.one v count)) =
          .ok { a := a, accepted := AObs.record { a := c.agg } b c1 now (.one v count) } := by
        simp only [Aggregator.exec, h5, bind_ok']
      exact some_case hp (Aggregator.trans_one hx) (by simp)
  | pop id =>
    refine fin (by simp) ?_
    obtain ⟨⟨d, r1⟩, h1, h2⟩ := bind_inv h
    cases h2
    unfold pop at h1
    obtain ⟨o, h3, h4⟩ := bind_inv h1
    rcases get_any h3 with rfl | ⟨p, c, rfl, hp⟩
    · cases h4; exact none_case
    · cases h4
      exact some_case hp (Aggregator.trans_one (op := .pop) rfl) (by simp)
  | forcePop id =>
    refine fin (by simp) ?_
    obtain ⟨⟨d, r1⟩, h1, h2⟩ := bind_inv h
    cases h2
    unfold forcePop at h1
    obtain ⟨o, h3, h4⟩ := bind_inv h1
    rcases get_any h3 with rfl | ⟨p, c, rfl, hp⟩
    · cases h4; exact none_case
    · obtain ⟨⟨ok, a⟩, h5, h6⟩ := bind_inv h4
      cases h6
      have hx : Aggregator.exec env { a := c.agg } .forcePop = .ok { a := a, received := d.toList } := by
        simp only [Aggregator.exec, h5, bind_ok', List.nil_append]
      exact some_case hp (Aggregator.trans_one hx) (by simp)
  | pusherId id hd =>
    refine fin (by simp) ?_
    obtain ⟨p, h1, h2⟩ := bind_inv h
    cases h2
    exact none_case
  | direct id op =>
    refine fin (by simp) ?_
    obtain ⟨o, h3, h4⟩ := bind_inv h
    rcases get_any h3 with rfl | ⟨p, c, rfl, hp⟩
    · cases h4; exact none_case
    · obtain ⟨ob, h5, h6⟩ := bind_inv h4
      cases h6
      exact some_case hp (Aggregator.trans_one h5) (by simp [RegOp.enables])
  | _ => exact absurd rfl ht

theorem dead_step (hi : RInv opt n r) (hr : Room opt n) {op : RegOp} {resp : Resp} {k : Nat}
    (hd : Dead r k) (h : r.step env op = .ok (resp, r')) : Dead r' k := by
  obtain ⟨hi', _, _, he, _⟩ := eff_any hi hr h
  refine ⟨lt_of_lt_of_le hd.1 he.next, ?_⟩
  intro p c hc
  obtain ⟨nm, id, hm, rfl⟩ := hi'.occ p c hc
  rcases he.back nm id c hm hc with ⟨_, _, c0, k0, e0, _⟩ | ⟨_, e, _⟩
  · rw [e0]; exact hd.2 _ c0 k0
  · rw [e]; have := hd.1; omega

theorem rexec_inv {o o' : RObs} {op : RegOp} (h : rexec env o op = .ok o') :
    ∃ resp, o.r.step env op = .ok (resp, o'.r) ∧ o'.asked = o.asked ++ o.r.asked op ∧
      o'.received = o.received ++ o.r.delivered op resp := by
  unfold rexec at h
  obtain ⟨⟨resp, r1⟩, h3, h4⟩ := bind_inv h
  cases h4
  exact ⟨resp, h3, rfl, rfl⟩

theorem rexecAll_cons {o o' : RObs} {op : RegOp} {ops : List RegOp} (h : rexecAll env o (op :: ops) = .ok o') :
    ∃ o1, rexec env o op = .ok o1 ∧ rexecAll env o1 ops = .ok o' := by
  unfold rexecAll at *
  simp only [List.foldlM_cons] at h
  exact bind_inv h

theorem rexecAll_append {o : RObs} {ops ops' : List RegOp} :
    rexecAll env o (ops ++ ops') = rexecAll env o ops >>= fun o1 => rexecAll env o1 ops' := by
  unfold rexecAll
  rw [List.foldlM_append]

theorem inv_execAll (ops : List RegOp) : ∀ {n : Nat} {o o' : RObs}, RInv opt n o.r → Room opt (n + ops.length) →
    rexecAll env o ops = .ok o' → RInv opt (n + ops.length) o'.r := by
  induction ops with
  | nil => intro n o o' hi _ h; cases h; exact hi
  | cons op ops ih =>
    intro n o o' hi hr h
    obtain ⟨o1, h1, h2⟩ := rexecAll_cons h
    obtain ⟨resp, h3, _⟩ := rexec_inv h1
    have hi1 := (eff_any hi (hr.mono (by omega)) h3).1
    have := ih (n := n + 1) hi1 (hr.mono (by simp; omega)) h2
    have e : n + 1 + ops.length = n + (op :: ops).length := by simp; omega
    rw [e] at this
    exact this

theorem dead_execAll (ops : List RegOp) : ∀ {n : Nat} {o o' : RObs}, RInv opt n o.r → Room opt (n + ops.length) →
    rexecAll env o ops = .ok o' → ∀ {k : Nat}, Dead o.r k → Dead o'.r k := by
  induction ops with
  | nil => intro n o o' _ _ h k hd; cases h; exact hd
  | cons op ops ih =>
    intro n o o' hi hr h k hd
    obtain ⟨o1, h1, h2⟩ := rexecAll_cons h
    obtain ⟨resp, h3, _⟩ := rexec_inv h1
    have hi1 := (eff_any hi (hr.mono (by omega)) h3).1
    exact ih (n := n + 1) hi1 (hr.mono (by simp; omega)) h2 (dead_step hi (hr.mono (by omega)) hd h3)

/-- A name keeps its id until it is removed. -/
theorem name_execAll (ops : List RegOp) : ∀ {n : Nat} {o o' : RObs}, RInv opt n o.r → Room opt (n + ops.length) →
    rexecAll env o ops = .ok o' → ∀ {nm : Name} {id : Nat},
    (nm, id) ∈ o.r.dict.dict → .del nm ∉ ops → (nm, id) ∈ o'.r.dict.dict := by
  induction ops with
  | nil => intro n o o' _ _ h nm id hm _; cases h; exact hm
  | cons op ops ih =>
    intro n o o' hi hr h nm id hm hd
    obtain ⟨o1, h1, h2⟩ := rexecAll_cons h
    obtain ⟨resp, h3, _⟩ := rexec_inv h1
    obtain ⟨hi1, _, _, he, _⟩ := eff_any hi (hr.mono (by omega)) h3
    refine ih (n := n + 1) hi1 (hr.mono (by simp; omega)) h2 (he.dict nm id hm ?_)
      (fun hx => hd (List.mem_cons_of_mem _ hx))
    rintro rfl
    exact hd List.mem_cons_self

/-- `get_name` is non-empty exactly for live ids. -/
theorem getName_live (hi : RInv opt n r) {id : Nat} {nm : Name} (h0 : nm ≠ []) :
    r.getName id = nm ↔ (nm, id) ∈ r.dict.dict := by
  unfold getName Dict.getName
  rw [← hi.index_lookup]
  cases r.dict.index.lookup id with
  | none => simp [Ne.symm h0]
  | some x => simp

theorem getName_dead (hi : RInv opt n r) {id : Nat} : r.getName id = [] ↔ r.dict.index.lookup id = none := by
  unfold getName Dict.getName
  cases hl : r.dict.index.lookup id with
  | none => simp
  | some x =>
    have := hi.nonempty _ (hi.index_lookup.1 hl)
    simpa using this

end Registry
end Wrtstat

namespace Wrtstat

theorem tdiv_mono {a b k : Int} (hk : 0 < k) (h : a ≤ b) : a.tdiv k ≤ b.tdiv k := by
  rcases Int.lt_or_le b 0 with hb | hb
  · have e : ∀ x : Int, x < 0 → x.tdiv k = -((-x) / k) := by
      intro x hx
      rw [← Int.neg_neg x, Int.neg_tdiv, Int.tdiv_eq_ediv_of_nonneg (by omega)]
      simp
    rw [e a (by omega), e b hb]
    have := Int.ediv_le_ediv hk (show -b ≤ -a by omega)
    omega
  · rw [Int.tdiv_eq_ediv_of_nonneg hb]
    rcases Int.lt_or_le a 0 with ha | ha
    · have h1 : a.tdiv k ≤ 0 := by
        rw [← Int.neg_neg a, Int.neg_tdiv, Int.tdiv_eq_ediv_of_nonneg (by omega)]
        have := Int.ediv_nonneg (show 0 ≤ -a by omega) hk.le
        omega
      have h2 := Int.ediv_nonneg hb hk.le
      omega
    · rw [Int.tdiv_eq_ediv_of_nonneg ha]
      exact Int.ediv_le_ediv hk h

theorem align_mono {step a b : Int} (hs : 0 < step) (h : a ≤ b) : align step a ≤ align step b :=
  Int.mul_le_mul_of_nonneg_right (tdiv_mono hs h) hs.le

namespace Aggregator

/-- The first event of a new aggregator. -/
theorem add_new {env : Env} {opt : AggregatorOpts} {clk rand ts c1 c2 : Int} {a0 : Aggregator} {x : AddArg}
    (hs : 0 < opt.step) (hr : 0 ≤ rand ∧ rand < 2 ^ 31) (h : Aggregator.new opt clk rand ts = .ok a0)
    (hc : ts ≠ 0 ∨ opt.resolution = .none ∨ clk ≤ c1)
    (hts : opt.resolution = .none ∨ align opt.step (meant opt.resolution c1 ts) ≠ 0 ∨ align opt.step c2 = 0) :
    ∃ next, a0.add env c1 c2 ts x = .ok (true, { a0 with sep := { a0.sep with next := next, reducer := (Reducer.new opt.toReducerOpts).add env x } }) ∧
      next - opt.step ≤ align opt.step (meant opt.resolution c1 ts) ∧
      align opt.step (meant opt.resolution c1 ts) < next := by
  obtain ⟨s, h1, h2⟩ := bind_inv h
  cases h2
  have hst : s.step = opt.step := (Separator.sgood_new (env := env) h1).step.1
  have hre : s.resolution = opt.resolution := (Separator.sgood_new (env := env) h1).step.2
  have hg := (Separator.sgood_new (env := env) h1).red
  simp only [eventsIn, List.filter_nil, List.map_nil] at hg
  have hne : s.next - opt.step ≤ align opt.step (meant opt.resolution clk ts) ∧
      s.reducer = Reducer.new opt.toReducerOpts ∧ s.sepList = [] := by
    unfold Separator.new at h1
    rw [Separator.getTs_eq (by omega)] at h1
    simp only [bind_ok'] at h1
    cases h1
    refine ⟨?_, rfl, rfl⟩
    simp only
    split_ifs with hso
    · have : 0 ≤ (Int.bmod (rand * rand) (2 ^ 64)).tmod opt.soiled := by
        apply Int.tmod_nonneg
        have h3 : 0 ≤ rand * rand := Int.mul_nonneg hr.1 hr.1
        have h4 : rand * rand ≤ (2 ^ 31) * (2 ^ 31) :=
          Int.mul_le_mul hr.2.le hr.2.le hr.1 (by norm_num)
        rw [Int.bmod_eq_of_le (by norm_num; omega) (by norm_num at h4 ⊢; omega)]
        exact h3
      omega
    · omega
  obtain ⟨hn, hred, hl⟩ := hne
  obtain ⟨red, stp, nx, rsn, sl⟩ := s
  simp only at hst hre hred hl hn hg
  subst hst hre hred hl
  have hle : align opt.step (meant opt.resolution clk ts) ≤ align opt.step (meant opt.resolution c1 ts) := by
    apply align_mono hs
    unfold meant
    split_ifs with hm
    · rcases hc with hc | hc | hc
      · exact absurd hm.1 hc
      · exact absurd hc hm.2
      · exact hc
    · exact le_rfl
  generalize hT : align opt.step (meant opt.resolution c1 ts) = T at *
  have hT2 : align opt.step (meant opt.resolution c2 T) = T := by
    unfold meant
    by_cases hm : T = 0 ∧ opt.resolution ≠ .none
    · rw [if_pos hm, hm.1]
      exact (hts.resolve_left hm.2).resolve_left (not_not_intro hm.1)
    · rw [if_neg hm, ← hT]
      exact Separator.align_idem (by omega) _
  have key : ∃ next b, Separator.separate env ⟨Reducer.new opt.toReducerOpts, opt.step, nx, opt.resolution, []⟩ c2 T
      false false = .ok (b, [], ⟨Reducer.new opt.toReducerOpts, opt.step, next, opt.resolution, []⟩) ∧
      next - opt.step ≤ T ∧ T < next := by
    unfold Separator.separate Separator.getTs
    simp only
    rw [Separator.getTs_eq (by omega), hT2]
    simp only [bind_ok', true_and]
    by_cases hlt : T < nx
    · rw [if_pos hlt]
      exact ⟨nx, false, rfl, by omega, hlt⟩
    · rw [if_neg hlt]
      obtain ⟨next', e1, e2, e3, e4, _⟩ := Separator.sepLoop_empty (ts := T) hs _ nx _ le_rfl hg
      rw [e1]
      simp only [bind_ok', Bool.false_eq_true, if_false, List.append_nil]
      exact ⟨next', true, rfl, e4 (by omega), e2⟩
  obtain ⟨next, b, k1, k2, k3⟩ := key
  refine ⟨next, ?_, k2, k3⟩
  unfold add Separator.add Separator.push Separator.getTs
  simp only
  rw [Separator.getTs_eq (by omega), hT]
  simp only [bind_ok', k1]
  rw [if_neg (by omega : ¬ T < next - opt.step)]
  simp [bind_ok', aggregate0_, pure, Except.pure]

/-- An event aligned to time zero is not taken when the clock is past the first window. -/
theorem add_new_late {env : Env} {opt : AggregatorOpts} {clk rand ts c1 c2 : Int} {a0 : Aggregator} {x : AddArg}
    (hs : 0 < opt.step) (hr : 0 ≤ rand ∧ rand < 2 ^ 31) (h : Aggregator.new opt clk rand ts = .ok a0)
    (hc : ts ≠ 0 ∨ opt.resolution = .none ∨ clk ≤ c1)
    (hres : opt.resolution ≠ .none) (hz : align opt.step (meant opt.resolution c1 ts) = 0) (h2 : 0 < align opt.step c2) :
    ∃ a', a0.add env c1 c2 ts x = .ok (false, a') := by
  obtain ⟨s, h1, h3⟩ := bind_inv h
  cases h3
  have hst : s.step = opt.step := (Separator.sgood_new (env := env) h1).step.1
  have hre : s.resolution = opt.resolution := (Separator.sgood_new (env := env) h1).step.2
  have hg := (Separator.sgood_new (env := env) h1).red
  simp only [eventsIn, List.filter_nil, List.map_nil] at hg
  have hne : s.next - opt.step ≤ align opt.step (meant opt.resolution clk ts) ∧
      s.reducer = Reducer.new opt.toReducerOpts ∧ s.sepList = [] := by
    unfold Separator.new at h1
    rw [Separator.getTs_eq (by omega)] at h1
    simp only [bind_ok'] at h1
    cases h1
    refine ⟨?_, rfl, rfl⟩
    simp only
    split_ifs with hso
    · have : 0 ≤ (Int.bmod (rand * rand) (2 ^ 64)).tmod opt.soiled := by
        apply Int.tmod_nonneg
        have h3 : 0 ≤ rand * rand := Int.mul_nonneg hr.1 hr.1
        have h4 : rand * rand ≤ (2 ^ 31) * (2 ^ 31) :=
          Int.mul_le_mul hr.2.le hr.2.le hr.1 (by norm_num)
        rw [Int.bmod_eq_of_le (by norm_num; omega) (by norm_num at h4 ⊢; omega)]
        exact h3
      omega
    · omega
  obtain ⟨hn, hred, hl⟩ := hne
  obtain ⟨red, stp, nx, rsn, sl⟩ := s
  simp only at hst hre hred hl hn hg
  subst hst hre hred hl
  have hle : align opt.step (meant opt.resolution clk ts) ≤ align opt.step (meant opt.resolution c1 ts) := by
    apply align_mono hs
    unfold meant
    split_ifs with hm
    · rcases hc with hc | hc | hc
      · exact absurd hm.1 hc
      · exact absurd hc hm.2
      · exact hc
    · exact le_rfl
  rw [hz] at hle
  have hge : opt.step ≤ align opt.step c2 := by
    unfold align at h2 ⊢
    have h3 : 1 ≤ c2.tdiv opt.step := by
      by_contra h3
      have := Int.mul_le_mul_of_nonneg_right (show c2.tdiv opt.step ≤ 0 by omega) (show 0 ≤ opt.step by omega)
      omega
    have := Int.mul_le_mul_of_nonneg_right h3 (show 0 ≤ opt.step by omega)
    omega
  have hT2 : align opt.step (meant opt.resolution c2 0) = align opt.step c2 := by
    unfold meant
    rw [if_pos ⟨rfl, hres⟩]
  have key : ∃ next b, Separator.separate env ⟨Reducer.new opt.toReducerOpts, opt.step, nx, opt.resolution, []⟩ c2 0
      false false = .ok (b, [], ⟨Reducer.new opt.toReducerOpts, opt.step, next, opt.resolution, []⟩) ∧
      opt.step < next := by
    unfold Separator.separate Separator.getTs
    simp only
    rw [Separator.getTs_eq (by omega), hT2]
    simp only [bind_ok', true_and]
    rw [if_neg (by omega)]
    obtain ⟨next', e1, e2, e3, e4, _⟩ := Separator.sepLoop_empty (ts := align opt.step c2) hs _ nx _ le_rfl hg
    rw [e1]
    simp only [bind_ok', Bool.false_eq_true, if_false, List.append_nil]
    exact ⟨next', true, rfl, by omega⟩
  obtain ⟨next, b, k1, k2⟩ := key
  unfold add Separator.add Separator.push Separator.getTs
  simp only
  rw [Separator.getTs_eq (by omega), hz]
  simp only [bind_ok', k1]
  rw [if_pos (by omega : (0 : Int) < next - opt.step)]
  simp [bind_ok']

end Aggregator

namespace Registry

open Aggregator (AOp AObs Trans)

variable {env : Env} {opt : RegistryOpts} {n : Nat} {r r' r'' : Registry}

/-- `create_aggregator` succeeds for a new name. -/
theorem create_total (hi : RInv opt n r) (hr : Room opt n) {q : Ask} {name : Name} {now : Int} {a : Aggregator}
    (hn : name ∉ r.dict.dict.map Prod.fst) (h0 : name ≠ []) (hc : construct env r q now = .ok a) :
    ∃ id r', r.createAggregator env q name now = .ok (id, r') ∧ r'.nextRef = r.nextRef + 1 ∧
      r'.getAggregator id = .ok (some { ref := r.nextRef, agg := a }) := by
  obtain ⟨id, d', e1, e2, e3, e4, e5⟩ := dinv_create hi.dinv hr h0 hn q.pick
  have hf : id % opt.idStep = opt.idInit % opt.idStep ∧ id ≤ d'.counter := e5.form id (.inr (by rw [e2]; simp))
  have hb : d'.counter + 2 * opt.idStep < idMod := by
    have := e5.cle
    have := hr.2
    rw [Nat.add_mul] at *
    omega
  have hp := hr.1
  have hbad : id ≠ badId := by
    unfold badId idMod at *
    omega
  have hj : (r.agarr[posOf opt.idStep (opt.idInit % opt.idStep) id]?).join = none := by
    cases hc : r.agarr[posOf opt.idStep (opt.idInit % opt.idStep) id]? with
    | none => rfl
    | some o =>
      cases o with
      | none => rfl
      | some c =>
        obtain ⟨nm2, id2, hm2, hp2⟩ := hi.occ _ _ hc
        have := posOf_inj (hi.id_form hm2).1 hf.1 hp2
        subst this
        exact absurd (List.mem_map.2 ⟨_, hm2, rfl⟩) e3
  have hco : construct env { r with dict := d' } q now = .ok a := hc
  have hpos := id2pos_ok (d := d') e5.step hp hf.1 (by omega)
  generalize posOf opt.idStep (opt.idInit % opt.idStep) id = pos at *
  refine ⟨id, { r with
      dict := d'
      agarr := (r.agarr ++ List.replicate (pos + 1 - r.agarr.length) none).set pos (some { ref := r.nextRef, agg := a })
      nextRef := r.nextRef + 1 }, ?_, ?_, ?_⟩
  · unfold createAggregator
    rw [if_neg h0, e1]
    simp only
    rw [hpos]
    simp only [bind_ok', hj, hco]
  · rfl
  · unfold getAggregator
    rw [if_neg hbad]
    simp only
    rw [hpos]
    simp only [bind_ok']
    rw [List.getElem?_set_self (by simp; omega)]
    rfl

/-- `create_aggregator` on a live name. -/
theorem create_live (hi : RInv opt n r) (hr : Room opt n) {q : Ask} {name : Name} {now : Int} {id : Nat}
    (hm : (name, id) ∈ r.dict.dict) : r.createAggregator env q name now = .ok (id, r) := by
  have h0 : name ≠ [] := hi.nonempty _ hm
  obtain ⟨c, _, h2⟩ := hi.get_live hr hm
  obtain ⟨f1, f2⟩ := hi.id_form hm
  have hb := hi.bound hr
  have hcr : r.dict.createId q.pick name = (id, r.dict) := by
    unfold Dict.createId
    rw [hi.dict_lookup.2 hm]
  unfold createAggregator
  rw [if_neg h0, hcr]
  simp only
  rw [id2pos_ok (d := r.dict) hi.step hr.1 f1 (by omega)]
  simp only [bind_ok', h2, Option.join_some]

theorem forRef_attrib (hi : RInv opt n r) (hr : Room opt n) {nm : Name} {c : Cell} (hc : r.cellOf nm = some c)
    (l : List (Name × AggData)) :
    forRef c.ref (l.flatMap fun p => (r.cellOf p.1).toList.map fun c => (c.ref, p.2)) =
      (l.filter fun p => p.1 = nm).map Prod.snd := by
  induction l with
  | nil => rfl
  | cons p l ih =>
    rw [List.flatMap_cons, forRef_append, ih]
    by_cases he : p.1 = nm
    · rw [List.filter_cons_of_pos (by simpa using he), he, hc]
      simp [forRef]
    · rw [List.filter_cons_of_neg (by simpa using he)]
      rw [forRef_key]
      · rfl
      intro x hx
      cases hc' : r.cellOf p.1 with
      | none => rw [hc'] at hx; simp at hx
      | some c' =>
        rw [hc'] at hx
        simp only [Option.toList_some, List.map_cons, List.map_nil, List.mem_singleton] at hx
        subst hx
        simp only
        intro hre
        obtain ⟨i1, m1, _, k1⟩ := hi.cellOf_some hr hc
        obtain ⟨i2, m2, _, k2⟩ := hi.cellOf_some hr hc'
        have h1 := hi.refs _ _ _ _ k2 k1 hre
        have h2 := posOf_inj (hi.id_form m2).1 (hi.id_form m1).1 h1
        subst h2
        exact he (hi.id_eq m2 m1)

/-- `pop_all` seen from one live name. -/
theorem popAll_name (hi : RInv opt n r) (hr : Room opt n) {force : Bool} {clk : Nat → Int}
    {l : List (Name × AggData)} (h : r.popAll env force clk = .ok (l, r')) {nm : Name} {id : Nat} {c : Cell}
    (hm : (nm, id) ∈ r.dict.dict) (hc : r.cellOf nm = some c) :
    ∃ c', r'.cellOf nm = some c' ∧ c'.ref = c.ref ∧
      Trans env c.agg (popOps force clk id) c'.agg ((l.filter fun p => p.1 = nm).map Prod.snd) := by
  obtain ⟨hs, hl⟩ := seff_popAll hi hr h
  obtain ⟨c1, k1, k2, k3, k4⟩ := hi.cellOf_live hr hm
  rw [hc] at k1
  cases k1
  obtain ⟨c', h1, h2, h3⟩ := hs.cell _ c k4
  obtain ⟨c2, j1, _, _, j4⟩ := (hs.inv hi).cellOf_live hr (nm := nm) (id := id) (by rw [hs.dict]; exact hm)
  rw [h1] at j4
  cases j4
  refine ⟨c', j1, h2, ?_⟩
  obtain ⟨id', nm', hm', hc', hf⟩ := forRef_live hi hr k4 (popOps force clk)
  have hid : id' = id := by
    obtain ⟨c3, _, i2, _, i4⟩ := hi.cellOf_live hr hm'
    rw [hc'] at i2
    cases i2
    exact posOf_inj (hi.id_form hm').1 (hi.id_form hm).1 (hi.refs _ _ _ _ i4 k4 rfl)
  subst hid
  have e1 : forRef c.ref (r.asked (.popAll force clk)) = popOps force clk id' := hf
  have e2 : forRef c.ref (r.delivered (.popAll force clk) (.records l)) = (l.filter fun p => p.1 = nm).map Prod.snd :=
    forRef_attrib hi hr hc l
  rw [e1, e2] at h3
  exact h3

/-! ### Disabled registries -/

theorem create_enabled {q : Ask} {name : Name} {now : Int} {id : Nat}
    (h : r.createAggregator env q name now = .ok (id, r')) : r'.enabled = r.enabled := by
  unfold createAggregator at h
  split_ifs at h with h0
  · cases h; rfl
  simp only at h
  obtain ⟨p, _, h2⟩ := bind_inv h
  split at h2
  · cases h2; rfl
  · obtain ⟨a, _, h3⟩ := bind_inv h2
    cases h3; rfl

theorem popLoop_enabled {force : Bool} {clk : Nat → Int} (is : List Nat) :
    ∀ {r : Registry} {l l' : List (Name × AggData)}, is.foldlM (popStep env force clk) (r, l) = .ok (r', l') →
      r'.enabled = r.enabled := by
  induction is with
  | nil => intro r l l' h; cases h; rfl
  | cons i is ih =>
    intro r l l' h
    simp only [List.foldlM_cons] at h
    obtain ⟨⟨r1, l1⟩, h1, h2⟩ := bind_inv h
    rw [ih h2]
    unfold popStep at h1
    simp only at h1
    obtain ⟨id, _, h3⟩ := bind_inv h1
    obtain ⟨o, _, h4⟩ := bind_inv h3
    cases o with
    | none => cases h4; rfl
    | some c =>
      obtain ⟨⟨b, out, a⟩, _, h5⟩ := bind_inv h4
      obtain ⟨⟨d, a2⟩, _, h6⟩ := bind_inv h5
      cases h6; rfl

theorem step_enabled {op : RegOp} {resp : Resp} (h : r.step env op = .ok (resp, r')) :
    r'.enabled = r.enabled ∨ op = .enable r'.enabled := by
  cases op with
  | enable v => cases h; exact .inr rfl
  | create q name now =>
    obtain ⟨⟨id, r1⟩, h1, h2⟩ := bind_inv h
    cases h2; exact .inl (create_enabled h1)
  | addId id c1 c2 now v count =>
    obtain ⟨⟨b, r1⟩, h1, h2⟩ := bind_inv h
    cases h2
    obtain ⟨o, h3, h4⟩ := bind_inv h1
    cases o with
    | none => cases h4; exact .inl rfl
    | some c =>
      obtain ⟨⟨ok, a⟩, h5, h6⟩ := bind_inv h4
      cases h6; exact .inl rfl
  | addData q name c1 c2 rd =>
    obtain ⟨⟨b, r1⟩, h1, h2⟩ := bind_inv h
    cases h2
    obtain ⟨⟨id, r2⟩, h3, h4⟩ := bind_inv h1
    obtain ⟨o, h5, h6⟩ := bind_inv h4
    cases o with
    | none => cases h6; exact .inl (create_enabled h3)
    | some c =>
      obtain ⟨⟨ok, a⟩, h7, h8⟩ := bind_inv h6
      cases h8; exact .inl (create_enabled (r' := r2) h3)
  | pop id =>
    obtain ⟨⟨b, r1⟩, h1, h2⟩ := bind_inv h
    cases h2
    obtain ⟨o, h3, h4⟩ := bind_inv h1
    cases o with
    | none => cases h4; exact .inl rfl
    | some c => cases h4; exact .inl rfl
  | forcePop id =>
    obtain ⟨⟨b, r1⟩, h1, h2⟩ := bind_inv h
    cases h2
    obtain ⟨o, h3, h4⟩ := bind_inv h1
    cases o with
    | none => cases h4; exact .inl rfl
    | some c =>
      obtain ⟨⟨ok, a⟩, h5, h6⟩ := bind_inv h4
      cases h6; exact .inl rfl
  | popAll force clk =>
    obtain ⟨⟨l, r1⟩, h1, h2⟩ := bind_inv h
    cases h2
    obtain ⟨⟨r2, l2⟩, h3, h4⟩ := bind_inv h1
    cases h4
    exact .inl (popLoop_enabled _ h3)
  | getName id => cases h; exact .inl rfl
  | setInit v => cases h; exact .inl rfl
  | pusherId id hd =>
    obtain ⟨p, h1, h2⟩ := bind_inv h
    cases h2; exact .inl rfl
  | pusherName q name now hd =>
    obtain ⟨⟨p, r1⟩, h1, h2⟩ := bind_inv h
    cases h2
    obtain ⟨⟨id, r2⟩, h3, h4⟩ := bind_inv h1
    obtain ⟨p, h5, h6⟩ := bind_inv h4
    cases h6
    exact .inl (create_enabled h3)
  | call p c1 c2 ts x =>
    obtain ⟨⟨l, r1⟩, h1, h2⟩ := bind_inv h
    cases h2
    unfold call at h1
    split at h1
    · cases h1; exact .inl rfl
    · obtain ⟨⟨out, a⟩, _, h6⟩ := bind_inv h1
      cases h6; exact .inl rfl
  | del name =>
    obtain ⟨⟨b, r1⟩, h1, h2⟩ := bind_inv h
    cases h2
    unfold del at h1
    simp only at h1
    split_ifs at h1
    · cases h1; exact .inl rfl
    · obtain ⟨p, _, h3⟩ := bind_inv h1
      split_ifs at h3
      cases h3; exact .inl rfl
  | direct id op =>
    obtain ⟨o, h3, h4⟩ := bind_inv h
    cases o with
    | none => cases h4; exact .inl rfl
    | some c =>
      obtain ⟨ob, h5, h6⟩ := bind_inv h4
      cases h6; exact .inl rfl

/-- Since `r0`, disabled, every aggregator has only gone through the operations that are not events. -/
structure Quiet (env : Env) (opt : RegistryOpts) (n : Nat) (r0 : Registry) (o : RObs) : Prop where
  inv : RInv opt n o.r
  off : o.r.enabled = false
  next : r0.nextRef ≤ o.r.nextRef
  askKey : ∀ x ∈ o.asked, x.1 < o.r.nextRef
  recKey : ∀ x ∈ o.received, x.1 < o.r.nextRef
  cell : ∀ nm id c, (nm, id) ∈ o.r.dict.dict →
    o.r.agarr[posOf opt.idStep (opt.idInit % opt.idStep) id]? = some (some c) →
    c.agg.enabled = false ∧ ∃ a0, Origin opt r0 nm c.ref a0 ∧
      Trans env a0 ((forRef c.ref o.asked).filter fun op => !op.event) c.agg (forRef c.ref o.received)

theorem quiet_exec {r0 : Registry} {o o' : RObs} (s : Quiet env opt n r0 o) (hr : Room opt n) {op : RegOp}
    (hid : op.idOk opt) (hen : ¬ op.enables) (h : rexec env o op = .ok o') : Quiet env opt (n + 1) r0 o' := by
  obtain ⟨resp, h1, e1, e2⟩ := rexec_inv h
  obtain ⟨hi, he⟩ := eff_step s.inv hr hid h1
  refine ⟨hi, ?_, le_trans s.next he.next, ?_, ?_, ?_⟩
  · rcases step_enabled h1 with h3 | h3
    · rw [h3]; exact s.off
    · rw [h3] at hen
      simpa [RegOp.enables] using hen
  · intro x hx
    rw [e1] at hx
    rcases List.mem_append.1 hx with hx | hx
    · exact lt_of_lt_of_le (s.askKey x hx) he.next
    · exact he.askKey x hx
  · intro x hx
    rw [e2] at hx
    rcases List.mem_append.1 hx with hx | hx
    · exact lt_of_lt_of_le (s.recKey x hx) he.next
    · exact he.delKey x hx
  · intro nm id c' hm hc
    rw [e1, e2, forRef_append, forRef_append, List.filter_append]
    have hno := asked_enable (r := o.r) hen (k := c'.ref)
    rcases he.back nm id c' hm hc with ⟨hm0, _, c, k, e, t⟩ | ⟨hn, hre, clk, rand, now, a0, ha, t, q, rest, hq⟩
    · obtain ⟨hd, a0, ho, t0⟩ := s.cell nm id c hm0 k
      rw [e] at hno
      obtain ⟨t1, hd1⟩ := Aggregator.trans_disabled hd hno t
      refine ⟨hd1, a0, ?_, ?_⟩
      · rw [e]; exact ho
      · rw [e]
        exact Aggregator.trans_append t0 t1
    · have f1 : forRef c'.ref o.asked = [] := forRef_key (fun x hx => by have := s.askKey x hx; omega)
      have f2 : forRef c'.ref o.received = [] := forRef_key (fun x hx => by have := s.recKey x hx; omega)
      rw [f1, f2]
      have hb : o.r.birth q = [.enable false] := by
        unfold birth
        rw [if_pos s.off]
      rw [hq, hb] at t hno
      rw [hq, hb]
      obtain ⟨ob, t1, t2, t3⟩ := t
      unfold Aggregator.execAll at t1
      simp only [List.cons_append, List.nil_append, List.foldlM_cons, Aggregator.exec, bind_ok'] at t1
      obtain ⟨t4, t5⟩ := Aggregator.trans_disabled (a := a0.enable false) (a' := c'.agg) (ops := rest) rfl
        (fun x hx => hno x (by simp [hx])) ⟨ob, t1, t2, t3⟩
      refine ⟨t5, a0, .inr ⟨by have := s.next; omega, clk, rand, now, ha⟩, ?_⟩
      have := Aggregator.trans_append (Aggregator.trans_one (env := env) (a := a0) (op := .enable false) rfl) t4
      simpa [Aggregator.AOp.event] using this

theorem quiet_execAll {r0 : Registry} (ops : List RegOp) : ∀ {n : Nat} {o o' : RObs}, Quiet env opt n r0 o →
    Room opt (n + ops.length) → (∀ op ∈ ops, op.idOk opt) → (∀ op ∈ ops, ¬ op.enables) →
    rexecAll env o ops = .ok o' → Quiet env opt (n + ops.length) r0 o' := by
  induction ops with
  | nil => intro n o o' s _ _ _ h; cases h; exact s
  | cons op ops ih =>
    intro n o o' s hr hid hen h
    obtain ⟨o1, h1, h2⟩ := rexecAll_cons h
    have s1 := quiet_exec s (hr.mono (by omega)) (hid op List.mem_cons_self) (hen op List.mem_cons_self) h1
    have := ih (n := n + 1) s1 (hr.mono (by simp; omega)) (fun x hx => hid x (List.mem_cons_of_mem _ hx))
      (fun x hx => hen x (List.mem_cons_of_mem _ hx)) h2
    have e : n + 1 + ops.length = n + (op :: ops).length := by simp; omega
    rw [e] at this
    exact this

/-- The same without attributing the operations: also for ids never given out. -/
structure Still (env : Env) (opt : RegistryOpts) (n : Nat) (r0 : Registry) (r : Registry) : Prop where
  inv : RInv opt n r
  off : r.enabled = false
  next : r0.nextRef ≤ r.nextRef
  cell : ∀ nm id c, (nm, id) ∈ r.dict.dict →
    r.agarr[posOf opt.idStep (opt.idInit % opt.idStep) id]? = some (some c) →
    c.agg.enabled = false ∧ ∃ a0 aops out, Origin opt r0 nm c.ref a0 ∧ (∀ op ∈ aops, op.event = false) ∧
      Trans env a0 aops c.agg out

theorem still_exec {r0 : Registry} (s : Still env opt n r0 r) (hr : Room opt n) {op : RegOp} {resp : Resp}
    (hen : ¬ op.enables) (h1 : r.step env op = .ok (resp, r')) : Still env opt (n + 1) r0 r' := by
  obtain ⟨hi, ask, del, he, hno⟩ := eff_any s.inv hr h1
  refine ⟨hi, ?_, le_trans s.next he.next, ?_⟩
  · rcases step_enabled h1 with h3 | h3
    · rw [h3]; exact s.off
    · rw [h3] at hen
      simpa [RegOp.enables] using hen
  · intro nm id c' hm hc
    have hno := hno hen c'.ref
    rcases he.back nm id c' hm hc with ⟨hm0, _, c, k, e, t⟩ | ⟨hn, hre, clk, rand, now, a0, ha, t, q, rest, hq⟩
    · obtain ⟨hd, a0, aops, out, ho, hev, t0⟩ := s.cell nm id c hm0 k
      rw [e] at hno
      obtain ⟨t1, hd1⟩ := Aggregator.trans_disabled hd hno t
      refine ⟨hd1, a0, _, _, ?_, ?_, Aggregator.trans_append t0 t1⟩
      · rw [e]; exact ho
      · intro x hx
        rcases List.mem_append.1 hx with hx | hx
        · exact hev x hx
        · simpa using (List.mem_filter.1 hx).2
    · have hb : r.birth q = [.enable false] := by
        unfold birth
        rw [if_pos s.off]
      rw [hq, hb] at t hno
      obtain ⟨ob, t1, t2, t3⟩ := t
      unfold Aggregator.execAll at t1
      simp only [List.cons_append, List.nil_append, List.foldlM_cons, Aggregator.exec, bind_ok'] at t1
      obtain ⟨t4, t5⟩ := Aggregator.trans_disabled (a := a0.enable false) (a' := c'.agg) (ops := rest) rfl
        (fun x hx => hno x (by simp [hx])) ⟨ob, t1, t2, t3⟩
      refine ⟨t5, a0, _, _, .inr ⟨by have := s.next; omega, clk, rand, now, ha⟩, ?_,
        Aggregator.trans_append (Aggregator.trans_one (env := env) (a := a0) (op := .enable false) rfl) t4⟩
      intro x hx
      rcases List.mem_append.1 hx with hx | hx
      · simp only [List.mem_singleton] at hx
        rw [hx]; rfl
      · simpa using (List.mem_filter.1 hx).2

theorem still_execAll {r0 : Registry} (ops : List RegOp) : ∀ {n : Nat} {o o' : RObs}, Still env opt n r0 o.r →
    Room opt (n + ops.length) → (∀ op ∈ ops, ¬ op.enables) →
    rexecAll env o ops = .ok o' → Still env opt (n + ops.length) r0 o'.r := by
  induction ops with
  | nil => intro n o o' s _ _ h; cases h; exact s
  | cons op ops ih =>
    intro n o o' s hr hen h
    obtain ⟨o1, h1, h2⟩ := rexecAll_cons h
    obtain ⟨resp, h3, _⟩ := rexec_inv h1
    have s1 := still_exec s (hr.mono (by omega)) (hen op List.mem_cons_self) h3
    have := ih (n := n + 1) s1 (hr.mono (by simp; omega)) (fun x hx => hen x (List.mem_cons_of_mem _ hx)) h2
    have e : n + 1 + ops.length = n + (op :: ops).length := by simp; omega
    rw [e] at this
    exact this

theorem quiet_enable (hi : RInv opt n r) (hr : Room opt n) : Quiet env opt n (r.enable false) { r := r.enable false } := by
  have hi' := (seff_enable (env := env) hi hr false).inv hi
  refine ⟨hi', rfl, le_rfl, by simp, by simp, ?_⟩
  intro nm id c hm hc
  obtain ⟨c', k1, _, _, k4⟩ := hi'.cellOf_live hr hm
  simp only at hc
  rw [hc] at k4
  cases k4
  refine ⟨?_, c.agg, .inl ⟨c, k1, rfl, rfl⟩, Aggregator.trans_nil env _⟩
  simp only [enable, List.getElem?_map, Option.map_eq_some_iff] at hc
  obtain ⟨o, h1, h2⟩ := hc
  cases o with
  | none => simp at h2
  | some c0 => simp only [Option.some.injEq] at h2; obtain ⟨_, _, h2⟩ := h2; rw [← h2]; rfl

theorem still_enable (hi : RInv opt n r) (hr : Room opt n) : Still env opt n (r.enable false) (r.enable false) := by
  have q := quiet_enable (env := env) hi hr
  refine ⟨q.inv, q.off, q.next, ?_⟩
  intro nm id c hm hc
  obtain ⟨h1, a0, h2, h3⟩ := q.cell nm id c hm hc
  exact ⟨h1, a0, [], [], h2, by simp, h3⟩

end Registry
end Wrtstat
