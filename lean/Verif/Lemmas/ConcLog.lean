/-
The registry used by several threads, aggregator by aggregator: what each step does, and the life of each aggregator as
one sequence of operations.
-/
import Verif.Lemmas.ConcLin
import Verif.Spec.ConcSpec
import Verif.Lemmas.RegistryEff
import Verif.Lemmas.RegistryCreate

namespace Wrtstat
namespace Registry

set_option autoImplicit false

open Aggregator (AOp Trans)

section
variable {T : Type} [DecidableEq T]

/-- What one step of thread `t` does to the registry, to the aggregators and to the records kept of them. -/
inductive CEff (env : Env) (t : T) (s s' : CReg T) : Prop
  | same (arr : s'.r.agarr = s.r.agarr) (next : s'.r.nextRef = s.r.nextRef) (dict : s'.r.dict = s.r.dict)
      (ropt : s'.r.opt = s.r.opt) (gone : s'.gone = s.gone) (born : s'.born = s.born) (log : s'.log = s.log) (out : s'.out = s.out)
  | create (q : Ask) (name : Name) (now : Int) (id : Nat) (h : s.r.createAggregator env q name now = .ok (id, s'.r))
      (free : name = [] ∨ s.freeW = true) (gone : s'.gone = s.gone)
      (born : s'.born = s.born ++ (if s'.r.nextRef = s.r.nextRef then [] else [(name, id)]))
      (log : s'.log = s.log ++ (if s'.r.nextRef = s.r.nextRef then [] else (s.r.birth q).map fun op => (none, s.r.nextRef, op)))
      (out : s'.out = s.out)
  | del (name : Name) (b : Bool) (h : s.r.del name = .ok (b, s'.r)) (free : s.freeW = true)
      (gone : s'.gone = s.gone ++ CReg.dropped s.r name)
      (born : s'.born = s.born) (log : s'.log = s.log) (out : s'.out = s.out)
  | agg (k : Nat) (a a' : Aggregator) (ops : List AOp) (out : List AggData) (ha : s.aggOf k = some a) (ht : Trans env a ops a' out)
      (hr : s'.r = s.r.update k a') (gone : s'.gone = s.gone.map fun c => if c.ref = k then { c with agg := a' } else c)
      (born : s'.born = s.born) (log : s'.log = s.log ++ ops.map fun op => (some t, k, op))
      (hout : s'.out = s.out ++ out.map fun d => (t, k, d))

theorem use_trans {env : Env} {k : Nat} {a a' : Aggregator} {op : RegOp} {resp : Resp} {ops : List AOp} {out : List AggData}
    (h : CReg.use env k a op = .ok (resp, a', ops, out)) : Trans env a ops a' out := by
  cases op <;> simp only [CReg.use] at h <;> try (first | cases h | skip)
  case addId id c1 c2 now v n =>
    obtain ⟨⟨b, a1⟩, h1, h2⟩ := bind_inv h
    cases h2
    refine Aggregator.trans_one (o := { a := a1, accepted := Aggregator.AObs.record { a := a } b c1 now (.one v n) }) ?_
    simp only [Aggregator.exec, h1, bind_ok']
  case addData q n c1 c2 rd =>
    obtain ⟨⟨b, a1⟩, h1, h2⟩ := bind_inv h
    cases h2
    refine Aggregator.trans_one (o := { a := a1, accepted := Aggregator.AObs.record { a := a } b c1 rd.ts (.reduced rd) }) ?_
    simp only [Aggregator.exec, h1, bind_ok']
  case pop id => exact Aggregator.trans_one (op := .pop) rfl
  case forcePop id =>
    obtain ⟨⟨d, a1⟩, h1, h2⟩ := bind_inv h
    cases h2
    refine Aggregator.trans_one (o := { a := a1, received := d.toList }) ?_
    simp only [Aggregator.exec, h1, bind_ok', List.nil_append]
  case pusherId => exact Aggregator.trans_nil _ _
  case pusherName => exact Aggregator.trans_nil _ _
  case call p c1 c2 ts x =>
    obtain ⟨⟨l, a1⟩, h1, h2⟩ := bind_inv h
    cases h2
    unfold Aggregator.Pusher.call at h1
    by_cases ht : p.p.token = true ∧ a.alive = true
    · rw [if_pos ht] at h1 ⊢
      obtain ⟨⟨ok, out2, a2⟩, h3, h4⟩ := bind_inv h1
      cases h4
      refine Aggregator.trans_one (o := { a := a1, received := l, accepted := Aggregator.AObs.record { a := a } ok c1 ts x }) ?_
      simp only [Aggregator.exec, h3, bind_ok', List.nil_append]
    · rw [if_neg ht] at h1 ⊢
      cases h1
      exact Aggregator.trans_nil _ _
  case direct id op =>
    obtain ⟨o, h1, h2⟩ := bind_inv h
    cases h2
    exact Aggregator.trans_one h1

theorem separate_quiet {env : Env} {a a1 : Aggregator} {clk : Int} {force b : Bool} {out : List AggData}
    (h : a.separate env clk 0 false force = .ok (b, out, a1)) : out = [] := by
  obtain ⟨⟨b', out', s⟩, h3, h4⟩ := bind_inv h
  have := Aggregator.sep_out_nil' h3
  subst this
  obtain ⟨_, _, h5⟩ := bind_inv h4
  cases h5
  rfl

theorem look_eff {env : Env} {s s' : CReg T} {t : T} {op : RegOp} {id : Nat} (h : s.look t op id = some s') : CEff env t s s' := by
  unfold CReg.look at h
  split at h
  · split at h <;> cases h <;> exact .same rfl rfl rfl rfl rfl rfl rfl rfl
  · cases h

theorem create_eff {env : Env} {s s' : CReg T} {t : T} {q : Ask} {name : Name} {now : Int} {next : Nat → CPc}
    (h : s.create env t q name now next = some s') : CEff env t s s' := by
  unfold CReg.create at h
  split at h
  · rename_i hf
    split at h
    · rename_i id r hc
      cases h
      exact .create q name now id hc hf rfl rfl rfl rfl
    · cases h
  · cases h

omit [DecidableEq T] in
theorem agg_at {s : CReg T} {k : Nat} {a : Aggregator} (hu : Uniq s.r) (h : At s.r k a) : s.aggOf k = some a := by
  unfold CReg.aggOf
  rw [(hu.find_iff k a).2 h]

theorem move_eff [Fintype T] {env : Env} {s s' : CReg T} {t : T} (hu : Uniq s.r) (h : s.move env t = some s') : CEff env t s s' := by
  unfold CReg.move at h
  split at h
  case h_1 => cases h
  case h_2 op hpc =>
    cases op
    case create => exact create_eff h
    case addData => exact create_eff h
    case pusherName => exact create_eff h
    case addId => exact look_eff h
    case pop => exact look_eff h
    case forcePop => exact look_eff h
    case pusherId => exact look_eff h
    case direct => exact look_eff h
    case call =>
      unfold CReg.start at h
      simp only at h
      split at h <;> cases h <;> exact .same rfl rfl rfl rfl rfl rfl rfl rfl
    case del name =>
      unfold CReg.start at h
      simp only at h
      split at h
      · rename_i hf
        split at h
        · rename_i b r hd
          cases h
          exact .del name b hd hf rfl rfl rfl rfl
        · cases h
      · cases h
    all_goals
      unfold CReg.start at h
      simp only at h
      split at h
      · cases h; exact .same rfl rfl rfl rfl rfl rfl rfl rfl
      · cases h
  case h_3 => exact look_eff h
  case h_4 op k hpc =>
    split at h
    · cases h
    · rename_i a ha
      split at h
      · rename_i resp a' ops out huse
        cases h
        exact .agg k a a' ops out ha (use_trans huse) rfl rfl rfl rfl rfl
      · cases h
  case h_5 force clk i acc hpc =>
    split at h
    · split at h
      · cases h
      · rename_i id hid
        split at h
        · cases h
        · cases h; exact .same rfl rfl rfl rfl rfl rfl rfl rfl
        · rename_i c hc
          split at h
          · cases h
          · rename_i b out a hs
            cases h
            obtain ⟨-, pos, -, hat⟩ := (getAgg_iff _ _ _).1 hc
            refine .agg c.ref c.agg a [.separate (clk id) 0 false force] out (agg_at hu ⟨pos, hat⟩) ?_ rfl rfl rfl rfl rfl
            refine Aggregator.trans_one (o := { a := a, received := out }) ?_
            simp only [Aggregator.exec, hs, bind_ok', List.nil_append]
    · cases h; exact .same rfl rfl rfl rfl rfl rfl rfl rfl
  case h_6 force clk i id k acc hpc =>
    split at h
    · cases h
    · rename_i a ha
      split at h
      · cases h
      · rename_i d a' hp
        cases h
        refine .agg k a a' [if force then .forcePop else .pop] d.toList ha ?_ rfl rfl rfl rfl rfl
        refine Aggregator.trans_one (o := { a := a', received := d.toList }) ?_
        cases force with
        | true =>
          simp only [if_true] at hp ⊢
          simp only [Aggregator.exec, hp, bind_ok', List.nil_append]
        | false =>
          simp only [Bool.false_eq_true, if_false] at hp ⊢
          simp only [Except.ok.injEq] at hp
          simp only [Aggregator.exec, hp, List.nil_append]
  case h_7 v i hpc =>
    split at h
    · split at h
      · cases h; exact .same rfl rfl rfl rfl rfl rfl rfl rfl
      · rename_i c hc
        cases h
        have hat : s.r.agarr[i]? = some (some c) := by
          cases hx : s.r.agarr[i]? with
          | none => rw [hx] at hc; cases hc
          | some o => rw [hx] at hc; exact congrArg some hc
        exact .agg c.ref c.agg (c.agg.enable v) [.enable v] [] (agg_at hu ⟨i, hat⟩) (Aggregator.trans_one (op := .enable v) rfl)
          rfl rfl rfl rfl rfl
    · cases h; exact .same rfl rfl rfl rfl rfl rfl rfl rfl
  case h_8 => cases h; exact .same rfl rfl rfl rfl rfl rfl rfl rfl

theorem call_eff {env : Env} {s : CReg T} {t : T} {op : RegOp} : CEff env t s (s.call t op) :=
  .same rfl rfl rfl rfl rfl rfl rfl rfl

/-! ### The aggregators, in the registry or not, after a step -/

theorem find_update (r : Registry) (k : Nat) (b : Aggregator) (j : Nat) :
    (r.update k b).find j = if j = k then (r.find k).map fun _ => b else r.find j := by
  unfold find update
  simp only
  induction r.agarr with
  | nil => simp
  | cons o l ih =>
    rw [List.map_cons, List.findSome?_cons, List.findSome?_cons, List.findSome?_cons]
    cases o with
    | none => simpa using ih
    | some c =>
      simp only [Option.map_some, Option.bind_some]
      by_cases hc : c.ref = k
      · by_cases hj : j = k
        · subst hj; simp [hc]
        · have : ¬ k = j := fun h => hj h.symm
          simp only [hc, if_true, this, if_false, hj] at ih ⊢
          exact ih
      · by_cases hj : j = k
        · subst hj
          simp only [hc, if_false, if_true] at ih ⊢
          exact ih
        · by_cases hcj : c.ref = j
          · simp [hcj, hj]
          · simp only [hc, hcj, hj, if_false] at ih ⊢
            exact ih

omit [DecidableEq T] in
theorem aggOf_agg {s s' : CReg T} {k : Nat} {a' : Aggregator} (hr : s'.r = s.r.update k a')
    (hg : s'.gone = s.gone.map fun c => if c.ref = k then { c with agg := a' } else c) (j : Nat) :
    s'.aggOf j = if j = k then (s.aggOf k).map fun _ => a' else s.aggOf j := by
  unfold CReg.aggOf
  rw [hr, find_update, hg, find_map_ref]
  by_cases hj : j = k
  · subst hj
    simp only [if_true]
    cases s.r.find j with
    | some a => rfl
    | none =>
      simp only [Option.map_none]
      cases hf : s.gone.find? fun c => c.ref = j with
      | none => rfl
      | some c =>
        have : c.ref = j := by simpa using List.find?_some hf
        simp [this]
  · simp only [if_neg hj]
    cases s.r.find j with
    | some a => rfl
    | none =>
      simp only
      cases hf : s.gone.find? fun c => c.ref = j with
      | none => rfl
      | some c =>
        have : c.ref = j := by simpa using List.find?_some hf
        have : ¬ c.ref = k := by rw [this]; exact hj
        simp [this]

omit [DecidableEq T] in
theorem aggOf_congr {s s' : CReg T} (ha : s'.r.agarr = s.r.agarr) (hg : s'.gone = s.gone) (j : Nat) : s'.aggOf j = s.aggOf j := by
  unfold CReg.aggOf find
  rw [ha, hg]

theorem dropped_spec {r r' : Registry} {nm : Name} {b : Bool} (hu : Uniq r) (hd : r.del nm = .ok (b, r')) :
    ∀ c ∈ CReg.dropped r nm, NoRef c.ref r' ∧ At r c.ref c.agg := by
  intro c hc
  unfold CReg.dropped at hc
  cases hq : r.getAggregator (r.dict.getId nm) with
  | error e => rw [hq] at hc; cases hc
  | ok o =>
    cases o with
    | none => rw [hq] at hc; cases hc
    | some c' =>
      rw [hq] at hc
      obtain rfl : c = c' := by simpa [Except.toOption] using hc
      have hsees : Sees r (.pop (r.dict.getId nm)) c.ref c.agg := ⟨_, rfl, hq⟩
      refine ⟨?_, hsees.at⟩
      rcases del_sees hu hd hsees with hs | ⟨-, hn⟩
      · exfalso
        obtain ⟨_, e, hg'⟩ := hs
        cases e
        obtain ⟨hb, pos, hp, hc'⟩ := (getAgg_iff _ _ _).1 hg'
        rcases del_split hd with ⟨h1, -, -⟩ | ⟨pos', -, hp', -, -, rfl⟩
        · exact hb h1
        · have : pos = pos' := by
            have e : (.ok pos : M Nat) = .ok pos' := by
              rw [← hp, ← hp']; exact id2pos_step (freeId_step _ _) _
            cases e; rfl
          subst this
          exact (set_none_get hc').1 rfl
      · exact hn

/-- `del`: what was in the registry is in it still, or was dropped. -/
theorem del_at {r r' : Registry} {nm : Name} {b : Bool} (hu : Uniq r) (hd : r.del nm = .ok (b, r')) {k : Nat} {a : Aggregator}
    (h : At r k a) : At r' k a ∨ (CReg.dropped r nm = [⟨k, a⟩] ∧ NoRef k r') := by
  have hs : Sees r (.call { ref := k, p := { token := true, handler := true } } 0 0 0 (.one 0 0)) k a := ⟨rfl, h⟩
  rcases del_sees hu hd hs with h' | h'
  · exact .inl h'.2
  · exact .inr h'

omit [DecidableEq T] in
theorem aggOf_del {s s' : CReg T} (hu : Uniq s.r) (hn : ∀ c ∈ s.gone, NoRef c.ref s.r) {name : Name} {b : Bool}
    (h : s.r.del name = .ok (b, s'.r)) (hg : s'.gone = s.gone ++ CReg.dropped s.r name) (j : Nat) : s'.aggOf j = s.aggOf j := by
  by_cases hj : ∃ a, At s.r j a
  · obtain ⟨a, ha⟩ := hj
    rw [agg_at hu ha]
    rcases del_at hu h ha with h' | ⟨e, h'⟩
    · exact agg_at (del_grows hu h).uniq h'
    · rw [aggOf_noref h'.1, hg, e, List.find?_append]
      have : (s.gone.find? fun c => c.ref = j) = none := by
        refine List.find?_eq_none.2 fun c hc he => ?_
        have : c.ref = j := by simpa using he
        exact (hn c hc).1 a (by rw [this]; exact ha)
      rw [this]
      simp
  · have hj : ∀ a, ¬ At s.r j a := fun a ha => hj ⟨a, ha⟩
    have hj' : ∀ a, ¬ At s'.r j a := by
      rintro a ⟨i, hi⟩
      rcases del_split h with ⟨-, -, e⟩ | ⟨pos, -, -, -, -, e⟩
      · rw [e] at hi; exact hj a ⟨i, hi⟩
      · rw [e] at hi; exact hj a ⟨i, (set_none_get hi).2⟩
    rw [aggOf_noref hj, aggOf_noref hj', hg, List.find?_append]
    cases hf : s.gone.find? fun c => c.ref = j with
    | some c => rfl
    | none =>
      simp only [Option.none_or, Option.map_none, Option.map_eq_none_iff]
      refine List.find?_eq_none.2 fun c hc he => ?_
      have e : c.ref = j := by simpa using he
      exact hj c.agg (by rw [← e]; exact (dropped_spec hu h c hc).2)

omit [DecidableEq T] in
/-- `create_aggregator`: nothing changes, or there is one more aggregator. -/
theorem aggOf_create {env : Env} {s s' : CReg T} (hu : Uniq s.r) {q : Ask} {name : Name}
    {now : Int} {id : Nat} (h : s.r.createAggregator env q name now = .ok (id, s'.r)) (hg : s'.gone = s.gone) :
    (s'.r.nextRef = s.r.nextRef ∧ ∀ j, s'.aggOf j = s.aggOf j) ∨
    (s'.r.nextRef = s.r.nextRef + 1 ∧ ∃ a, s.r.construct env q now = .ok a ∧
      ∀ j, s'.aggOf j = if j = s.r.nextRef then some a else s.aggOf j) := by
  have hgr := (create_grows hu h).1
  obtain ⟨-, hc⟩ := create_array h
  rcases hc with ⟨h1, h2⟩ | ⟨pos, a, ha, hjn, h2, h1⟩
  · exact .inl ⟨h2, aggOf_congr h1 hg⟩
  · refine .inr ⟨h2, a, ha, fun j => ?_⟩
    split
    · rename_i hj
      subst hj
      refine agg_at hgr.uniq ⟨pos, ?_⟩
      rw [h1]
      exact List.getElem?_set_self (by simp; omega)
    · rename_i hj
      by_cases hx : ∃ b, At s.r j b
      · obtain ⟨b, hb⟩ := hx
        rw [agg_at hu hb]
        obtain ⟨i, hi⟩ := hb
        refine agg_at hgr.uniq ⟨i, ?_⟩
        rw [h1]
        exact set_grow_of_get hjn hi
      · have hx : ∀ b, ¬ At s.r j b := fun b hb => hx ⟨b, hb⟩
        have hx' : ∀ b, ¬ At s'.r j b := by
          rintro b ⟨i, hi⟩
          rw [h1] at hi
          rcases set_grow_get i _ hi with ⟨e1, e2⟩ | ⟨e1, e2⟩
          · exact hj (congrArg Cell.ref e2)
          · exact hx b ⟨i, e2⟩
        rw [aggOf_noref hx, aggOf_noref hx', hg]

/-! ### The life of an aggregator -/

structure Serial (env : Env) (opt : AggregatorOpts) (s : CReg T) : Prop where
  uniq : Uniq s.r
  ropt : s.r.opt = opt
  gone : ∀ c ∈ s.gone, NoRef c.ref s.r
  all : ∀ k, k < s.r.nextRef ↔ ∃ a, s.aggOf k = some a
  born : s.born.length = s.r.nextRef
  logs : ∀ e ∈ s.log, e.2.1 < s.r.nextRef
  outs : ∀ e ∈ s.out, e.2.1 < s.r.nextRef
  life : ∀ k a, s.aggOf k = some a → Life env opt s.log s.out k a

theorem birth_cases (r : Registry) (q : Ask) :
    r.birth q = [] ∨ r.birth q = [.enable false] ∨ ∃ rd, q.ini = some rd ∧ r.birth q = [.add q.iclk1 q.iclk2 rd.ts (.reduced rd)] := by
  unfold birth
  split
  · exact .inr (.inl rfl)
  · split
    · cases h : q.ini with
      | none => exact .inl rfl
      | some rd => exact .inr (.inr ⟨rd, rfl, rfl⟩)
    · exact .inl rfl

theorem construct_ropt {env : Env} {r r' : Registry} {q : Ask} {name : Name} {now : Int} {id : Nat}
    (h : r.createAggregator env q name now = .ok (id, r')) : r'.opt = r.opt := by
  unfold createAggregator at h
  split at h
  · cases h; rfl
  · obtain ⟨pos, hp, h⟩ := bind_inv h
    simp only at h hp
    split at h
    · cases h; rfl
    · obtain ⟨a, ha, h⟩ := bind_inv h
      cases h; rfl

omit [DecidableEq T] in
theorem Life.more {env : Env} {opt : AggregatorOpts} {log : List (Option T × Nat × AOp)} {out : List (T × Nat × AggData)} {k : Nat}
    {a a' : Aggregator} (h : Life env opt log out k a) {t : T} {ops : List AOp} {o : List AggData} (ht : Trans env a ops a' o) :
    Life env opt (log ++ ops.map fun op => (some t, k, op)) (out ++ o.map fun d => (t, k, d)) k a' := by
  obtain ⟨q, now, a0, bs, rest, h1, h2, h3, h4, h5⟩ := h
  refine ⟨q, now, a0, bs, rest ++ ops.map fun op => (some t, k, op), h1, h2, ?_, ?_, ?_⟩
  · rw [List.filter_append, h3, List.append_assoc]
    congr 2
    rw [List.filter_eq_self]
    intro e he
    obtain ⟨op, -, rfl⟩ := List.mem_map.1 he
    simp
  · intro e he
    rcases List.mem_append.1 he with he | he
    · exact h4 e he
    · obtain ⟨op, -, rfl⟩ := List.mem_map.1 he
      simp
  · rw [List.map_append, List.map_append, forRef_append, ← List.append_assoc, List.map_map, List.map_map]
    have e1 : (ops.map ((fun e : Option T × Nat × AOp => e.2.2) ∘ fun op => (some t, k, op))) = ops := List.map_id' ops
    have e2 : forRef k (o.map (Prod.snd ∘ fun d => (t, k, d))) = o := forRef_self k o
    rw [e1, e2]
    exact Aggregator.trans_append h5 ht

omit [DecidableEq T] in
theorem Life.other {env : Env} {opt : AggregatorOpts} {log l : List (Option T × Nat × AOp)} {out o : List (T × Nat × AggData)} {k : Nat}
    {a : Aggregator} (h : Life env opt log out k a) (hl : ∀ e ∈ l, e.2.1 ≠ k) (ho : ∀ e ∈ o, e.2.1 ≠ k) :
    Life env opt (log ++ l) (out ++ o) k a := by
  obtain ⟨q, now, a0, bs, rest, h1, h2, h3, h4, h5⟩ := h
  refine ⟨q, now, a0, bs, rest, h1, h2, ?_, h4, ?_⟩
  · rw [List.filter_append, h3, List.filter_eq_nil_iff.2 (fun e he => by simpa using hl e he), List.append_nil]
  · rw [List.map_append, forRef_append, forRef_key (l := o.map Prod.snd), List.append_nil]
    · exact h5
    · intro x hx
      obtain ⟨e, he, rfl⟩ := List.mem_map.1 hx
      exact ho e he

omit [DecidableEq T] in
theorem Serial.eff {env : Env} {opt : AggregatorOpts} {s s' : CReg T} {t : T} (h : Serial env opt s) (he : CEff env t s s') :
    Serial env opt s' := by
  cases he with
  | same arr next dict ropt gone born log out =>
    have ho := aggOf_congr arr gone
    refine ⟨⟨?_, ?_⟩, ropt.trans h.ropt, ?_, ?_, ?_, ?_, ?_, ?_⟩
    · rw [arr]; exact h.uniq.inj
    · rw [arr, next]; exact h.uniq.lt
    · intro c hc
      rw [gone] at hc
      have := h.gone c hc
      unfold NoRef At at this ⊢
      rw [arr, next]; exact this
    · intro k; rw [next, ho]; exact h.all k
    · rw [born, next]; exact h.born
    · rw [log, next]; exact h.logs
    · rw [out, next]; exact h.outs
    · intro k a ha; rw [log, out]; rw [ho] at ha; exact h.life k a ha
  | create q name now id hc free gone born log out =>
    have hg := (create_grows h.uniq hc).1
    rcases aggOf_create h.uniq hc gone with ⟨hn, ho⟩ | ⟨hn, a, ha, ho⟩
    · rw [if_pos hn, List.append_nil] at born log
      refine ⟨hg.uniq, (construct_ropt hc).trans h.ropt, ?_, ?_, ?_, ?_, ?_, ?_⟩
      · rw [gone]; exact fun c hc => hg.noref _ (h.gone c hc)
      · intro k; rw [hn, ho]; exact h.all k
      · rw [born, hn]; exact h.born
      · rw [log, hn]; exact h.logs
      · rw [out, hn]; exact h.outs
      · intro k a ha; rw [log, out]; rw [ho] at ha; exact h.life k a ha
    · rw [if_neg (by omega)] at born log
      refine ⟨hg.uniq, (construct_ropt hc).trans h.ropt, ?_, ?_, ?_, ?_, ?_, ?_⟩
      · rw [gone]; exact fun c hc => hg.noref _ (h.gone c hc)
      · intro k
        rw [ho, hn]
        split
        · rename_i hk; subst hk; simp
        · rename_i hk
          rw [← h.all k]
          omega
      · rw [born, hn, List.length_append, h.born]; rfl
      · intro e he
        rw [log] at he
        rcases List.mem_append.1 he with he | he
        · have := h.logs e he; omega
        · obtain ⟨op, -, rfl⟩ := List.mem_map.1 he
          simp only; omega
      · intro e he
        rw [out] at he
        have := h.outs e he; omega
      · intro k b hb
        rw [ho] at hb
        rw [log, out]
        split at hb
        · rename_i hk
          cases hb
          subst hk
          obtain ⟨a0, h1, h2⟩ := construct_trans ha
          rw [h.ropt] at h1
          refine ⟨q, now, a0, s.r.birth q, [], h1, birth_cases s.r q, ?_, by simp, ?_⟩
          · rw [List.filter_append, List.append_nil, List.filter_eq_nil_iff.2, List.nil_append, List.filter_eq_self]
            · intro e he
              obtain ⟨op, -, rfl⟩ := List.mem_map.1 he
              simp
            · intro e he
              have := h.logs e he
              simp only [decide_eq_true_eq]; omega
          · rw [forRef_key]
            · simpa using h2
            · intro x hx
              obtain ⟨e, he, rfl⟩ := List.mem_map.1 hx
              have := h.outs e he
              omega
        · rename_i hk
          have := (h.life k b hb).other (l := (s.r.birth q).map fun op => (none, s.r.nextRef, op)) (o := [])
            (fun e he => by
              obtain ⟨op, -, rfl⟩ := List.mem_map.1 he
              exact fun h => hk h.symm) (by simp)
          rwa [List.append_nil] at this
  | del name b hd free gone born log out =>
    have hg := del_grows h.uniq hd
    have ho := aggOf_del h.uniq h.gone hd gone
    have hn : s'.r.nextRef = s.r.nextRef := by
      rcases del_split hd with ⟨-, -, e⟩ | ⟨_, -, -, -, -, e⟩ <;> rw [e]
    have hopt : s'.r.opt = s.r.opt := by
      rcases del_split hd with ⟨-, -, e⟩ | ⟨_, -, -, -, -, e⟩ <;> rw [e]
    refine ⟨hg.uniq, hopt.trans h.ropt, ?_, ?_, ?_, ?_, ?_, ?_⟩
    · rw [gone]
      intro c hc
      rcases List.mem_append.1 hc with hc | hc
      · exact hg.noref _ (h.gone c hc)
      · exact (dropped_spec h.uniq hd c hc).1
    · intro k; rw [hn, ho]; exact h.all k
    · rw [born, hn]; exact h.born
    · rw [log, hn]; exact h.logs
    · rw [out, hn]; exact h.outs
    · intro k a ha; rw [log, out]; rw [ho] at ha; exact h.life k a ha
  | agg k a a' ops out ha ht hr gone born log hout =>
    have ho := aggOf_agg hr gone
    have hg := update_grows h.uniq k a'
    rw [← hr] at hg
    have hn : s'.r.nextRef = s.r.nextRef := by rw [hr]; rfl
    have hk : k < s.r.nextRef := (h.all k).2 ⟨a, ha⟩
    refine ⟨hg.uniq, by rw [hr]; exact h.ropt, ?_, ?_, ?_, ?_, ?_, ?_⟩
    · rw [gone]
      intro c hc
      obtain ⟨c0, hc0, rfl⟩ := List.mem_map.1 hc
      have := hg.noref _ (h.gone c0 hc0)
      split <;> exact this
    · intro j
      rw [hn, ho]
      split
      · rename_i hj; subst hj; rw [ha]; simp [hk]
      · exact h.all j
    · rw [born, hn]; exact h.born
    · rw [log, hn]
      intro e he
      rcases List.mem_append.1 he with he | he
      · exact h.logs e he
      · obtain ⟨op, -, rfl⟩ := List.mem_map.1 he
        exact hk
    · rw [hout, hn]
      intro e he
      rcases List.mem_append.1 he with he | he
      · exact h.outs e he
      · obtain ⟨d, -, rfl⟩ := List.mem_map.1 he
        exact hk
    · intro j b hb
      rw [ho] at hb
      rw [log, hout]
      split at hb
      · rename_i hj
        subst hj
        rw [ha] at hb
        cases hb
        exact (h.life j a ha).more ht
      · rename_i hj
        refine (h.life j b hb).other ?_ ?_
        · intro e he
          obtain ⟨op, -, rfl⟩ := List.mem_map.1 he
          exact fun h => hj h.symm
        · intro e he
          obtain ⟨op, -, rfl⟩ := List.mem_map.1 he
          exact fun h => hj h.symm

omit [DecidableEq T] in
theorem serial_new (env : Env) (opt : RegistryOpts) : Serial env opt.toAggregatorOpts (CReg.init (Registry.new opt) : CReg T) := by
  refine ⟨⟨?_, ?_⟩, rfl, ?_, ?_, rfl, ?_, ?_, ?_⟩ <;> simp [CReg.init, Registry.new, CReg.aggOf, find]

theorem step_eff [Fintype T] {env : Env} {P : RegOp → Prop} {s s' : CReg T} (hu : Uniq s.r) (h : CReg.Step env P s s') :
    ∃ t, CEff env t s s' := by
  cases h with
  | call t op hp hi => exact ⟨t, call_eff⟩
  | move _ t hm => exact ⟨t, move_eff hu hm⟩

theorem serial_reach [Fintype T] {env : Env} {P : RegOp → Prop} {opt : RegistryOpts} {s : CReg T}
    (h : Relation.ReflTransGen (CReg.Step env P) (CReg.init (Registry.new opt)) s) : Serial env opt.toAggregatorOpts s := by
  induction h with
  | refl => exact serial_new env opt
  | tail _ hs ih =>
    obtain ⟨t, he⟩ := step_eff ih.uniq hs
    exact ih.eff he

end

end Registry
end Wrtstat
