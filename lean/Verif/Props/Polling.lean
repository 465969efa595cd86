/-
C133: when records are fetched does not matter.
-/
import Verif.Props.Aggregator
import Verif.Props.Scale
import Verif.Lemmas.Shift

namespace Wrtstat

set_option autoImplicit false

open Aggregator

/-- `pop` and `aggregate_current`: calls that only fetch. -/
def AOp.fetches : AOp → Bool
  | .pop => true
  | .look => true
  | _ => false

/-- The calls of a history that do more than fetch. -/
def unfetched (ops : List AOp) : List AOp := ops.filter fun op => !AOp.fetches op

/-- The same aggregator but for the records waiting. -/
structure Fetched (a b : Aggregator) : Prop where
  sep : a.sep = b.sep
  outSize : a.outSize = b.outSize
  enabled : a.enabled = b.enabled
  alive : a.alive = b.alive

theorem Fetched.eq {a b : Aggregator} (h : Fetched a b) : b = { a with agList := b.agList } := by
  obtain ⟨h1, h2, h3, h4⟩ := h
  obtain ⟨_, _, _, _, _⟩ := a
  obtain ⟨_, _, _, _, _⟩ := b
  simp only at h1 h2 h3 h4
  subst h1 h2 h3 h4
  rfl

/-- What a run without fetching has done when the one with fetching did. -/
structure SameButFetched (o o2 : AObs) : Prop where
  obj : Fetched o.a o2.a
  accepted : o2.accepted = o.accepted
  records : (o2.received ++ o2.a.agList).Perm (o.received ++ o.a.agList)

theorem add_fetched {env : Env} {a b a' : Aggregator} {c1 c2 ts : Int} {x : AddArg} {ok : Bool} (h : Fetched a b)
    (ha : a.add env c1 c2 ts x = .ok (ok, a')) :
    ∃ l b', a'.agList = a.agList ++ l ∧ b.add env c1 c2 ts x = .ok (ok, b') ∧ Fetched a' b' ∧ b'.agList = b.agList ++ l := by
  rw [h.eq]
  unfold add aggregate0_ at ha ⊢
  by_cases he : a.enabled = false
  · rw [if_pos he] at ha ⊢
    injection ha with ha
    injection ha with e1 e2
    subst e1 e2
    exact ⟨[], _, by simp, rfl, ⟨rfl, rfl, rfl, rfl⟩, by simp⟩
  · rw [if_neg he] at ha ⊢
    obtain ⟨⟨k, sep⟩, h1, ha⟩ := bind_inv ha
    simp only [h1, bind_ok]
    cases k with
    | false =>
      simp only [if_true] at ha ⊢
      injection ha with ha
      injection ha with e1 e2
      subst e1 e2
      exact ⟨[], _, by simp, rfl, ⟨rfl, rfl, rfl, rfl⟩, by simp⟩
    | true =>
      simp only [Bool.true_eq_false, if_false] at ha ⊢
      obtain ⟨a2, h2, ha⟩ := bind_inv ha
      obtain ⟨l, h3, h2⟩ := bind_inv h2
      injection h2 with h2
      injection ha with ha
      injection ha with e1 e2
      subst e1 e2 h2
      simp only [h3, bind_ok]
      exact ⟨l, _, rfl, rfl, ⟨rfl, rfl, rfl, rfl⟩, rfl⟩

theorem exec_fetched {env : Env} {o o2 o' : AObs} (op : AOp) (h : SameButFetched o o2) (hx : exec env o op = .ok o') :
    if AOp.fetches op then SameButFetched o' o2 else ∃ o2', exec env o2 op = .ok o2' ∧ SameButFetched o' o2' := by
  obtain ⟨hobj, hacc, hrec⟩ := h
  have hrecord : ∀ (ok : Bool) (clk ts : Int) (x : AddArg), o2.record ok clk ts x = o.record ok clk ts x := by
    intro ok clk ts x
    unfold AObs.record
    rw [← hobj.sep, ← hobj.enabled, hacc]
  have grow : ∀ l : List AggData, (o2.received ++ (o2.a.agList ++ l)).Perm (o.received ++ (o.a.agList ++ l)) := by
    intro l
    rw [← List.append_assoc, ← List.append_assoc]
    exact hrec.append_right l
  have give : ∀ l : List AggData, ((o2.received ++ l) ++ o2.a.agList).Perm ((o.received ++ l) ++ o.a.agList) := by
    intro l
    have e : ∀ x y : List AggData, ((x ++ l) ++ y).Perm ((x ++ y) ++ l) := by
      intro x y
      rw [List.append_assoc, List.append_assoc]
      exact List.perm_append_comm.append_left x
    exact (e _ _).trans ((hrec.append_right l).trans (e _ _).symm)
  cases op with
  | pop =>
    simp only [AOp.fetches, if_true]
    injection hx with hx
    subst hx
    cases hl : o.a.agList with
    | nil =>
      simp only [Option.toList_none, List.append_nil]
      exact ⟨hobj, hacc, hrec⟩
    | cons d l =>
      refine ⟨⟨hobj.sep, hobj.outSize, hobj.enabled, hobj.alive⟩, hacc, ?_⟩
      simp only [Option.toList_some, List.append_assoc, List.singleton_append]
      rw [← hl]
      exact hrec
  | look =>
    simp only [AOp.fetches, if_true]
    obtain ⟨_, _, hx⟩ := bind_inv hx
    injection hx with hx
    subst hx
    exact ⟨hobj, hacc, hrec⟩
  | add c1 c2 ts x =>
    simp only [AOp.fetches, Bool.false_eq_true, if_false]
    simp only [exec] at hx
    obtain ⟨⟨ok, a'⟩, ha, hx⟩ := bind_inv hx
    injection hx with hx
    subst hx
    obtain ⟨l, b', h1, h2, h3, h4⟩ := add_fetched hobj ha
    refine ⟨{ a := b', received := o2.received, accepted := o2.record ok c1 ts x }, ?_, h3, hrecord ok c1 ts x, ?_⟩
    · simp only [exec, h2, bind_ok]
    · simp only [h1, h4]; exact grow l
  | push c1 c2 ts x handler =>
    simp only [AOp.fetches, Bool.false_eq_true, if_false]
    simp only [exec] at hx
    obtain ⟨⟨ok, out, a'⟩, ha, hx⟩ := bind_inv hx
    injection hx with hx
    subst hx
    unfold push at ha
    by_cases he : o.a.enabled = false
    · rw [if_pos he] at ha
      injection ha with ha
      injection ha with e1 e2
      injection e2 with e2 e3
      subst e1 e2 e3
      refine ⟨{ o2 with accepted := o2.record true c1 ts x }, ?_, hobj, hrecord true c1 ts x, ?_⟩
      · simp only [exec]
        unfold push
        rw [if_pos (by rw [← hobj.enabled]; exact he)]
        simp only [bind_ok, List.append_nil]
      · simp only [List.append_nil]; exact hrec
    · rw [if_neg he] at ha
      have he2 : ¬ o2.a.enabled = false := by rw [← hobj.enabled]; exact he
      cases handler with
      | false =>
        simp only [if_true] at ha
        obtain ⟨⟨k, a1⟩, h1, ha⟩ := bind_inv ha
        injection ha with ha
        injection ha with e1 e2
        injection e2 with e2 e3
        subst e1 e2 e3
        obtain ⟨l, b', g1, g2, g3, g4⟩ := add_fetched hobj h1
        refine ⟨{ a := b', received := o2.received, accepted := o2.record k c1 ts x }, ?_, g3, hrecord k c1 ts x, ?_⟩
        · simp only [exec]
          unfold push
          rw [if_neg he2]
          simp only [if_true, g2, bind_ok, List.append_nil]
        · simp only [g1, g4, List.append_nil]; exact grow l
      | true =>
        simp only [Bool.true_eq_false, if_false] at ha
        obtain ⟨⟨k, out0, sep⟩, h1, ha⟩ := bind_inv ha
        obtain ⟨out1, h2, ha⟩ := bind_inv ha
        injection ha with ha
        injection ha with e1 e2
        injection e2 with e2 e3
        subst e1 e2 e3
        refine ⟨{ a := { o2.a with sep := sep }, received := o2.received ++ out1, accepted := o2.record k c1 ts x }, ?_,
          ⟨rfl, hobj.outSize, hobj.enabled, hobj.alive⟩, hrecord k c1 ts x, ?_⟩
        · simp only [exec]
          unfold push
          rw [if_neg he2]
          simp only [Bool.true_eq_false, if_false, ← hobj.sep, ← hobj.outSize, h1, h2, bind_ok]
        · exact give out1
  | separate clk ts handler force =>
    simp only [AOp.fetches, Bool.false_eq_true, if_false]
    simp only [exec] at hx
    obtain ⟨⟨ok, out, a'⟩, ha, hx⟩ := bind_inv hx
    injection hx with hx
    subst hx
    unfold separate aggregate0_ at ha
    obtain ⟨⟨k, out0, sep⟩, h1, ha⟩ := bind_inv ha
    obtain ⟨a2, h2, ha⟩ := bind_inv ha
    obtain ⟨l, h3, h2⟩ := bind_inv h2
    injection h2 with h2
    injection ha with ha
    injection ha with e1 e2
    injection e2 with e2 e3
    subst e1 e2 e3 h2
    refine ⟨{ o2 with a := { o2.a with sep := { sep with sepList := [] }, agList := o2.a.agList ++ l }, received := o2.received ++ out0 }, ?_,
      ⟨rfl, hobj.outSize, hobj.enabled, hobj.alive⟩, hacc, ?_⟩
    · simp only [exec]
      unfold separate aggregate0_
      simp only [← hobj.sep, ← hobj.outSize, h1, bind_ok]
      simp only [h3, bind_ok]
    · have := (give out0).append_right l
      simp only [List.append_assoc] at this ⊢
      exact this
  | forcePop =>
    simp only [AOp.fetches, Bool.false_eq_true, if_false]
    simp only [exec] at hx
    obtain ⟨⟨d, a'⟩, ha, hx⟩ := bind_inv hx
    injection hx with hx
    subst hx
    unfold forcePop at ha
    obtain ⟨⟨d0, sep⟩, h1, ha⟩ := bind_inv ha
    cases d0 with
    | none =>
      injection ha with ha
      injection ha with e1 e2
      subst e1 e2
      refine ⟨{ o2 with a := { o2.a with sep := sep } }, ?_, ⟨rfl, hobj.outSize, hobj.enabled, hobj.alive⟩, hacc, ?_⟩
      · simp only [exec]
        unfold forcePop
        simp only [← hobj.sep, h1, bind_ok, Option.toList_none, List.append_nil]
      · simp only [Option.toList_none, List.append_nil]; exact hrec
    | some d0 =>
      obtain ⟨ag, h2, ha⟩ := bind_inv ha
      injection ha with ha
      injection ha with e1 e2
      subst e1 e2
      refine ⟨{ o2 with a := { o2.a with sep := sep }, received := o2.received ++ [ag] }, ?_,
        ⟨rfl, hobj.outSize, hobj.enabled, hobj.alive⟩, hacc, ?_⟩
      · simp only [exec]
        unfold forcePop
        simp only [← hobj.sep, ← hobj.outSize, h1, h2, bind_ok, Option.toList_some]
      · exact give [ag]
  | enable v =>
    simp only [AOp.fetches, Bool.false_eq_true, if_false]
    injection hx with hx
    subst hx
    exact ⟨{ o2 with a := o2.a.enable v }, rfl, ⟨hobj.sep, hobj.outSize, rfl, hobj.alive⟩, hacc, hrec⟩

/-- A history without its fetching calls does the same. -/
theorem execAll_unfetched {env : Env} (ops : List AOp) :
    ∀ {o o2 o' : AObs}, SameButFetched o o2 → execAll env o ops = .ok o' →
      ∃ o2', execAll env o2 (unfetched ops) = .ok o2' ∧ SameButFetched o' o2' := by
  induction ops with
  | nil => intro o o2 o' h hx; cases hx; exact ⟨o2, rfl, h⟩
  | cons op ops ih =>
    intro o o2 o' h hx
    unfold execAll at hx
    rw [List.foldlM_cons] at hx
    obtain ⟨o1, h1, h2⟩ := bind_inv hx
    have key := exec_fetched op h h1
    unfold unfetched
    rw [List.filter_cons]
    by_cases hf : AOp.fetches op = true
    · rw [if_pos hf] at key
      rw [if_neg (by simp [hf])]
      exact ih key h2
    · rw [if_neg hf] at key
      rw [if_pos (by simpa using hf)]
      obtain ⟨o2', e1, e2⟩ := key
      obtain ⟨o2'', e3, e4⟩ := ih e2 h2
      refine ⟨o2'', ?_, e4⟩
      unfold execAll
      rw [List.foldlM_cons, e1]
      exact e3

/-- Two histories of the same aggregator that differ in when and how often records are fetched only: the same events are recorded,
the same records are received or waiting in the end, and what will happen from then on is the same: the objects are the same but for
the records waiting. -/
theorem C133_fetching (env : Env) (a : Aggregator) (ops ops' : List AOp) (o o' : AObs) (he : unfetched ops = unfetched ops')
    (h : execAll env { a := a } ops = .ok o) (h' : execAll env { a := a } ops' = .ok o') :
    o'.accepted = o.accepted ∧ (o'.received ++ o'.a.agList).Perm (o.received ++ o.a.agList) ∧ Fetched o.a o'.a := by
  have refl : SameButFetched ({ a := a } : AObs) { a := a } := ⟨⟨rfl, rfl, rfl, rfl⟩, rfl, .refl _⟩
  obtain ⟨o1, h1, r1⟩ := execAll_unfetched ops refl h
  obtain ⟨o2, h2, r2⟩ := execAll_unfetched ops' refl h'
  rw [he] at h1
  rw [h1] at h2
  injection h2 with h2
  subst h2
  refine ⟨r2.accepted.symm.trans r1.accepted, r2.records.symm.trans r1.records, ?_⟩
  exact ⟨r1.obj.sep.trans r2.obj.sep.symm, r1.obj.outSize.trans r2.obj.outSize.symm, r1.obj.enabled.trans r2.obj.enabled.symm,
    r1.obj.alive.trans r2.obj.alive.symm⟩

/-- A history that returns returns without its fetching calls as well. -/
theorem C133_returns (env : Env) (a : Aggregator) (ops : List AOp) (o : AObs) (h : execAll env { a := a } ops = .ok o) :
    ∃ o', execAll env { a := a } (unfetched ops) = .ok o' :=
  let ⟨o', h', _⟩ := execAll_unfetched ops (o2 := { a := a }) ⟨⟨rfl, rfl, rfl, rfl⟩, rfl, .refl _⟩ h
  ⟨o', h'⟩

/-- Polled histories: even the order of the records is the same. -/
theorem C133_polled (env : Env) (opt : AggregatorOpts) (a : Aggregator) (ops ops' : List AOp) (o o' : AObs) (hs : 0 < opt.step)
    (h0 : Aggregator.Fresh env opt a) (he : unfetched ops = unfetched ops')
    (hops : ∀ op ∈ ops ++ ops', op.clockOk ∧ op.forced = false ∧ op.handed = false)
    (h : execAll env { a := a } ops = .ok o) (h' : execAll env { a := a } ops' = .ok o') :
    o'.received ++ o'.a.agList = o.received ++ o.a.agList := by
  obtain ⟨p1, _⟩ := C22_fifo env opt a ops o hs h0 (fun op ho => (hops op (List.mem_append_left _ ho)).1)
    (fun op ho => (hops op (List.mem_append_left _ ho)).2.1) (fun op ho => (hops op (List.mem_append_left _ ho)).2.2) h
  obtain ⟨p2, _⟩ := C22_fifo env opt a ops' o' hs h0 (fun op ho => (hops op (List.mem_append_right _ ho)).1)
    (fun op ho => (hops op (List.mem_append_right _ ho)).2.1) (fun op ho => (hops op (List.mem_append_right _ ho)).2.2) h'
  refine List.Perm.eq_of_pairwise (le := fun a b : AggData => a.ts < b.ts) ?_ p2 p1 (C133_fetching env a ops ops' o o' he h h').2.1
  intro x y _ _ hxy hyx
  omega

/-- Two records, fetched as they come, or not at all. -/
example :
    ((execAll exactEnv { a := exANew } [.add 0 0 1001 (.one 5 1), .pop, .add 0 0 1011 (.one 6 1), .look, .pop, .add 0 0 1021 (.one 7 1)]).toOption.map
      fun o => (o.received.map (fun d => (d.ts, d.min)), o.a.agList.map (fun d => (d.ts, d.min)))) =
        some ([(1000, 5)], [(1010, 6)]) ∧
    ((execAll exactEnv { a := exANew } [.add 0 0 1001 (.one 5 1), .add 0 0 1011 (.one 6 1), .add 0 0 1021 (.one 7 1)]).toOption.map
      fun o => (o.received.map (fun d => (d.ts, d.min)), o.a.agList.map (fun d => (d.ts, d.min)))) =
        some ([], [(1000, 5), (1010, 6)]) := by decide +kernel

end Wrtstat
