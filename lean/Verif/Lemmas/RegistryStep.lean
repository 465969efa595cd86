/-
Each registry operation acts on every aggregator as the list of operations addressed to it.
-/
import Verif.Lemmas.RegistryDict
import Verif.Lemmas.AggregatorInv

namespace Wrtstat

theorem bind_inv {α β : Type} {x : M α} {f : α → M β} {b : β} (h : (x >>= f) = .ok b) :
    ∃ a, x = .ok a ∧ f a = .ok b := by
  cases x with
  | error e => cases h
  | ok a => exact ⟨a, rfl, h⟩

namespace Aggregator

/-- What was received and accepted before does not influence an operation. -/
theorem exec_frame (env : Env) (a : Aggregator) (R : List AggData) (A : List (Int × AddArg)) (op : AOp) :
    exec env { a := a, received := R, accepted := A } op =
      (exec env { a := a } op).map fun o => { a := o.a, received := R ++ o.received, accepted := A ++ o.accepted } := by
  cases op with
  | add c1 c2 ts x =>
    simp only [exec, AObs.record]
    cases a.add env c1 c2 ts x with
    | error e => rfl
    | ok q =>
      obtain ⟨ok, a'⟩ := q
      simp only [bind_ok', Except.map, List.append_nil]
      by_cases h : ok = true ∧ a.enabled = true
      · rw [if_pos h, if_pos h]; rfl
      · rw [if_neg h, if_neg h, List.append_nil]
  | push c1 c2 ts x hd =>
    simp only [exec, AObs.record]
    cases a.push env c1 c2 ts x hd with
    | error e => rfl
    | ok q =>
      obtain ⟨ok, out, a'⟩ := q
      simp only [bind_ok', Except.map, List.nil_append]
      by_cases h : ok = true ∧ a.enabled = true
      · rw [if_pos h, if_pos h]
      · rw [if_neg h, if_neg h, List.append_nil]
  | separate c ts hd f =>
    simp only [exec]
    cases a.separate env c ts hd f with
    | error e => rfl
    | ok q => obtain ⟨ok, out, a'⟩ := q; simp [bind_ok', Except.map]
  | pop => simp [exec, Except.map]
  | forcePop =>
    simp only [exec]
    cases a.forcePop env with
    | error e => rfl
    | ok q => obtain ⟨d, a'⟩ := q; simp [bind_ok', Except.map]
  | look =>
    simp only [exec]
    cases a.aggregateCurrent env with
    | error e => rfl
    | ok q => simp [bind_ok', Except.map]
  | enable v => simp [exec, Except.map]

theorem execAll_frame (env : Env) (a : Aggregator) (R : List AggData) (A : List (Int × AddArg)) (ops : List AOp) :
    execAll env { a := a, received := R, accepted := A } ops =
      (execAll env { a := a } ops).map fun o => { a := o.a, received := R ++ o.received, accepted := A ++ o.accepted } := by
  induction ops generalizing a R A with
  | nil => simp [execAll, Except.map, pure, Except.pure]
  | cons op ops ih =>
    unfold execAll at *
    simp only [List.foldlM_cons]
    rw [exec_frame]
    cases exec env { a := a } op with
    | error e => rfl
    | ok o =>
      simp only [Except.map, bind_ok']
      rw [ih o.a (R ++ o.received) (A ++ o.accepted), ih o.a o.received o.accepted]
      cases List.foldlM (exec env) { a := o.a } ops with
      | error e => rfl
      | ok o' => simp [Except.map]

/-- The operations `ops` take the aggregator from `a` to `a'` and deliver `out`. -/
def Trans (env : Env) (a : Aggregator) (ops : List AOp) (a' : Aggregator) (out : List AggData) : Prop :=
  ∃ o, execAll env { a := a } ops = .ok o ∧ o.a = a' ∧ o.received = out

theorem trans_nil (env : Env) (a : Aggregator) : Trans env a [] a [] := ⟨_, rfl, rfl, rfl⟩

theorem trans_append {env : Env} {a b c : Aggregator} {ops ops' : List AOp} {out out' : List AggData}
    (h : Trans env a ops b out) (h' : Trans env b ops' c out') : Trans env a (ops ++ ops') c (out ++ out') := by
  obtain ⟨o, h1, rfl, rfl⟩ := h
  obtain ⟨o', h2, rfl, rfl⟩ := h'
  refine ⟨{ a := o'.a, received := o.received ++ o'.received, accepted := o.accepted ++ o'.accepted }, ?_, rfl, rfl⟩
  unfold execAll at h1 h2 ⊢
  rw [List.foldlM_append, h1, bind_ok']
  have := execAll_frame env o.a o.received o.accepted ops'
  unfold execAll at this
  rw [show o = { a := o.a, received := o.received, accepted := o.accepted } from rfl, this, h2]
  rfl

theorem trans_one {env : Env} {a : Aggregator} {op : AOp} {o : AObs} (h : exec env { a := a } op = .ok o) :
    Trans env a [op] o.a o.received := by
  refine ⟨o, ?_, rfl, rfl⟩
  unfold execAll
  simp only [List.foldlM_cons, List.foldlM_nil, h]
  rfl

theorem aggregate0_alive {E : NthElement} {a a' : Aggregator} (h : aggregate0_ E a = .ok a') :
    a'.alive = a.alive ∧ a'.enabled = a.enabled := by
  obtain ⟨l, _, h2⟩ := bind_inv h
  cases h2
  exact ⟨rfl, rfl⟩

theorem add_alive {env : Env} {a a' : Aggregator} {c1 c2 ts : Int} {x : AddArg} {ok : Bool}
    (h : a.add env c1 c2 ts x = .ok (ok, a')) : a'.alive = a.alive ∧ a'.enabled = a.enabled := by
  unfold add at h
  by_cases he : a.enabled = false
  · rw [if_pos he] at h; cases h; exact ⟨rfl, rfl⟩
  rw [if_neg he] at h
  obtain ⟨⟨ok', s⟩, _, h⟩ := bind_inv h
  simp only at h
  by_cases ho : ok' = false
  · rw [if_pos ho] at h; cases h; exact ⟨rfl, rfl⟩
  rw [if_neg ho] at h
  obtain ⟨b, hb, h⟩ := bind_inv h
  cases h
  have h3 := aggregate0_alive hb
  exact ⟨h3.1, h3.2⟩

/-- Nothing but `clear` ends the life of the token of the pushers, and only `enable` changes the
enabled flag. -/
theorem exec_alive {env : Env} {o o' : AObs} {op : AOp} (h : exec env o op = .ok o') :
    o'.a.alive = o.a.alive ∧ (o'.a.enabled = o.a.enabled ∨ op = .enable o'.a.enabled) := by
  cases op with
  | add c1 c2 ts x =>
    obtain ⟨⟨ok, a'⟩, h1, h2⟩ := bind_inv h
    cases h2
    exact ⟨(add_alive h1).1, .inl (add_alive h1).2⟩
  | push c1 c2 ts x hd =>
    obtain ⟨⟨ok, out, a'⟩, h1, h2⟩ := bind_inv h
    cases h2
    unfold push at h1
    by_cases he : o.a.enabled = false
    · rw [if_pos he] at h1; cases h1; exact ⟨rfl, .inl rfl⟩
    rw [if_neg he] at h1
    by_cases hh : hd = false
    · rw [if_pos hh] at h1
      obtain ⟨⟨ok, b⟩, h1, h2⟩ := bind_inv h1
      cases h2
      exact ⟨(add_alive h1).1, .inl (add_alive h1).2⟩
    · rw [if_neg hh] at h1
      obtain ⟨⟨ok, out', s⟩, h1, h2⟩ := bind_inv h1
      obtain ⟨l, _, h2⟩ := bind_inv h2
      cases h2
      exact ⟨rfl, .inl rfl⟩
  | separate c ts hd f =>
    obtain ⟨⟨ok, out, a'⟩, h1, h2⟩ := bind_inv h
    cases h2
    obtain ⟨⟨b, out', s⟩, h1, h2⟩ := bind_inv h1
    obtain ⟨a2, h3, h4⟩ := bind_inv h2
    cases h4
    exact ⟨(aggregate0_alive h3).1, .inl (aggregate0_alive h3).2⟩
  | pop =>
    simp only [exec] at h
    cases h
    unfold pop
    cases o.a.agList <;> exact ⟨rfl, .inl rfl⟩
  | forcePop =>
    obtain ⟨⟨d, a'⟩, h1, h2⟩ := bind_inv h
    cases h2
    obtain ⟨⟨x, s⟩, h3, h4⟩ := bind_inv h1
    cases x with
    | none => cases h4; exact ⟨rfl, .inl rfl⟩
    | some x =>
      obtain ⟨y, _, h5⟩ := bind_inv h4
      cases h5; exact ⟨rfl, .inl rfl⟩
  | look =>
    obtain ⟨d, h1, h2⟩ := bind_inv h
    cases h2; exact ⟨rfl, .inl rfl⟩
  | enable v => cases h; exact ⟨rfl, .inr rfl⟩

theorem execAll_alive {env : Env} (ops : List AOp) : ∀ {o o' : AObs}, execAll env o ops = .ok o' →
    o'.a.alive = o.a.alive := by
  induction ops with
  | nil => intro o o' h; cases h; rfl
  | cons op ops ih =>
    intro o o' h
    unfold execAll at *
    simp only [List.foldlM_cons] at h
    obtain ⟨o1, h1, h2⟩ := bind_inv h
    rw [ih h2, (exec_alive h1).1]

theorem trans_alive {env : Env} {a a' : Aggregator} {ops : List AOp} {out : List AggData}
    (h : Trans env a ops a' out) : a'.alive = a.alive := by
  obtain ⟨o, h1, rfl, rfl⟩ := h
  exact execAll_alive ops h1

end Aggregator
end Wrtstat
