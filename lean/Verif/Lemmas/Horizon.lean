/-
Lemmas for C153 and C154: which events are recorded, as a function of the times of the calls.
-/
import Verif.Lemmas.MachineTime
import Verif.Lemmas.RegistryStep
import Verif.Props.HowMany

namespace Wrtstat

set_option autoImplicit false

namespace Aggregator

/-- What recording depends on: whether the aggregator is switched on, where its window begins, and what it has recorded. -/
structure Horizon where
  en : Bool
  cur : Int
  acc : List (Int × AddArg)

def AObs.horizon (o : AObs) : Horizon := { en := o.a.enabled, cur := o.a.sep.currentTime, acc := o.accepted }

/-- The effect of an operation on that. -/
def Horizon.next (opt : AggregatorOpts) (s : Horizon) : AOp → Horizon
  | .add c _ ts x =>
    if s.en = true ∧ s.cur ≤ align opt.step (meant opt.resolution c ts) then
      { s with cur := windowOf s.cur opt.step (align opt.step (meant opt.resolution c ts)),
               acc := s.acc ++ [(align opt.step (meant opt.resolution c ts), x)] }
    else s
  | .push c _ ts x _ =>
    if s.en = true ∧ s.cur ≤ align opt.step (meant opt.resolution c ts) then
      { s with cur := windowOf s.cur opt.step (align opt.step (meant opt.resolution c ts)),
               acc := s.acc ++ [(align opt.step (meant opt.resolution c ts), x)] }
    else s
  | .separate c ts _ _ =>
    if s.cur ≤ align opt.step (meant opt.resolution c ts) then
      { s with cur := windowOf s.cur opt.step (align opt.step (meant opt.resolution c ts)) }
    else s
  | .enable v => { s with en := v }
  | _ => s

theorem moved_of_effect {env : Env} {opt : ReducerOpts} {s s' : Separator} {as as' : List AddArg} {T : Int} {hd : Bool}
    {pub out : List AggData} (hs : 0 < s.step) (eff : Separator.SepEffect env opt s s' as as' T hd pub out) :
    s'.step = s.step ∧
    s'.currentTime = if s.currentTime ≤ T then windowOf s.currentTime s.step T else s.currentTime := by
  obtain ⟨e1, -⟩ := eff.frame
  refine ⟨e1, ?_⟩
  unfold Separator.currentTime
  rw [e1]
  rcases eff.cases with ⟨hlt, -, rfl, -⟩ | ⟨h1, h2, h3, ⟨k, e, hk⟩, -⟩
  · split
    · rename_i hle
      have := windowOf_eq (org := s'.next - s'.step) (t := T) 0 hs (by omega) (by omega)
      omega
    · rfl
  · rw [if_pos (by omega)]
    have := windowOf_eq (org := s.next - s.step) (t := T) k hs (by omega) (by omega)
    omega

theorem meant_meant {res : Resolution} {step c c2 ts : Int} (hs : 0 < step)
    (ht : res = .none ∨ align step (meant res c ts) ≠ 0) :
    align step (meant res c2 (align step (meant res c ts))) = align step (meant res c ts) := by
  have : meant res c2 (align step (meant res c ts)) = align step (meant res c ts) := by
    generalize align step (meant res c ts) = A at ht
    unfold meant
    rw [if_neg]
    rintro ⟨p, q⟩
    exact ht.elim q (fun r => r p)
  rw [this, Separator.align_idem (by omega)]

theorem push_moved {env : Env} {opt : AggregatorOpts} {s s' : Separator} {as : List AddArg} {c c2 ts : Int} {x : AddArg} {hd b : Bool}
    {out : List AggData} (hs : 0 < opt.step) (hst : s.step = opt.step) (hres : s.resolution = opt.resolution)
    (g : Reducer.GoodA env opt.toReducerOpts s.reducer as) (ht : opt.resolution = .none ∨ align opt.step (meant opt.resolution c ts) ≠ 0)
    (h : s.push env c c2 ts x hd = .ok (b, out, s')) :
    (b = true ↔ s.currentTime ≤ align opt.step (meant opt.resolution c ts)) ∧
    s'.currentTime = if s.currentTime ≤ align opt.step (meant opt.resolution c ts) then
      windowOf s.currentTime opt.step (align opt.step (meant opt.resolution c ts)) else s.currentTime := by
  obtain ⟨s1, pub, as', eff, hb, e⟩ := Separator.push_effect (by omega) g h
  rw [hst, hres] at eff hb
  rw [meant_meant hs ht] at eff
  generalize align opt.step (meant opt.resolution c ts) = T at *
  obtain ⟨e1, e2⟩ := moved_of_effect (by omega) eff
  have e3 : s'.currentTime = s1.currentTime := by rw [e]; split <;> rfl
  rw [e3, e2, hst]
  refine ⟨?_, rfl⟩
  rw [hb]
  show s1.currentTime ≤ T ↔ _
  rw [e2, hst]
  by_cases hle : s.currentTime ≤ T
  · rw [if_pos hle]
    simp only [hle, iff_true]
    unfold windowOf
    have := Int.ediv_mul_le (T - s.currentTime) (show opt.step ≠ 0 by omega)
    omega
  · rw [if_neg hle]

theorem add_horizon {env : Env} {opt : AggregatorOpts} {Q : List AddArg → AggData → Prop} {o : AObs}
    {gR gA gS : List (List (Int × AddArg))} {cur : List (Int × AddArg)} (hs : 0 < opt.step) (g : PGood env opt Q o gR gA gS cur)
    {c c2 ts : Int} {x : AddArg} {b : Bool} {a' : Aggregator}
    (ht : opt.resolution = .none ∨ align opt.step (meant opt.resolution c ts) ≠ 0)
    (h : o.a.add env c c2 ts x = .ok (b, a')) :
    ((⟨a', o.received, o.record b c ts x⟩ : AObs).horizon = o.horizon.next opt (.add c c2 ts x)) ∧
    (o.a.enabled = true → (b = true ↔ o.a.sep.currentTime ≤ align opt.step (meant opt.resolution c ts))) := by
  obtain ⟨hst, hres⟩ := g.sep.step
  unfold add Separator.add at h
  by_cases he : o.a.enabled = true
  · rw [if_neg (by simp [he])] at h
    obtain ⟨p, hp, h⟩ := bind_inv h
    obtain ⟨⟨b1, out, s'⟩, hq, hp⟩ := bind_inv hp
    cases hp
    obtain ⟨hb, hcur⟩ := push_moved hs hst hres g.sep.red ht hq
    have key : a'.enabled = o.a.enabled ∧ a'.sep.currentTime = s'.currentTime ∧ b = b1 := by
      cases b1 with
      | false => cases h; exact ⟨rfl, rfl, rfl⟩
      | true =>
        simp only [Bool.true_eq_false, if_false] at h
        obtain ⟨a1, h1, h⟩ := bind_inv h
        cases h
        obtain ⟨e1, e2⟩ := aggregate0_next h1
        refine ⟨(aggregate0_alive h1).2, ?_, rfl⟩
        unfold Separator.currentTime
        rw [e1, e2]
    obtain ⟨k1, k2, rfl⟩ := key
    refine ⟨?_, fun _ => hb⟩
    simp only [AObs.horizon, Horizon.next, AObs.record, he, k1, k2, hcur, hst, hres, true_and, and_true]
    by_cases hle : o.a.sep.currentTime ≤ align opt.step (meant opt.resolution c ts)
    · simp only [if_pos hle, if_pos (hb.2 hle)]
    · simp only [if_neg hle, if_neg (fun hh => hle (hb.1 hh))]
  · rw [if_pos (by simpa using he)] at h
    cases h
    refine ⟨?_, fun h => absurd h he⟩
    simp [AObs.horizon, Horizon.next, AObs.record, he]

theorem push_horizon {env : Env} {opt : AggregatorOpts} {Q : List AddArg → AggData → Prop} {o : AObs}
    {gR gA gS : List (List (Int × AddArg))} {cur : List (Int × AddArg)} (hs : 0 < opt.step) (g : PGood env opt Q o gR gA gS cur)
    {c c2 ts : Int} {x : AddArg} {hd b : Bool} {out : List AggData} {a' : Aggregator}
    (ht : opt.resolution = .none ∨ align opt.step (meant opt.resolution c ts) ≠ 0)
    (h : o.a.push env c c2 ts x hd = .ok (b, out, a')) :
    ((⟨a', o.received ++ out, o.record b c ts x⟩ : AObs).horizon = o.horizon.next opt (.push c c2 ts x hd)) ∧
    (o.a.enabled = true → (b = true ↔ o.a.sep.currentTime ≤ align opt.step (meant opt.resolution c ts))) := by
  obtain ⟨hst, hres⟩ := g.sep.step
  unfold push at h
  by_cases he : o.a.enabled = true
  · rw [if_neg (by simp [he])] at h
    cases hd with
    | false =>
      simp only [if_true] at h
      obtain ⟨⟨b1, a1⟩, hp, h⟩ := bind_inv h
      cases h
      exact add_horizon hs g ht hp
    | true =>
      simp only [Bool.true_eq_false, if_false] at h
      obtain ⟨⟨b1, out1, s'⟩, hq, h⟩ := bind_inv h
      obtain ⟨l, -, h⟩ := bind_inv h
      cases h
      obtain ⟨hb, hcur⟩ := push_moved hs hst hres g.sep.red ht hq
      refine ⟨?_, fun _ => hb⟩
      simp only [AObs.horizon, Horizon.next, AObs.record, he, hcur, hst, hres, true_and, and_true]
      by_cases hle : o.a.sep.currentTime ≤ align opt.step (meant opt.resolution c ts)
      · simp only [if_pos hle, if_pos (hb.2 hle)]
      · simp only [if_neg hle, if_neg (fun hh => hle (hb.1 hh))]
  · rw [if_pos (by simpa using he)] at h
    cases h
    refine ⟨?_, fun h => absurd h he⟩
    simp [AObs.horizon, Horizon.next, AObs.record, he]

theorem horizon_exec {env : Env} {opt : AggregatorOpts} {Q : List AddArg → AggData → Prop} {o o' : AObs}
    {gR gA gS : List (List (Int × AddArg))} {cur : List (Int × AddArg)} (hs : 0 < opt.step) (g : PGood env opt Q o gR gA gS cur)
    (op : AOp) (ht : op.timeOk opt) (h : exec env o op = .ok o') : o'.horizon = o.horizon.next opt op := by
  obtain ⟨hst, hres⟩ := g.sep.step
  cases op with
  | add c c2 ts x =>
    simp only [exec] at h
    obtain ⟨⟨b, a'⟩, hp, h⟩ := bind_inv h
    cases h
    exact (add_horizon hs g ht hp).1
  | push c c2 ts x hd =>
    simp only [exec] at h
    obtain ⟨⟨b, out, a'⟩, hp, h⟩ := bind_inv h
    cases h
    exact (push_horizon hs g ht hp).1
  | separate c ts hd f =>
    simp only [exec, separate] at h
    obtain ⟨⟨b, out, a'⟩, hp, h⟩ := bind_inv h
    obtain ⟨⟨b1, out1, s'⟩, hq, hp⟩ := bind_inv hp
    obtain ⟨a1, h1, hp⟩ := bind_inv hp
    cases hp; cases h
    obtain ⟨pub, as', eff, -⟩ := Separator.separate_effect (by omega) g.sep.red hq
    rw [hst, hres] at eff
    obtain ⟨e1, e2⟩ := moved_of_effect (by omega) eff
    obtain ⟨e3, e4⟩ := aggregate0_next h1
    have e5 : a'.sep.currentTime = s'.currentTime := by unfold Separator.currentTime; rw [e3, e4]
    simp only [AObs.horizon, Horizon.next, (aggregate0_alive h1).2, e5, e2, hst]
    by_cases hle : o.a.sep.currentTime ≤ align opt.step (meant opt.resolution c ts)
    · simp only [if_pos hle]
      exact (if_pos hle).symm
    · simp only [if_neg hle]
      exact (if_neg hle).symm
  | pop =>
    simp only [exec, pop] at h
    cases hl : o.a.agList with
    | nil => rw [hl] at h; cases h; rfl
    | cons d l => rw [hl] at h; cases h; rfl
  | forcePop =>
    simp only [exec, forcePop] at h
    obtain ⟨⟨d, a'⟩, hp, h⟩ := bind_inv h
    obtain ⟨⟨d1, s'⟩, hq, hp⟩ := bind_inv hp
    obtain ⟨e1, e2⟩ := Separator.forcePop_next hq
    have e3 : s'.currentTime = o.a.sep.currentTime := by unfold Separator.currentTime; simp only at e1 e2; rw [e1, e2]
    cases h
    cases d1 with
    | none => cases hp; simp only [AObs.horizon, Horizon.next, e3]
    | some d1 =>
      obtain ⟨ag, -, hp⟩ := bind_inv hp
      cases hp
      simp only [AObs.horizon, Horizon.next, e3]
  | look =>
    simp only [exec] at h
    obtain ⟨_, -, h⟩ := bind_inv h
    cases h; rfl
  | enable v => cases h; rfl

theorem horizon_execAll {env : Env} {opt : AggregatorOpts} (hs : 0 < opt.step) (ops : List AOp) :
    ∀ {o o' : AObs} {gR gA gS : List (List (Int × AddArg))} {cur : List (Int × AddArg)},
      PGood env opt (fun _ _ => True) o gR gA gS cur → (∀ op ∈ ops, op.clockOk) → (∀ op ∈ ops, op.timeOk opt) →
      execAll env o ops = .ok o' → o'.horizon = ops.foldl (Horizon.next opt) o.horizon := by
  induction ops with
  | nil => intro o o' _ _ _ _ _ _ _ h; cases h; rfl
  | cons op ops ih =>
    intro o o' gR gA gS cur g h1 h2 h
    unfold execAll at h
    rw [List.foldlM_cons] at h
    obtain ⟨o1, hx, h⟩ := bind_inv h
    obtain ⟨_, _, _, _, g1⟩ := pgood_exec (fun _ _ _ => trivial) hs g op (h1 op (by simp)) (fun _ _ _ _ => trivial) hx
    rw [List.foldl_cons, ← horizon_exec hs g op (h2 op (by simp)) hx]
    exact ih g1 (fun op hop => h1 op (by simp [hop])) (fun op hop => h2 op (by simp [hop])) h

end Aggregator

end Wrtstat
