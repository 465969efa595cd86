/-
C134: when one ticks does not matter.
-/
import Verif.Props.Aggregator
import Verif.Props.Scale
import Verif.Lemmas.Shift

namespace Wrtstat

set_option autoImplicit false

open Aggregator

/-- The calls of a client that records, switches, ticks (`separate` without handler) and fetches. -/
def Ticking : AOp → Prop
  | .add .. => True
  | .enable _ => True
  | .separate _ _ handler _ => handler = false
  | .pop => True
  | .look => True
  | _ => False

instance (op : AOp) : Decidable (Ticking op) := by
  cases op <;> simp only [Ticking] <;> infer_instance

/-- The calls that record or switch. -/
def AOp.kept : AOp → Bool
  | .add .. => true
  | .enable _ => true
  | _ => false

/-- The aligned time of a tick. -/
def tickTime (opt : AggregatorOpts) : AOp → Option Int
  | .separate clk ts _ _ => some (align opt.step (meant opt.resolution clk ts))
  | _ => none

/-- The aligned time of a recording call. -/
def addTime (opt : AggregatorOpts) : AOp → Option Int
  | .add clk _ ts _ => some (align opt.step (meant opt.resolution clk ts))
  | _ => none

/-- No tick is past the time of an event recorded after it. -/
def TicksInTime (opt : AggregatorOpts) (ops : List AOp) : Prop :=
  ops.Pairwise fun op op' => ∀ t ∈ tickTime opt op, ∀ t' ∈ addTime opt op', t ≤ t'

/-- The claim: with the same recording calls, the events recorded and, after a last tick, the records are the same. -/
def C134_FullClaim : Prop :=
  ∀ (opt : AggregatorOpts) (a0 : Aggregator) (ops ops' : List AOp) (clk T : Int) (f f' : Bool) (o o' : AObs), 0 < opt.step →
    Aggregator.Fresh exactEnv opt a0 → (∀ op ∈ ops ++ ops', op.clockOk ∧ Ticking op ∧ op.timeOk opt) →
    ops.filter AOp.kept = ops'.filter AOp.kept →
    (∀ op ∈ ops ++ ops', ∀ t ∈ tickTime opt op, t ≤ align opt.step (meant opt.resolution clk T)) →
    execAll exactEnv { a := a0 } (ops ++ [.separate clk T false f]) = .ok o →
    execAll exactEnv { a := a0 } (ops' ++ [.separate clk T false f']) = .ok o' →
    o'.accepted = o.accepted ∧ o'.received ++ o'.a.agList = o.received ++ o.a.agList

/-- A tick past an event makes the event late. -/
theorem C134_refuted : ¬ C134_FullClaim := by
  intro h
  have r1 : (execAll exactEnv { a := exANew } ([.add 0 0 1001 (.one 5 1)] ++ [.separate 0 1030 false false])).toOption.map
      (fun o => o.accepted) = some [(1000, .one 5 1)] := by decide +kernel
  have r2 : (execAll exactEnv { a := exANew } ([.separate 0 1030 false false, .add 0 0 1001 (.one 5 1)] ++ [.separate 0 1030 false false])).toOption.map
      (fun o => o.accepted) = some [] := by decide +kernel
  obtain ⟨o, e1, e2⟩ := obs_of_map r1
  obtain ⟨o', e1', e2'⟩ := obs_of_map r2
  have := (h exAOpt exANew _ _ 0 1030 false false o o' (by decide) (exANew_fresh _) (by decide) (by decide) (by decide) e1 e1').1
  rw [e2, e2'] at this
  cases this

/-! ### The loop in two laps -/

theorem sepLoop_then {env : Env} {step T0 T : Int} (hT : T0 ≤ T) : ∀ (k : Nat) (next : Int) (r : Reducer), (T0 - next + 1).toNat ≤ k →
    ∀ (out : List AggData) (n : Int) (q : Reducer), Separator.sepLoop env step T0 next r = .ok (out, n, q) →
      T0 < n ∧ Separator.sepLoop env step T next r = (do
        let (out2, n2, q2) ← Separator.sepLoop env step T n q
        .ok (out ++ out2, n2, q2)) := by
  intro k
  induction k with
  | zero =>
    intro next r hk out n q h
    unfold Separator.sepLoop at h
    rw [dif_neg (by omega)] at h
    injection h with h
    injection h with e1 h
    injection h with e2 e3
    subst e1 e2 e3
    refine ⟨by omega, ?_⟩
    cases Separator.sepLoop env step T next r with
    | error e => rfl
    | ok p => rfl
  | succ k ih =>
    intro next r hk out n q h
    by_cases hle : next ≤ T0
    · unfold Separator.sepLoop at h
      rw [dif_pos hle] at h
      by_cases hs : 0 < step
      · rw [dif_pos hs] at h
        obtain ⟨⟨d, r1⟩, h1, h⟩ := bind_inv h
        obtain ⟨⟨out1, n1, q1⟩, h2, h⟩ := bind_inv h
        injection h with h
        injection h with e1 h
        injection h with e2 e3
        subst e1 e2 e3
        obtain ⟨g1, g2⟩ := ih (next + step) r1 (by omega) out1 n1 q1 h2
        refine ⟨g1, ?_⟩
        conv_lhs => unfold Separator.sepLoop
        rw [dif_pos (by omega), dif_pos hs, h1]
        simp only [bind_ok, g2]
        cases Separator.sepLoop env step T n1 q1 with
        | error e => rfl
        | ok p => simp only [bind_ok, List.append_assoc]
      · rw [dif_neg hs] at h
        cases h
    · unfold Separator.sepLoop at h
      rw [dif_neg hle] at h
      injection h with h
      injection h with e1 h
      injection h with e2 e3
      subst e1 e2 e3
      refine ⟨by omega, ?_⟩
      cases Separator.sepLoop env step T next r with
      | error e => rfl
      | ok p => rfl

theorem sepLoop_two {env : Env} {step T0 T next : Int} {r : Reducer} (hT : T0 ≤ T) {out : List AggData} {n : Int} {q : Reducer}
    (h : Separator.sepLoop env step T0 next r = .ok (out, n, q)) :
    T0 < n ∧ Separator.sepLoop env step T next r = (do
        let (out2, n2, q2) ← Separator.sepLoop env step T n q
        .ok (out ++ out2, n2, q2)) :=
  sepLoop_then hT _ next r (le_refl _) out n q h

theorem sepLoop_idle {env : Env} {step T next : Int} {r : Reducer} (h : T < next) : Separator.sepLoop env step T next r = .ok ([], next, r) := by
  unfold Separator.sepLoop
  rw [dif_neg (by omega)]

/-- The loop leaves the time in the window it ends at, if it runs. -/
theorem sepLoop_near {env : Env} {step T : Int} : ∀ (k : Nat) (next : Int) (r : Reducer), (T - next + 1).toNat ≤ k →
    ∀ (out : List AggData) (n : Int) (q : Reducer), Separator.sepLoop env step T next r = .ok (out, n, q) → next ≤ T → n - step ≤ T := by
  intro k
  induction k with
  | zero => intro next r hk out n q h hle; omega
  | succ k ih =>
    intro next r hk out n q h hle
    unfold Separator.sepLoop at h
    rw [dif_pos hle] at h
    by_cases hs : 0 < step
    · rw [dif_pos hs] at h
      obtain ⟨⟨d, r1⟩, h1, h⟩ := bind_inv h
      obtain ⟨⟨out1, n1, q1⟩, h2, h⟩ := bind_inv h
      injection h with h
      injection h with e1 h
      injection h with e2 e3
      subst e1 e2 e3
      by_cases hlt : next + step ≤ T
      · exact ih _ _ (by omega) _ _ _ h2 hlt
      · rw [sepLoop_idle (by omega)] at h2
        injection h2 with h2
        injection h2 with e1 h2
        injection h2 with e2 e3
        omega
    · rw [dif_neg hs] at h
      cases h

/-! ### Calls as laps of the loop -/

theorem separate_lap {env : Env} {s : Separator} {clk ts : Int} {f : Bool} (hs : 0 < s.step) :
    s.separate env clk ts false f = (do
      let (out, n, r) ← Separator.sepLoop env s.step (align s.step (meant s.resolution clk ts)) s.next s.reducer
      .ok (decide (f = true ∨ s.next ≤ align s.step (meant s.resolution clk ts)), [],
        { s with next := n, reducer := r, sepList := s.sepList ++ out })) := by
  unfold Separator.separate Separator.getTs
  rw [Separator.getTs_eq (by omega)]
  simp only [bind_ok]
  generalize align s.step (meant s.resolution clk ts) = T
  by_cases h : f = false ∧ T < s.next
  · rw [if_pos h, sepLoop_idle h.2]
    obtain ⟨rfl, h2⟩ := h
    have : ¬ s.next ≤ T := by omega
    simp [bind_ok, this]
  · rw [if_neg h]
    have : f = true ∨ s.next ≤ T := by
      by_cases hf : f = true
      · exact .inl hf
      · right
        by_contra hc
        exact h ⟨by simpa using hf, by omega⟩
    simp only [this, decide_true]
    rfl

theorem add_lap {env : Env} {s : Separator} {c1 c2 ts : Int} {x : AddArg} (hs : 0 < s.step)
    (ht : s.resolution = .none ∨ align s.step (meant s.resolution c1 ts) ≠ 0) :
    s.add env c1 c2 ts x = (do
      let (out, n, r) ← Separator.sepLoop env s.step (align s.step (meant s.resolution c1 ts)) s.next s.reducer
      if align s.step (meant s.resolution c1 ts) < n - s.step then
        .ok (false, { s with next := n, reducer := r, sepList := s.sepList ++ out })
      else .ok (true, { s with next := n, reducer := r.add env x, sepList := s.sepList ++ out })) := by
  unfold Separator.add Separator.push Separator.getTs
  rw [Separator.getTs_eq (by omega)]
  simp only [bind_ok]
  have hm : ∀ A : Int, (s.resolution = .none ∨ A ≠ 0) → meant s.resolution c2 A = A := by
    intro A hA
    unfold meant
    rw [if_neg]
    rintro ⟨p, q⟩
    exact hA.elim q (fun r => r p)
  rw [separate_lap hs, hm _ ht, Separator.align_idem (show s.step ≠ 0 by omega)]
  generalize align s.step (meant s.resolution c1 ts) = T
  cases Separator.sepLoop env s.step T s.next s.reducer with
  | error e => rfl
  | ok p =>
    obtain ⟨out, n, r⟩ := p
    simp only [bind_ok]
    by_cases hlt : T < n - s.step
    · rw [if_pos hlt, if_pos hlt]; rfl
    · rw [if_neg hlt, if_neg hlt]; rfl

/-! ### With and without ticks -/

/-- A run with ticks up to `T0` and fetching, and the run without. -/
structure Ahead (env : Env) (opt : AggregatorOpts) (T0 : Int) (o o2 : AObs) : Prop where
  step : o2.a.sep.step = opt.step ∧ o.a.sep.step = opt.step
  res : o2.a.sep.resolution = opt.resolution ∧ o.a.sep.resolution = opt.resolution
  nil : o2.a.sep.sepList = [] ∧ o.a.sep.sepList = []
  enabled : o2.a.enabled = o.a.enabled
  outSize : o2.a.outSize = o.a.outSize
  alive : o2.a.alive = o.a.alive
  accepted : o2.accepted = o.accepted
  lap : ∃ out fin, Separator.sepLoop env opt.step T0 o2.a.sep.next o2.a.sep.reducer = .ok (out, o.a.sep.next, o.a.sep.reducer) ∧
    out.mapM (finish env.nth o.a.outSize) = .ok fin ∧ o.received ++ o.a.agList = o2.received ++ o2.a.agList ++ fin

theorem mapM_append_ok {α β : Type} {f : α → M β} {l l' : List α} {r r' : List β} (h : l.mapM f = .ok r) (h' : l'.mapM f = .ok r') :
    (l ++ l').mapM f = .ok (r ++ r') := by
  rw [List.mapM_append, h, bind_ok, h', bind_ok]; rfl

theorem ahead_tick {env : Env} {opt : AggregatorOpts} {T0 : Int} {o o2 o' : AObs} (hs : 0 < opt.step) {clk ts : Int} {f : Bool}
    (g : Ahead env opt T0 o o2) (h : exec env o (.separate clk ts false f) = .ok o') :
    Ahead env opt (Max.max T0 (align opt.step (meant opt.resolution clk ts))) o' o2 := by
  obtain ⟨⟨s1, s2⟩, ⟨q1, q2⟩, ⟨n1, n2⟩, e1, e2, e3, e4, out, fin, l1, l2, l3⟩ := g
  simp only [exec] at h
  obtain ⟨⟨b, outh, a'⟩, ha, h⟩ := bind_inv h
  injection h with h
  subst h
  unfold separate aggregate0_ at ha
  rw [separate_lap (s2 ▸ hs), s2, q2, n2] at ha
  generalize align opt.step (meant opt.resolution clk ts) = T at *
  obtain ⟨⟨b1, outh1, sep1⟩, h1, ha⟩ := bind_inv ha
  obtain ⟨⟨out1, m, r⟩, h2, h1⟩ := bind_inv h1
  injection h1 with h1
  injection h1 with i1 h1
  injection h1 with i2 i3
  subst i1 i2 i3
  obtain ⟨a2, h3, ha⟩ := bind_inv ha
  obtain ⟨l, h4, h3⟩ := bind_inv h3
  injection h3 with h3
  injection ha with ha
  injection ha with i1 ha
  injection ha with i2 i3
  subst i1 i2 i3 h3
  simp only [List.nil_append] at h4
  refine ⟨⟨s1, rfl⟩, ⟨q1, rfl⟩, ⟨n1, rfl⟩, e1, e2, e3, e4, ?_⟩
  rcases le_total T0 T with hle | hle
  · rw [max_eq_right hle]
    refine ⟨out ++ out1, fin ++ l, ?_, mapM_append_ok l2 h4, ?_⟩
    · rw [(sepLoop_two hle l1).2, h2]; rfl
    · simp only [List.append_nil]
      rw [← List.append_assoc, l3, List.append_assoc]
  · rw [max_eq_left hle]
    have hlt := (sepLoop_two (le_refl T0) l1).1
    rw [sepLoop_idle (by omega)] at h2
    injection h2 with h2
    injection h2 with i1 h2
    injection h2 with i2 i3
    subst i1 i2 i3
    cases h4
    refine ⟨out, fin, l1, l2, ?_⟩
    simp only [List.append_nil, List.reverse_nil]
    exact l3

theorem ahead_add {env : Env} {opt : AggregatorOpts} {T0 : Int} {o o2 o' : AObs} (hs : 0 < opt.step) {c1 c2 ts : Int} {x : AddArg}
    (g : Ahead env opt T0 o o2) (ht : opt.resolution = .none ∨ align opt.step (meant opt.resolution c1 ts) ≠ 0)
    (hT : T0 ≤ align opt.step (meant opt.resolution c1 ts)) (h : exec env o (.add c1 c2 ts x) = .ok o') :
    ∃ o2', exec env o2 (.add c1 c2 ts x) = .ok o2' ∧ Ahead env opt T0 o' o2' := by
  obtain ⟨⟨s1, s2⟩, ⟨q1, q2⟩, ⟨n1, n2⟩, e1, e2, e3, e4, out, fin, l1, l2, l3⟩ := g
  simp only [exec] at h ⊢
  obtain ⟨⟨b, a'⟩, ha, h⟩ := bind_inv h
  injection h with h
  subst h
  have hrecord : ∀ ok : Bool, o2.record ok c1 ts x = o.record ok c1 ts x := by
    intro ok
    unfold AObs.record
    rw [s1, s2, q1, q2, e1, e4]
  unfold add at ha ⊢
  by_cases he : o.a.enabled = false
  · rw [if_pos he] at ha
    rw [if_pos (e1.trans he)]
    injection ha with ha
    injection ha with i1 i2
    subst i1 i2
    exact ⟨_, rfl, ⟨s1, s2⟩, ⟨q1, q2⟩, ⟨n1, n2⟩, e1, e2, e3, hrecord true, out, fin, l1, l2, l3⟩
  · rw [if_neg he] at ha
    rw [if_neg (by rw [e1]; exact he)]
    rw [add_lap (s2 ▸ hs) (by rw [s2, q2]; exact ht), s2, q2, n2] at ha
    rw [add_lap (s1 ▸ hs) (by rw [s1, q1]; exact ht), s1, q1, n1]
    generalize align opt.step (meant opt.resolution c1 ts) = T at *
    obtain ⟨⟨k, sep1⟩, h1, ha⟩ := bind_inv ha
    obtain ⟨⟨out1, m, r⟩, h2, h1⟩ := bind_inv h1
    have h2' := (sepLoop_two hT l1).2
    rw [h2] at h2'
    simp only [bind_ok] at h2'
    have hm : T < m := (sepLoop_two (le_refl T) h2).1
    rw [h2']
    by_cases hlt : T < m - opt.step
    · simp only [hlt, if_true] at h1
      injection h1 with h1
      injection h1 with i1 i2
      subst i1 i2
      simp only [if_true] at ha
      injection ha with ha
      injection ha with i1 i2
      subst i1 i2
      -- neither loop ran
      have hidle : T < o2.a.sep.next := by
        by_contra hc
        have := sepLoop_near _ _ _ (le_refl _) _ _ _ h2' (by omega)
        omega
      have h5 := sepLoop_idle (env := env) (step := opt.step) (r := o2.a.sep.reducer) hidle
      rw [h2'] at h5
      injection h5 with h5
      injection h5 with i1 h5
      injection h5 with i2 i3
      obtain ⟨i4, i5⟩ := List.append_eq_nil_iff.1 i1
      have hidle0 := sepLoop_idle (env := env) (step := opt.step) (T := T0) (r := o2.a.sep.reducer) (lt_of_le_of_lt hT hidle)
      rw [l1] at hidle0
      injection hidle0 with h6
      injection h6 with i6 h6
      injection h6 with i7 i8
      refine ⟨{ a := { o2.a with sep := { o2.a.sep with step := opt.step, resolution := opt.resolution, next := m, reducer := r, sepList := [] } },
                  received := o2.received, accepted := o2.record false c1 ts x }, ?_, ⟨rfl, rfl⟩, ⟨rfl, rfl⟩, ⟨rfl, ?_⟩, e1, e2, e3, hrecord false, [], fin, ?_, ?_, l3⟩
      · simp only [bind_ok, hlt, if_true, i4, i5, List.append_nil]
      · simp only [i5, List.append_nil]
      · exact sepLoop_idle (lt_of_le_of_lt hT hm)
      · rw [← i4]; exact l2
    · simp only [hlt, if_false] at h1
      injection h1 with h1
      injection h1 with i1 i2
      subst i1 i2
      simp only [Bool.true_eq_false, if_false] at ha
      unfold aggregate0_ at ha ⊢
      obtain ⟨a2, h3, ha⟩ := bind_inv ha
      obtain ⟨l, h4, h3⟩ := bind_inv h3
      injection h3 with h3
      injection ha with ha
      injection ha with i1 i2
      subst i1 i2 h3
      simp only [List.nil_append] at h4
      have h4' := mapM_append_ok l2 h4
      rw [← e2] at h4'
      refine ⟨{ a := { o2.a with sep := { o2.a.sep with step := opt.step, resolution := opt.resolution, next := m, reducer := (r.add env x), sepList := [] }, agList := o2.a.agList ++ (fin ++ l) },
                  received := o2.received, accepted := o2.record true c1 ts x }, ?_, ⟨rfl, rfl⟩, ⟨rfl, rfl⟩, ⟨rfl, rfl⟩, e1, e2, e3, hrecord true, [], [],
          ?_, rfl, ?_⟩
      · simp only [bind_ok, hlt, if_false, Bool.true_eq_false, List.nil_append, h4']
      · exact sepLoop_idle (lt_of_le_of_lt hT hm)
      · simp only [List.append_nil]
        rw [← List.append_assoc, l3, ← List.append_assoc, List.append_assoc, ← List.append_assoc, List.append_assoc]

/-- A history with ticks, none past a later event, and the same history without ticks and fetching. -/
theorem ahead_execAll {env : Env} {opt : AggregatorOpts} (hs : 0 < opt.step) (U : Int) (ops : List AOp) :
    ∀ {T0 : Int} {o o2 o' : AObs}, T0 ≤ U → Ahead env opt T0 o o2 → (∀ op ∈ ops, Ticking op ∧ op.timeOk opt) → TicksInTime opt ops →
      (∀ op ∈ ops, ∀ t ∈ addTime opt op, T0 ≤ t) → (∀ op ∈ ops, ∀ t ∈ tickTime opt op, t ≤ U) → execAll env o ops = .ok o' →
      ∃ o2' T0', execAll env o2 (ops.filter AOp.kept) = .ok o2' ∧ T0' ≤ U ∧ Ahead env opt T0' o' o2' := by
  induction ops with
  | nil => intro T0 o o2 o' hU g _ _ _ _ h; cases h; exact ⟨o2, T0, rfl, hU, g⟩
  | cons op ops ih =>
    intro T0 o o2 o' hU g hc hp hT hu h
    unfold execAll at h
    rw [List.foldlM_cons] at h
    obtain ⟨o1, hx, hf⟩ := bind_inv h
    clear h
    have hc' := fun op' h' => hc op' (List.mem_cons_of_mem op h')
    have hT' := fun op' h' => hT op' (List.mem_cons_of_mem op h')
    have hu' := fun op' h' => hu op' (List.mem_cons_of_mem op h')
    obtain ⟨hp1, hp2⟩ := List.pairwise_cons.1 hp
    obtain ⟨htick, htime⟩ := hc op List.mem_cons_self
    have hT1 := hT op List.mem_cons_self
    have hu1 := hu op List.mem_cons_self
    cases op with
    | add c1 c2 ts x =>
      obtain ⟨o2', k1, k2⟩ := ahead_add hs g htime (hT1 _ rfl) hx
      obtain ⟨o3, T1, k3, k4⟩ := ih hU k2 hc' hp2 hT' hu' hf
      refine ⟨o3, T1, ?_, k4⟩
      rw [List.filter_cons_of_pos (by simp [AOp.kept])]
      unfold execAll
      rw [List.foldlM_cons, k1]
      exact k3
    | enable v =>
      injection hx with hx
      subst hx
      obtain ⟨s, q, n, e1, e2, e3, e4, lap⟩ := g
      have k2 : Ahead env opt T0 { o with a := o.a.enable v } { o2 with a := o2.a.enable v } := ⟨s, q, n, rfl, e2, e3, e4, lap⟩
      obtain ⟨o3, T1, k3, k4⟩ := ih hU k2 hc' hp2 hT' hu' hf
      refine ⟨o3, T1, ?_, k4⟩
      rw [List.filter_cons_of_pos (by simp [AOp.kept])]
      unfold execAll
      rw [List.foldlM_cons]
      exact k3
    | separate clk ts handler f =>
      have hh : handler = false := htick
      subst hh
      have k2 := ahead_tick hs g hx
      rw [List.filter_cons_of_neg (by simp [AOp.kept])]
      refine ih (max_le hU (hu1 _ rfl)) k2 hc' hp2 ?_ hu' hf
      intro op' h' t ht
      exact max_le (hT' op' h' t ht) (hp1 op' h' _ rfl t ht)
    | pop =>
      rw [List.filter_cons_of_neg (by simp [AOp.kept])]
      refine ih hU ?_ hc' hp2 hT' hu' hf
      injection hx with hx
      subst hx
      obtain ⟨s, q, n, e1, e2, e3, e4, out, fin, l1, l2, l3⟩ := g
      cases hl : o.a.agList with
      | nil =>
        simp only [Option.toList_none, List.append_nil]
        exact ⟨s, q, n, e1, e2, e3, e4, out, fin, l1, l2, l3⟩
      | cons d l =>
        refine ⟨s, q, n, e1, e2, e3, e4, out, fin, l1, l2, ?_⟩
        rw [hl] at l3
        simp only [Option.toList_some, List.append_assoc, List.singleton_append] at l3 ⊢
        exact l3
    | look =>
      rw [List.filter_cons_of_neg (by simp [AOp.kept])]
      refine ih hU ?_ hc' hp2 hT' hu' hf
      obtain ⟨_, _, hx⟩ := bind_inv hx
      injection hx with hx
      subst hx
      exact g
    | push => exact absurd htick id
    | forcePop => exact absurd htick id

/-- Two histories with the same recording calls, whose ticks are not past later events: the same events are recorded and, after a last
tick that is past all others, the same records are received or waiting, in the same order, and the separators are the same. -/
theorem C134_ticks_partial (env : Env) (opt : AggregatorOpts) (a0 : Aggregator) (ops ops' : List AOp) (clk T : Int) (f f' : Bool) (o o' : AObs)
    (hs : 0 < opt.step) (h0 : Aggregator.Fresh env opt a0) (hops : ∀ op ∈ ops ++ ops', Ticking op ∧ op.timeOk opt)
    (hin : TicksInTime opt ops) (hin' : TicksInTime opt ops') (hk : ops.filter AOp.kept = ops'.filter AOp.kept)
    (hlast : ∀ op ∈ ops ++ ops', ∀ t ∈ tickTime opt op, t ≤ align opt.step (meant opt.resolution clk T))
    (h : execAll env { a := a0 } (ops ++ [.separate clk T false f]) = .ok o)
    (h' : execAll env { a := a0 } (ops' ++ [.separate clk T false f']) = .ok o') :
    o'.accepted = o.accepted ∧ o'.received ++ o'.a.agList = o.received ++ o.a.agList ∧ o'.a.sep = o.a.sep := by
  have pg := pgood_fresh (Q := fun _ _ => True) hs h0
  have hnil := (fresh_keep h0).1
  obtain ⟨hst, hres⟩ := pg.sep.step
  -- a time before all events
  obtain ⟨T0, hT0, hT0'⟩ : ∃ T0 : Int, (∀ op ∈ ops ++ ops', ∀ t ∈ addTime opt op, T0 ≤ t) ∧
      T0 ≤ align opt.step (meant opt.resolution clk T) ∧ T0 < a0.sep.next := by
    have key : ∀ l : List AOp, ∃ T0 : Int, ∀ op ∈ l, ∀ t ∈ addTime opt op, T0 ≤ t := by
      intro l
      induction l with
      | nil => exact ⟨0, by simp⟩
      | cons op l ih =>
        obtain ⟨T0, ih⟩ := ih
        cases ha : addTime opt op with
        | none =>
          refine ⟨T0, ?_⟩
          intro op' h' t ht
          rcases List.mem_cons.1 h' with rfl | h'
          · rw [ha] at ht; cases ht
          · exact ih op' h' t ht
        | some u =>
          refine ⟨Min.min T0 u, ?_⟩
          intro op' h' t ht
          rcases List.mem_cons.1 h' with rfl | h'
          · rw [ha] at ht; cases ht; exact min_le_right _ _
          · exact (min_le_left _ _).trans (ih op' h' t ht)
    obtain ⟨T0, hT⟩ := key (ops ++ ops')
    refine ⟨Min.min T0 (Min.min (align opt.step (meant opt.resolution clk T)) (a0.sep.next - 1)), ?_, ?_, ?_⟩
    · intro op ho t ht
      exact (min_le_left _ _).trans (hT op ho t ht)
    · exact (min_le_right _ _).trans (min_le_left _ _)
    · have := (min_le_right T0 (Min.min (align opt.step (meant opt.resolution clk T)) (a0.sep.next - 1))).trans (min_le_right _ _)
      omega
  have start : Ahead env opt T0 ({ a := a0 } : AObs) { a := a0 } :=
    ⟨⟨hst, hst⟩, ⟨hres, hres⟩, ⟨hnil, hnil⟩, rfl, rfl, rfl, rfl, [], [], sepLoop_idle hT0'.2, rfl, by simp⟩
  have run : ∀ (ops1 : List AOp) (f : Bool) (o : AObs), (∀ op ∈ ops1, op ∈ ops ++ ops') → TicksInTime opt ops1 →
      execAll env { a := a0 } (ops1 ++ [.separate clk T false f]) = .ok o →
      ∃ o2, execAll env { a := a0 } (ops1.filter AOp.kept) = .ok o2 ∧ Ahead env opt (align opt.step (meant opt.resolution clk T)) o o2 := by
    intro ops1 f o hsub hin h
    unfold execAll at h
    rw [List.foldlM_append] at h
    obtain ⟨o1, h1, h2⟩ := bind_inv h
    obtain ⟨o2, T1, k1, k2, k3⟩ := ahead_execAll hs (align opt.step (meant opt.resolution clk T)) ops1 hT0'.1 start
      (fun op ho => hops op (hsub op ho)) hin (fun op ho => hT0 op (hsub op ho)) (fun op ho => hlast op (hsub op ho)) h1
    rw [List.foldlM_cons] at h2
    obtain ⟨o3, h3, h4⟩ := bind_inv h2
    injection h4 with h4
    subst h4
    have := ahead_tick hs k3 h3
    rw [max_eq_right k2] at this
    exact ⟨o2, k1, this⟩
  obtain ⟨o2, k1, g⟩ := run ops f o (fun op ho => List.mem_append_left _ ho) hin h
  obtain ⟨o2', k1', g'⟩ := run ops' f' o' (fun op ho => List.mem_append_right _ ho) hin' h'
  rw [hk, k1'] at k1
  injection k1 with k1
  subst k1
  obtain ⟨out, fin, l1, l2, l3⟩ := g.lap
  obtain ⟨out', fin', l1', l2', l3'⟩ := g'.lap
  rw [l1] at l1'
  injection l1' with l1'
  injection l1' with i1 l1'
  injection l1' with i2 i3
  subst i1
  rw [← g.outSize] at l2
  rw [← g'.outSize, l2] at l2'
  injection l2' with l2'
  subst l2'
  refine ⟨g'.accepted.symm.trans g.accepted, l3'.trans l3.symm, ?_⟩
  have e1 := g'.step.2.trans g.step.2.symm
  have e2 := g'.res.2.trans g.res.2.symm
  have e3 := g'.nil.2.trans g.nil.2.symm
  generalize o'.a.sep = s' at *
  generalize o.a.sep = s at *
  obtain ⟨_, _, _, _, _⟩ := s
  obtain ⟨_, _, _, _, _⟩ := s'
  simp only at i2 i3 e1 e2 e3
  subst i2 i3 e1 e2 e3
  rfl

/-- One history with ticks and fetching, one without: the same two records in the end. -/
example :
    ((execAll exactEnv { a := exANew } ([.add 0 0 1001 (.one 5 1), .separate 0 1010 false false, .pop, .separate 0 1020 false true,
        .add 0 0 1021 (.one 7 1)] ++ [.separate 0 1030 false false])).toOption.map
      fun o => (o.received ++ o.a.agList).map (fun d => (d.ts, d.min))) = some [(1000, 5), (1020, 7)] ∧
    ((execAll exactEnv { a := exANew } ([.add 0 0 1001 (.one 5 1), .add 0 0 1021 (.one 7 1)] ++ [.separate 0 1030 false true])).toOption.map
      fun o => (o.received ++ o.a.agList).map (fun d => (d.ts, d.min))) = some [(1000, 5), (1020, 7)] := by decide +kernel

end Wrtstat
