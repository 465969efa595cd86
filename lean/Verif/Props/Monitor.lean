/-
Linearizability of `aggregator_mt`: C56.
-/
import Verif.Model.Monitor
import Verif.Model.Instances
import Verif.Lemmas.RegistryStep
import Verif.Lemmas.MultiTotal
import Mathlib.Logic.Relation

namespace Wrtstat

set_option autoImplicit false

open Relation

/-! ### What linearizable means -/

section Linear

variable {T S Op Ret : Type} [DecidableEq T]

/-- The calls made by thread `t` in a history. -/
def invOf (t : T) (h : List (HEv T Op Ret)) : List Op :=
  h.filterMap fun e =>
    match e with
    | .inv u op => if u = t then some op else none
    | .res _ _ _ => none

/-- The calls of thread `t` that have returned in a history, with their results. -/
def resOf (t : T) (h : List (HEv T Op Ret)) : List (Op × Ret) :=
  h.filterMap fun e =>
    match e with
    | .inv _ _ => none
    | .res u op r => if u = t then some (op, r) else none

/-- The operations of thread `t` in a sequential execution, with their results. -/
def opsOf (t : T) (l : List (T × Op × Ret)) : List (Op × Ret) :=
  l.filterMap fun e => if e.1 = t then some e.2 else none

/-- A sequential execution. -/
inductive Legal (spec : S → Op → Ret → S → Prop) : S → List (T × Op × Ret) → S → Prop
  | nil (s : S) : Legal spec s [] s
  | cons (s s1 s2 : S) (t : T) (op : Op) (r : Ret) (l : List (T × Op × Ret)) (h : spec s op r s1) (hl : Legal spec s1 l s2) :
      Legal spec s ((t, op, r) :: l) s2

/-- There is a sequential execution of the operations such that at every moment of the history, a beginning of it
contains all calls that have returned, with their results, and only calls that have been made; in each thread, in the
order in which it made them.  (So an operation that returned before another was called comes first.) -/
def Linearizable (spec : S → Op → Ret → S → Prop) (s0 : S) (h : List (HEv T Op Ret)) : Prop :=
  ∃ lin : List (T × Op × Ret), (∃ s1, Legal spec s0 lin s1) ∧
    ∀ h1 h2, h = h1 ++ h2 → ∃ l1 l2, lin = l1 ++ l2 ∧
      ∀ t, resOf t h1 <+: opsOf t l1 ∧ (opsOf t l1).map Prod.fst <+: invOf t h1

omit [DecidableEq T] in
theorem Legal.snoc {spec : S → Op → Ret → S → Prop} {s s1 s2 : S} {l : List (T × Op × Ret)} (h : Legal spec s l s1) (t : T)
    {op : Op} {r : Ret} (hs : spec s1 op r s2) : Legal spec s (l ++ [(t, op, r)]) s2 := by
  induction h with
  | nil s => exact .cons s s2 s2 t op r [] hs (.nil s2)
  | cons s s1 s3 u op' r' l h _ ih => exact .cons s s1 s2 u op' r' _ h (ih hs)

theorem invOf_call (t u : T) (h : List (HEv T Op Ret)) (op : Op) :
    invOf t (h ++ [.inv u op]) = invOf t h ++ (if u = t then [op] else []) := by
  unfold invOf
  rw [List.filterMap_append]
  by_cases hu : u = t <;> simp [hu]

theorem invOf_res (t u : T) (h : List (HEv T Op Ret)) (op : Op) (r : Ret) :
    invOf t (h ++ [.res u op r]) = invOf t h := by
  unfold invOf
  rw [List.filterMap_append]
  simp

theorem resOf_call (t u : T) (h : List (HEv T Op Ret)) (op : Op) : resOf t (h ++ [.inv u op]) = resOf t h := by
  unfold resOf
  rw [List.filterMap_append]
  simp

theorem resOf_res (t u : T) (h : List (HEv T Op Ret)) (op : Op) (r : Ret) :
    resOf t (h ++ [.res u op r]) = resOf t h ++ (if u = t then [(op, r)] else []) := by
  unfold resOf
  rw [List.filterMap_append]
  by_cases hu : u = t <;> simp [hu]

theorem opsOf_snoc (t u : T) (l : List (T × Op × Ret)) (op : Op) (r : Ret) :
    opsOf t (l ++ [(u, op, r)]) = opsOf t l ++ (if u = t then [(op, r)] else []) := by
  unfold opsOf
  rw [List.filterMap_append]
  by_cases hu : u = t <;> simp [hu]

end Linear

/-! ### Objects protected by a mutex -/

namespace Mon

variable {T S Op Ret L : Type} [DecidableEq T]

/-- Reachable from an unused object. -/
def Reach (b : Body S Op Ret L) (s0 : S) (m : Mon T S Op Ret L) : Prop := ReflTransGen (Step b) (init s0) m

/-- How far thread `t` is in the history and in the sequential execution. -/
def Local (spec : S → Op → Ret → S → Prop) (b : Body S Op Ret L) (m : Mon T S Op Ret L) (lin : List (T × Op × Ret)) (s1 : S)
    (t : T) : MonPc Op Ret L → Prop
  | .idle => opsOf t lin = resOf t m.hist ∧ invOf t m.hist = (resOf t m.hist).map Prod.fst ∧ m.owner ≠ some t
  | .want op => opsOf t lin = resOf t m.hist ∧ invOf t m.hist = (resOf t m.hist).map Prod.fst ++ [op] ∧ m.owner ≠ some t
  | .run op l => opsOf t lin = resOf t m.hist ∧ invOf t m.hist = (resOf t m.hist).map Prod.fst ++ [op] ∧
      m.owner = some t ∧ ∀ r s', b.Runs l m.shared r s' → spec s1 op r s'
  | .leave op r => opsOf t lin = resOf t m.hist ++ [(op, r)] ∧ invOf t m.hist = (resOf t m.hist).map Prod.fst ++ [op] ∧
      m.owner = some t ∧ m.shared = s1

/-- The sequential execution found so far. -/
structure Found (spec : S → Op → Ret → S → Prop) (b : Body S Op Ret L) (s0 : S) (m : Mon T S Op Ret L)
    (lin : List (T × Op × Ret)) (s1 : S) : Prop where
  legal : Legal spec s0 lin s1
  splits : ∀ h1 h2, m.hist = h1 ++ h2 → ∃ l1 l2, lin = l1 ++ l2 ∧
      ∀ t, resOf t h1 <+: opsOf t l1 ∧ (opsOf t l1).map Prod.fst <+: invOf t h1
  free : m.owner = none → m.shared = s1
  loc : ∀ t, Local spec b m lin s1 t (m.pc t)

theorem Local.ends {spec : S → Op → Ret → S → Prop} {b : Body S Op Ret L} {m : Mon T S Op Ret L} {lin : List (T × Op × Ret)}
    {s1 : S} {t : T} {p : MonPc Op Ret L} (h : Local spec b m lin s1 t p) :
    resOf t m.hist <+: opsOf t lin ∧ (opsOf t lin).map Prod.fst <+: invOf t m.hist := by
  cases p with
  | idle => rw [h.1, h.2.1]; exact ⟨List.prefix_refl _, List.prefix_refl _⟩
  | want op => rw [h.1, h.2.1]; exact ⟨List.prefix_refl _, List.prefix_append _ _⟩
  | run op l => rw [h.1, h.2.1]; exact ⟨List.prefix_refl _, List.prefix_append _ _⟩
  | leave op r => rw [h.1, h.2.1]; exact ⟨List.prefix_append _ _, by simp⟩

/-- The history grows by one event. -/
theorem splits_grow {lin : List (T × Op × Ret)} {h : List (HEv T Op Ret)} {e : HEv T Op Ret}
    (hold : ∀ h1 h2, h = h1 ++ h2 → ∃ l1 l2, lin = l1 ++ l2 ∧
      ∀ t, resOf t h1 <+: opsOf t l1 ∧ (opsOf t l1).map Prod.fst <+: invOf t h1)
    (hnew : ∀ t, resOf t (h ++ [e]) <+: opsOf t lin ∧ (opsOf t lin).map Prod.fst <+: invOf t (h ++ [e])) :
    ∀ h1 h2, h ++ [e] = h1 ++ h2 → ∃ l1 l2, lin = l1 ++ l2 ∧
      ∀ t, resOf t h1 <+: opsOf t l1 ∧ (opsOf t l1).map Prod.fst <+: invOf t h1 := by
  intro h1 h2 he
  rcases List.eq_nil_or_concat h2 with rfl | ⟨h2', x, rfl⟩
  · rw [List.append_nil] at he
    subst he
    exact ⟨lin, [], by simp, hnew⟩
  · rw [List.concat_eq_append, ← List.append_assoc] at he
    obtain ⟨he, -⟩ := List.append_inj' he rfl
    exact hold h1 h2' he

variable {spec : S → Op → Ret → S → Prop} {b : Body S Op Ret L} {s0 : S}

theorem Found.step (hb : ∀ op s r s', b.Runs (b.start op) s r s' → spec s op r s') {m m' : Mon T S Op Ret L}
    {lin : List (T × Op × Ret)} {s1 : S} (h : Found spec b s0 m lin s1) (hs : Step b m m') :
    ∃ lin' s1', Found spec b s0 m' lin' s1' := by
  cases hs with
  | call t op hp =>
    have ht := h.loc t
    rw [hp] at ht
    have hloc : ∀ u, Local spec b { m with pc := Function.update m.pc t (.want op), hist := m.hist ++ [.inv t op] } lin s1 u
        (Function.update m.pc t (.want op) u) := by
      intro u
      by_cases hu : u = t
      · subst hu
        rw [Function.update_self]
        refine ⟨?_, ?_, ht.2.2⟩
        · rw [resOf_call]; exact ht.1
        · rw [resOf_call, invOf_call, ht.2.1]; simp
      · rw [Function.update_of_ne hu]
        have := h.loc u
        cases hq : m.pc u <;> rw [hq] at this <;> simp only [Local, resOf_call, invOf_call, Ne.symm hu, if_false, List.append_nil]
          <;> exact this
    exact ⟨lin, s1, h.legal, splits_grow h.splits fun u => (hloc u).ends, h.free, hloc⟩
  | lock t op hp ho =>
    have ht := h.loc t
    rw [hp] at ht
    refine ⟨lin, s1, h.legal, h.splits, by simp, fun u => ?_⟩
    by_cases hu : u = t
    · subst hu
      simp only [Function.update_self]
      refine ⟨ht.1, ht.2.1, rfl, fun r s' hr => ?_⟩
      have := hb op m.shared r s' hr
      rwa [h.free ho] at this
    · simp only [Function.update_of_ne hu]
      have := h.loc u
      cases hq : m.pc u <;> rw [hq] at this <;> simp only [Local] at this ⊢
      · exact ⟨this.1, this.2.1, by simpa using Ne.symm hu⟩
      · exact ⟨this.1, this.2.1, by simpa using Ne.symm hu⟩
      · rw [ho] at this; simp at this
      · rw [ho] at this; simp at this
  | small t op l l' s' hp hn =>
    have ht := h.loc t
    rw [hp] at ht
    obtain ⟨h1, h2, h3, h4⟩ := ht
    refine ⟨lin, s1, h.legal, h.splits, fun ho => ?_, fun u => ?_⟩
    · have ho : m.owner = none := ho
      rw [h3] at ho; simp at ho
    · by_cases hu : u = t
      · subst hu
        simp only [Function.update_self]
        exact ⟨h1, h2, h3, fun r s'' hr => h4 r s'' (.small l l' _ s' s'' r hn hr)⟩
      · simp only [Function.update_of_ne hu]
        have := h.loc u
        cases hq : m.pc u <;> rw [hq] at this <;> simp only [Local] at this ⊢
        · exact this
        · exact this
        · rw [h3] at this; simp [Ne.symm hu] at this
        · rw [h3] at this; simp [Ne.symm hu] at this
  | last t op l r s' hp hn =>
    have ht := h.loc t
    rw [hp] at ht
    obtain ⟨h1, h2, h3, h4⟩ := ht
    have hsp : spec s1 op r s' := h4 r s' (.last l _ s' r hn)
    refine ⟨lin ++ [(t, op, r)], s', h.legal.snoc t hsp, fun a c he => ?_, fun _ => rfl, fun u => ?_⟩
    · obtain ⟨l1, l2, e, hl⟩ := h.splits a c he
      exact ⟨l1, l2 ++ [(t, op, r)], by rw [e, List.append_assoc], hl⟩
    · by_cases hu : u = t
      · subst hu
        simp only [Function.update_self]
        exact ⟨by rw [opsOf_snoc, h1]; simp, h2, h3, rfl⟩
      · simp only [Function.update_of_ne hu]
        have := h.loc u
        cases hq : m.pc u <;> rw [hq] at this <;>
          simp only [Local, opsOf_snoc, Ne.symm hu, if_false, List.append_nil] at this ⊢
        · exact this
        · exact this
        · rw [h3] at this; simp [Ne.symm hu] at this
        · rw [h3] at this; simp [Ne.symm hu] at this
  | unlock t op r hp =>
    have ht := h.loc t
    rw [hp] at ht
    obtain ⟨h1, h2, h3, h4⟩ := ht
    have hloc : ∀ u, Local spec b { m with pc := Function.update m.pc t .idle, owner := none, hist := m.hist ++ [.res t op r] }
        lin s1 u (Function.update m.pc t .idle u) := by
      intro u
      by_cases hu : u = t
      · subst hu
        rw [Function.update_self]
        refine ⟨?_, ?_, by simp⟩
        · rw [resOf_res, h1]; simp
        · rw [resOf_res, invOf_res, h2]; simp
      · rw [Function.update_of_ne hu]
        have := h.loc u
        cases hq : m.pc u <;> rw [hq] at this <;>
          simp only [Local, resOf_res, invOf_res, Ne.symm hu, if_false, List.append_nil] at this ⊢
        · exact ⟨this.1, this.2.1, by simp⟩
        · exact ⟨this.1, this.2.1, by simp⟩
        · rw [h3] at this; simp [Ne.symm hu] at this
        · rw [h3] at this; simp [Ne.symm hu] at this
    exact ⟨lin, s1, h.legal, splits_grow h.splits fun u => (hloc u).ends, fun _ => h4, hloc⟩

/-- An object protected by a mutex is linearizable, whatever small steps its operations consist of. -/
theorem linearizable (hb : ∀ op s r s', b.Runs (b.start op) s r s' → spec s op r s') {m : Mon T S Op Ret L}
    (h : Reach b s0 m) : Linearizable spec s0 m.hist := by
  have : ∃ lin s1, Found spec b s0 m lin s1 := by
    induction h with
    | refl =>
      refine ⟨[], s0, .nil s0, fun h1 h2 he => ⟨[], [], rfl, fun t => ?_⟩, fun _ => rfl, fun t => ?_⟩
      · obtain ⟨rfl, -⟩ := List.append_eq_nil_iff.1 he.symm
        exact ⟨List.prefix_refl _, List.prefix_refl _⟩
      · exact ⟨rfl, rfl, by simp [init]⟩
    | tail _ hs ih =>
      obtain ⟨lin, s1, hf⟩ := ih
      exact hf.step hb hs
  obtain ⟨lin, s1, hf⟩ := this
  exact ⟨lin, ⟨s1, hf.legal⟩, hf.splits⟩

end Mon

/-! ### C56 -/

/-- The operations of `aggregator_mt`, whatever small steps they consist of, are linearizable: every concurrent
execution has the results of a sequential one. -/
theorem C56_linearizable {T L : Type} [DecidableEq T] (env : Env) (b : Body Aggregator MtOp (M MtRet) L)
    (hb : ∀ op a r a', b.Runs (b.start op) a r a' → a.MtSpec env op r a') (a0 : Aggregator)
    {m : Mon T Aggregator MtOp (M MtRet) L} (h : Mon.Reach b a0 m) : Linearizable (Aggregator.MtSpec env) a0 m.hist :=
  Mon.linearizable hb h

/-- The bodies of the model satisfy the assumption. -/
theorem C56_bodies (env : Env) (op : MtOp) (a : Aggregator) (r : M MtRet) (a' : Aggregator)
    (h : (Aggregator.mtBody env).Runs (.start op) a r a') : a.MtSpec env op r a' := by
  have fetch : ∀ (x : MtRet) (a : Aggregator) (r : M MtRet) (a' : Aggregator), (Aggregator.mtBody env).Runs (.fetch x) a r a' →
      match Aggregator.aggregate0_ env.nth a with
      | .ok a0 => r = .ok x ∧ a' = a0
      | .error e => r = .error e := by
    intro x a r a' h
    cases hg : Aggregator.aggregate0_ env.nth a with
    | error e =>
      cases h with
      | last _ _ _ _ hn => simp [Aggregator.mtBody, hg] at hn; exact hn.2.symm
      | small _ _ _ _ _ _ hn _ => simp [Aggregator.mtBody, hg] at hn
    | ok a0 =>
      cases h with
      | last _ _ _ _ hn => simp [Aggregator.mtBody, hg] at hn; exact ⟨hn.2.symm, hn.1.symm⟩
      | small _ _ _ _ _ _ hn _ => simp [Aggregator.mtBody, hg] at hn
  unfold Aggregator.MtSpec
  cases op with
  | add c1 c2 ts x =>
    by_cases hen : a.enabled = false
    · rw [show a.mtExec env (.add c1 c2 ts x) = .ok (.bool true, a) by
        simp only [Aggregator.mtExec, Aggregator.add, if_pos hen, bind_ok']]
      cases h with
      | last _ _ _ _ hn => simp [Aggregator.mtBody, hen] at hn; exact ⟨hn.2.symm, hn.1.symm⟩
      | small _ _ _ _ _ _ hn _ => simp [Aggregator.mtBody, hen] at hn
    · cases hs : a.sep.add env c1 c2 ts x with
      | error e =>
        rw [show a.mtExec env (.add c1 c2 ts x) = .error e by
          simp only [Aggregator.mtExec, Aggregator.add, if_neg hen, hs]; rfl]
        cases h with
        | last _ _ _ _ hn => simp [Aggregator.mtBody, hen, hs] at hn; exact hn.2.symm
        | small _ _ _ _ _ _ hn _ => simp [Aggregator.mtBody, hen, hs] at hn
      | ok q =>
        obtain ⟨ok, sep⟩ := q
        cases ok with
        | false =>
          rw [show a.mtExec env (.add c1 c2 ts x) = .ok (.bool false, { a with sep := sep }) by
            simp only [Aggregator.mtExec, Aggregator.add, if_neg hen, hs, bind_ok', if_true]]
          cases h with
          | last _ _ _ _ hn =>
            simp only [Aggregator.mtBody, if_neg hen, hs, if_true, Prod.mk.injEq, Sum.inr.injEq] at hn
            exact ⟨hn.2.symm, hn.1.symm⟩
          | small _ _ _ _ _ _ hn _ => simp [Aggregator.mtBody, hen, hs] at hn
        | true =>
          cases h with
          | last _ _ _ _ hn => simp [Aggregator.mtBody, hen, hs] at hn
          | small _ _ _ _ _ _ hn hr =>
            simp only [Aggregator.mtBody, if_neg hen, hs, Bool.true_eq_false, if_false, Prod.mk.injEq, Sum.inl.injEq] at hn
            obtain ⟨rfl, rfl⟩ := hn
            have hf := fetch _ _ _ _ hr
            cases hg : Aggregator.aggregate0_ env.nth { a with sep := sep } with
            | error e =>
              rw [hg] at hf
              rw [show a.mtExec env (.add c1 c2 ts x) = .error e by
                simp only [Aggregator.mtExec, Aggregator.add, if_neg hen, hs, bind_ok', Bool.true_eq_false, if_false, hg]; rfl]
              exact hf
            | ok a0 =>
              rw [hg] at hf
              rw [show a.mtExec env (.add c1 c2 ts x) = .ok (.bool true, a0) by
                simp only [Aggregator.mtExec, Aggregator.add, if_neg hen, hs, bind_ok', Bool.true_eq_false, if_false, hg]]
              exact hf
  | separate c ts hd f =>
    cases hs : a.sep.separate env c ts hd f with
    | error e =>
      rw [show a.mtExec env (.separate c ts hd f) = .error e by
        simp only [Aggregator.mtExec, Aggregator.separate, hs]; rfl]
      cases h with
      | last _ _ _ _ hn => simp [Aggregator.mtBody, hs] at hn; exact hn.2.symm
      | small _ _ _ _ _ _ hn _ => simp [Aggregator.mtBody, hs] at hn
    | ok q =>
      obtain ⟨res, out, sep⟩ := q
      cases h with
      | last _ _ _ _ hn => simp [Aggregator.mtBody, hs] at hn
      | small _ _ _ _ _ _ hn hr =>
        simp [Aggregator.mtBody, hs] at hn
        obtain ⟨rfl, rfl⟩ := hn
        have hf := fetch _ _ _ _ hr
        cases hg : Aggregator.aggregate0_ env.nth { a with sep := sep } with
        | error e =>
          rw [hg] at hf
          rw [show a.mtExec env (.separate c ts hd f) = .error e by
            simp only [Aggregator.mtExec, Aggregator.separate, hs, bind_ok', hg]; rfl]
          exact hf
        | ok a0 =>
          rw [hg] at hf
          rw [show a.mtExec env (.separate c ts hd f) = .ok (.handed res out, a0) by
            simp only [Aggregator.mtExec, Aggregator.separate, hs, bind_ok', hg]]
          exact hf
  | _ =>
    cases h with
    | last _ _ _ _ hn =>
      simp only [Aggregator.mtBody] at hn
      split at hn <;> rename_i hx <;> rw [hx] <;> simp at hn
      all_goals simp_all
    | small _ l' _ s1 _ _ hn _ =>
      simp only [Aggregator.mtBody] at hn
      split at hn <;> simp at hn

/-- Two threads call `enable(false)` and `size()` at the same time; the thread that called last is served first. -/
example (a : Aggregator) : ∃ m : Mon Bool Aggregator MtOp (M MtRet) MtPos, Mon.Reach (Aggregator.mtBody exactEnv) a m ∧
    m.hist = [.inv true (.enable false), .inv false .size, .res false .size (.ok (.num a.size))] ∧
    m.shared = a.enable false := by
  let m0 : Mon Bool Aggregator MtOp (M MtRet) MtPos := Mon.init a
  let m1 : Mon Bool Aggregator MtOp (M MtRet) MtPos :=
    { m0 with pc := Function.update m0.pc true (.want (.enable false)), hist := m0.hist ++ [.inv true (.enable false)] }
  let m2 : Mon Bool Aggregator MtOp (M MtRet) MtPos :=
    { m1 with pc := Function.update m1.pc false (.want .size), hist := m1.hist ++ [.inv false .size] }
  let m3 : Mon Bool Aggregator MtOp (M MtRet) MtPos :=
    { m2 with pc := Function.update m2.pc false (.run .size (.start .size)), owner := some false }
  let m4 : Mon Bool Aggregator MtOp (M MtRet) MtPos :=
    { m3 with shared := a, pc := Function.update m3.pc false (.leave .size (.ok (.num a.size))) }
  let m5 : Mon Bool Aggregator MtOp (M MtRet) MtPos :=
    { m4 with pc := Function.update m4.pc false .idle, owner := none, hist := m4.hist ++ [.res false .size (.ok (.num a.size))] }
  let m6 : Mon Bool Aggregator MtOp (M MtRet) MtPos :=
    { m5 with pc := Function.update m5.pc true (.run (.enable false) (.start (.enable false))), owner := some true }
  let m7 : Mon Bool Aggregator MtOp (M MtRet) MtPos :=
    { m6 with shared := a.enable false, pc := Function.update m6.pc true (.leave (.enable false) (.ok .unit)) }
  exact ⟨m7, ((((((ReflTransGen.refl.tail (.call m0 true (.enable false) rfl)).tail (.call m1 false .size rfl)).tail
    (.lock m2 false .size rfl rfl)).tail (.last m3 false .size _ _ a rfl rfl)).tail (.unlock m4 false .size _ rfl)).tail
    (.lock m5 true (.enable false) rfl rfl)).tail (.last m6 true (.enable false) _ _ (a.enable false) rfl rfl), rfl, rfl⟩

/-! ### C73 -/

namespace Aggregator

/-- The beginning of the call of a pusher, before `push` takes the mutex (basic_aggregator.hpp:105-109). -/
def Pusher.check (p : Pusher) (a : Aggregator) : Bool := p.token && a.alive

/-- The rest of the call of a pusher, `push` (basic_aggregator.hpp:110-113). -/
def Pusher.rest (env : Env) (p : Pusher) (a : Aggregator) (clk1 clk2 ts : Int) (x : AddArg) : M (List AggData × Aggregator) := do
  let (_, out, a) ← a.push env clk1 clk2 ts x p.handler
  .ok (out, a)

/-- Operations of other threads, one after the other. -/
def mtRun (env : Env) (a : Aggregator) : List MtOp → M Aggregator
  | [] => .ok a
  | op :: ops => do
    let (_, a) ← a.mtExec env op
    a.mtRun env ops

/-- The two parts of a call, with operations of other threads between them. -/
def Pusher.callBetween (env : Env) (p : Pusher) (a : Aggregator) (clk1 clk2 ts : Int) (x : AddArg) (ops : List MtOp) :
    M (List AggData × Aggregator) := do
  let b ← a.mtRun env ops
  if p.check a then p.rest env b clk1 clk2 ts x else .ok ([], b)

/-- A call in one piece, with operations of other threads before and after it. -/
def Pusher.callAmid (env : Env) (p : Pusher) (a : Aggregator) (clk1 clk2 ts : Int) (x : AddArg) (o1 o2 : List MtOp) :
    M (List AggData × Aggregator) := do
  let a ← a.mtRun env o1
  let (out, a) ← p.call env a clk1 clk2 ts x
  let a ← a.mtRun env o2
  .ok (out, a)

/-- The claim: the call of a pusher takes effect at one moment, before, after or between the operations of other
threads that run during the call. -/
def C73_FullClaim : Prop :=
  ∀ (env : Env) (p : Pusher) (a : Aggregator) (clk1 clk2 ts : Int) (x : AddArg) (ops : List MtOp) (res : List AggData × Aggregator),
    p.callBetween env a clk1 clk2 ts x ops = .ok res →
    ∃ o1 o2, ops = o1 ++ o2 ∧ p.callAmid env a clk1 clk2 ts x o1 o2 = .ok res

/-- An aggregator for the examples, new at time 1000 (seconds), with windows of 10 seconds. -/
def exMt : Aggregator :=
  { sep := { reducer := Reducer.new ({ limit := 8, levels := 2 } : ReducerOpts), step := 10, next := 1010, resolution := .seconds }
    outSize := 2 }

/-- The token is alive, `clear` comes, then the event is pushed: it is found in the cleared aggregator. -/
theorem C73_refuted : ¬ C73_FullClaim := by
  intro hc
  have h : Passes (Pusher.callBetween exactEnv { token := true, handler := false } exMt 1005 1005 1005 (.one 7 1)
      [.clear 1005 1005]) (fun res =>
        !decide (Pusher.callAmid exactEnv { token := true, handler := false } exMt 1005 1005 1005 (.one 7 1)
          [] [.clear 1005 1005] = .ok res) &&
        !decide (Pusher.callAmid exactEnv { token := true, handler := false } exMt 1005 1005 1005 (.one 7 1)
          [.clear 1005 1005] [] = .ok res)) = true := by decide +kernel
  obtain ⟨res, h1, h2⟩ := of_passes h
  simp only [Bool.and_eq_true, Bool.not_eq_true', decide_eq_false_iff_not] at h2
  obtain ⟨o1, o2, ho, hr⟩ := hc _ _ _ _ _ _ _ _ res h1
  cases o1 with
  | nil => exact h2.1 (by rw [← hr]; simp at ho; rw [← ho])
  | cons x o1 =>
    simp only [List.cons_append, List.cons.injEq] at ho
    obtain ⟨rfl, ho⟩ := ho
    obtain ⟨rfl, rfl⟩ := List.append_eq_nil_iff.1 ho.symm
    exact h2.2 hr

/-- Only `clear` takes the token away. -/
theorem mtExec_alive (env : Env) {a a' : Aggregator} {op : MtOp} {r : MtRet} (h : a.mtExec env op = .ok (r, a'))
    (hop : ∀ c ts, op ≠ .clear c ts) : a'.alive = a.alive := by
  cases op with
  | add c1 c2 ts x =>
    obtain ⟨⟨ok, b⟩, h1, h2⟩ := bind_inv h
    cases h2
    exact (add_alive h1).1
  | push c1 c2 ts x hd =>
    obtain ⟨⟨ok, out, b⟩, h1, h2⟩ := bind_inv h
    cases h2
    have : exec env { a := a } (.push c1 c2 ts x hd) =
        .ok { a := a', received := [] ++ out, accepted := AObs.record { a := a } ok c1 ts x } := by
      simp only [exec, h1, bind_ok']
    exact (exec_alive this).1
  | pop =>
    simp only [mtExec] at h
    cases h
    unfold pop
    cases a.agList <;> rfl
  | forcePop =>
    obtain ⟨⟨d, b⟩, h1, h2⟩ := bind_inv h
    cases h2
    have : exec env { a := a } .forcePop = .ok { a := a', received := [] ++ d.toList } := by
      simp only [exec, h1, bind_ok']
    exact (exec_alive this).1
  | aggregateCurrent =>
    obtain ⟨d, h1, h2⟩ := bind_inv h
    cases h2
    rfl
  | separate c ts hd f =>
    obtain ⟨⟨ok, out, b⟩, h1, h2⟩ := bind_inv h
    cases h2
    have : exec env { a := a } (.separate c ts hd f) = .ok { a := a', received := [] ++ out } := by
      simp only [exec, h1, bind_ok']
    exact (exec_alive this).1
  | enable v => cases h; rfl
  | createPusher hd => cases h; rfl
  | size => cases h; rfl
  | clear c ts => exact absurd rfl (hop c ts)

theorem mtRun_alive (env : Env) (ops : List MtOp) (hops : ∀ c ts, .clear c ts ∉ ops) {a b : Aggregator}
    (h : a.mtRun env ops = .ok b) : b.alive = a.alive := by
  induction ops generalizing a with
  | nil => cases h; rfl
  | cons op ops ih =>
    obtain ⟨⟨r, a1⟩, h1, h2⟩ := bind_inv h
    rw [ih (fun c ts hm => hops c ts (by simp [hm])) h2]
    exact mtExec_alive env h1 fun c ts e => hops c ts (by simp [e])

/-- The part that holds: if `clear` is not among them, the call takes effect after the operations of the other
threads.  Missing: `clear`. -/
theorem C73_no_clear_partial (env : Env) (p : Pusher) (a : Aggregator) (clk1 clk2 ts : Int) (x : AddArg) (ops : List MtOp)
    (hops : ∀ c ts, .clear c ts ∉ ops) :
    p.callBetween env a clk1 clk2 ts x ops = p.callAmid env a clk1 clk2 ts x ops [] := by
  unfold Pusher.callBetween Pusher.callAmid
  cases hb : a.mtRun env ops with
  | error e => rfl
  | ok b =>
    have hal := mtRun_alive env ops hops hb
    simp only [bind_ok', Pusher.call, Pusher.rest, mtRun]
    rw [hal]
    by_cases h : p.token = true ∧ a.alive = true
    · rw [if_pos h, if_pos (by simp [Pusher.check, h.1, h.2])]
      cases b.push env clk1 clk2 ts x p.handler with
      | error e => rfl
      | ok q => rfl
    · rw [if_neg h, if_neg (by simpa [Pusher.check] using h)]
      rfl

end Aggregator

end Wrtstat
