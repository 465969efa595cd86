/-
The critical sections of an object in several parts, each behind its own mutex, are linearizable together.
-/
import Verif.Model.Sharded
import Verif.Props.Monitor

namespace Wrtstat

set_option autoImplicit false

open Relation

/-! ### Histories with other names for operations and results -/

section Rename

variable {T S Op Ret Op' Ret' : Type} [DecidableEq T]

/-- An event with another name for its operation and result. -/
def HEv.rename (f : Op → Op') (g : Op → Ret → Ret') : HEv T Op Ret → HEv T Op' Ret'
  | .inv t op => .inv t (f op)
  | .res t op r => .res t (f op) (g op r)

theorem invOf_rename (f : Op → Op') (g : Op → Ret → Ret') (t : T) (h : List (HEv T Op Ret)) :
    invOf t (h.map (HEv.rename f g)) = (invOf t h).map f := by
  induction h with
  | nil => rfl
  | cons e h ih =>
    unfold invOf at ih ⊢
    cases e with
    | inv u op => by_cases hu : u = t <;> simp [HEv.rename, hu, ih]
    | res u op r => simp [HEv.rename, ih]

theorem resOf_rename (f : Op → Op') (g : Op → Ret → Ret') (t : T) (h : List (HEv T Op Ret)) :
    resOf t (h.map (HEv.rename f g)) = (resOf t h).map fun e => (f e.1, g e.1 e.2) := by
  induction h with
  | nil => rfl
  | cons e h ih =>
    unfold resOf at ih ⊢
    cases e with
    | inv u op => simp [HEv.rename, ih]
    | res u op r => by_cases hu : u = t <;> simp [HEv.rename, hu, ih]

theorem opsOf_rename (f : Op → Op') (g : Op → Ret → Ret') (t : T) (l : List (T × Op × Ret)) :
    opsOf t (l.map fun e => (e.1, f e.2.1, g e.2.1 e.2.2)) = (opsOf t l).map fun e => (f e.1, g e.1 e.2) := by
  induction l with
  | nil => rfl
  | cons e l ih =>
    unfold opsOf at ih ⊢
    obtain ⟨u, op, r⟩ := e
    by_cases hu : u = t <;> simp [hu, ih]

/-- Linearizability under other names. -/
theorem Linearizable.rename {spec : S → Op → Ret → S → Prop} {S' : Type} {spec' : S' → Op' → Ret' → S' → Prop} {s0 : S}
    {h : List (HEv T Op Ret)} (hl : Linearizable spec s0 h) (f : Op → Op') (g : Op → Ret → Ret') (k : S → S')
    (hs : ∀ s op r s', spec s op r s' → spec' (k s) (f op) (g op r) (k s')) :
    Linearizable spec' (k s0) (h.map (HEv.rename f g)) := by
  obtain ⟨lin, ⟨s1, hlg⟩, hsp⟩ := hl
  refine ⟨lin.map fun e => (e.1, f e.2.1, g e.2.1 e.2.2), ⟨k s1, ?_⟩, ?_⟩
  · induction hlg with
    | nil s => exact .nil _
    | cons s s1 s2 t op r l h _ ih =>
      exact .cons _ _ _ t _ _ _ (hs _ _ _ _ h) (Legal.rec (motive := fun s l s' _ =>
        Legal spec' (k s) (l.map fun e => (e.1, f e.2.1, g e.2.1 e.2.2)) (k s'))
        (fun s => .nil _) (fun s s1 s2 t op r l h _ ih => .cons _ _ _ t _ _ _ (hs _ _ _ _ h) ih) (by assumption))
  · intro h1 h2 he
    obtain ⟨a, b, rfl, rfl, rfl⟩ := List.map_eq_append_iff.1 he
    obtain ⟨l1, l2, rfl, hb⟩ := hsp a b rfl
    refine ⟨_, _, List.map_append, fun t => ?_⟩
    rw [resOf_rename, invOf_rename, opsOf_rename]
    refine ⟨(hb t).1.map _, ?_⟩
    have := (hb t).2.map f
    rwa [List.map_map] at this ⊢

end Rename

namespace Sharded

variable {T K S Sec SRet Call CRet L : Type} [DecidableEq T] [DecidableEq K]

/-- Reachable from an unused object by calls in `P`. -/
def Reach (p : ShCode K S Sec SRet Call CRet L) (P : Call → Prop) (s0 : K → S) (m : Sharded T K S Sec SRet Call CRet L) : Prop :=
  ReflTransGen (Step p P) (init s0) m

/-- What a section may do to the whole object, given what it may do to its part. -/
def Whole (p : ShCode K S Sec SRet Call CRet L) (P : Call → Prop) (spec : S → Sec → SRet → S → Prop) (g : K → S)
    (x : Call × Sec) (r : SRet) (g' : K → S) : Prop :=
  P x.1 ∧ x.2 ∈ p.plan x.1 ∧ ∃ s', spec (g (p.key x.2)) x.2 r s' ∧ g' = Function.update g (p.key x.2) s'

/-- How far thread `t` is in the history of the sections and in the sequential execution. -/
def Local (p : ShCode K S Sec SRet Call CRet L) (P : Call → Prop) (spec : S → Sec → SRet → S → Prop)
    (m : Sharded T K S Sec SRet Call CRet L) (lin : List (T × (Call × Sec) × SRet)) (s1 : K → S) (t : T) :
    ShPc Sec SRet Call L → Prop
  | .idle => opsOf t lin = resOf t m.shist ∧ invOf t m.shist = (resOf t m.shist).map Prod.fst ∧ ∀ k, m.owner k ≠ some t
  | .want c _ sec rest => P c ∧ (∃ pre, p.plan c = pre ++ sec :: rest) ∧
      opsOf t lin = resOf t m.shist ∧ invOf t m.shist = (resOf t m.shist).map Prod.fst ++ [(c, sec)] ∧
      ∀ k, m.owner k ≠ some t
  | .run c _ sec rest l => P c ∧ (∃ pre, p.plan c = pre ++ sec :: rest) ∧
      opsOf t lin = resOf t m.shist ∧ invOf t m.shist = (resOf t m.shist).map Prod.fst ++ [(c, sec)] ∧
      (∀ k, m.owner k = some t ↔ k = p.key sec) ∧
      ∀ r s', p.body.Runs l (m.shared (p.key sec)) r s' → spec (s1 (p.key sec)) sec r s'
  | .leave c _ sec rest r => P c ∧ (∃ pre, p.plan c = pre ++ sec :: rest) ∧
      opsOf t lin = resOf t m.shist ++ [((c, sec), r)] ∧ invOf t m.shist = (resOf t m.shist).map Prod.fst ++ [(c, sec)] ∧
      (∀ k, m.owner k = some t ↔ k = p.key sec) ∧ m.shared (p.key sec) = s1 (p.key sec)

/-- The sequential execution found so far. -/
structure Found (p : ShCode K S Sec SRet Call CRet L) (P : Call → Prop) (spec : S → Sec → SRet → S → Prop) (s0 : K → S)
    (m : Sharded T K S Sec SRet Call CRet L) (lin : List (T × (Call × Sec) × SRet)) (s1 : K → S) : Prop where
  legal : Legal (Whole p P spec) s0 lin s1
  splits : ∀ h1 h2, m.shist = h1 ++ h2 → ∃ l1 l2, lin = l1 ++ l2 ∧
      ∀ t, resOf t h1 <+: opsOf t l1 ∧ (opsOf t l1).map Prod.fst <+: invOf t h1
  free : ∀ k, m.owner k = none → m.shared k = s1 k
  loc : ∀ t, Local p P spec m lin s1 t (m.pc t)

variable {p : ShCode K S Sec SRet Call CRet L} {P : Call → Prop} {spec : S → Sec → SRet → S → Prop} {s0 : K → S}

omit [DecidableEq K] in
theorem Local.ends {m : Sharded T K S Sec SRet Call CRet L} {lin : List (T × (Call × Sec) × SRet)} {s1 : K → S} {t : T}
    {q : ShPc Sec SRet Call L} (h : Local p P spec m lin s1 t q) :
    resOf t m.shist <+: opsOf t lin ∧ (opsOf t lin).map Prod.fst <+: invOf t m.shist := by
  cases q with
  | idle => obtain ⟨h1, h2, -⟩ := h; rw [h1, h2]; exact ⟨List.prefix_refl _, List.prefix_refl _⟩
  | want c d sec rest => obtain ⟨-, -, h1, h2, -⟩ := h; rw [h1, h2]; exact ⟨List.prefix_refl _, List.prefix_append _ _⟩
  | run c d sec rest l => obtain ⟨-, -, h1, h2, -⟩ := h; rw [h1, h2]; exact ⟨List.prefix_refl _, List.prefix_append _ _⟩
  | leave c d sec rest r => obtain ⟨-, -, h1, h2, -⟩ := h; rw [h1, h2]; exact ⟨List.prefix_append _ _, by simp⟩

theorem Found.step (hb : ∀ sec s r s', p.body.Runs (p.body.start sec) s r s' → spec s sec r s')
    {m m' : Sharded T K S Sec SRet Call CRet L} {lin : List (T × (Call × Sec) × SRet)} {s1 : K → S}
    (h : Found p P spec s0 m lin s1) (hs : Step p P m m') : ∃ lin' s1', Found p P spec s0 m' lin' s1' := by
  cases hs with
  | call t c sec rest hP hp hc =>
    have ht := h.loc t
    rw [hp] at ht
    obtain ⟨h1, h2, h3⟩ := ht
    have hloc : ∀ u, Local p P spec { m with
        pc := Function.update m.pc t (.want c [] sec rest)
        hist := m.hist ++ [.inv t c]
        shist := m.shist ++ [.inv t (c, sec)] } lin s1 u (Function.update m.pc t (.want c [] sec rest) u) := by
      intro u
      by_cases hu : u = t
      · subst hu
        rw [Function.update_self]
        refine ⟨hP, ⟨[], by rw [hc]; rfl⟩, ?_, ?_, h3⟩
        · rw [resOf_call]; exact h1
        · rw [resOf_call, invOf_call, h2]; simp
      · rw [Function.update_of_ne hu]
        have := h.loc u
        cases hq : m.pc u <;> rw [hq] at this <;> simp only [Local, resOf_call, invOf_call, Ne.symm hu, if_false, List.append_nil]
          <;> exact this
    exact ⟨lin, s1, h.legal, Mon.splits_grow h.splits fun u => (hloc u).ends, h.free, hloc⟩
  | lock t c done sec rest hp ho =>
    have ht := h.loc t
    rw [hp] at ht
    obtain ⟨hP, hpl, h1, h2, h3⟩ := ht
    refine ⟨lin, s1, h.legal, h.splits, fun k hk => ?_, fun u => ?_⟩
    · apply h.free
      by_cases hkk : k = p.key sec
      · rw [hkk]; exact ho
      · simpa only [Function.update_of_ne hkk] using hk
    · by_cases hu : u = t
      · subst hu
        simp only [Function.update_self]
        refine ⟨hP, hpl, h1, h2, fun k => ?_, fun r s' hr => ?_⟩
        · by_cases hkk : k = p.key sec
          · simp [hkk]
          · simp only [Function.update_of_ne hkk, hkk, iff_false]; exact h3 k
        · have := hb sec _ r s' hr
          rwa [h.free _ ho] at this
      · simp only [Function.update_of_ne hu]
        have hne : ∀ k, m.owner k ≠ some u → Function.update m.owner (p.key sec) (some t) k ≠ some u := by
          intro k hk
          by_cases hkk : k = p.key sec
          · subst hkk; simp [Ne.symm hu]
          · rwa [Function.update_of_ne hkk]
        have hiff : ∀ k, Function.update m.owner (p.key sec) (some t) k = some u ↔ m.owner k = some u := by
          intro k
          by_cases hkk : k = p.key sec
          · subst hkk; simp [Ne.symm hu, ho]
          · rw [Function.update_of_ne hkk]
        have := h.loc u
        cases hq : m.pc u <;> rw [hq] at this <;> simp only [Local, hiff] at this ⊢
        · exact ⟨this.1, this.2.1, fun k => hne k (this.2.2 k)⟩
        · exact ⟨this.1, this.2.1, this.2.2.1, this.2.2.2.1, fun k => hne k (this.2.2.2.2 k)⟩
        · exact this
        · exact this
  | small t c done sec rest l l' s' hp hn =>
    have ht := h.loc t
    rw [hp] at ht
    obtain ⟨hP, hpl, h1, h2, h3, h4⟩ := ht
    refine ⟨lin, s1, h.legal, h.splits, fun k ho => ?_, fun u => ?_⟩
    · have hkk : k ≠ p.key sec := by
        rintro rfl
        have := (h3 (p.key sec)).2 rfl
        have ho : m.owner (p.key sec) = none := ho
        rw [this] at ho; cases ho
      show Function.update m.shared (p.key sec) s' k = _
      rw [Function.update_of_ne hkk]
      exact h.free k ho
    · by_cases hu : u = t
      · subst hu
        simp only [Function.update_self]
        refine ⟨hP, hpl, h1, h2, h3, fun r s'' hr => h4 r s'' (.small l l' _ s' s'' r hn ?_)⟩
        simpa only [Function.update_self] using hr
      · simp only [Function.update_of_ne hu]
        have := h.loc u
        have hother : ∀ sec', (∀ k, m.owner k = some u ↔ k = p.key sec') → p.key sec' ≠ p.key sec := by
          intro sec' h' e
          have a := (h' _).2 rfl
          rw [e, (h3 _).2 rfl] at a
          exact hu (Option.some.inj a).symm
        cases hq : m.pc u <;> rw [hq] at this <;> simp only [Local] at this ⊢
        · exact this
        · exact this
        · rw [Function.update_of_ne (hother _ this.2.2.2.2.1)]; exact this
        · rw [Function.update_of_ne (hother _ this.2.2.2.2.1)]; exact this
  | last t c done sec rest l r s' hp hn =>
    have ht := h.loc t
    rw [hp] at ht
    obtain ⟨hP, hpl, h1, h2, h3, h4⟩ := ht
    have hsp : spec (s1 (p.key sec)) sec r s' := h4 r s' (.last l _ s' r hn)
    obtain ⟨pre, hpl⟩ := hpl
    refine ⟨lin ++ [(t, (c, sec), r)], Function.update s1 (p.key sec) s',
      h.legal.snoc t ⟨hP, by simp [hpl], s', hsp, rfl⟩, fun a c' he => ?_, fun k ho => ?_, fun u => ?_⟩
    · obtain ⟨l1, l2, e, hl⟩ := h.splits a c' he
      exact ⟨l1, l2 ++ [(t, (c, sec), r)], by rw [e, List.append_assoc], hl⟩
    · have hkk : k ≠ p.key sec := by
        rintro rfl
        have := (h3 (p.key sec)).2 rfl
        have ho : m.owner (p.key sec) = none := ho
        rw [this] at ho; cases ho
      show Function.update m.shared (p.key sec) s' k = _
      rw [Function.update_of_ne hkk, Function.update_of_ne hkk]
      exact h.free k ho
    · by_cases hu : u = t
      · subst hu
        simp only [Function.update_self]
        exact ⟨hP, ⟨pre, hpl⟩, by rw [opsOf_snoc, h1]; simp, h2, h3, by simp only [Function.update_self]⟩
      · simp only [Function.update_of_ne hu]
        have := h.loc u
        have hother : ∀ sec', (∀ k, m.owner k = some u ↔ k = p.key sec') → p.key sec' ≠ p.key sec := by
          intro sec' h' e
          have a := (h' _).2 rfl
          rw [e, (h3 _).2 rfl] at a
          exact hu (Option.some.inj a).symm
        cases hq : m.pc u <;> rw [hq] at this <;>
          simp only [Local, opsOf_snoc, Ne.symm hu, if_false, List.append_nil] at this ⊢
        · exact this
        · exact this
        · rw [Function.update_of_ne (hother _ this.2.2.2.2.1), Function.update_of_ne (hother _ this.2.2.2.2.1)]; exact this
        · rw [Function.update_of_ne (hother _ this.2.2.2.2.1), Function.update_of_ne (hother _ this.2.2.2.2.1)]; exact this
  | again t c done sec sec' rest r hp hr =>
    have ht := h.loc t
    rw [hp] at ht
    obtain ⟨hP, ⟨pre, hpl⟩, h1, h2, h3, h4⟩ := ht
    have hiff : ∀ u, u ≠ t → ∀ k, Function.update m.owner (p.key sec) none k = some u ↔ m.owner k = some u := by
      intro u hu k
      by_cases hkk : k = p.key sec
      · subst hkk
        rw [Function.update_self, (h3 _).2 rfl]
        simp [Ne.symm hu]
      · rw [Function.update_of_ne hkk]
    have hnone : ∀ k, Function.update m.owner (p.key sec) none k ≠ some t := by
      intro k
      by_cases hkk : k = p.key sec
      · subst hkk; simp
      · rw [Function.update_of_ne hkk]
        exact fun e => hkk ((h3 k).1 e)
    -- first the section returns, then the next one is called
    have hmid : ∀ u, resOf u (m.shist ++ [.res t (c, sec) r]) <+: opsOf u lin ∧
        (opsOf u lin).map Prod.fst <+: invOf u (m.shist ++ [.res t (c, sec) r]) := by
      intro u
      rw [resOf_res, invOf_res]
      by_cases hu : u = t
      · subst hu
        simp only [if_true]
        rw [h1, h2]
        exact ⟨List.prefix_refl _, by simp⟩
      · simp only [Ne.symm hu, if_false, List.append_nil]
        exact (h.loc u).ends
    have hloc : ∀ u, Local p P spec { m with
        pc := Function.update m.pc t (.want c (done ++ [r]) sec' rest)
        owner := Function.update m.owner (p.key sec) none
        shist := m.shist ++ [.res t (c, sec) r] ++ [.inv t (c, sec')] } lin s1 u
        (Function.update m.pc t (.want c (done ++ [r]) sec' rest) u) := by
      intro u
      by_cases hu : u = t
      · subst hu
        rw [Function.update_self]
        refine ⟨hP, ⟨pre ++ [sec], by rw [hpl]; simp⟩, ?_, ?_, hnone⟩
        · rw [resOf_call, resOf_res, h1]; simp
        · rw [resOf_call, invOf_call, resOf_res, invOf_res, h2]; simp
      · rw [Function.update_of_ne hu]
        have := h.loc u
        cases hq : m.pc u <;> rw [hq] at this <;>
          simp only [Local, resOf_call, invOf_call, resOf_res, invOf_res, Ne.symm hu, if_false, List.append_nil] at this ⊢
        · exact ⟨this.1, this.2.1, fun k => by rw [Ne, hiff u hu]; exact this.2.2 k⟩
        · exact ⟨this.1, this.2.1, this.2.2.1, this.2.2.2.1, fun k => by rw [Ne, hiff u hu]; exact this.2.2.2.2 k⟩
        · simp only [hiff u hu]; exact this
        · simp only [hiff u hu]; exact this
    refine ⟨lin, s1, h.legal, Mon.splits_grow (Mon.splits_grow h.splits hmid) fun u => (hloc u).ends, fun k hk => ?_, hloc⟩
    by_cases hkk : k = p.key sec
    · rw [hkk]; exact h4
    · exact h.free k (by simpa only [Function.update_of_ne hkk] using hk)
  | ret t c done sec rest r hp hr =>
    have ht := h.loc t
    rw [hp] at ht
    obtain ⟨hP, ⟨pre, hpl⟩, h1, h2, h3, h4⟩ := ht
    have hiff : ∀ u, u ≠ t → ∀ k, Function.update m.owner (p.key sec) none k = some u ↔ m.owner k = some u := by
      intro u hu k
      by_cases hkk : k = p.key sec
      · subst hkk
        rw [Function.update_self, (h3 _).2 rfl]
        simp [Ne.symm hu]
      · rw [Function.update_of_ne hkk]
    have hnone : ∀ k, Function.update m.owner (p.key sec) none k ≠ some t := by
      intro k
      by_cases hkk : k = p.key sec
      · subst hkk; simp
      · rw [Function.update_of_ne hkk]
        exact fun e => hkk ((h3 k).1 e)
    have hloc : ∀ u, Local p P spec { m with
        pc := Function.update m.pc t .idle
        owner := Function.update m.owner (p.key sec) none
        hist := m.hist ++ [.res t c (p.ret c (done ++ [r]))]
        shist := m.shist ++ [.res t (c, sec) r] } lin s1 u (Function.update m.pc t .idle u) := by
      intro u
      by_cases hu : u = t
      · subst hu
        rw [Function.update_self]
        refine ⟨?_, ?_, hnone⟩
        · rw [resOf_res, h1]; simp
        · rw [resOf_res, invOf_res, h2]; simp
      · rw [Function.update_of_ne hu]
        have := h.loc u
        cases hq : m.pc u <;> rw [hq] at this <;>
          simp only [Local, resOf_res, invOf_res, Ne.symm hu, if_false, List.append_nil] at this ⊢
        · exact ⟨this.1, this.2.1, fun k => by rw [Ne, hiff u hu]; exact this.2.2 k⟩
        · exact ⟨this.1, this.2.1, this.2.2.1, this.2.2.2.1, fun k => by rw [Ne, hiff u hu]; exact this.2.2.2.2 k⟩
        · simp only [hiff u hu]; exact this
        · simp only [hiff u hu]; exact this
    refine ⟨lin, s1, h.legal, Mon.splits_grow h.splits fun u => (hloc u).ends, fun k hk => ?_, hloc⟩
    by_cases hkk : k = p.key sec
    · rw [hkk]; exact h4
    · exact h.free k (by simpa only [Function.update_of_ne hkk] using hk)

theorem found (hb : ∀ sec s r s', p.body.Runs (p.body.start sec) s r s' → spec s sec r s')
    {m : Sharded T K S Sec SRet Call CRet L} (h : Reach p P s0 m) : ∃ lin s1, Found p P spec s0 m lin s1 := by
  induction h with
  | refl =>
    refine ⟨[], s0, .nil s0, fun h1 h2 he => ⟨[], [], rfl, fun t => ?_⟩, fun _ _ => rfl, fun t => ?_⟩
    · obtain ⟨rfl, -⟩ := List.append_eq_nil_iff.1 he.symm
      exact ⟨List.prefix_refl _, List.prefix_refl _⟩
    · exact ⟨rfl, rfl, by simp [init]⟩
  | tail _ hs ih =>
    obtain ⟨lin, s1, hf⟩ := ih
    exact hf.step hb hs

/-- The sections are linearizable, whatever small steps they consist of. -/
theorem sections (hb : ∀ sec s r s', p.body.Runs (p.body.start sec) s r s' → spec s sec r s')
    {m : Sharded T K S Sec SRet Call CRet L} (h : Reach p P s0 m) : Linearizable (Whole p P spec) s0 m.shist := by
  obtain ⟨lin, s1, hf⟩ := found hb h
  exact ⟨lin, ⟨s1, hf.legal⟩, hf.splits⟩

/-- Where the threads are when every call has one section. -/
def Short : ShPc Sec SRet Call L → Prop
  | .idle => True
  | .want _ done _ rest | .run _ done _ rest _ | .leave _ done _ rest _ => done = [] ∧ rest = []

/-- When every call has one section, the two histories tell the same. -/
theorem hist_short (hone : ∀ c, P c → (p.plan c).length ≤ 1) {m : Sharded T K S Sec SRet Call CRet L} (h : Reach p P s0 m) :
    m.hist = m.shist.map (HEv.rename Prod.fst fun x r => p.ret x.1 [r]) ∧ ∀ t, Short (m.pc t) := by
  induction h with
  | refl => exact ⟨rfl, fun t => trivial⟩
  | tail _ hs ih =>
    obtain ⟨ih1, ih2⟩ := ih
    have upd : ∀ {pc : T → ShPc Sec SRet Call L} {t : T} {q : ShPc Sec SRet Call L}, (∀ t, Short (pc t)) → Short q →
        ∀ u, Short (Function.update pc t q u) := by
      intro pc t q h hq u
      by_cases hu : u = t
      · subst hu; rwa [Function.update_self]
      · rw [Function.update_of_ne hu]; exact h u
    cases hs with
    | call t c sec rest hP hp hc =>
      have := hone c hP
      rw [hc] at this
      have : rest = [] := List.length_eq_zero_iff.1 (by simpa using this)
      exact ⟨by simp [ih1, HEv.rename], upd ih2 ⟨rfl, this⟩⟩
    | lock t c done sec rest hp ho => exact ⟨ih1, upd ih2 (by have := ih2 t; rw [hp] at this; exact this)⟩
    | small t c done sec rest l l' s' hp hn => exact ⟨ih1, upd ih2 (by have := ih2 t; rw [hp] at this; exact this)⟩
    | last t c done sec rest l r s' hp hn => exact ⟨ih1, upd ih2 (by have := ih2 t; rw [hp] at this; exact this)⟩
    | again t c done sec sec' rest r hp hr => have := ih2 t; rw [hp] at this; cases this.2
    | ret t c done sec rest r hp hr =>
      have := ih2 t
      rw [hp] at this
      obtain ⟨rfl, rfl⟩ := this
      exact ⟨by simp [ih1, HEv.rename], upd ih2 trivial⟩

/-- The results of the sections of a call that has returned, or of those done so far. -/
def flat (x : Call × List (Sec × SRet)) : List ((Call × Sec) × SRet) := x.2.map fun e => ((x.1, e.1), e.2)

/-- The calls of a thread that have returned are made of its sections. -/
def Made (p : ShCode K S Sec SRet Call CRet L) (m : Sharded T K S Sec SRet Call CRet L) (t : T)
    (G : List (Call × List (Sec × SRet))) : ShPc Sec SRet Call L → Prop
  | .idle => resOf t m.shist = G.flatMap flat
  | .want c done sec rest | .run c done sec rest _ | .leave c done sec rest _ =>
    ∃ l, l.map Prod.snd = done ∧ p.plan c = l.map Prod.fst ++ sec :: rest ∧ resOf t m.shist = G.flatMap flat ++ flat (c, l)

theorem made {m : Sharded T K S Sec SRet Call CRet L} (h : Reach p P s0 m) (t : T) :
    ∃ G : List (Call × List (Sec × SRet)), resOf t m.hist = G.map (fun x => (x.1, p.ret x.1 (x.2.map Prod.snd))) ∧
      (∀ x ∈ G, ∃ rest, p.plan x.1 = x.2.map Prod.fst ++ rest ∧ (rest = [] ∨ ∃ l e, x.2 = l ++ [e] ∧ p.stop e.2 = true)) ∧
      Made p m t G (m.pc t) := by
  induction h with
  | refl => exact ⟨[], rfl, by simp, rfl⟩
  | tail _ hs ih =>
    obtain ⟨G, h1, h2, h3⟩ := ih
    cases hs with
    | call u c sec rest hP hp hc =>
      refine ⟨G, by rw [resOf_call]; exact h1, h2, ?_⟩
      by_cases hu : t = u
      · subst hu
        rw [hp] at h3
        simp only [Function.update_self]
        refine ⟨[], rfl, hc, ?_⟩
        simp only [flat, resOf_call]
        simpa [Made] using h3
      · simp only [Function.update_of_ne hu]
        rename_i m0 _
        cases hq : m0.pc t <;> rw [hq] at h3 <;> simp only [Made, resOf_call] at h3 ⊢ <;> exact h3
    | lock u c done sec rest hp ho =>
      refine ⟨G, h1, h2, ?_⟩
      by_cases hu : t = u
      · subst hu; rw [hp] at h3; simp only [Function.update_self]; exact h3
      · simp only [Function.update_of_ne hu]
        rename_i m0 _
        cases hq : m0.pc t <;> rw [hq] at h3 <;> exact h3
    | small u c done sec rest l l' s' hp hn =>
      refine ⟨G, h1, h2, ?_⟩
      by_cases hu : t = u
      · subst hu; rw [hp] at h3; simp only [Function.update_self]; exact h3
      · simp only [Function.update_of_ne hu]
        rename_i m0 _
        cases hq : m0.pc t <;> rw [hq] at h3 <;> exact h3
    | last u c done sec rest l r s' hp hn =>
      refine ⟨G, h1, h2, ?_⟩
      by_cases hu : t = u
      · subst hu; rw [hp] at h3; simp only [Function.update_self]; exact h3
      · simp only [Function.update_of_ne hu]
        rename_i m0 _
        cases hq : m0.pc t <;> rw [hq] at h3 <;> exact h3
    | again u c done sec sec' rest r hp hr =>
      refine ⟨G, h1, h2, ?_⟩
      by_cases hu : t = u
      · subst hu
        rw [hp] at h3
        obtain ⟨l, k1, k2, k3⟩ := h3
        simp only [Function.update_self]
        refine ⟨l ++ [(sec, r)], by simp [k1], by simp [k2], ?_⟩
        simp only [resOf_call, resOf_res, if_true, k3]
        simp [flat]
      · simp only [Function.update_of_ne hu]
        rename_i m0 _
        cases hq : m0.pc t <;> rw [hq] at h3 <;>
          simp only [Made, resOf_call, resOf_res, Ne.symm hu, if_false, List.append_nil] at h3 ⊢ <;> exact h3
    | ret u c done sec rest r hp hr =>
      by_cases hu : t = u
      · subst hu
        rw [hp] at h3
        obtain ⟨l, k1, k2, k3⟩ := h3
        refine ⟨G ++ [(c, l ++ [(sec, r)])], ?_, ?_, ?_⟩
        · simp only [resOf_res, if_true, h1]; simp [k1]
        · intro x hx
          rcases List.mem_append.1 hx with hx | hx
          · exact h2 x hx
          · rw [List.mem_singleton] at hx
            subst hx
            exact ⟨rest, by simp [k2], hr.imp id fun h => ⟨l, (sec, r), rfl, h⟩⟩
        · simp only [Function.update_self]
          show resOf t _ = _
          simp only [resOf_res, if_true, k3]
          simp [flat]
      · refine ⟨G, ?_, h2, ?_⟩
        · simp only [resOf_res, Ne.symm hu, if_false, List.append_nil]; exact h1
        simp only [Function.update_of_ne hu]
        rename_i m0 _
        cases hq : m0.pc t <;> rw [hq] at h3 <;>
          simp only [Made, resOf_res, Ne.symm hu, if_false, List.append_nil] at h3 ⊢ <;> exact h3

/-! ### Schedules -/

/-- A turn of a schedule: a thread makes a call, or its next step. -/
inductive Turn (T Call : Type) where
  | call (t : T) (c : Call)
  | go (t : T)

/-- The next step of a thread that is in a call. -/
def move (p : ShCode K S Sec SRet Call CRet L) (m : Sharded T K S Sec SRet Call CRet L) (t : T) :
    Option (Sharded T K S Sec SRet Call CRet L) :=
  match m.pc t with
  | .idle => none
  | .want c done sec rest => if (m.owner (p.key sec)).isSome then none else
      some { m with pc := Function.update m.pc t (.run c done sec rest (p.body.start sec)),
                    owner := Function.update m.owner (p.key sec) (some t) }
  | .run c done sec rest l => match p.body.next l (m.shared (p.key sec)) with
      | (s', .inl l') => some { m with shared := Function.update m.shared (p.key sec) s',
                                       pc := Function.update m.pc t (.run c done sec rest l') }
      | (s', .inr r) => some { m with shared := Function.update m.shared (p.key sec) s',
                                      pc := Function.update m.pc t (.leave c done sec rest r) }
  | .leave c done sec rest r => match p.stop r, rest with
      | false, sec' :: rest =>
        some { m with pc := Function.update m.pc t (.want c (done ++ [r]) sec' rest),
                      owner := Function.update m.owner (p.key sec) none,
                      shist := m.shist ++ [.res t (c, sec) r] ++ [.inv t (c, sec')] }
      | _, _ => some { m with pc := Function.update m.pc t .idle, owner := Function.update m.owner (p.key sec) none,
                              hist := m.hist ++ [.res t c (p.ret c (done ++ [r]))],
                              shist := m.shist ++ [.res t (c, sec) r] }

/-- Run a schedule; `none` if some turn is impossible. -/
def play (p : ShCode K S Sec SRet Call CRet L) (m : Sharded T K S Sec SRet Call CRet L) :
    List (Turn T Call) → Option (Sharded T K S Sec SRet Call CRet L)
  | [] => some m
  | .call t c :: l => match m.pc t, p.plan c with
    | .idle, sec :: rest => play p { m with pc := Function.update m.pc t (.want c [] sec rest), hist := m.hist ++ [.inv t c],
                                            shist := m.shist ++ [.inv t (c, sec)] } l
    | _, _ => none
  | .go t :: l => match m.move p t with
    | some m' => play p m' l
    | none => none

theorem move_step {m m' : Sharded T K S Sec SRet Call CRet L} {t : T} (h : m.move p t = some m') : Step p P m m' := by
  unfold move at h
  split at h
  · cases h
  · rename_i c done sec rest hp
    split at h
    · cases h
    · cases h
      rename_i ho
      exact .lock m t c done sec rest hp (by simpa using ho)
  · rename_i c done sec rest l hp
    split at h
    · cases h
      rename_i hn
      exact .small m t c done sec rest l _ _ hp hn
    · cases h
      rename_i hn
      exact .last m t c done sec rest l _ _ hp hn
  · rename_i c done sec rest r hp
    cases hs : p.stop r with
    | true => rw [hs] at h; cases h; exact .ret m t c done sec rest r hp (.inr hs)
    | false =>
      rw [hs] at h
      cases rest with
      | nil => cases h; exact .ret m t c done sec [] r hp (.inl rfl)
      | cons a b => cases h; exact .again m t c done sec a b r hp hs

theorem play_reach (l : List (Turn T Call)) {m m' : Sharded T K S Sec SRet Call CRet L} (hP : ∀ t c, .call t c ∈ l → P c)
    (h0 : Reach p P s0 m) (h : play p m l = some m') : Reach p P s0 m' := by
  induction l generalizing m with
  | nil => cases h; exact h0
  | cons x l ih =>
    have hP' : ∀ t c, .call t c ∈ l → P c := fun t c hx => hP t c (List.mem_cons_of_mem _ hx)
    cases x with
    | call t c =>
      unfold play at h
      split at h
      · rename_i sec rest hp hc
        exact ih hP' (h0.tail (.call m t c sec rest (hP t c (by simp)) hp hc)) h
      · cases h
    | go t =>
      unfold play at h
      split at h
      · rename_i m1 hm
        exact ih hP' (h0.tail (move_step hm)) h
      · cases h

/-- The thread that has a mutex is in a body or about to leave. -/
def Inside : ShPc Sec SRet Call L → Prop
  | .run .. | .leave .. => True
  | _ => False

theorem owner_inside {m : Sharded T K S Sec SRet Call CRet L} (h : Reach p P s0 m) {k : K} {t : T} (ho : m.owner k = some t) :
    Inside (m.pc t) := by
  obtain ⟨lin, s1, hf⟩ := found (spec := fun _ _ _ _ => True) (fun _ _ _ _ _ => trivial) h
  have := hf.loc t
  cases hq : m.pc t <;> rw [hq] at this
  · exact (this.2.2 k ho).elim
  · exact (this.2.2.2.2 k ho).elim
  · trivial
  · trivial

theorem move_inside {m : Sharded T K S Sec SRet Call CRet L} {t : T} (h : Inside (m.pc t)) : (m.move p t).isSome = true := by
  unfold move
  cases hq : m.pc t <;> rw [hq] at h
  · cases h
  · cases h
  · simp only
    split <;> rfl
  · simp only
    split <;> rfl

/-- As long as some thread is in a call, some thread in a call can go on. -/
theorem no_deadlock {m : Sharded T K S Sec SRet Call CRet L} (h : Reach p P s0 m) {t : T} (ht : m.pc t ≠ .idle) :
    ∃ u, (m.move p u).isSome = true := by
  cases hq : m.pc t with
  | idle => exact (ht hq).elim
  | run c done sec rest l => exact ⟨t, move_inside (by rw [hq]; trivial)⟩
  | leave c done sec rest r => exact ⟨t, move_inside (by rw [hq]; trivial)⟩
  | want c done sec rest =>
    cases ho : m.owner (p.key sec) with
    | none => exact ⟨t, by unfold move; rw [hq]; simp [ho]⟩
    | some u => exact ⟨u, move_inside (owner_inside h ho)⟩

end Sharded
end Wrtstat
