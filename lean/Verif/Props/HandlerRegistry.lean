/-
Whether user code may call the registry that calls it: C110.
-/
import Verif.Model.HandlerRegistry
import Verif.Props.RegistryLocks
import Verif.Props.HandlerLocks

namespace Wrtstat

set_option autoImplicit false
set_option linter.unusedSectionVars false

open Relation

/-- What the program does: which mutexes are taken under which (`R`), whether handlers lock the registry
for reading or for writing, whether there are calls of `pop_all` and of `enable` that find aggregators,
and whether the initializer locks the registry. -/
structure UPolicy (A : Type) where
  R : A → A → Prop
  handRd : Prop
  handWr : Prop
  pop : Prop
  enab : Prop
  ini : Prop

namespace UPolicy

variable {A : Type} (P : UPolicy A)

/-- User code that runs under the mutex `o`, and (`w`) as the initializer, may lock the registry for
reading. -/
def MayRd (o : Option A) (w : Prop) : Prop := (o ≠ none → P.handRd) ∧ (w → P.ini)

/-- The same for writing. -/
def MayWr (o : Option A) (w : Prop) : Prop := (o ≠ none → P.handWr) ∧ (w → P.ini)

/-- The same for the mutex of `b`. -/
def MayLk (o : Option A) (w : Prop) (b : A) : Prop := (∀ a, o = some a → P.R a b) ∧ (w → P.enab)

mutual

/-- A call, made where `o` and `w` say, is as the policy says. -/
def Ok (o : Option A) (w : Prop) : UCall A → Prop
  | .look => P.MayRd o w
  | .change inner => P.MayWr o w ∧ AllOk o True inner
  | .use b => P.MayRd o w ∧ P.MayLk o w b
  | .named inner b => P.MayWr o w ∧ AllOk o True inner ∧ P.MayRd o w ∧ P.MayLk o w b
  | .popAll l => P.MayRd o w ∧ ∀ b, some b ∈ l → P.pop ∧ P.MayLk o w b
  | .enable l => P.MayWr o w ∧ ∀ b ∈ l, P.enab ∧ P.MayLk o w b
  | .push b inner => P.MayLk o w b ∧ AllOk (some b) w inner

/-- All of these calls are. -/
def AllOk (o : Option A) (w : Prop) : List (UCall A) → Prop
  | [] => True
  | c :: cs => Ok o w c ∧ AllOk o w cs

end

end UPolicy

namespace LockState

variable {T A : Type} [DecidableEq T] [DecidableEq A]

/-- Reachable by threads that make the given calls. -/
def ReachU (calls : T → List (UCall A)) (s : LockState T A) : Prop := ReflTransGen Step (initU calls) s

/-- The claim for programs that are as the policy says. -/
def C110_Claim {A : Type} [DecidableEq A] (P : UPolicy A) : Prop :=
  ∀ (T : Type) [DecidableEq T] (calls : T → List (UCall A)), (∀ t, P.AllOk none False (calls t)) →
    ∀ s, ReachU calls s → ¬ Deadlock s

/-- The claim: handlers and initializers may call the registry and use its aggregators. -/
def C110_FullClaim : Prop := ∀ (A : Type) [DecidableEq A], C110_Claim (A := A) ⟨fun _ _ => True, True, True, True, True, True⟩

/-! ### Where it fails -/

/-- An initializer that looks at the registry. -/
theorem stuck_init (A : Type) [DecidableEq A] : ∃ s : LockState Unit A,
    ReachU (fun _ => [.change [.look]]) s ∧ Deadlock s := by
  let s0 : LockState Unit A := initU (fun _ => [.change [.look]])
  let s1 : LockState Unit A := { s0 with prog := Function.update s0.prog () [.rd, .urd, .uwr], wr := some () }
  refine ⟨s1, ReflTransGen.refl.tail (.wr s0 () _ rfl rfl (fun _ => rfl)), ⟨(), by simp [s1]⟩, ?_⟩
  intro s' hs
  cases hs with
  | rd t p h hf => exact absurd hf (by simp [s1])
  | urd t p h => simp [s1] at h
  | wr t p h hf hr => exact absurd hf (by simp [s1])
  | uwr t p h => simp [s1] at h
  | lk t a p h hf => simp [s1] at h
  | ul t a p h => simp [s1] at h

/-- A handler that looks at the registry, and `enable`. -/
theorem stuck_enable_rd (A : Type) [DecidableEq A] (a : A) : ∃ s : LockState Bool A,
    ReachU (fun t => if t then [.push a [.look]] else [.enable [a]]) s ∧ Deadlock s := by
  let s0 : LockState Bool A := initU (fun t => if t then [.push a [.look]] else [.enable [a]])
  let s1 : LockState Bool A :=
    { s0 with prog := Function.update s0.prog true [.rd, .urd, .ul a], own := Function.update s0.own a (some true) }
  let s2 : LockState Bool A := { s1 with prog := Function.update s1.prog false [.lk a, .ul a, .uwr], wr := some false }
  refine ⟨s2, (ReflTransGen.refl.tail (.lk s0 true a _ rfl rfl)).tail (.wr s1 false _ rfl rfl (fun _ => rfl)),
    ⟨true, by simp [s2, s1]⟩, ?_⟩
  intro s' hs
  cases hs with
  | rd t p h hf => exact absurd hf (by simp [s2])
  | urd t p h => cases t <;> simp [s2, s1] at h
  | wr t p h hf hr => exact absurd hf (by simp [s2])
  | uwr t p h => cases t <;> simp [s2, s1] at h
  | lk t b p h hf =>
    cases t
    · obtain ⟨rfl, -⟩ : a = b ∧ _ := by simpa [s2, s1] using h
      simp [s2, s1] at hf
    · simp [s2, s1] at h
  | ul t b p h => cases t <;> simp [s2, s1] at h

/-- A handler that changes the registry, and `enable`. -/
theorem stuck_enable_wr (A : Type) [DecidableEq A] (a : A) : ∃ s : LockState Bool A,
    ReachU (fun t => if t then [.push a [.change []]] else [.enable [a]]) s ∧ Deadlock s := by
  let s0 : LockState Bool A := initU (fun t => if t then [.push a [.change []]] else [.enable [a]])
  let s1 : LockState Bool A :=
    { s0 with prog := Function.update s0.prog true [.wr, .uwr, .ul a], own := Function.update s0.own a (some true) }
  let s2 : LockState Bool A := { s1 with prog := Function.update s1.prog false [.lk a, .ul a, .uwr], wr := some false }
  refine ⟨s2, (ReflTransGen.refl.tail (.lk s0 true a _ rfl rfl)).tail (.wr s1 false _ rfl rfl (fun _ => rfl)),
    ⟨true, by simp [s2, s1]⟩, ?_⟩
  intro s' hs
  cases hs with
  | rd t p h hf => exact absurd hf (by simp [s2])
  | urd t p h => cases t <;> simp [s2, s1] at h
  | wr t p h hf hr => exact absurd hf (by simp [s2])
  | uwr t p h => cases t <;> simp [s2, s1] at h
  | lk t b p h hf =>
    cases t
    · obtain ⟨rfl, -⟩ : a = b ∧ _ := by simpa [s2, s1] using h
      simp [s2, s1] at hf
    · simp [s2, s1] at h
  | ul t b p h => cases t <;> simp [s2, s1] at h

/-- A handler that changes the registry (say, an `add` by name), and `pop_all`. -/
theorem stuck_pop_wr (A : Type) [DecidableEq A] (a : A) : ∃ s : LockState Bool A,
    ReachU (fun t => if t then [.push a [.change []]] else [.popAll [some a]]) s ∧ Deadlock s := by
  let s0 : LockState Bool A := initU (fun t => if t then [.push a [.change []]] else [.popAll [some a]])
  let s1 : LockState Bool A :=
    { s0 with prog := Function.update s0.prog true [.wr, .uwr, .ul a], own := Function.update s0.own a (some true) }
  let s2 : LockState Bool A :=
    { s1 with prog := Function.update s1.prog false [.rd, .urd, .lk a, .ul a, .lk a, .ul a, .urd],
              rd := Function.update s1.rd false 1 }
  let s3 : LockState Bool A :=
    { s2 with prog := Function.update s2.prog false [.urd, .lk a, .ul a, .lk a, .ul a, .urd],
              rd := Function.update s2.rd false 2 }
  let s4 : LockState Bool A :=
    { s3 with prog := Function.update s3.prog false [.lk a, .ul a, .lk a, .ul a, .urd],
              rd := Function.update s3.rd false 1 }
  refine ⟨s4, (((ReflTransGen.refl.tail (.lk s0 true a _ rfl rfl)).tail (.rd s1 false _ rfl rfl)).tail
    (.rd s2 false _ rfl rfl)).tail (.urd s3 false _ rfl), ⟨true, by simp [s4, s3, s2, s1]⟩, ?_⟩
  intro s' hs
  cases hs with
  | rd t p h hf => cases t <;> simp [s4, s3, s2, s1] at h
  | urd t p h => cases t <;> simp [s4, s3, s2, s1] at h
  | wr t p h hf hr => exact absurd (hr false) (by simp [s4])
  | uwr t p h => cases t <;> simp [s4, s3, s2, s1] at h
  | lk t b p h hf =>
    cases t
    · obtain ⟨rfl, -⟩ : a = b ∧ _ := by simpa [s4, s3, s2, s1] using h
      simp [s4, s3, s2, s1] at hf
    · simp [s4, s3, s2, s1] at h
  | ul t b p h => cases t <;> simp [s4, s3, s2, s1] at h

/-- Handlers that take mutexes in a cycle. -/
theorem reach_cycleU {A : Type} [DecidableEq A] (C : A → Prop) [DecidablePred C] (next : A → A) (done : List A)
    (hd : done.Nodup) (hC : ∀ l ∈ done, C l) :
    ReachU (fun l : A => if C l then [UCall.push l [.push (next l) []]] else [])
      { prog := fun l => if C l then (if l ∈ done then [.lk (next l), .ul (next l), .ul l]
          else [.lk l, .lk (next l), .ul (next l), .ul l]) else [],
        rd := fun _ => 0, wr := none, own := fun l => if l ∈ done then some l else none } := by
  induction done with
  | nil =>
    have : (initU (fun l : A => if C l then [UCall.push l [.push (next l) []]] else []) : LockState A A) =
        { prog := fun l => if C l then (if l ∈ [] then [.lk (next l), .ul (next l), .ul l]
          else [.lk l, .lk (next l), .ul (next l), .ul l]) else [],
          rd := fun _ => 0, wr := none, own := fun l => if l ∈ [] then some l else none } := by
      simp only [initU, List.not_mem_nil, if_false, LockState.mk.injEq, and_true]
      funext l
      split <;> simp [UCall.actsAll, UCall.acts]
    rw [← this]
    exact .refl
  | cons k done ih =>
    rw [List.nodup_cons] at hd
    have h := ih hd.2 (fun l hl => hC l (List.mem_cons_of_mem _ hl))
    have hk := hC k List.mem_cons_self
    refine ReflTransGen.tail h ?_
    have hstep := Step.lk (T := A) (A := A) _ k k [.lk (next k), .ul (next k), .ul k]
      (show (LockState.mk (T := A) (A := A) (fun l => if C l then (if l ∈ done then [.lk (next l), .ul (next l), .ul l]
          else [.lk l, .lk (next l), .ul (next l), .ul l]) else []) (fun _ => 0) none
          (fun l => if l ∈ done then some l else none)).prog k = _ by simp [hk, hd.1]) (by simp [hd.1])
    convert hstep using 2
    · funext l
      by_cases hl : l = k
      · subst hl; simp [hk]
      · simp [hl]
    · funext l
      by_cases hl : l = k
      · subst hl; simp
      · simp [hl]

theorem stuck_cycle {A : Type} [Finite A] [DecidableEq A] (R : A → A → Prop) (a : A) (ha : TransGen R a a) :
    ∃ (next : A → A) (C : A → Prop) (_ : DecidablePred C) (s : LockState A A), (∀ l, C l → R l (next l)) ∧
      ReachU (fun l : A => if C l then [UCall.push l [.push (next l) []]] else []) s ∧ Deadlock s := by
  classical
  have hex : ∀ l, TransGen R l l → ∃ k, R l k ∧ TransGen R k k := by
    intro l hl
    obtain ⟨k, h1, h2⟩ := TransGen.head'_iff.1 hl
    exact ⟨k, h1, TransGen.tail' h2 h1⟩
  let next : A → A := fun l => if h : TransGen R l l then (hex l h).choose else l
  have hn : ∀ l, TransGen R l l → R l (next l) ∧ TransGen R (next l) (next l) := by
    intro l hl
    simp only [next, dif_pos hl]
    exact (hex l hl).choose_spec
  have := Fintype.ofFinite A
  let C : A → Prop := fun l => TransGen R l l
  let all : List A := (Finset.univ.filter C).toList
  have hall : ∀ l, l ∈ all ↔ C l := fun l => by simp [all]
  refine ⟨next, C, inferInstance, _, fun l hl => (hn l hl).1,
    reach_cycleU C next all (Finset.nodup_toList _) (fun l hl => (hall l).1 hl), ⟨a, ?_⟩, ?_⟩
  · have h0' : C a := ha
    simp [h0', hall]
  · intro s' hs
    cases hs with
    | rd t p h hf => by_cases ht : C t <;> simp [ht, hall] at h
    | urd t p h => by_cases ht : C t <;> simp [ht, hall] at h
    | wr t p h hf hr => by_cases ht : C t <;> simp [ht, hall] at h
    | uwr t p h => by_cases ht : C t <;> simp [ht, hall] at h
    | lk t l p h hf =>
      by_cases ht : C t
      · simp only [if_pos ht, hall] at h
        injection h with h _
        injection h with h
        subst h
        have := (hn t ht).2
        simp only [hall, if_pos (show C (next t) from this)] at hf
        cases hf
      · simp [ht] at h
    | ul t l p h => by_cases ht : C t <;> simp [ht, hall] at h

/-- The claim is refuted: an initializer that looks at the registry waits for itself. -/
theorem C110_refuted : ¬ C110_FullClaim := by
  intro hc
  obtain ⟨s, hr, hd⟩ := stuck_init Unit
  refine hc Unit Unit _ ?_ s hr hd
  intro _
  simp [UPolicy.AllOk, UPolicy.Ok, UPolicy.MayWr, UPolicy.MayRd]

/-! ### Where it holds -/

/-- How a thread that has the mutexes `st`, the last one first, and the registry `n` times for reading and
(`w`) for writing, goes on. -/
def WfU (P : UPolicy A) : List A → Nat → Prop → List (LockAct A) → Prop
  | st, n, w, [] => st = [] ∧ n = 0 ∧ ¬ w
  | st, n, w, .rd :: p => ¬ w ∧ (st ≠ [] → P.handRd) ∧ WfU P st (n + 1) w p
  | st, n, w, .urd :: p => 0 < n ∧ WfU P st (n - 1) w p
  | st, n, w, .wr :: p => ¬ w ∧ n = 0 ∧ (st ≠ [] → P.handWr) ∧ WfU P st n True p
  | st, n, w, .uwr :: p => w ∧ WfU P st n False p
  | st, n, w, .lk b :: p =>
    (∀ h, st.head? = some h → P.R h b) ∧ (w → P.enab) ∧ (0 < n → P.pop) ∧ WfU P (b :: st) n w p
  | st, n, w, .ul b :: p => ∃ st', st = b :: st' ∧ WfU P st' n w p

theorem allOk_iff (P : UPolicy A) (o : Option A) (w : Prop) (cs : List (UCall A)) :
    P.AllOk o w cs ↔ ∀ c ∈ cs, P.Ok o w c := by
  induction cs with
  | nil => simp [UPolicy.AllOk]
  | cons c cs ih => simp [UPolicy.AllOk, ih]

theorem wfU_lk {P : UPolicy A} {st : List A} {n : Nat} {w : Prop} {b : A} {p : List (LockAct A)}
    (h : P.MayLk st.head? w b) (hn : 0 < n → P.pop) (hp : WfU P st n w p) : WfU P st n w (.lk b :: .ul b :: p) :=
  ⟨h.1, h.2, hn, st, rfl, hp⟩

theorem wfU_rd {P : UPolicy A} {st : List A} {n : Nat} {w : Prop} {p : List (LockAct A)} (hini : ¬ P.ini)
    (h : P.MayRd st.head? w) (hp : WfU P st n w p) : WfU P st n w (.rd :: .urd :: p) := by
  refine ⟨fun hw => hini (h.2 hw), fun hs => h.1 ?_, Nat.succ_pos _, hp⟩
  cases st with
  | nil => exact absurd rfl hs
  | cons k st => simp

theorem wfU_popAll {P : UPolicy A} (hini : ¬ P.ini) {st : List A} {w : Prop} (hr : P.MayRd st.head? w) {p : List (LockAct A)}
    (l : List (Option A)) (hl : ∀ b, some b ∈ l → P.pop ∧ P.MayLk st.head? w b) (hp : WfU P st 1 w p) :
    WfU P st 1 w (l.flatMap (fun o =>
      match o with
      | none => [.rd, .urd]
      | some a => [.rd, .urd, .lk a, .ul a, .lk a, .ul a]) ++ p) := by
  induction l with
  | nil => exact hp
  | cons o l ih =>
    have ih := ih (fun b hb => hl b (List.mem_cons_of_mem _ hb))
    rw [List.flatMap_cons, List.append_assoc]
    cases o with
    | none => exact wfU_rd hini hr ih
    | some a =>
      have ha := hl a List.mem_cons_self
      exact wfU_rd hini hr (wfU_lk ha.2 (fun _ => ha.1) (wfU_lk ha.2 (fun _ => ha.1) ih))

theorem wfU_enable {P : UPolicy A} {st : List A} {w : Prop} {p : List (LockAct A)} (l : List A)
    (hl : ∀ b ∈ l, P.enab ∧ P.MayLk st.head? w b) (hp : WfU P st 0 True p) :
    WfU P st 0 True (l.flatMap (fun a => [.lk a, .ul a]) ++ p) := by
  induction l with
  | nil => exact hp
  | cons a l ih =>
    rw [List.flatMap_cons, List.append_assoc]
    have ha := hl a List.mem_cons_self
    exact wfU_lk ⟨ha.2.1, fun _ => ha.1⟩ (fun h => absurd h (Nat.lt_irrefl 0))
      (ih (fun b hb => hl b (List.mem_cons_of_mem _ hb)))

theorem head_ne {α : Type} {st : List α} (h : st ≠ []) : st.head? ≠ none := by
  cases st with
  | nil => exact absurd rfl h
  | cons k st => simp

mutual

theorem wfU_acts (P : UPolicy A) (hini : ¬ P.ini) : (c : UCall A) → (st : List A) → (w : Prop) → (p : List (LockAct A)) →
    P.Ok st.head? w c → WfU P st 0 w p → WfU P st 0 w (c.acts ++ p)
  | .look, st, w, p, hc, hp => wfU_rd hini hc hp
  | .change inner, st, w, p, hc, hp => by
    obtain ⟨h1, h2⟩ := hc
    have hw : ¬ w := fun hw => hini (h1.2 hw)
    have e : w = False := by simp [hw]
    subst e
    simp only [UCall.acts, List.cons_append, List.append_assoc, List.nil_append]
    exact ⟨hw, rfl, fun hs => h1.1 (head_ne hs), wfU_actsAll P hini inner st True _ h2 ⟨trivial, hp⟩⟩
  | .use b, st, w, p, hc, hp => wfU_rd hini hc.1 (wfU_lk hc.2 (fun h => absurd h (Nat.lt_irrefl 0)) hp)
  | .named inner b, st, w, p, hc, hp => by
    obtain ⟨h1, h2, h3, h4⟩ := hc
    have hw : ¬ w := fun hw => hini (h1.2 hw)
    have e : w = False := by simp [hw]
    subst e
    simp only [UCall.acts, List.cons_append, List.append_assoc, List.nil_append]
    exact ⟨hw, rfl, fun hs => h1.1 (head_ne hs), wfU_actsAll P hini inner st True _ h2
      ⟨trivial, wfU_rd hini h3 (wfU_lk h4 (fun h => absurd h (Nat.lt_irrefl 0)) hp)⟩⟩
  | .popAll l, st, w, p, hc, hp => by
    obtain ⟨h1, h2⟩ := hc
    simp only [UCall.acts, List.cons_append, List.append_assoc, List.nil_append]
    exact ⟨fun hw => hini (h1.2 hw), fun hs => h1.1 (head_ne hs), wfU_popAll hini h1 l h2 ⟨Nat.one_pos, hp⟩⟩
  | .enable l, st, w, p, hc, hp => by
    obtain ⟨h1, h2⟩ := hc
    have hw : ¬ w := fun hw => hini (h1.2 hw)
    have e : w = False := by simp [hw]
    subst e
    simp only [UCall.acts, List.cons_append, List.append_assoc, List.nil_append]
    exact ⟨hw, rfl, fun hs => h1.1 (head_ne hs), wfU_enable l h2 ⟨trivial, hp⟩⟩
  | .push b inner, st, w, p, hc, hp => by
    obtain ⟨h1, h2⟩ := hc
    simp only [UCall.acts, List.cons_append, List.append_assoc, List.nil_append]
    exact ⟨h1.1, h1.2, fun h => absurd h (Nat.lt_irrefl 0), wfU_actsAll P hini inner (b :: st) w _ h2 ⟨st, rfl, hp⟩⟩

theorem wfU_actsAll (P : UPolicy A) (hini : ¬ P.ini) : (cs : List (UCall A)) → (st : List A) → (w : Prop) →
    (p : List (LockAct A)) → P.AllOk st.head? w cs → WfU P st 0 w p → WfU P st 0 w (UCall.actsAll cs ++ p)
  | [], _, _, _, _, hp => hp
  | c :: cs, st, w, p, hc, hp => by
    simp only [UCall.actsAll, List.append_assoc]
    exact wfU_acts P hini c st w _ hc.1 (wfU_actsAll P hini cs st w p hc.2 hp)

end

/-- The invariant. -/
def InvU (P : UPolicy A) (s : LockState T A) : Prop :=
  ∀ t, ∃ st : List A, MxState.Stacked P.R st ∧ WfU P st (s.rd t) (s.wr = some t) (s.prog t) ∧
    (∀ l, s.own l = some t ↔ l ∈ st) ∧ st.Nodup

theorem InvU.init {P : UPolicy A} (hini : ¬ P.ini) {calls : T → List (UCall A)} (hc : ∀ t, P.AllOk none False (calls t)) :
    InvU P (initU calls) := by
  intro t
  refine ⟨[], trivial, ?_, by simp [initU], List.nodup_nil⟩
  have := wfU_actsAll P hini (calls t) [] False [] (hc t) ⟨rfl, rfl, not_false⟩
  simpa [initU] using this

theorem InvU.step {P : UPolicy A} {s s' : LockState T A} (hi : InvU P s) (hs : Step s s') : InvU P s' := by
  cases hs with
  | rd t p h hf =>
    intro u
    obtain ⟨st, h1, h2, h3, h4⟩ := hi u
    by_cases hu : u = t
    · subst hu
      rw [h] at h2
      exact ⟨st, h1, by simpa using h2.2.2, h3, h4⟩
    · exact ⟨st, h1, by simpa [hu] using h2, h3, h4⟩
  | urd t p h =>
    intro u
    obtain ⟨st, h1, h2, h3, h4⟩ := hi u
    by_cases hu : u = t
    · subst hu
      rw [h] at h2
      exact ⟨st, h1, by simpa using h2.2, h3, h4⟩
    · exact ⟨st, h1, by simpa [hu] using h2, h3, h4⟩
  | wr t p h hf hr =>
    intro u
    obtain ⟨st, h1, h2, h3, h4⟩ := hi u
    by_cases hu : u = t
    · subst hu
      rw [h] at h2
      exact ⟨st, h1, by simpa using h2.2.2.2, h3, h4⟩
    · refine ⟨st, h1, ?_, h3, h4⟩
      have : (s.wr = some u) = (some t = some u) := by simp [hf, Ne.symm hu]
      rw [this] at h2
      simpa [hu] using h2
  | uwr t p h =>
    intro u
    obtain ⟨st, h1, h2, h3, h4⟩ := hi u
    by_cases hu : u = t
    · subst hu
      rw [h] at h2
      exact ⟨st, h1, by simpa using h2.2, h3, h4⟩
    · obtain ⟨st', g1, g2, g3, g4⟩ := hi t
      rw [h] at g2
      refine ⟨st, h1, ?_, h3, h4⟩
      have : (s.wr = some u) = (none = some u) := by simp [g2.1, Ne.symm hu]
      rw [this] at h2
      simpa [hu] using h2
  | lk t l p h hf =>
    intro u
    obtain ⟨st, h1, h2, h3, h4⟩ := hi u
    by_cases hu : u = t
    · subst hu
      rw [h] at h2
      refine ⟨l :: st, ?_, by simpa using h2.2.2.2, ?_, ?_⟩
      · cases st with
        | nil => trivial
        | cons k st => exact ⟨h2.1 k rfl, h1⟩
      · intro l'
        by_cases hl : l' = l
        · subst hl; simp
        · simp [hl, h3]
      · refine List.nodup_cons.2 ⟨fun hm => ?_, h4⟩
        rw [(h3 l).2 hm] at hf
        cases hf
    · refine ⟨st, h1, by simpa [hu] using h2, ?_, h4⟩
      intro l'
      by_cases hl : l' = l
      · subst hl
        have : l' ∉ st := fun hm => (by rw [(h3 l').2 hm] at hf; cases hf)
        simp [this, Ne.symm hu]
      · simp [hl, h3]
  | ul t l p h =>
    obtain ⟨st, h1, h2, h3, h4⟩ := hi t
    rw [h] at h2
    obtain ⟨st', rfl, h2⟩ := h2
    have hown : s.own l = some t := (h3 l).2 List.mem_cons_self
    intro u
    by_cases hu : u = t
    · subst hu
      refine ⟨st', ?_, by simpa using h2, ?_, (List.nodup_cons.1 h4).2⟩
      · cases st' with
        | nil => trivial
        | cons k st' => exact h1.2
      · intro l'
        by_cases hl : l' = l
        · subst hl; simp [(List.nodup_cons.1 h4).1]
        · simp [hl, h3]
    · obtain ⟨su, g1, g2, g3, g4⟩ := hi u
      refine ⟨su, g1, by simpa [hu] using g2, ?_, g4⟩
      intro l'
      by_cases hl : l' = l
      · subst hl
        have : l' ∉ su := fun hm => (by
          have := (g3 l').2 hm
          rw [hown] at this
          injection this with this
          exact hu this.symm)
        simp [this]
      · simp [hl, g3]

theorem ReachU.inv {P : UPolicy A} (hini : ¬ P.ini) {calls : T → List (UCall A)} {s : LockState T A} (h : ReachU calls s)
    (hc : ∀ t, P.AllOk none False (calls t)) : InvU P s := by
  induction h with
  | refl => exact .init hini hc
  | tail _ hs ih => exact ih.step hs

/-- What a blocked thread waits for. -/
theorem InvU.blocked {P : UPolicy A} {s : LockState T A} (hi : InvU P s) (hs : ∀ s', ¬ Step s s') {t : T}
    (ht : s.prog t ≠ []) :
    (∃ l p u, s.prog t = .lk l :: p ∧ s.own l = some u ∧ s.prog u ≠ []) ∨
    (∃ p u, s.prog t = .rd :: p ∧ s.wr = some u ∧ s.prog u ≠ []) ∨
    (∃ p u, s.prog t = .wr :: p ∧ s.wr = some u ∧ s.prog u ≠ []) ∨
    (∃ p u, s.prog t = .wr :: p ∧ s.wr = none ∧ 0 < s.rd u ∧ s.prog u ≠ []) := by
  have writer : ∀ u, s.wr = some u → s.prog u ≠ [] := by
    intro u hu hn
    obtain ⟨st, -, h2, -, -⟩ := hi u
    rw [hn] at h2
    exact h2.2.2 hu
  cases hp : s.prog t with
  | nil => exact absurd hp ht
  | cons a p =>
    cases a with
    | ul l => exact absurd (Step.ul s t l p hp) (hs _)
    | urd => exact absurd (Step.urd s t p hp) (hs _)
    | uwr => exact absurd (Step.uwr s t p hp) (hs _)
    | rd =>
      cases hw : s.wr with
      | none => exact absurd (Step.rd s t p hp hw) (hs _)
      | some u => exact .inr (.inl ⟨p, u, rfl, rfl, writer u hw⟩)
    | wr =>
      cases hw : s.wr with
      | some u => exact .inr (.inr (.inl ⟨p, u, rfl, rfl, writer u hw⟩))
      | none =>
        by_cases hr : ∀ u, s.rd u = 0
        · exact absurd (Step.wr s t p hp hw hr) (hs _)
        · push Not at hr
          obtain ⟨u, hu⟩ := hr
          refine .inr (.inr (.inr ⟨p, u, rfl, rfl, Nat.pos_of_ne_zero hu, fun hn => ?_⟩))
          obtain ⟨st, -, h2, -, -⟩ := hi u
          rw [hn] at h2
          exact hu h2.2.1
    | lk l =>
      cases ho : s.own l with
      | none => exact absurd (Step.lk s t l p hp ho) (hs _)
      | some u =>
        refine .inl ⟨l, p, u, rfl, ho, fun hu => ?_⟩
        obtain ⟨st, -, h2, h3, -⟩ := hi u
        rw [hu] at h2
        have := (h3 l).1 ho
        rw [h2.1] at this
        cases this

theorem InvU.wants {P : UPolicy A} {s : LockState T A} (hi : InvU P s) {t : T} {l l' : A} {p : List (LockAct A)}
    (ho : s.own l = some t) (hp : s.prog t = .lk l' :: p) : TransGen P.R l l' := by
  obtain ⟨st, h1, h2, h3, -⟩ := hi t
  have hm := (h3 l).1 ho
  rw [hp] at h2
  cases st with
  | nil => cases hm
  | cons k st => exact TransGen.tail' (h1.below l hm) (h2.1 k rfl)

/-- Where those that have a mutex wait for mutexes only, nobody waits for a mutex. -/
theorem InvU.climb {P : UPolicy A} (hw : WellFounded (flip (TransGen P.R))) {s : LockState T A} (hi : InvU P s)
    (hs : ∀ s', ¬ Step s s') (hm : ∀ u l, s.own l = some u → ∃ l' p, s.prog u = .lk l' :: p) :
    ∀ l t p, s.prog t ≠ .lk l :: p := by
  intro l
  induction l using hw.induction with
  | _ l ih =>
    intro t p hp
    rcases hi.blocked hs (t := t) (by rw [hp]; simp) with ⟨l1, p1, u, h1, h2, h3⟩ | ⟨p1, u, h1, -⟩ | ⟨p1, u, h1, -⟩ | ⟨p1, u, h1, -⟩
    · rw [hp] at h1
      injection h1 with h1 _
      injection h1 with h1
      subst h1
      obtain ⟨l2, p2, h4⟩ := hm u l h2
      exact ih l2 (hi.wants h2 h4) u p2 h4
    all_goals rw [hp] at h1; cases h1

theorem InvU.goes {P : UPolicy A} (hw : WellFounded (flip (TransGen P.R))) (he : ¬ (P.enab ∧ (P.handRd ∨ P.handWr)))
    (hpw : ¬ (P.pop ∧ P.handWr)) {s : LockState T A} (hi : InvU P s) : ¬ Deadlock s := by
  rintro ⟨⟨t0, ht0⟩, hs⟩
  have has : ∀ u l, s.own l = some u → s.prog u ≠ [] ∧ ∃ st, st ≠ [] ∧ WfU P st (s.rd u) (s.wr = some u) (s.prog u) := by
    intro u l ho
    obtain ⟨st, -, h2, h3, -⟩ := hi u
    have hm := (h3 l).1 ho
    have hne : st ≠ [] := fun h => by rw [h] at hm; cases hm
    refine ⟨fun hn => ?_, st, hne, h2⟩
    rw [hn] at h2
    exact hne h2.1
  cases hwr : s.wr with
  | some t =>
    -- a writer: it waits for a mutex, so that handlers do not touch the registry
    obtain ⟨st, -, h2, -, -⟩ := hi t
    have ht : s.prog t ≠ [] := fun hn => by rw [hn] at h2; exact h2.2.2 hwr
    rcases hi.blocked hs ht with ⟨l, p, u, h1, -, -⟩ | ⟨p, u, h1, -⟩ | ⟨p, u, h1, -⟩ | ⟨p, u, h1, -⟩
    · have hen : P.enab := by
        rw [h1] at h2
        exact h2.2.1 hwr
      refine hi.climb hw hs ?_ l t p h1
      intro u l ho
      obtain ⟨hu, st', hne, h4⟩ := has u l ho
      rcases hi.blocked hs hu with ⟨l, p, -, g1, -, -⟩ | ⟨p, u', g1, -⟩ | ⟨p, u', g1, -⟩ | ⟨p, u', g1, -⟩
      · exact ⟨l, p, g1⟩
      · rw [g1] at h4
        exact absurd ⟨hen, .inl (h4.2.1 hne)⟩ he
      · rw [g1] at h4
        exact absurd ⟨hen, .inr (h4.2.2.1 hne)⟩ he
      · rw [g1] at h4
        exact absurd ⟨hen, .inr (h4.2.2.1 hne)⟩ he
    · rw [h1] at h2; exact h2.1 hwr
    · rw [h1] at h2; exact h2.1 hwr
    · rw [h1] at h2; exact h2.1 hwr
  | none =>
    -- nobody waits to read
    by_cases hq : ∃ t p, s.prog t = .wr :: p
    · obtain ⟨t, p, hp⟩ := hq
      rcases hi.blocked hs (t := t) (by rw [hp]; simp) with ⟨l, p, u, h1, -, -⟩ | ⟨p, u, h1, -⟩ | ⟨p, u, h1, h2, -⟩ |
          ⟨p', u, h1, -, h3, h4⟩
      · rw [hp] at h1; cases h1
      · rw [hp] at h1; cases h1
      · rw [hwr] at h2; cases h2
      · -- a reader: it waits for a mutex, so that handlers do not write
        obtain ⟨st, -, g2, -, -⟩ := hi u
        rcases hi.blocked hs h4 with ⟨l, p, v, k1, -, -⟩ | ⟨p, v, -, k2, -⟩ | ⟨p, v, -, k2, -⟩ | ⟨p, v, k1, -⟩
        · have hpop : P.pop := by
            rw [k1] at g2
            exact g2.2.2.1 h3
          refine hi.climb hw hs ?_ l u p k1
          intro u' l' ho
          obtain ⟨hu, st', hne, h6⟩ := has u' l' ho
          rcases hi.blocked hs hu with ⟨l, p, -, j1, -, -⟩ | ⟨p, _, -, j2, -⟩ | ⟨p, _, -, j2, -⟩ | ⟨p, _, j1, -⟩
          · exact ⟨l, p, j1⟩
          · rw [hwr] at j2; cases j2
          · rw [hwr] at j2; cases j2
          · rw [j1] at h6
            exact absurd ⟨hpop, h6.2.2.1 hne⟩ hpw
        · rw [hwr] at k2; cases k2
        · rw [hwr] at k2; cases k2
        · rw [k1] at g2
          have := g2.2.1
          omega
    · -- all wait for mutexes
      have hall : ∀ t, s.prog t ≠ [] → ∃ l p, s.prog t = .lk l :: p := by
        intro t ht
        rcases hi.blocked hs ht with ⟨l, p, -, j1, -, -⟩ | ⟨p, _, -, j2, -⟩ | ⟨p, _, -, j2, -⟩ | ⟨p, _, j1, -⟩
        · exact ⟨l, p, j1⟩
        · rw [hwr] at j2; cases j2
        · rw [hwr] at j2; cases j2
        · exact absurd ⟨t, p, j1⟩ hq
      obtain ⟨l, p, h1⟩ := hall t0 ht0
      exact hi.climb hw hs (fun u l ho => hall u (has u l ho).1) l t0 p h1

/-- What remains: exactly when no execution deadlocks.  The initializer must not touch the registry; the
mutexes that handlers take under others must form no cycle; where `enable` is called, handlers must not
touch the registry at all, and where `pop_all` is called, they must not change it. -/
theorem C110_exact_partial (A : Type) [Finite A] [Nonempty A] [DecidableEq A] (P : UPolicy A) :
    C110_Claim P ↔ ¬ P.ini ∧ (∀ a, ¬ TransGen P.R a a) ∧ ¬ (P.enab ∧ (P.handRd ∨ P.handWr)) ∧ ¬ (P.pop ∧ P.handWr) := by
  constructor
  · intro hc
    obtain ⟨a⟩ := ‹Nonempty A›
    refine ⟨fun hi => ?_, fun b hb => ?_, ?_, ?_⟩
    · obtain ⟨s, hr, hd⟩ := stuck_init A
      refine hc Unit _ ?_ s hr hd
      intro _
      simp [UPolicy.AllOk, UPolicy.Ok, UPolicy.MayWr, UPolicy.MayRd, hi]
    · obtain ⟨next, C, _, s, hn, hr, hd⟩ := stuck_cycle P.R b hb
      refine hc A _ ?_ s hr hd
      intro t
      by_cases ht : C t
      · simp [ht, UPolicy.AllOk, UPolicy.Ok, UPolicy.MayLk, hn t ht]
      · simp [ht, UPolicy.AllOk]
    · rintro ⟨he, h | h⟩
      · obtain ⟨s, hr, hd⟩ := stuck_enable_rd A a
        refine hc Bool _ ?_ s hr hd
        intro t
        cases t <;> simp [UPolicy.AllOk, UPolicy.Ok, UPolicy.MayLk, UPolicy.MayWr, UPolicy.MayRd, he, h]
      · obtain ⟨s, hr, hd⟩ := stuck_enable_wr A a
        refine hc Bool _ ?_ s hr hd
        intro t
        cases t <;> simp [UPolicy.AllOk, UPolicy.Ok, UPolicy.MayLk, UPolicy.MayWr, he, h]
    · rintro ⟨he, h⟩
      obtain ⟨s, hr, hd⟩ := stuck_pop_wr A a
      refine hc Bool _ ?_ s hr hd
      intro t
      cases t <;> simp [UPolicy.AllOk, UPolicy.Ok, UPolicy.MayLk, UPolicy.MayWr, UPolicy.MayRd, he, h]
  · rintro ⟨h1, h2, h3, h4⟩ T _ calls hc s hr
    have hw : WellFounded (flip (TransGen P.R)) := by
      have : IsTrans A (flip (TransGen P.R)) := ⟨fun a b c h1 h2 => TransGen.trans h2 h1⟩
      have : Std.Irrefl (flip (TransGen P.R)) := ⟨fun a h => h2 a h⟩
      exact Finite.wellFounded_of_trans_of_irrefl _
    exact (hr.inv h1 hc).goes hw h3 h4

/-- Then all calls complete: an execution that cannot go on has completed all calls and left nothing
locked, and with finitely many threads there is no infinite one. -/
theorem C110_completes_partial (A : Type) [Finite A] [Nonempty A] [DecidableEq A] (P : UPolicy A) (hP : C110_Claim P)
    [Finite T] (calls : T → List (UCall A)) (hc : ∀ t, P.AllOk none False (calls t)) :
    (∀ s, ReachU calls s → (∀ s', ¬ Step s s') →
      (∀ t, s.prog t = []) ∧ (∀ t, s.rd t = 0) ∧ s.wr = none ∧ ∀ l, s.own l = none) ∧
    ¬ ∃ f : Nat → LockState T A, f 0 = initU calls ∧ ∀ i, Step (f i) (f (i + 1)) := by
  constructor
  · intro s hr hs
    have hi := hr.inv ((C110_exact_partial A P).1 hP).1 hc
    have hnil : ∀ t, s.prog t = [] := fun t => by
      by_contra ht
      exact hP T calls hc s hr ⟨⟨t, ht⟩, hs⟩
    refine ⟨hnil, fun t => ?_, ?_, fun l => ?_⟩
    · obtain ⟨st, -, h2, -, -⟩ := hi t
      rw [hnil t] at h2
      exact h2.2.1
    · cases hw : s.wr with
      | none => rfl
      | some u =>
        obtain ⟨st, -, h2, -, -⟩ := hi u
        rw [hnil u] at h2
        exact absurd hw h2.2.2
    · cases ho : s.own l with
      | none => rfl
      | some u =>
        obtain ⟨st, -, h2, h3, -⟩ := hi u
        rw [hnil u] at h2
        have := (h3 l).1 ho
        rw [h2.1] at this
        cases this
  · rintro ⟨f, -, hf⟩
    have := Fintype.ofFinite T
    have hlen : ∀ i, ∑ t, ((f i).prog t).length + i ≤ ∑ t, ((f 0).prog t).length := by
      intro i
      induction i with
      | zero => simp
      | succ i ih =>
        have := C54_ends_partial (hf i)
        omega
    have := hlen (∑ t, ((f 0).prog t).length + 1)
    omega

/-- The handlers made by `wrtstat` with user handlers that push to aggregators of a higher level and look
at the registry, next to `pop_all` and changes of the registry by anybody, but without `enable`. -/
theorem C110_levels_partial (A : Type) [Finite A] [Nonempty A] [DecidableEq A] (level : A → Nat) :
    C110_Claim (A := A) ⟨fun a b => level a < level b, True, False, True, False, False⟩ := by
  rw [C110_exact_partial]
  refine ⟨not_false, fun a h => ?_, by simp, by simp⟩
  have : ∀ b, TransGen (fun a b : A => level a < level b) a b → level a < level b := by
    intro b hab
    induction hab with
    | single h => exact h
    | tail _ h ih => exact Nat.lt_trans ih h
  exact Nat.lt_irrefl _ (this a h)

/-! ### Examples -/

/-- What calls do to the locks: a push whose handler uses another aggregator, and a creation whose
initializer looks at the registry. -/
example : UCall.actsAll [.push 0 [.look, .use 1], .change [.look], .named [] 2, .popAll [none, some 3], .enable [4]] =
    [.lk 0, .rd, .urd, .rd, .urd, .lk 1, .ul 1, .ul 0, .wr, .rd, .urd, .uwr, .wr, .uwr, .rd, .urd, .lk 2, .ul 2,
     .rd, .rd, .urd, .rd, .urd, .lk 3, .ul 3, .lk 3, .ul 3, .urd, .wr, .lk 4, .ul 4, .uwr] := rfl

/-- A program that follows the levels; one that changes the registry from a handler does not. -/
example : (⟨fun a b => a.toNat < b.toNat, True, False, True, False, False⟩ : UPolicy Bool).AllOk none False
      [.push false [.look, .push true [.look]], .popAll [some true, some false], .named [] true] ∧
    ¬ (⟨fun a b => a.toNat < b.toNat, True, False, True, False, False⟩ : UPolicy Bool).AllOk none False
      [.push false [.named [] true]] := by
  simp [UPolicy.AllOk, UPolicy.Ok, UPolicy.MayLk, UPolicy.MayWr, UPolicy.MayRd]

end LockState
end Wrtstat
