/-
The invariant of `rwlock`.
-/
import Verif.Model.Rwlock
import Mathlib.Logic.Relation
import Mathlib.Algebra.BigOperators.Group.Finset.Basic
import Mathlib.Algebra.Order.BigOperators.Group.Finset
import Mathlib.Tactic.Cases

namespace Wrtstat

set_option autoImplicit false

namespace Rw

variable {T : Type} [DecidableEq T] [Fintype T]

open Relation

theorem sum_update (f : T → Nat) (t : T) (v : Nat) : (∑ a, Function.update f t v a) + f t = (∑ a, f a) + v := by
  have h1 := Finset.add_sum_erase Finset.univ (Function.update f t v) (Finset.mem_univ t)
  have h2 := Finset.add_sum_erase Finset.univ f (Finset.mem_univ t)
  have h3 : ∑ x ∈ Finset.univ.erase t, Function.update f t v x = ∑ x ∈ Finset.univ.erase t, f x :=
    Finset.sum_congr rfl fun x hx => Function.update_of_ne (Finset.ne_of_mem_erase hx) _ _
  rw [Function.update_self] at h1
  omega

omit [DecidableEq T] in
theorem le_sum (f : T → Nat) (t : T) : f t ≤ ∑ a, f a :=
  Finset.single_le_sum (fun _ _ => Nat.zero_le _) (Finset.mem_univ t)

/-- What is known about thread `t` standing at `p`. -/
def ok (s : Rw T) (t : T) : RwPc → Prop
  | .lockInc => s.writer = 0 ∧ s.readers = 0
  | .lockCheckW => s.writer = 1 ∧ s.readers = 0
  | .lockCheckR => s.writer = 1 ∧ s.readers = 0
  | .unlockEnter => 0 < s.wr t
  | .unlockDec => 0 < s.wr t
  | .unlockCheck => s.writer = 0
  | .lockRCheck => s.writer = 0
  | .lockRInc => s.writer = 0
  | .unlockREnter => 0 < s.rd t
  | .unlockRCheck => 0 < s.rd t
  | .unlockRDec => 0 < s.rd t
  | _ => True

/-- The counters count the holders, a writer excludes everybody else, and nothing has been aborted. -/
structure Inv (s : Rw T) : Prop where
  sumW : s.writer = (∑ t, s.wr t : Nat)
  sumR : s.readers = (∑ t, s.rd t : Nat)
  excl : s.writer = 0 ∨ (s.writer = 1 ∧ s.readers = 0)
  own : ∀ t, (s.pc t).inside = true ↔ s.owner = some t
  oks : ∀ t, ok s t (s.pc t)
  alive : s.aborted = false

omit [DecidableEq T] in
theorem inv_init : Inv (init : Rw T) := by
  refine ⟨by simp [init], by simp [init], .inl rfl, fun t => by simp [init, RwPc.inside], fun t => ?_, rfl⟩
  simp [init, ok]

omit [Fintype T] [DecidableEq T] in
/-- A thread outside only relies on what it holds itself. -/
theorem ok_outside {s s' : Rw T} {t : T} {p : RwPc} (h : ok s t p) (hp : p.inside = false) (hw : s'.wr t = s.wr t)
    (hr : s'.rd t = s.rd t) : ok s' t p := by
  cases p <;> simp [RwPc.inside] at hp <;> simp only [ok] at h ⊢ <;> omega

omit [DecidableEq T] in
/-- A step of the owner of the mutex. -/
theorem Inv.owner_step {s s' : Rw T} {t : T} (h : Inv s) (ho : s.owner = some t)
    (hpc : ∀ u, u ≠ t → s'.pc u = s.pc u ∨ (s.pc u = .lockSleep ∧ s'.pc u = .lockWoken) ∨
      (s.pc u = .lockRSleep ∧ s'.pc u = .lockRWoken))
    (hwr : ∀ u, u ≠ t → s'.wr u = s.wr u) (hrd : ∀ u, u ≠ t → s'.rd u = s.rd u)
    (hown : (s'.owner = some t ∧ (s'.pc t).inside = true) ∨ (s'.owner = none ∧ (s'.pc t).inside = false))
    (sumW : s'.writer = (∑ t, s'.wr t : Nat)) (sumR : s'.readers = (∑ t, s'.rd t : Nat))
    (excl : s'.writer = 0 ∨ (s'.writer = 1 ∧ s'.readers = 0))
    (hok : ok s' t (s'.pc t)) (hal : s'.aborted = false) : Inv s' := by
  have hout : ∀ u, u ≠ t → (s.pc u).inside = false := by
    intro u hu
    have := h.own u
    rw [ho] at this
    cases hp : (s.pc u).inside with
    | false => rfl
    | true => exact absurd (Option.some.inj (this.1 hp)).symm hu
  have hout' : ∀ u, u ≠ t → (s'.pc u).inside = false := by
    intro u hu
    rcases hpc u hu with e | ⟨-, e⟩ | ⟨-, e⟩
    · rw [e]; exact hout u hu
    · rw [e]; rfl
    · rw [e]; rfl
  refine ⟨sumW, sumR, excl, fun u => ?_, fun u => ?_, hal⟩
  · by_cases hu : u = t
    · subst hu
      rcases hown with ⟨h1, h2⟩ | ⟨h1, h2⟩ <;> simp [h1, h2]
    · rw [hout' u hu]
      rcases hown with ⟨h1, -⟩ | ⟨h1, -⟩ <;> rw [h1]
      · simp [Ne.symm hu]
      · simp
  · by_cases hu : u = t
    · subst hu; exact hok
    · rcases hpc u hu with e | ⟨-, e⟩ | ⟨-, e⟩
      · rw [e]; exact ok_outside (h.oks u) (hout u hu) (hwr u hu) (hrd u hu)
      · rw [e]; trivial
      · rw [e]; trivial

omit [DecidableEq T] in
/-- The steps that leave the counters alone. -/
theorem Inv.move {s s' : Rw T} {t : T} (h : Inv s) (ho : s.owner = some t) (p : RwPc)
    (hpc : ∀ u, u ≠ t → s'.pc u = s.pc u ∨ (s.pc u = .lockSleep ∧ s'.pc u = .lockWoken) ∨
      (s.pc u = .lockRSleep ∧ s'.pc u = .lockRWoken)) (hp : s'.pc t = p)
    (hown : (s'.owner = some t ∧ p.inside = true) ∨ (s'.owner = none ∧ p.inside = false))
    (hok : ok s' t p) (hw : s'.writer = s.writer) (hr : s'.readers = s.readers) (hwr : s'.wr = s.wr)
    (hrd : s'.rd = s.rd) (hal : s'.aborted = s.aborted) : Inv s' :=
  h.owner_step ho hpc (fun _ _ => by rw [hwr]) (fun _ _ => by rw [hrd]) (by rw [hp]; exact hown)
    (by rw [hw, hwr]; exact h.sumW) (by rw [hr, hrd]; exact h.sumR) (by rw [hw, hr]; exact h.excl)
    (by rw [hp]; exact hok) (by rw [hal]; exact h.alive)

omit [Fintype T] in
theorem goto_ne (s : Rw T) (t : T) (p : RwPc) : ∀ u, u ≠ t → (s.goto t p).pc u = s.pc u ∨
    (s.pc u = .lockSleep ∧ (s.goto t p).pc u = .lockWoken) ∨ (s.pc u = .lockRSleep ∧ (s.goto t p).pc u = .lockRWoken) :=
  fun _ hu => .inl (Function.update_of_ne hu _ _)

omit [Fintype T] in
theorem goto_self (s : Rw T) (t : T) (p : RwPc) : (s.goto t p).pc t = p := Function.update_self _ _ _

omit [Fintype T] in
theorem notifyW_ne (s : Rw T) (t : T) (p : RwPc) : ∀ u, u ≠ t → ((s.notifyW).goto t p).pc u = s.pc u ∨
    (s.pc u = .lockSleep ∧ ((s.notifyW).goto t p).pc u = .lockWoken) ∨
    (s.pc u = .lockRSleep ∧ ((s.notifyW).goto t p).pc u = .lockRWoken) := by
  intro u hu
  have : ((s.notifyW).goto t p).pc u = (s.notifyW).pc u := Function.update_of_ne hu _ _
  rw [this]
  unfold notifyW
  by_cases hs : s.pc u = .lockSleep
  · right; left; exact ⟨hs, by simp only [if_pos hs]⟩
  · left; simp only [if_neg hs]

omit [Fintype T] in
theorem notifyR_ne (s : Rw T) (t : T) (p : RwPc) : ∀ u, u ≠ t → ((s.notifyR).goto t p).pc u = s.pc u ∨
    (s.pc u = .lockSleep ∧ ((s.notifyR).goto t p).pc u = .lockWoken) ∨
    (s.pc u = .lockRSleep ∧ ((s.notifyR).goto t p).pc u = .lockRWoken) := by
  intro u hu
  have : ((s.notifyR).goto t p).pc u = (s.notifyR).pc u := Function.update_of_ne hu _ _
  rw [this]
  unfold notifyR
  by_cases hs : s.pc u = .lockRSleep
  · right; right; exact ⟨hs, by simp only [if_pos hs]⟩
  · left; simp only [if_neg hs]

theorem Inv.act {s s' : Rw T} {t : T} (h : Inv s) (hs : act s t = some s') : Inv s' := by
  have hin : (s.pc t).inside = true := by
    unfold Rw.act at hs
    cases hp : s.pc t <;> rw [hp] at hs <;> simp at hs <;> rfl
  have ho := (h.own t).1 hin
  have hok := h.oks t
  have hW := h.sumW
  have hR := h.sumR
  have hex := h.excl
  unfold Rw.act at hs
  cases hp : s.pc t <;> rw [hp] at hs hok <;> simp only [reduceCtorEq] at hs <;> simp only [ok] at hok
  case lockTest =>
    split at hs <;> obtain rfl := Option.some.inj hs
    · rename_i hc
      exact h.move ho .lockInc (goto_ne s t _) (goto_self s t _) (.inl ⟨ho, rfl⟩) hc rfl rfl rfl rfl rfl
    · exact h.move ho .lockSleep (goto_ne s t _) (goto_self s t _) (.inr ⟨rfl, rfl⟩) trivial rfl rfl rfl rfl rfl
  case lockInc =>
    obtain rfl := Option.some.inj hs
    have := sum_update s.wr t (s.wr t + 1)
    refine h.owner_step ho (goto_ne s t _) (fun u hu => Function.update_of_ne hu _ _) (fun _ _ => rfl)
      (.inl ⟨ho, by show (Function.update s.pc t _ t).inside = true; rw [Function.update_self]; rfl⟩) ?_ hR ?_ ?_ h.alive
    · show s.writer + 1 = _
      push_cast at hW ⊢
      omega
    · right; exact ⟨by show s.writer + 1 = 1; omega, hok.2⟩
    · show ok _ t (Function.update s.pc t _ t)
      rw [Function.update_self]
      exact ⟨by show s.writer + 1 = 1; omega, hok.2⟩
  case lockCheckW =>
    rw [if_neg (by omega)] at hs
    obtain rfl := Option.some.inj hs
    exact h.move ho .lockCheckR (goto_ne s t _) (goto_self s t _) (.inl ⟨ho, rfl⟩) hok rfl rfl rfl rfl rfl
  case lockCheckR =>
    rw [if_neg (by omega)] at hs
    obtain rfl := Option.some.inj hs
    exact h.move ho .lockLeave (goto_ne s t _) (goto_self s t _) (.inl ⟨ho, rfl⟩) trivial rfl rfl rfl rfl rfl
  case lockLeave =>
    obtain rfl := Option.some.inj hs
    exact h.move ho .idle (goto_ne s t _) (goto_self s t _) (.inr ⟨rfl, rfl⟩) trivial rfl rfl rfl rfl rfl
  case unlockDec =>
    obtain rfl := Option.some.inj hs
    have := sum_update s.wr t (s.wr t - 1)
    have hle := le_sum s.wr t
    have hw1 : s.writer = 1 := by rcases hex with e | e <;> omega
    refine h.owner_step ho (goto_ne s t _) (fun u hu => Function.update_of_ne hu _ _) (fun _ _ => rfl)
      (.inl ⟨ho, by show (Function.update s.pc t _ t).inside = true; rw [Function.update_self]; rfl⟩) ?_ hR ?_ ?_ h.alive
    · show s.writer - 1 = _
      push_cast at hW ⊢
      omega
    · left; show s.writer - 1 = 0; omega
    · show ok _ t (Function.update s.pc t _ t)
      rw [Function.update_self]
      show s.writer - 1 = 0
      omega
  case unlockCheck =>
    rw [if_neg (by omega)] at hs
    obtain rfl := Option.some.inj hs
    exact h.move ho .unlockNotifyW (goto_ne s t _) (goto_self s t _) (.inl ⟨ho, rfl⟩) trivial rfl rfl rfl rfl rfl
  case unlockNotifyW =>
    obtain rfl := Option.some.inj hs
    exact h.move ho .unlockNotifyR (notifyW_ne s t _) (goto_self _ t _) (.inl ⟨ho, rfl⟩) trivial rfl rfl rfl rfl rfl
  case unlockNotifyR =>
    obtain rfl := Option.some.inj hs
    exact h.move ho .unlockLeave (notifyR_ne s t _) (goto_self _ t _) (.inl ⟨ho, rfl⟩) trivial rfl rfl rfl rfl rfl
  case unlockLeave =>
    obtain rfl := Option.some.inj hs
    exact h.move ho .idle (goto_ne s t _) (goto_self s t _) (.inr ⟨rfl, rfl⟩) trivial rfl rfl rfl rfl rfl
  case lockRTest =>
    split at hs <;> obtain rfl := Option.some.inj hs
    · rename_i hc
      exact h.move ho .lockRCheck (goto_ne s t _) (goto_self s t _) (.inl ⟨ho, rfl⟩) hc rfl rfl rfl rfl rfl
    · exact h.move ho .lockRSleep (goto_ne s t _) (goto_self s t _) (.inr ⟨rfl, rfl⟩) trivial rfl rfl rfl rfl rfl
  case lockRCheck =>
    rw [if_neg (by omega)] at hs
    obtain rfl := Option.some.inj hs
    exact h.move ho .lockRInc (goto_ne s t _) (goto_self s t _) (.inl ⟨ho, rfl⟩) hok rfl rfl rfl rfl rfl
  case lockRInc =>
    obtain rfl := Option.some.inj hs
    have := sum_update s.rd t (s.rd t + 1)
    refine h.owner_step ho (goto_ne s t _) (fun _ _ => rfl) (fun u hu => Function.update_of_ne hu _ _)
      (.inl ⟨ho, by show (Function.update s.pc t _ t).inside = true; rw [Function.update_self]; rfl⟩) hW ?_ (.inl hok) ?_ h.alive
    · show s.readers + 1 = _
      push_cast at hR ⊢
      omega
    · show ok _ t (Function.update s.pc t _ t)
      rw [Function.update_self]
      trivial
  case lockRLeave =>
    obtain rfl := Option.some.inj hs
    exact h.move ho .idle (goto_ne s t _) (goto_self s t _) (.inr ⟨rfl, rfl⟩) trivial rfl rfl rfl rfl rfl
  case unlockRCheck =>
    have hle := le_sum s.rd t
    rw [if_neg (by omega)] at hs
    obtain rfl := Option.some.inj hs
    exact h.move ho .unlockRDec (goto_ne s t _) (goto_self s t _) (.inl ⟨ho, rfl⟩) hok rfl rfl rfl rfl rfl
  case unlockRDec =>
    obtain rfl := Option.some.inj hs
    have := sum_update s.rd t (s.rd t - 1)
    have hle := le_sum s.rd t
    have hw0 : s.writer = 0 := by rcases hex with e | e <;> omega
    refine h.owner_step ho (goto_ne s t _) (fun _ _ => rfl) (fun u hu => Function.update_of_ne hu _ _)
      (.inl ⟨ho, by show (Function.update s.pc t _ t).inside = true; rw [Function.update_self]; rfl⟩) hW ?_ (.inl hw0) ?_ h.alive
    · show s.readers - 1 = _
      push_cast at hR ⊢
      omega
    · show ok _ t (Function.update s.pc t _ t)
      rw [Function.update_self]
      trivial
  case unlockRTest =>
    split at hs <;> obtain rfl := Option.some.inj hs
    · exact h.move ho .unlockRNotify (goto_ne s t _) (goto_self s t _) (.inl ⟨ho, rfl⟩) trivial rfl rfl rfl rfl rfl
    · exact h.move ho .unlockRLeave (goto_ne s t _) (goto_self s t _) (.inl ⟨ho, rfl⟩) trivial rfl rfl rfl rfl rfl
  case unlockRNotify =>
    obtain rfl := Option.some.inj hs
    exact h.move ho .unlockRLeave (notifyW_ne s t _) (goto_self _ t _) (.inl ⟨ho, rfl⟩) trivial rfl rfl rfl rfl rfl
  case unlockRLeave =>
    obtain rfl := Option.some.inj hs
    exact h.move ho .idle (goto_ne s t _) (goto_self s t _) (.inr ⟨rfl, rfl⟩) trivial rfl rfl rfl rfl rfl

/-- A thread outside moves on, still outside. -/
theorem Inv.outside {s : Rw T} {t : T} {p : RwPc} (h : Inv s) (ho : (s.pc t).inside = false) (hp : p.inside = false)
    (hok : ok s t p) : Inv (s.goto t p) := by
  refine ⟨h.sumW, h.sumR, h.excl, fun u => ?_, fun u => ?_, h.alive⟩
  · by_cases hu : u = t
    · subst hu
      rw [goto_self, hp]
      have := h.own u
      rw [ho] at this
      exact this
    · show (Function.update s.pc t p u).inside = true ↔ _
      rw [Function.update_of_ne hu]
      exact h.own u
  · by_cases hu : u = t
    · subst hu
      rw [goto_self]
      cases p <;> exact hok
    · show ok _ u (Function.update s.pc t p u)
      rw [Function.update_of_ne hu]
      have := h.oks u
      cases hq : s.pc u <;> rw [hq] at this <;> exact this

theorem Inv.enter {s : Rw T} {t : T} {p : RwPc} (h : Inv s) (he : entry (s.pc t) = some p) (ho : s.owner = none) :
    Inv { s.goto t p with owner := some t } := by
  have hout : ∀ u, (s.pc u).inside = false := fun u => by
    have := h.own u
    rw [ho] at this
    cases hp : (s.pc u).inside with
    | false => rfl
    | true => exact absurd (this.1 hp) (by simp)
  have hok : ok { s.goto t p with owner := some t } t p ∧ p.inside = true := by
    have := h.oks t
    cases hp : s.pc t <;> rw [hp] at he this <;> simp only [entry, reduceCtorEq, Option.some.injEq] at he <;> subst he
      <;> exact ⟨this, rfl⟩
  refine ⟨h.sumW, h.sumR, h.excl, fun u => ?_, fun u => ?_, h.alive⟩
  · by_cases hu : u = t
    · subst hu
      show (Function.update s.pc u p u).inside = true ↔ _
      rw [Function.update_self]
      simp [hok.2]
    · show (Function.update s.pc t p u).inside = true ↔ _
      rw [Function.update_of_ne hu, hout u]
      simp [Ne.symm hu]
  · by_cases hu : u = t
    · subst hu
      show ok _ u (Function.update s.pc u p u)
      rw [Function.update_self]
      exact hok.1
    · show ok _ u (Function.update s.pc t p u)
      rw [Function.update_of_ne hu]
      exact ok_outside (h.oks u) (hout u) rfl rfl

theorem Inv.step {s s' : Rw T} (h : Inv s) (hs : Step s s') : Inv s' := by
  obtain ⟨-, hs⟩ := hs
  rcases hs with hs | hs | hs
  · cases hs with
    | lock t hp => exact h.outside (by rw [hp]; rfl) rfl trivial
    | unlock t hp hw => exact h.outside (by rw [hp]; rfl) rfl hw
    | lockR t hp => exact h.outside (by rw [hp]; rfl) rfl trivial
    | unlockR t hp hr => exact h.outside (by rw [hp]; rfl) rfl hr
  · cases hs with
    | enter t p he ho => exact h.enter he ho
    | act _ t ha => exact h.act ha
  · cases hs with
    | w t hp => exact h.outside (by rw [hp]; rfl) rfl trivial
    | r t hp => exact h.outside (by rw [hp]; rfl) rfl trivial

/-- Reachable from the constructed lock. -/
def Reach (s : Rw T) : Prop := ReflTransGen Step init s

theorem Reach.inv {s : Rw T} (h : Reach s) : Inv s := by
  induction h with
  | refl => exact inv_init
  | tail _ hs ih => exact ih.step hs

/-! ### No lost wake-up -/

/-- A thread at `p` is about to wake up the writers that wait. -/
def _root_.Wrtstat.RwPc.willW : RwPc → Bool
  | .unlockCheck | .unlockNotifyW | .unlockRTest | .unlockRNotify => true
  | _ => false

/-- A thread at `p` is about to wake up the readers that wait. -/
def _root_.Wrtstat.RwPc.willR : RwPc → Bool
  | .unlockCheck | .unlockNotifyW | .unlockNotifyR => true
  | _ => false

/-- Whoever sleeps has a reason to, or will be woken up. -/
structure WInv (s : Rw T) : Prop where
  slW : ∀ t, s.pc t = .lockSleep → s.writer ≠ 0 ∨ s.readers ≠ 0 ∨ ∃ u, (s.pc u).willW = true
  slR : ∀ t, s.pc t = .lockRSleep → s.writer ≠ 0 ∨ ∃ u, (s.pc u).willR = true

theorem willW_inside {p : RwPc} (h : p.willW = true) : p.inside = true := by
  cases p <;> simp [RwPc.willW] at h <;> rfl

theorem willR_inside {p : RwPc} (h : p.willR = true) : p.inside = true := by
  cases p <;> simp [RwPc.willR] at h <;> rfl

omit [DecidableEq T] in
theorem WInv.owner_step {s s' : Rw T} {t : T} (hw : WInv s) (h : Inv s) (ho : s.owner = some t)
    (hsW : ∀ u, u ≠ t → s'.pc u = .lockSleep → s.pc u = .lockSleep)
    (hsR : ∀ u, u ≠ t → s'.pc u = .lockRSleep → s.pc u = .lockRSleep)
    (selfW : s'.pc t = .lockSleep → s'.writer ≠ 0 ∨ s'.readers ≠ 0)
    (selfR : s'.pc t = .lockRSleep → s'.writer ≠ 0)
    (keepW : (s.writer ≠ 0 ∨ s.readers ≠ 0 ∨ (s.pc t).willW = true) →
      (s'.writer ≠ 0 ∨ s'.readers ≠ 0 ∨ (s'.pc t).willW = true) ∨ ∀ u, u ≠ t → s'.pc u ≠ .lockSleep)
    (keepR : (s.writer ≠ 0 ∨ (s.pc t).willR = true) →
      (s'.writer ≠ 0 ∨ (s'.pc t).willR = true) ∨ ∀ u, u ≠ t → s'.pc u ≠ .lockRSleep) : WInv s' := by
  have hown : ∀ v, (s.pc v).inside = true → v = t := by
    intro v hv
    have := (h.own v).1 hv
    rw [ho] at this
    exact (Option.some.inj this).symm
  constructor
  · intro u hu
    by_cases hut : u = t
    · subst hut
      rcases selfW hu with e | e
      · exact .inl e
      · exact .inr (.inl e)
    · have hold : s.writer ≠ 0 ∨ s.readers ≠ 0 ∨ (s.pc t).willW = true := by
        rcases hw.slW u (hsW u hut hu) with e | e | ⟨v, e⟩
        · exact .inl e
        · exact .inr (.inl e)
        · rw [hown v (willW_inside e)] at e
          exact .inr (.inr e)
      rcases keepW hold with (e | e | e) | e
      · exact .inl e
      · exact .inr (.inl e)
      · exact .inr (.inr ⟨t, e⟩)
      · exact absurd hu (e u hut)
  · intro u hu
    by_cases hut : u = t
    · subst hut
      exact .inl (selfR hu)
    · have hold : s.writer ≠ 0 ∨ (s.pc t).willR = true := by
        rcases hw.slR u (hsR u hut hu) with e | ⟨v, e⟩
        · exact .inl e
        · rw [hown v (willR_inside e)] at e
          exact .inr e
      rcases keepR hold with (e | e) | e
      · exact .inl e
      · exact .inr ⟨t, e⟩
      · exact absurd hu (e u hut)

omit [Fintype T] in
theorem goto_pc_ne (s : Rw T) {t u : T} (p : RwPc) (h : u ≠ t) : (s.goto t p).pc u = s.pc u := Function.update_of_ne h _ _

omit [Fintype T] [DecidableEq T] in
theorem notifyW_pc (s : Rw T) (u : T) : (s.notifyW).pc u = if s.pc u = .lockSleep then .lockWoken else s.pc u := rfl

omit [Fintype T] [DecidableEq T] in
theorem notifyR_pc (s : Rw T) (u : T) : (s.notifyR).pc u = if s.pc u = .lockRSleep then .lockRWoken else s.pc u := rfl

omit [Fintype T] in
theorem goto_w (s : Rw T) (t : T) (p : RwPc) : (s.goto t p).writer = s.writer := rfl

omit [Fintype T] in
theorem goto_r (s : Rw T) (t : T) (p : RwPc) : (s.goto t p).readers = s.readers := rfl

theorem WInv.act {s s' : Rw T} {t : T} (hw : WInv s) (h : Inv s) (hs : act s t = some s') : WInv s' := by
  have hin : (s.pc t).inside = true := by
    unfold Rw.act at hs
    cases hp : s.pc t <;> rw [hp] at hs <;> simp at hs <;> rfl
  have ho := (h.own t).1 hin
  have hok := h.oks t
  have hle := le_sum s.rd t
  have hR := h.sumR
  have hex := h.excl
  have gW : ∀ p u, u ≠ t → (s.goto t p).pc u = .lockSleep → s.pc u = .lockSleep := fun p u hu e => by
    rwa [goto_pc_ne s p hu] at e
  have gR : ∀ p u, u ≠ t → (s.goto t p).pc u = .lockRSleep → s.pc u = .lockRSleep := fun p u hu e => by
    rwa [goto_pc_ne s p hu] at e
  have gt : ∀ p, (s.goto t p).pc t = p := goto_self s t
  unfold Rw.act at hs
  cases hp : s.pc t <;> rw [hp] at hs hok <;> simp only [reduceCtorEq] at hs <;> simp only [ok] at hok
  case unlockNotifyW =>
    obtain rfl := Option.some.inj hs
    refine hw.owner_step h ho ?_ ?_ ?_ ?_ ?_ ?_
    · intro u hu e
      rw [goto_pc_ne _ _ hu, notifyW_pc] at e
      split at e
      · simp at e
      · exact e
    · intro u hu e
      rw [goto_pc_ne _ _ hu, notifyW_pc] at e
      split at e
      · simp at e
      · exact e
    · rw [goto_self]; simp
    · rw [goto_self]; simp
    · intro _
      right
      intro u hu e
      rw [goto_pc_ne _ _ hu, notifyW_pc] at e
      split at e
      · simp at e
      · exact absurd e ‹_›
    · intro _
      left; right; rw [goto_self]; rfl
  case unlockNotifyR =>
    obtain rfl := Option.some.inj hs
    refine hw.owner_step h ho ?_ ?_ ?_ ?_ ?_ ?_
    · intro u hu e
      rw [goto_pc_ne _ _ hu, notifyR_pc] at e
      split at e
      · simp at e
      · exact e
    · intro u hu e
      rw [goto_pc_ne _ _ hu, notifyR_pc] at e
      split at e
      · simp at e
      · exact e
    · rw [goto_self]; simp
    · rw [goto_self]; simp
    · rw [hp]
      rintro (e | e | e)
      · exact .inl (.inl e)
      · exact .inl (.inr (.inl e))
      · simp [RwPc.willW] at e
    · intro _
      right
      intro u hu e
      rw [goto_pc_ne _ _ hu, notifyR_pc] at e
      split at e
      · simp at e
      · exact absurd e ‹_›
  case unlockRNotify =>
    obtain rfl := Option.some.inj hs
    refine hw.owner_step h ho ?_ ?_ ?_ ?_ ?_ ?_
    · intro u hu e
      rw [goto_pc_ne _ _ hu, notifyW_pc] at e
      split at e
      · simp at e
      · exact e
    · intro u hu e
      rw [goto_pc_ne _ _ hu, notifyW_pc] at e
      split at e
      · simp at e
      · exact e
    · rw [goto_self]; simp
    · rw [goto_self]; simp
    · intro _
      right
      intro u hu e
      rw [goto_pc_ne _ _ hu, notifyW_pc] at e
      split at e
      · simp at e
      · exact absurd e ‹_›
    · rw [hp]
      rintro (e | e)
      · exact .inl (.inl e)
      · simp [RwPc.willR] at e
  all_goals
    try split at hs
    all_goals
      obtain rfl := Option.some.inj hs
      refine hw.owner_step h ho ?_ ?_ ?_ ?_ ?_ ?_
      · first | exact gW _ | exact fun _ _ e => e
      · first | exact gR _ | exact fun _ _ e => e
      · simp only [gt, hp, reduceCtorEq, false_imp_iff, true_imp_iff, goto_w, goto_r]; try omega
      · simp only [gt, hp, reduceCtorEq, false_imp_iff, true_imp_iff, goto_w]; try omega
      · intro e
        left
        simp only [gt, hp, RwPc.willW, Bool.false_eq_true, or_false, or_true, goto_w, goto_r] at e ⊢
        try omega
      · intro e
        left
        simp only [gt, hp, RwPc.willR, Bool.false_eq_true, or_false, or_true, goto_w] at e ⊢
        try omega

omit [Fintype T] in
/-- A step that does not touch the counters and moves one thread from outside to outside, not to sleep. -/
theorem WInv.outside {s : Rw T} {t : T} {p : RwPc} (hw : WInv s) (ho : (s.pc t).inside = false) (hp1 : p ≠ .lockSleep)
    (hp2 : p ≠ .lockRSleep) : WInv (s.goto t p) := by
  have hk : ∀ q : RwPc → Bool, (∀ p, q p = true → p.inside = true) → (∃ u, q (s.pc u) = true) →
      ∃ u, q ((s.goto t p).pc u) = true := by
    rintro q hq ⟨u, hu⟩
    refine ⟨u, ?_⟩
    rw [goto_pc_ne]
    · exact hu
    · rintro rfl
      rw [hq _ hu] at ho
      simp at ho
  constructor
  · intro u hu
    by_cases hut : u = t
    · subst hut; rw [goto_self] at hu; exact absurd hu hp1
    · rw [goto_pc_ne s p hut] at hu
      rcases hw.slW u hu with e | e | e
      · exact .inl e
      · exact .inr (.inl e)
      · exact .inr (.inr (hk _ (fun _ => willW_inside) e))
  · intro u hu
    by_cases hut : u = t
    · subst hut; rw [goto_self] at hu; exact absurd hu hp2
    · rw [goto_pc_ne s p hut] at hu
      rcases hw.slR u hu with e | e
      · exact .inl e
      · exact .inr (hk _ (fun _ => willR_inside) e)

theorem WInv.step {s s' : Rw T} (hw : WInv s) (h : Inv s) (hs : Step s s') : WInv s' := by
  obtain ⟨-, hs⟩ := hs
  rcases hs with hs | hs | hs
  · cases hs with
    | lock t hp => exact hw.outside (by rw [hp]; rfl) (by simp) (by simp)
    | unlock t hp _ => exact hw.outside (by rw [hp]; rfl) (by simp) (by simp)
    | lockR t hp => exact hw.outside (by rw [hp]; rfl) (by simp) (by simp)
    | unlockR t hp _ => exact hw.outside (by rw [hp]; rfl) (by simp) (by simp)
  · cases hs with
    | enter t p he ho =>
      have hp : p ≠ .lockSleep ∧ p ≠ .lockRSleep ∧ (s.pc t).inside = false := by
        cases hq : s.pc t <;> rw [hq] at he <;> simp only [entry, reduceCtorEq, Option.some.injEq] at he <;> subst he
          <;> simp [RwPc.inside]
      have := hw.outside hp.2.2 hp.1 hp.2.1
      exact ⟨this.slW, this.slR⟩
    | act _ t ha => exact hw.act h ha
  · cases hs with
    | w t hp => exact hw.outside (by rw [hp]; rfl) (by simp) (by simp)
    | r t hp => exact hw.outside (by rw [hp]; rfl) (by simp) (by simp)

theorem Reach.winv {s : Rw T} (h : Reach s) : WInv s := by
  induction h with
  | refl => exact ⟨fun t e => by simp [init] at e, fun t e => by simp [init] at e⟩
  | tail h' hs ih => exact ih.step (Reach.inv h') hs

/-! ### Reading twice -/

omit [Fintype T] in
/-- A step of thread `t`: what the others hold does not change, and none of them falls asleep. -/
theorem act_others {s s' : Rw T} {t : T} (hs : act s t = some s') (u : T) (hu : u ≠ t) :
    s'.rd u = s.rd u ∧ (s'.pc u = .lockRSleep → s.pc u = .lockRSleep) := by
  unfold Rw.act at hs
  cases hp : s.pc t <;> rw [hp] at hs <;> simp only [reduceCtorEq] at hs <;> try split at hs
  all_goals
    obtain rfl := Option.some.inj hs
    simp [goto, notifyW, notifyR, Function.update_of_ne hu]
  all_goals
    split
    · simp
    · exact id

theorem sleep_step {s s' : Rw T} (h : Inv s) (hs : Step s s') (t : T) (ih : s.pc t = .lockRSleep → s.rd t = 0)
    (ht : s'.pc t = .lockRSleep) : s'.rd t = 0 := by
  have hgo : ∀ u p, p ≠ .lockRSleep → (s.goto u p).pc t = .lockRSleep → (s.goto u p).rd t = 0 := by
    intro u p hp e
    by_cases hu : t = u
    · subst hu; rw [goto_self] at e; exact absurd e hp
    · rw [goto_pc_ne s p hu] at e; exact ih e
  obtain ⟨-, hs⟩ := hs
  rcases hs with hs | hs | hs
  · cases hs with
    | lock u hp => exact hgo u _ (by simp) ht
    | unlock u hp _ => exact hgo u _ (by simp) ht
    | lockR u hp => exact hgo u _ (by simp) ht
    | unlockR u hp _ => exact hgo u _ (by simp) ht
  · cases hs with
    | enter u p he ho =>
      refine hgo u p ?_ ht
      rintro rfl
      cases hq : s.pc u <;> rw [hq] at he <;> simp [entry] at he
    | act _ u ha =>
      by_cases hu : t = u
      · subst hu
        have hR := h.sumR
        have hle := le_sum s.rd t
        have hex := h.excl
        unfold Rw.act at ha
        cases hp : s.pc t <;> rw [hp] at ha <;> simp only [reduceCtorEq] at ha <;> try split at ha
        all_goals
          obtain rfl := Option.some.inj ha
          simp [goto, hp] at ht ⊢
        all_goals omega
      · obtain ⟨h1, h2⟩ := act_others ha t hu
        rw [h1]; exact ih (h2 ht)
  · cases hs with
    | w u hp => exact hgo u _ (by simp) ht
    | r u hp => exact hgo u _ (by simp) ht

/-! ### Given schedules -/

/-- What the scheduler and a thread choose to do. -/
inductive Move (T : Type) where
  | lock (t : T) | unlock (t : T) | lockR (t : T) | unlockR (t : T) | go (t : T)

/-- The step chosen, if there is one. -/
def exec (s : Rw T) : Move T → Option (Rw T)
  | .lock t => if s.aborted = false ∧ s.pc t = .idle then some (s.goto t .lockEnter) else none
  | .unlock t => if s.aborted = false ∧ s.pc t = .idle ∧ 0 < s.wr t then some (s.goto t .unlockEnter) else none
  | .lockR t => if s.aborted = false ∧ s.pc t = .idle then some (s.goto t .lockREnter) else none
  | .unlockR t => if s.aborted = false ∧ s.pc t = .idle ∧ 0 < s.rd t then some (s.goto t .unlockREnter) else none
  | .go t =>
    if s.aborted = false then
      match entry (s.pc t) with
      | some p => if s.owner = none then some { s.goto t p with owner := some t } else none
      | none => act s t
    else none

omit [Fintype T] in
theorem exec_step {s s' : Rw T} {m : Move T} (h : exec s m = some s') : Step s s' := by
  cases m with
  | lock t =>
    simp only [exec] at h
    split at h
    · rename_i hc; obtain rfl := Option.some.inj h; exact ⟨hc.1, .inl (.lock s t hc.2)⟩
    · simp at h
  | unlock t =>
    simp only [exec] at h
    split at h
    · rename_i hc; obtain rfl := Option.some.inj h; exact ⟨hc.1, .inl (.unlock s t hc.2.1 hc.2.2)⟩
    · simp at h
  | lockR t =>
    simp only [exec] at h
    split at h
    · rename_i hc; obtain rfl := Option.some.inj h; exact ⟨hc.1, .inl (.lockR s t hc.2)⟩
    · simp at h
  | unlockR t =>
    simp only [exec] at h
    split at h
    · rename_i hc; obtain rfl := Option.some.inj h; exact ⟨hc.1, .inl (.unlockR s t hc.2.1 hc.2.2)⟩
    · simp at h
  | go t =>
    simp only [exec] at h
    split at h
    · rename_i ha
      split at h
      · rename_i p hp
        split at h
        · rename_i ho; obtain rfl := Option.some.inj h; exact ⟨ha, .inr (.inl (.enter s t p hp ho))⟩
        · simp at h
      · exact ⟨ha, .inr (.inl (.act s s' t h))⟩
    · simp at h

/-- All the states passed through, if every step is possible. -/
def execAll (s : Rw T) : List (Move T) → Option (List (Rw T))
  | [] => some []
  | m :: ms =>
    match exec s m with
    | none => none
    | some s' => (execAll s' ms).map (s' :: ·)

/-- The last state passed through. -/
def execEnd (s : Rw T) (ms : List (Move T)) : Option (Rw T) := (execAll s ms).map (fun l => l.getLastD s)

omit [Fintype T] in
theorem execAll_chain {ms : List (Move T)} {s : Rw T} {l : List (Rw T)} (h : execAll s ms = some l) :
    List.IsChain Step (s :: l) := by
  induction ms generalizing s l with
  | nil =>
    obtain rfl := Option.some.inj h
    exact .singleton s
  | cons m ms ih =>
    simp only [execAll] at h
    split at h
    · simp at h
    · rename_i s' he
      cases hr : execAll s' ms with
      | none => rw [hr] at h; simp at h
      | some l' =>
        rw [hr] at h
        simp only [Option.map_some, Option.some.injEq] at h
        subst h
        exact List.IsChain.cons_cons (exec_step he) (ih hr)

omit [Fintype T] [DecidableEq T] in
theorem reach_of_chain {R : Rw T → Rw T → Prop} {s : Rw T} {l : List (Rw T)} (h : List.IsChain R (s :: l)) :
    ReflTransGen R s (l.getLastD s) := by
  induction l generalizing s with
  | nil => exact .refl
  | cons a l ih =>
    rw [List.isChain_cons_cons] at h
    rw [List.getLastD_cons]
    exact ReflTransGen.head h.1 (ih h.2)

omit [Fintype T] in
theorem execEnd_reach {ms : List (Move T)} {s s' : Rw T} (h : execEnd s ms = some s') : ReflTransGen Step s s' := by
  unfold execEnd at h
  cases hr : execAll s ms with
  | none => rw [hr] at h; simp at h
  | some l =>
    rw [hr] at h
    simp only [Option.map_some, Option.some.injEq] at h
    subst h
    exact reach_of_chain (execAll_chain hr)

end Rw
end Wrtstat
