/-
Properties of spinlocks that are moved (C105) and of `spinlock_n` (C106).
-/
import Verif.Props.Locks
import Verif.Model.SpinlockMove
import Mathlib.Data.Fintype.Pigeonhole
import Mathlib.Data.Finset.Card

namespace Wrtstat

set_option autoImplicit false

open Relation

/-! ### C105 -/

namespace SpinMv

variable {I T : Type} [DecidableEq I] [DecidableEq T]

/-- Reachable from locks that nobody has used. -/
def Reach (s : SpinMv I T) : Prop := ReflTransGen Step init s

/-- The lock works: at most one thread holds it, and `try_lock()` succeeds iff nobody holds it. -/
def Works (l : Spin T) : Prop :=
  (∀ t u, l.pc t = .hold → l.pc u = .hold → t = u) ∧ ∀ t, ((l.tryLock t).1 = true ↔ ∀ u, l.pc u ≠ .hold)

theorem works_iff [Nonempty T] (l : Spin T) : Works l ↔ l.Ok := by
  unfold Works Spin.Ok Spin.tryLock Spin.exchange
  refine and_congr_right fun _ => ?_
  simp only [Bool.not_eq_true', forall_const]
  cases l.value <;> simp

/-- The claim: locks that are moved, or moved to, work. -/
def C105_FullClaim : Prop := ∀ s : SpinMv Bool Bool, Reach s → ∀ i, Works (s.lock i)

/-- A lock is held while it is moved: the target is locked, and nobody holds it. -/
theorem C105_refuted : ¬ C105_FullClaim := fun h => by
  have h1 : Reach (_ : SpinMv Bool Bool) := ReflTransGen.tail .refl (.on _ true _ (.tryLock _ true (by simp [init, Spin.init])))
  have h2 := h1.tail (.load _ true false true rfl)
  have h3 := h2.tail (.store _ true false true rfl)
  exact absurd ((h _ h3 false).2 true) (by decide)

/-- A target that works goes on working iff the move does not change its flag: iff it is held, and the other was when it
was read, or neither. -/
theorem C105_exact_partial [Nonempty T] (s : SpinMv I T) (t : T) (i : I) (v : Bool) (hw : Works (s.lock i)) :
    Works ((s.store t i v).lock i) ↔ (v = true ↔ ∃ u, (s.lock i).pc u = .hold) := by
  rw [works_iff] at hw ⊢
  unfold store Spin.Ok
  simp only [Function.update_self]
  exact ⟨fun h => h.2, fun h => ⟨hw.1, h⟩⟩

/-- Steps in which every move reads a free lock and writes to one that nobody holds by then. -/
def Free (s s' : SpinMv I T) : Prop :=
  Step s s' ∧ ∀ t i v, s.moving t = some (i, v) → s'.moving t = none → v = false ∧ ∀ u, (s.lock i).pc u ≠ .hold

/-- If locks are only moved while they are free, every lock works. -/
theorem C105_free_partial [Nonempty T] {s : SpinMv I T} (h : ReflTransGen Free init s) (i : I) : Works (s.lock i) := by
  rw [works_iff]
  induction h with
  | refl => exact ⟨fun t u h => by simp [init, Spin.init] at h, by simp [init, Spin.init]⟩
  | @tail s _ _ hs ih =>
    obtain ⟨hs, hf⟩ := hs
    cases hs with
    | on j l hl =>
      by_cases hj : i = j
      · subst hj; simp only [Function.update_self]; exact ih.step hl
      · simp only [Function.update_of_ne hj]; exact ih
    | load t j k _ => exact ih
    | store t j v hv =>
      by_cases hj : i = j
      · subst hj
        obtain ⟨rfl, hno⟩ := hf t i v hv (by simp [store])
        unfold store Spin.Ok
        simp only [Function.update_self]
        exact ⟨ih.1, by simp [hno]⟩
      · unfold store; simp only [Function.update_of_ne hj]; exact ih

/-- A lock whose flag is set while nobody holds it, as after a move from a held one, is lost: whatever the threads do, short
of moving to it again, nobody will get it. -/
theorem C105_lost {s s' : SpinMv I T} (i : I) (hv : (s.lock i).value = true) (hn : ∀ u, (s.lock i).pc u ≠ .hold)
    (hm : ∀ t v, s.moving t ≠ some (i, v))
    (h : ReflTransGen (fun a b => Step a b ∧ ∀ t v, b.moving t ≠ some (i, v)) s s') (u : T) :
    (s'.lock i).pc u ≠ .hold ∧ ((s'.lock i).tryLock u).1 = false := by
  have key : (s'.lock i).value = true ∧ (∀ u, (s'.lock i).pc u ≠ .hold) ∧ ∀ t v, s'.moving t ≠ some (i, v) := by
    induction h with
    | refl => exact ⟨hv, hn, hm⟩
    | @tail a _ _ hs ih =>
      obtain ⟨h1, h2, h3⟩ := ih
      refine ⟨?_, ?_, hs.2⟩
      all_goals obtain ⟨hs, -⟩ := hs
      all_goals cases hs with
        | on j l hl =>
          by_cases hj : i = j
          · subst hj
            simp only [Function.update_self]
            cases hl with
            | call t ht =>
              first
              | exact h1
              | (intro u hu
                 by_cases hut : u = t
                 · subst hut; simp at hu
                 · exact h2 u (by simpa [Function.update_of_ne hut] using hu))
            | spin t ht => simp only [Spin.spinOnce, Spin.exchange, h1, if_true]; first | done | exact h2
            | tryLock t ht => simp only [Spin.tryLock, Spin.exchange, h1, if_true]; first | done | exact h2
            | unlock t ht => exact absurd ht (h2 t)
          · simp only [Function.update_of_ne hj]; first | exact h1 | exact h2
        | load t j k _ => first | exact h1 | exact h2
        | store t j v hv =>
          have hj : i ≠ j := fun e => h3 t v (by rw [hv, e])
          simp only [store, Function.update_of_ne hj]; first | exact h1 | exact h2
  refine ⟨key.2.1 u, ?_⟩
  simp [Spin.tryLock, Spin.exchange, key.1]

/-- The other way round: a free lock is moved to a held one, and two threads hold it. -/
example : ∃ s : SpinMv Bool Bool, Reach s ∧ (s.lock true).pc true = .hold ∧ (s.lock true).pc false = .hold := by
  have h1 : Reach (_ : SpinMv Bool Bool) := ReflTransGen.tail .refl (.on _ true _ (.tryLock _ true (by simp [init, Spin.init])))
  have h2 := h1.tail (.load _ false true false rfl)
  have h3 := h2.tail (.store _ false true false rfl)
  have h4 := h3.tail (.on _ true _ (.tryLock _ false (by decide)))
  exact ⟨_, h4, by decide, by decide⟩

/-- A move of a free lock, after which both are taken. -/
example : ∃ s : SpinMv Bool Bool, ReflTransGen Free init s ∧ (s.lock true).pc true = .hold ∧ (s.lock false).pc false = .hold := by
  have h1 : ReflTransGen Free init (_ : SpinMv Bool Bool) := ReflTransGen.tail .refl ⟨.load _ true false true rfl, by simp [init]⟩
  have h2 := h1.tail ⟨.store _ true false false rfl, by
    intro t i v h _
    cases t with
    | true => simp [load, init, Spin.init, Function.update] at h ⊢; obtain ⟨rfl, rfl⟩ := h; simp
    | false => simp [load, init] at h⟩
  have h3 := h2.tail ⟨.on _ true _ (.tryLock _ true (by decide)), by intro t; cases t <;> simp [store, load, init, Function.update]⟩
  have h4 := h3.tail ⟨.on _ false _ (.tryLock _ false (by decide)), by intro t; cases t <;> simp [store, load, init, Function.update]⟩
  exact ⟨_, h4, by decide, by decide⟩

end SpinMv

/-! ### C106 -/

namespace SpinN

variable {N : Nat} {T : Type} [DecidableEq T] {hash : Name → Nat} {hN : 0 < N}

/-- Reachable from the constructed object. -/
def Reach (hash : Name → Nat) (hN : 0 < N) (s : SpinN N T) : Prop := ReflTransGen (Step hash hN) init s

/-- The claim: there is a lock for each key. `try_lock()` succeeds iff no thread has the lock of this key. -/
def C106_FullClaim : Prop :=
  ∀ (N : Nat) (hN : 0 < N) (hash : Name → Nat) (s : SpinN N Bool), Reach hash hN s →
    ∀ t k, (tryLock hash hN s t k).1 = true ↔ ∀ u, s.own u k = false

/-- Two keys, one lock. -/
theorem C106_refuted : ¬ C106_FullClaim := fun h => by
  have h1 : Reach (fun _ => 0) (by decide : 0 < 2) (_ : SpinN 2 Bool) := ReflTransGen.tail .refl (.tryLock _ true ['a'])
  have := (h 2 (by decide) _ _ h1 false ['b']).2 (by decide)
  exact absurd this (by decide)

/-- What is owned is held, by one thread and one key. -/
theorem inv {s : SpinN N T} (h : Reach hash hN s) : (∀ i, (s.locs i).Ok) ∧
    (∀ i t, (s.locs i).pc t = .hold ↔ ∃ k, slot hash hN k = i ∧ s.own t k = true) ∧
    ∀ t u k k', s.own t k = true → s.own u k' = true → slot hash hN k = slot hash hN k' → t = u ∧ k = k' := by
  induction h with
  | refl =>
    refine ⟨fun i => ⟨fun t u h => ?_, ?_⟩, fun i t => ?_, fun t u k k' h => ?_⟩ <;> simp_all [init, Spin.init]
  | @tail s _ _ hs ih =>
    obtain ⟨h1, h2, h3⟩ := ih
    cases hs with
    | tryLock t k =>
      cases hv : (s.locs (slot hash hN k)).value with
      | true =>
        have he : (tryLock hash hN s t k).2 = s := by
          unfold tryLock Spin.tryLock Spin.exchange
          simp only [hv, Bool.not_true, if_true, Bool.false_eq_true, if_false]
          have : ({ value := true, pc := (s.locs (slot hash hN k)).pc } : Spin T) = s.locs (slot hash hN k) := by
            rw [← hv]
          rw [this, Function.update_eq_self]
        rw [he]; exact ⟨h1, h2, h3⟩
      | false =>
        have hno : ∀ u, (s.locs (slot hash hN k)).pc u ≠ .hold := fun u hu => by
          have := (h1 (slot hash hN k)).2.2 ⟨u, hu⟩
          rw [hv] at this; cases this
        have hfree : ∀ u k', slot hash hN k' = slot hash hN k → s.own u k' = false := fun u k' hk => by
          by_contra hn
          exact hno u ((h2 _ u).2 ⟨k', hk, by simpa using hn⟩)
        have ho : ∀ u k', (tryLock hash hN s t k).2.own u k' = true ↔ (u = t ∧ k' = k) ∨ s.own u k' = true := by
          intro u k'
          unfold tryLock Spin.tryLock Spin.exchange
          simp only [hv, Bool.not_false, if_true, Function.update_apply]
          by_cases hu : u = t
          · subst hu; by_cases hk : k' = k <;> simp [hk]
          · simp [hu]
        have hl : ∀ i u, ((tryLock hash hN s t k).2.locs i).pc u = .hold ↔
            (i = slot hash hN k ∧ u = t) ∨ (s.locs i).pc u = .hold := by
          intro i u
          unfold tryLock Spin.tryLock Spin.exchange
          simp only [hv, Function.update_apply, Bool.false_eq_true, if_false]
          by_cases hi : i = slot hash hN k
          · subst hi; by_cases hu : u = t <;> simp [hu]
          · simp [hi]
        refine ⟨fun i => ?_, fun i u => ?_, fun u w k1 k2 hu hw hk => ?_⟩
        · by_cases hi : i = slot hash hN k
          · subst hi
            refine ⟨fun a b ha hb => ?_, ?_⟩
            · rw [hl] at ha hb
              rcases ha with ⟨-, rfl⟩ | ha
              · rcases hb with ⟨-, rfl⟩ | hb
                · rfl
                · exact absurd hb (hno b)
              · exact absurd ha (hno a)
            · refine ⟨fun _ => ⟨t, (hl _ _).2 (.inl ⟨rfl, rfl⟩)⟩, fun _ => ?_⟩
              simp [tryLock, Spin.tryLock, Spin.exchange]
          · have : (tryLock hash hN s t k).2.locs i = s.locs i := by simp [tryLock, Function.update_of_ne hi]
            rw [this]; exact h1 i
        · rw [hl, h2]
          simp only [ho]
          constructor
          · rintro (⟨rfl, rfl⟩ | ⟨k', e, h⟩)
            · exact ⟨k, rfl, .inl ⟨rfl, rfl⟩⟩
            · exact ⟨k', e, .inr h⟩
          · rintro ⟨k', rfl, ⟨rfl, rfl⟩ | h⟩
            · exact .inl ⟨rfl, rfl⟩
            · exact .inr ⟨k', rfl, h⟩
        · rw [ho] at hu hw
          rcases hu with ⟨rfl, rfl⟩ | hu
          · rcases hw with ⟨rfl, rfl⟩ | hw
            · exact ⟨rfl, rfl⟩
            · rw [hfree w k2 hk.symm] at hw; cases hw
          · rcases hw with ⟨rfl, rfl⟩ | hw
            · rw [hfree u k1 hk] at hu; cases hu
            · exact h3 u w k1 k2 hu hw hk
    | unlock t k hk =>
      have hh := (h2 (slot hash hN k) t).2 ⟨k, rfl, hk⟩
      have ho : ∀ u k', (unlock hash hN s t k).own u k' = true ↔ s.own u k' = true ∧ slot hash hN k' ≠ slot hash hN k := by
        intro u k'
        have aux : s.own u k' = true → slot hash hN k' = slot hash hN k → u = t ∧ k' = k := fun h e => h3 u t k' k h hk e
        unfold unlock
        simp only [Function.update_apply]
        by_cases hu : u = t
        · subst hu
          by_cases hkk : k' = k
          · subst hkk; simp
          · simp only [if_true, Function.update_of_ne hkk]; exact ⟨fun h => ⟨h, fun e => hkk (aux h e).2⟩, fun h => h.1⟩
        · simp only [if_neg hu]; exact ⟨fun h => ⟨h, fun e => hu (aux h e).1⟩, fun h => h.1⟩
      have hl : ∀ i u, ((unlock hash hN s t k).locs i).pc u = .hold ↔ (s.locs i).pc u = .hold ∧ i ≠ slot hash hN k := by
        intro i u
        unfold unlock Spin.unlock
        simp only [Function.update_apply]
        by_cases hi : i = slot hash hN k
        · subst hi
          by_cases hu : u = t
          · simp [hu]
          · simp only [if_true, Function.update_of_ne hu, ne_eq, not_true_eq_false, and_false, iff_false]
            exact fun h => hu ((h1 _).1 u t h hh)
        · simp [hi]
      refine ⟨fun i => ?_, fun i u => ?_, fun u w k1 k2 hu hw hkk => ?_⟩
      · refine ⟨fun a b ha hb => (h1 i).1 a b ((hl i a).1 ha).1 ((hl i b).1 hb).1, ?_⟩
        simp only [hl]
        by_cases hi : i = slot hash hN k
        · subst hi; simp [unlock, Spin.unlock]
        · have : (unlock hash hN s t k).locs i = s.locs i := by simp [unlock, Function.update_of_ne hi]
          rw [this]
          simp only [ne_eq, hi, not_false_eq_true, and_true]
          exact (h1 i).2
      · rw [hl, h2]
        simp only [ho]
        constructor
        · rintro ⟨⟨k', rfl, h⟩, hi⟩; exact ⟨k', rfl, h, hi⟩
        · rintro ⟨k', rfl, h, hi⟩; exact ⟨⟨k', rfl, h⟩, hi⟩
      · exact h3 u w k1 k2 ((ho _ _).1 hu).1 ((ho _ _).1 hw).1 hkk

/-- Exactly: `try_lock()` with a key succeeds iff no thread, the caller included, has a lock by a key of the same remainder. -/
theorem C106_exact_partial {s : SpinN N T} (h : Reach hash hN s) (t : T) (k : Name) :
    (tryLock hash hN s t k).1 = true ↔ ∀ u k', hash k' % N = hash k % N → s.own u k' = false := by
  obtain ⟨h1, h2, -⟩ := inv h
  have : (tryLock hash hN s t k).1 = true ↔ ¬ (s.locs (slot hash hN k)).value = true := by
    simp [tryLock, Spin.tryLock, Spin.exchange]
  rw [this, (h1 _).2]
  push Not
  constructor
  · intro hno u k' e
    by_contra hn
    exact hno u ((h2 _ u).2 ⟨k', Fin.ext e, by simpa using hn⟩)
  · rintro hno u hu
    obtain ⟨k', e, ho⟩ := (h2 _ u).1 hu
    rw [hno u k' (congrArg Fin.val e)] at ho; cases ho

/-- At most one thread has the lock of a key. -/
theorem C106_exclusive {s : SpinN N T} (h : Reach hash hN s) (t u : T) (k : Name) (ht : s.own t k = true)
    (hu : s.own u k = true) : t = u := ((inv h).2.2 t u k k ht hu rfl).1

/-- Keys of the same remainder are never locked at the same time, also not by one thread. -/
theorem C106_shared {s : SpinN N T} (h : Reach hash hN s) (t u : T) (k k' : Name) (hk : hash k % N = hash k' % N) (hne : k ≠ k')
    (ht : s.own t k = true) : s.own u k' = false := by
  by_contra hn
  exact hne ((inv h).2.2 t u k k' ht (by simpa using hn) (Fin.ext hk)).2

/-- Whatever the hash: of more than `N` keys two share their lock. -/
theorem C106_pigeonhole (hN : 0 < N) (hash : Name → Nat) (ks : Finset Name) (h : N < ks.card) :
    ∃ k ∈ ks, ∃ k' ∈ ks, k ≠ k' ∧ ∀ s : SpinN N T, Reach hash hN s → ∀ t u, ¬ (s.own t k = true ∧ s.own u k' = true) := by
  obtain ⟨k, hk, k', hk', hne, e⟩ := Finset.exists_ne_map_eq_of_card_lt_of_maps_to (s := ks) (t := Finset.univ)
    (by simpa using h) (f := slot hash hN) (fun _ _ => Finset.mem_coe.2 (Finset.mem_univ _))
  refine ⟨k, hk, k', hk', hne, fun s hs t u ⟨h1, h2⟩ => ?_⟩
  rw [C106_shared hs t u k k' (congrArg Fin.val e) hne h1] at h2; cases h2

/-- Two keys with two locks are held by two threads at the same time. -/
example : ∃ s : SpinN 2 Bool, Reach List.length (by decide) s ∧ s.own true ['a'] = true ∧ s.own false ['b', 'b'] = true := by
  have h1 : Reach List.length (by decide : 0 < 2) (_ : SpinN 2 Bool) := ReflTransGen.tail .refl (.tryLock _ true ['a'])
  have h2 := h1.tail (.tryLock _ false ['b', 'b'])
  exact ⟨_, h2, by decide, by decide⟩

end SpinN
end Wrtstat
