/-
Properties of the pool of buffers: C55.
-/
import Verif.Model.Pool
import Mathlib.Logic.Relation

namespace Wrtstat

set_option autoImplicit false

open Relation

namespace Pool

variable {T : Type} [DecidableEq T]

/-- Reachable from the constructed pool. -/
def Reach (itemSize poolSize : Nat) (s : Pool T) : Prop :=
  ReflTransGen (fun a b => ∃ t, Step t a b) (init itemSize poolSize) s

/-- The claim: no interleaving pops from an empty deque, exceeds `pool_size` or hands out a buffer with contents. -/
def C55_FullClaim : Prop :=
  ∀ (T : Type) [DecidableEq T] (itemSize poolSize : Nat) (s : Pool T), Reach itemSize poolSize s →
    s.ub = false ∧ s.items.length ≤ poolSize ∧ ∀ d ∈ s.out, d = []

/-- One thread frees a buffer; then two threads see that the pool is not empty; the second one pops from an empty
deque. -/
theorem C55_refuted : ¬ C55_FullClaim := by
  intro hc
  let s0 : Pool Bool := init 1 1
  let s1 := s0.freeTest true []
  let s2 := s1.freePush true []
  let s3 := s2.createTest true
  let s4 := s3.createTest false
  let s5 := s4.createPop true
  let s6 := s5.createPop false
  have hr : Reach 1 1 s6 :=
    (((((ReflTransGen.refl.tail ⟨true, .freeTest s0 [] rfl rfl⟩).tail ⟨true, .freePush s1 [] rfl rfl⟩).tail
      ⟨true, .createTest s2 rfl rfl⟩).tail ⟨false, .createTest s3 rfl rfl⟩).tail ⟨true, .createPop s4 rfl rfl⟩).tail
      ⟨false, .createPop s5 rfl rfl⟩
  have := (hc Bool 1 1 s6 hr).1
  exact absurd this (by decide)

/-- Two threads see that the pool is not filled; from then on it is never filled (the test is for equality), so that
it grows without bound. -/
theorem C55_unbounded (n : Nat) : ∃ s : Pool Bool, Reach 1 1 s ∧ s.ub = false ∧ n ≤ s.items.length := by
  suffices h : ∀ n, ∃ s : Pool Bool, Reach 1 1 s ∧ s.ub = false ∧ s.items.length = n + 2 ∧ s.poolSize = 1 ∧
      s.pc true = .idle by
    obtain ⟨s, h1, h2, h3, -⟩ := h n
    exact ⟨s, h1, h2, by omega⟩
  intro n
  induction n with
  | zero =>
    let s0 : Pool Bool := init 1 1
    let s1 := s0.freeTest true []
    let s2 := s1.freeTest false []
    let s3 := s2.freePush true []
    let s4 := s3.freePush false []
    exact ⟨s4, (((ReflTransGen.refl.tail ⟨true, .freeTest s0 [] rfl rfl⟩).tail ⟨false, .freeTest s1 [] rfl rfl⟩).tail
      ⟨true, .freePush s2 [] rfl rfl⟩).tail ⟨false, .freePush s3 [] rfl rfl⟩, rfl, rfl, rfl, rfl⟩
  | succ n ih =>
    obtain ⟨s, h1, h2, h3, h4, h5⟩ := ih
    have hf : s.filled = false := by
      unfold filled
      rw [h3, h4]
      simp
    have e : s.freeTest true [] = { s with pc := Function.update s.pc true (.pushing []) } := by
      unfold freeTest
      rw [hf]
      rfl
    have hr1 := h1.tail ⟨true, .freeTest s [] h2 h5⟩
    rw [e] at hr1
    have hr2 := hr1.tail ⟨true, .freePush _ [] h2 (by simp)⟩
    refine ⟨_, hr2, h2, ?_, h4, ?_⟩
    · show (s.items ++ [[]]).length = n + 1 + 2
      simp [h3]
    · simp [freePush]

/-- What never depends on the schedule: buffers in the pool and buffers handed out are empty. -/
theorem clean {a b : Nat} {s : Pool T} (h : Reach a b s) :
    (∀ d ∈ s.items, d = []) ∧ (∀ d ∈ s.out, d = []) ∧ ∀ t d, s.pc t = .pushing d → d = [] := by
  induction h with
  | refl => exact ⟨by simp [init], by simp [init], by simp [init]⟩
  | tail _ hs ih =>
    obtain ⟨h1, h2, h3⟩ := ih
    have upd : ∀ (s : Pool T) (t : T) (p : PoolPc), (∀ t d, s.pc t = .pushing d → d = []) → (∀ d, p = .pushing d → d = []) →
        ∀ u d, Function.update s.pc t p u = .pushing d → d = [] := by
      intro s t p h hp u d e
      by_cases hu : u = t
      · subst hu; rw [Function.update_self] at e; exact hp d e
      · rw [Function.update_of_ne hu] at e; exact h u d e
    obtain ⟨t, hs⟩ := hs
    cases hs with
    | createTest hu hp =>
      unfold createTest
      split
      · refine ⟨h1, ?_, h3⟩
        intro d hd
        simp only [List.mem_append, List.mem_singleton] at hd
        rcases hd with hd | hd
        · exact h2 d hd
        · rw [hd]; rfl
      · exact ⟨h1, h2, upd _ t _ h3 (by simp)⟩
    | createPop hu hp =>
      unfold createPop
      split
      · exact ⟨h1, h2, h3⟩
      · rename_i d hd
        refine ⟨fun x hx => h1 x ((List.dropLast_sublist _).mem hx), ?_, upd _ t _ h3 (by simp)⟩
        intro x hx
        simp only [List.mem_append, List.mem_singleton] at hx
        rcases hx with hx | hx
        · exact h2 x hx
        · rw [hx]; exact h1 d (List.mem_of_getLast? hd)
    | freeTest d hu hp =>
      unfold freeTest
      split
      · exact ⟨h1, h2, h3⟩
      · refine ⟨h1, h2, upd _ t _ h3 ?_⟩
        intro x hx
        rw [PoolPc.pushing.injEq] at hx
        rw [← hx]; rfl
    | freePush d hu hp =>
      unfold freePush
      refine ⟨?_, h2, upd _ t _ h3 (by simp)⟩
      intro x hx
      simp only [List.mem_append, List.mem_singleton] at hx
      rcases hx with hx | hx
      · exact h1 x hx
      · rw [hx]; exact h3 t d hp

/-- The part that holds for every interleaving: only empty buffers are handed out.  Missing: the other two
halves, which fail. -/
theorem C55_clean_partial {a b : Nat} {s : Pool T} (h : Reach a b s) : ∀ d ∈ s.out, d = [] := (clean h).2.1

/-- Reachable with calls that do not overlap: a thread only takes a step while all others are outside. -/
def SerialReach (itemSize poolSize : Nat) (s : Pool T) : Prop :=
  ReflTransGen (fun a b => ∃ t, Step t a b ∧ ∀ u, u ≠ t → a.pc u = .idle) (init itemSize poolSize) s

theorem SerialReach.reach {a b : Nat} {s : Pool T} (h : SerialReach a b s) : Reach a b s :=
  ReflTransGen.mono (fun _ _ ⟨t, h, _⟩ => ⟨t, h⟩) _ _ h

/-- All of it holds if the calls do not overlap (`basic_multi_aggregator` calls its pool under its own mutex). -/
theorem C55_serial_partial {a b : Nat} {s : Pool T} (h : SerialReach a b s) :
    s.ub = false ∧ s.items.length ≤ b ∧ ∀ d ∈ s.out, d = [] := by
  suffices h' : s.ub = false ∧ s.items.length ≤ b ∧ s.poolSize = b ∧ (∀ t, s.pc t = .popping → s.items ≠ []) ∧
      (∀ t d, s.pc t = .pushing d → s.items.length < b) from ⟨h'.1, h'.2.1, C55_clean_partial h.reach⟩
  induction h with
  | refl => simp [init]
  | @tail s _ _ hs ih =>
    obtain ⟨h1, h2, h3, h4, h5⟩ := ih
    obtain ⟨t, hs, ho⟩ := hs
    have only : ∀ (p : PoolPc) (u : T), Function.update s.pc t p u = .idle ∨ (u = t ∧ Function.update s.pc t p u = p) := by
      intro p u
      by_cases hu : u = t
      · subst hu; right; exact ⟨rfl, Function.update_self _ _ _⟩
      · left; rw [Function.update_of_ne hu]; exact ho u hu
    cases hs with
    | createTest hu hp =>
      unfold createTest
      split
      · exact ⟨h1, h2, h3, h4, h5⟩
      · rename_i he
        refine ⟨h1, h2, h3, fun u _ => ?_, fun u d e => ?_⟩
        · intro h0
          have h0 : s.items = [] := h0
          simp [empty, h0] at he
        · rcases only .popping u with e' | ⟨-, e'⟩ <;> exact absurd (e'.symm.trans e) (by simp)
    | createPop hu hp =>
      have hne := h4 t hp
      unfold createPop
      split
      · rename_i hn
        rw [List.getLast?_eq_none_iff] at hn
        exact absurd hn hne
      · refine ⟨h1, ?_, h3, fun u e => ?_, fun u d e => ?_⟩
        · simp only [List.length_dropLast]; omega
        · rcases only .idle u with e' | ⟨-, e'⟩ <;> exact absurd (e'.symm.trans e) (by simp)
        · rcases only .idle u with e' | ⟨-, e'⟩ <;> exact absurd (e'.symm.trans e) (by simp)
    | freeTest d hu hp =>
      unfold freeTest
      split
      · exact ⟨h1, h2, h3, h4, h5⟩
      · rename_i hf
        refine ⟨h1, h2, h3, fun u e => ?_, fun u x e => ?_⟩
        · rcases only _ u with e' | ⟨-, e'⟩ <;> exact absurd (e'.symm.trans e) (by simp)
        · simp only [filled, h3, beq_iff_eq] at hf
          show s.items.length < b
          omega
    | freePush d hu hp =>
      have hlt := h5 t d hp
      unfold freePush
      refine ⟨h1, ?_, h3, fun u e => ?_, fun u x e => ?_⟩
      · simp only [List.length_append, List.length_singleton]; omega
      · rcases only .idle u with e' | ⟨-, e'⟩ <;> exact absurd (e'.symm.trans e) (by simp)
      · rcases only .idle u with e' | ⟨-, e'⟩ <;> exact absurd (e'.symm.trans e) (by simp)

/-- With one thread calls do not overlap. -/
theorem C55_single_partial [Subsingleton T] {a b : Nat} {s : Pool T} (h : Reach a b s) :
    s.ub = false ∧ s.items.length ≤ b ∧ ∀ d ∈ s.out, d = [] :=
  C55_serial_partial
    (ReflTransGen.mono (fun _ _ ⟨t, h⟩ => ⟨t, h, fun u hu => absurd (Subsingleton.elim u t) hu⟩) _ _ h)

/-- The default `pool_size = 0`: the pool stays empty and safe under every interleaving. -/
theorem C55_zero_partial {a : Nat} {s : Pool T} (h : Reach a 0 s) : s.ub = false ∧ s.items = [] ∧ ∀ d ∈ s.out, d = [] := by
  suffices h' : s.ub = false ∧ s.items = [] ∧ s.poolSize = 0 ∧ ∀ t, s.pc t = .idle from
    ⟨h'.1, h'.2.1, C55_clean_partial h⟩
  induction h with
  | refl => simp [init]
  | @tail s _ _ hs ih =>
    obtain ⟨h1, h2, h3, h4⟩ := ih
    obtain ⟨t, hs⟩ := hs
    cases hs with
    | createTest hu hp =>
      unfold createTest
      rw [if_pos (by simp [empty, h2])]
      exact ⟨h1, h2, h3, h4⟩
    | createPop hu hp => rw [h4 t] at hp; simp at hp
    | freeTest d hu hp =>
      unfold freeTest
      rw [if_pos (by simp [filled, h2, h3])]
      exact ⟨h1, h2, h3, h4⟩
    | freePush d hu hp => rw [h4 t] at hp; simp at hp

/-- A buffer is freed with contents and comes back empty. -/
example : ∃ s : Pool Unit, Reach 2 1 s ∧ s.out = [[]] ∧ s.items = [] ∧ s.back = [[7]] := by
  let s0 : Pool Unit := init 2 1
  let s1 := s0.freeTest () [4, 5, 6]
  let s2 := s1.freePush () []
  let s3 := s2.freeTest () [7]
  let s4 := s3.createTest ()
  let s5 := s4.createPop ()
  exact ⟨s5, ((((ReflTransGen.refl.tail ⟨(), .freeTest s0 [4, 5, 6] rfl rfl⟩).tail ⟨(), .freePush s1 [] rfl rfl⟩).tail
    ⟨(), .freeTest s2 [7] rfl rfl⟩).tail ⟨(), .createTest s3 rfl rfl⟩).tail ⟨(), .createPop s4 rfl rfl⟩, rfl, rfl, rfl⟩

end Pool
end Wrtstat
