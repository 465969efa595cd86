import Verif.Lemmas.ReducerInv
import Verif.Spec.Float
import Mathlib.Tactic.FieldSimp

namespace Wrtstat
namespace Reducer

/-! ### Exact arithmetic -/

theorem avgFold_exact {env : Env} (he : env.rnd = fun x => x) (vs : List Int) :
    (avgFold env vs).1 * vs.length = vs.sum := by
  induction vs using List.reverseRecOn with
  | nil => simp [avgFold]
  | append_singleton l v ih =>
    rw [avgFold_concat]
    simp only [avgStep, he, List.length_append, List.length_singleton, List.sum_append, List.sum_cons,
      List.sum_nil]
    have : ((l.length : Rat) + 1) ≠ 0 := by positivity
    push_cast
    field_simp
    rw [← ih]
    ring

/-- Truncation toward zero of a quotient is the C++ integer division. -/
theorem castInt_trunc (s : Int) (n : Nat) (hn : 0 < n) :
    (if (0 : Rat) ≤ (s : Rat) / n then ⌊(s : Rat) / n⌋ else ⌈(s : Rat) / n⌉) = s.tdiv n := by
  have hnq : (0 : Rat) < n := by exact_mod_cast hn
  split_ifs with hq
  · have hs : 0 ≤ s := by
      have := (div_nonneg_iff.1 hq)
      rcases this with h | h
      · exact_mod_cast h.1
      · exact absurd h.2 (not_le.2 hnq)
    rw [Rat.floor_intCast_div_natCast, Int.tdiv_eq_ediv_of_nonneg hs]
  · have hs : s ≤ 0 := by
      by_contra hc
      exact hq (div_nonneg (by exact_mod_cast (not_le.1 hc).le) hnq.le)
    obtain ⟨t, rfl⟩ : ∃ t, s = -t := ⟨-s, by ring⟩
    have : ((-t : Int) : Rat) / n = -((t : Rat) / n) := by push_cast; ring
    rw [this, Int.ceil_neg, Rat.floor_intCast_div_natCast, Int.neg_tdiv,
      Int.tdiv_eq_ediv_of_nonneg (by omega)]

theorem castInt_div (s : Int) (n : Nat) (hn : 0 < n) (h : InI64 (s.tdiv n)) :
    castInt ((s : Rat) / n) = .ok (s.tdiv n) := by
  unfold castInt
  simp only [castInt_trunc s n hn, h, if_true]

/-! ### Rounded arithmetic -/

theorem rnd_zero {rnd : Rat → Rat} (L : FPLaws rnd) : rnd 0 = 0 := by
  have := L.ints 0 (by norm_num); simpa using this

theorem rnd_nonneg {rnd : Rat → Rat} (L : FPLaws rnd) {x : Rat} (h : 0 ≤ x) : 0 ≤ rnd x := by
  have := L.mono 0 x h; rwa [rnd_zero L] at this

/-- One rounded averaging step moves toward the new value without passing it. -/
theorem avgStep_up {env : Env} (L : FPLaws env.rnd) {a u : Rat} (ha : env.rnd a = a)
    (hu : env.rnd u = u) (hau : a ≤ u) (k : Rat) (hk : 2 ≤ k) :
    a ≤ env.rnd (a + env.rnd (env.rnd (u - a) / k)) ∧
      env.rnd (a + env.rnd (env.rnd (u - a) / k)) ≤ u := by
  set d := env.rnd (u - a) with hd
  have hd0 : 0 ≤ d := rnd_nonneg L (by linarith)
  have hk0 : 0 < k := by linarith
  have hq0 : 0 ≤ env.rnd (d / k) := rnd_nonneg L (div_nonneg hd0 hk0.le)
  have hq1 : env.rnd (d / k) ≤ u - a := by
    have h1 : d / k ≤ d / 2 := div_le_div_of_nonneg_left hd0 (by norm_num) hk
    exact (L.mono _ _ h1).trans (L.half _ (by linarith))
  constructor
  · have := L.mono a (a + env.rnd (d / k)) (by linarith)
    rwa [ha] at this
  · have := L.mono (a + env.rnd (d / k)) u (by linarith)
    rwa [hu] at this

theorem avgStep_down {env : Env} (L : FPLaws env.rnd) {a u : Rat} (ha : env.rnd a = a)
    (hu : env.rnd u = u) (hau : u ≤ a) (k : Rat) (hk : 2 ≤ k) :
    u ≤ env.rnd (a + env.rnd (env.rnd (u - a) / k)) ∧
      env.rnd (a + env.rnd (env.rnd (u - a) / k)) ≤ a := by
  have h := avgStep_up L (a := -a) (u := -u) (by rw [L.neg, ha]) (by rw [L.neg, hu])
    (by linarith) k hk
  have e : env.rnd (-a + env.rnd (env.rnd (-u - -a) / k)) =
      -env.rnd (a + env.rnd (env.rnd (u - a) / k)) := by
    have h1 : -u - -a = -(u - a) := by ring
    have h2 : -env.rnd (u - a) / k = -(env.rnd (u - a) / k) := by ring
    have h3 : ∀ y, -a + -y = -(a + y) := by intro y; ring
    rw [h1, L.neg, h2, L.neg, h3, L.neg]
  rw [e] at h
  constructor <;> linarith [h.1, h.2]

/-- With round-to-nearest the running average stays between the rounded extremes. -/
theorem avgFold_range {env : Env} (L : FPLaws env.rnd) (vs : List Int) (hne : vs ≠ []) (m M : Int)
    (hm : ∀ v ∈ vs, m ≤ v) (hM : ∀ v ∈ vs, v ≤ M) :
    env.rnd (avgFold env vs).1 = (avgFold env vs).1 ∧ env.rnd m ≤ (avgFold env vs).1 ∧
      (avgFold env vs).1 ≤ env.rnd M := by
  induction vs using List.reverseRecOn with
  | nil => exact absurd rfl hne
  | append_singleton l v ih =>
    rw [avgFold_concat]
    simp only [avgStep]
    have hv1 : env.rnd m ≤ env.rnd v := L.mono _ _ (by exact_mod_cast hm v (by simp))
    have hv2 : env.rnd v ≤ env.rnd M := L.mono _ _ (by exact_mod_cast hM v (by simp))
    refine ⟨L.idem _, ?_⟩
    by_cases hl : l = []
    · subst hl
      have h1 : env.rnd ((([] : List Int).length : Rat) + 1) = 1 := by
        have := L.ints 1 (by norm_num); simpa using this
      rw [h1]
      have h0 : (avgFold env []).1 = 0 := rfl
      rw [h0]
      simp only [sub_zero, div_one, zero_add, L.idem]
      exact ⟨hv1, hv2⟩
    · obtain ⟨i1, i2, i3⟩ := ih hl (fun v hv => hm v (by simp [hv])) (fun v hv => hM v (by simp [hv]))
      have hk : 2 ≤ env.rnd ((l.length : Rat) + 1) := by
        have h2 : env.rnd 2 = 2 := by have := L.ints 2 (by norm_num); simpa using this
        have hlen : 1 ≤ l.length := by
          cases l with
          | nil => exact absurd rfl hl
          | cons a b => simp
        have : (1 : Rat) ≤ l.length := by exact_mod_cast hlen
        have := L.mono 2 ((l.length : Rat) + 1) (by linarith)
        rwa [h2] at this
      rcases le_total (avgFold env l).1 (env.rnd v) with hle | hle
      · have := avgStep_up L i1 (L.idem v) hle _ hk
        exact ⟨i2.trans this.1, this.2.trans hv2⟩
      · have := avgStep_down L i1 (L.idem v) hle _ hk
        exact ⟨hv1.trans this.1, this.2.trans i3⟩

/-- Conversion of a number lying between two 64-bit integers succeeds and stays between them. -/
theorem castInt_range {q : Rat} {m M : Int} (h1 : (m : Rat) ≤ q) (h2 : q ≤ M) (hm : InI64 m)
    (hM : InI64 M) : ∃ a, castInt q = .ok a ∧ m ≤ a ∧ a ≤ M := by
  set t : Int := if 0 ≤ q then ⌊q⌋ else ⌈q⌉ with ht
  have hmt : m ≤ t := by
    rw [ht]; split_ifs
    · exact Int.le_floor.2 h1
    · have := h1.trans (Int.le_ceil q); exact_mod_cast this
  have htM : t ≤ M := by
    rw [ht]; split_ifs
    · have := (Int.floor_le q).trans h2; exact_mod_cast this
    · exact Int.ceil_le.2 h2
  have : InI64 t := ⟨hm.1.trans hmt, htM.trans hM.2⟩
  refine ⟨t, ?_, hmt, htM⟩
  unfold castInt
  simp only [← ht, this, if_true]

end Reducer
end Wrtstat
