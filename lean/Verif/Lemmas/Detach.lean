import Verif.Lemmas.Average
import Verif.Lemmas.SortMode

namespace Wrtstat

theorem minI_aux (l : List Int) (a : Int) : l.foldl min a ≤ a ∧ (∀ v ∈ l, l.foldl min a ≤ v) ∧
    (l.foldl min a = a ∨ l.foldl min a ∈ l) := by
  induction l generalizing a with
  | nil => simp
  | cons x l ih =>
    obtain ⟨h1, h2, h3⟩ := ih (min a x)
    simp only [List.foldl_cons, List.mem_cons]
    refine ⟨h1.trans (min_le_left _ _), ?_, ?_⟩
    · rintro v (rfl | hv)
      · exact h1.trans (min_le_right _ _)
      · exact h2 v hv
    · rcases h3 with h | h
      · rcases min_choice a x with e | e
        · left; rw [h, e]
        · right; left; rw [h, e]
      · right; right; exact h

theorem maxI_aux (l : List Int) (a : Int) : a ≤ l.foldl max a ∧ (∀ v ∈ l, v ≤ l.foldl max a) ∧
    (l.foldl max a = a ∨ l.foldl max a ∈ l) := by
  induction l generalizing a with
  | nil => simp
  | cons x l ih =>
    obtain ⟨h1, h2, h3⟩ := ih (max a x)
    simp only [List.foldl_cons, List.mem_cons]
    refine ⟨(le_max_left _ _).trans h1, ?_, ?_⟩
    · rintro v (rfl | hv)
      · exact (le_max_right _ _).trans h1
      · exact h2 v hv
    · rcases h3 with h | h
      · rcases max_choice a x with e | e
        · left; rw [h, e]
        · right; left; rw [h, e]
      · right; right; exact h

theorem minI_isMin {l : List Int} (hne : l ≠ []) (h : ∀ v ∈ l, InI64 v) : IsMinOf (minI l) l := by
  obtain ⟨_, h2, h3⟩ := minI_aux l I64max
  refine ⟨?_, h2⟩
  rcases h3 with h3 | h3
  · obtain ⟨v, t, rfl⟩ := List.exists_cons_of_ne_nil hne
    have := h2 v (by simp)
    rw [h3] at this
    have hv := (h v (by simp)).2
    have : v = I64max := le_antisymm hv this
    unfold minI
    rw [h3, ← this]; simp
  · exact h3

theorem maxI_isMax {l : List Int} (hne : l ≠ []) (h : ∀ v ∈ l, InI64 v) : IsMaxOf (maxI l) l := by
  obtain ⟨_, h2, h3⟩ := maxI_aux l I64min
  refine ⟨?_, h2⟩
  rcases h3 with h3 | h3
  · obtain ⟨v, t, rfl⟩ := List.exists_cons_of_ne_nil hne
    have := h2 v (by simp)
    rw [h3] at this
    have hv := (h v (by simp)).1
    have : v = I64min := le_antisymm this hv
    unfold maxI
    rw [h3, ← this]; simp
  · exact h3

namespace Reducer

/-- Representable 64-bit bounds for all values: the condition under which `double` averaging is
safe. -/
structure Bounds (env : Env) (m M : Int) : Prop where
  laws : FPLaws env.rnd
  lo : InI64 m
  hi : InI64 M
  rlo : env.rnd m = m
  rhi : env.rnd M = M

theorem castInt_zero : castInt 0 = .ok 0 := by
  simp [castInt, InI64, I64min, I64max]

theorem average_ok {env : Env} {m M : Int} (B : Bounds env m M) (vs : List Int)
    (hm : ∀ v ∈ vs, m ≤ v ∧ v ≤ M) :
    ∃ a, castInt (avgFold env vs).1 = .ok a ∧ (vs ≠ [] → m ≤ a ∧ a ≤ M) := by
  by_cases hne : vs = []
  · subst hne
    exact ⟨0, castInt_zero, fun h => absurd rfl h⟩
  · obtain ⟨_, h1, h2⟩ := avgFold_range B.laws vs hne m M (fun v h => (hm v h).1) (fun v h => (hm v h).2)
    rw [B.rlo] at h1
    rw [B.rhi] at h2
    obtain ⟨a, e, h3, h4⟩ := castInt_range h1 h2 B.lo B.hi
    exact ⟨a, e, fun _ => ⟨h3, h4⟩⟩

theorem detach_total {env : Env} {opt : ReducerOpts} {r : Reducer} {as : List AddArg} {m M : Int}
    (B : Bounds env m M) (h : GoodA env opt r as) (hv : ∀ v ∈ allValues as, m ≤ v ∧ v ≤ M) :
    ∃ o r', detach env r = .ok (o, r') := by
  rcases detach_spec h with ⟨_, e, _⟩ | ⟨hne, r1, er, g, hl, hlo, hk, ha, ⟨a, hc, e⟩ | ⟨hc, e⟩⟩
  · exact ⟨_, _, e⟩
  · exact ⟨_, _, e⟩
  · obtain ⟨a, ea, _⟩ := average_ok B (allValues as) hv
    rw [h.good.avg, ea] at hc
    cases hc

theorem new_new (opt : ReducerOpts) : (new (new opt).opt).opt = (new opt).opt ∧
    (opt.mode ≠ .adapt ∨ opt.levels = 0 ∨ opt.limit / opt.levels > magic →
      (new (new opt).opt).curMode = (new opt).curMode) := by
  have h : ∀ o : ReducerOpts, o.mode = .adapt → ¬ (o.levels = 0 ∨ o.limit / o.levels > magic) →
      (new o).opt = o := by
    intro o h1 h2; unfold new; rw [if_pos h1, if_neg h2]; split_ifs <;> rfl
  have h' : ∀ o : ReducerOpts, o.mode ≠ .adapt → (new o).opt = o := by
    intro o h1; unfold new; rw [if_neg h1]; split_ifs <;> rfl
  have hs : ∀ o : ReducerOpts, o.mode = .sorting → (new o).curMode = .sorting := by
    intro o h1; unfold new; simp [h1]
  by_cases ha : opt.mode = .adapt
  · by_cases hc : opt.levels = 0 ∨ opt.limit / opt.levels > magic
    · have e : new opt = { opt := { opt with mode := .sorting } } := by
        unfold new; rw [if_pos ha, if_pos hc]
      rw [e]
      refine ⟨h' _ (by simp), fun _ => hs _ rfl⟩
    · rw [h opt ha hc, h opt ha hc]
      refine ⟨rfl, fun _ => rfl⟩
  · rw [h' opt ha, h' opt ha]
    exact ⟨rfl, fun _ => rfl⟩

theorem goodA_clone {env : Env} {opt : ReducerOpts} {r : Reducer} {as : List AddArg}
    (h : GoodA env opt r as) : GoodA env opt r.clone as := by
  have ho : r.clone.opt = r.opt := by
    show (new r.opt).opt = r.opt
    rw [h.opt_eq]; exact (new_new opt).1
  obtain ⟨⟨wf, total, bal, sub, hmin, hmax, avgc, avg, ll, head⟩, emp, ope, cur⟩ := h
  refine ⟨⟨?_, total, bal, sub, hmin, hmax, avgc, avg, ?_, ?_⟩, emp, ho.trans ope, ?_⟩
  · unfold WF; rw [ho]; exact wf
  · rw [ho]; exact ll
  · rw [ho]; exact head
  · intro hm
    show (new r.opt).curMode = _
    rw [ope]; exact (new_new opt).2 hm

theorem lossyCount_congr {r r' : Reducer} (h1 : r.data = r'.data) (h2 : r.opt = r'.opt)
    (h3 : r.lossy = r'.lossy) : r.lossyCount = r'.lossyCount := by
  simp [lossyCount, back, h1, h2, h3]

/-- In fixed modes the clone is the object. -/
theorem clone_eq {env : Env} {opt : ReducerOpts} {r : Reducer} {as : List AddArg}
    (h : GoodA env opt r as)
    (hm : opt.mode ≠ .adapt ∨ opt.levels = 0 ∨ opt.limit / opt.levels > magic) : r.clone = r := by
  have h1 := (goodA_clone h).cur hm
  have h2 := h.cur hm
  have h3 := (goodA_clone h).opt_eq.trans h.opt_eq.symm
  cases r
  simp only [clone] at *
  simp_all

end Reducer
end Wrtstat
