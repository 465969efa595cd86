/-
Invariant of the dictionary of ids along a history.
-/
import Verif.Spec.DictSpec
import Verif.Lemmas.RegistryDict

namespace Wrtstat
namespace Dict

set_option autoImplicit false

/-- `n` ids have been created; `h` says who holds which id. -/
structure Inv (init step n : Nat) (h : Name → Option Nat) (d : Dict) : Prop where
  hstep : d.step = step
  cle : d.counter ≤ init + n * step
  idx : d.index = d.dict.map Prod.swap
  names : (d.dict.map Prod.fst).Nodup
  ids : (d.dict.map Prod.snd).Nodup
  free : d.free.Nodup
  disj : ∀ id ∈ d.free, id ∉ d.dict.map Prod.snd
  form : ∀ id, id ∈ d.free ∨ id ∈ d.dict.map Prod.snd → id ≤ d.counter
  held : ∀ m, d.dict.lookup m = h m

variable {init step n : Nat} {h : Name → Option Nat} {d : Dict}

theorem inv_new (init step : Nat) : Inv init step 0 (fun _ => none) { counter := init, step := step } :=
  ⟨rfl, by simp, rfl, by simp, by simp, by simp, by simp, by simp, fun _ => rfl⟩

theorem Inv.mono (hi : Inv init step n h d) {m : Nat} (hm : n ≤ m) : Inv init step m h d :=
  { hi with cle := hi.cle.trans (Nat.add_le_add_left (Nat.mul_le_mul_right _ hm) _) }

theorem Inv.mem (hi : Inv init step n h d) {m : Name} {i : Nat} : (m, i) ∈ d.dict ↔ h m = some i := by
  rw [← hi.held]
  exact ⟨lookup_of_mem hi.names, mem_of_lookup⟩

theorem Inv.index (hi : Inv init step n h d) {m : Name} {i : Nat} : d.index.lookup i = some m ↔ h m = some i := by
  rw [← hi.mem, hi.idx]
  have hn : ((d.dict.map Prod.swap).map Prod.fst).Nodup := by
    rw [List.map_map]; exact hi.ids
  constructor
  · intro hl
    obtain ⟨⟨a, b⟩, hm, he⟩ := List.mem_map.1 (mem_of_lookup hl)
    simp only [Prod.swap_prod_mk, Prod.mk.injEq] at he
    rw [← he.1, ← he.2]; exact hm
  · intro hm
    exact lookup_of_mem hn (List.mem_map.2 ⟨_, hm, rfl⟩)

theorem Inv.inj (hi : Inv init step n h d) {m m' : Name} {i : Nat} (h1 : h m = some i) (h2 : h m' = some i) : m = m' := by
  have e1 := hi.index.2 h1
  rw [hi.index.2 h2] at e1
  exact (Option.some.inj e1).symm

theorem Inv.snd (hi : Inv init step n h d) {i : Nat} : i ∈ d.dict.map Prod.snd ↔ ∃ m, h m = some i := by
  rw [List.mem_map]
  constructor
  · rintro ⟨⟨m, j⟩, hm, rfl⟩
    exact ⟨m, hi.mem.1 hm⟩
  · rintro ⟨m, hm⟩
    exact ⟨(m, i), hi.mem.2 hm, rfl⟩

theorem Inv.le (hi : Inv init step n h d) {m : Name} {i : Nat} (hm : h m = some i) : i ≤ init + n * step :=
  (hi.form i (.inr (hi.snd.2 ⟨m, hm⟩))).trans hi.cle

theorem Inv.create (hi : Inv init step n h d) (h0 : 0 < step) (hr : init + (n + 1) * step < badId) (pick : Nat) (name : Name) :
    Inv init step (n + 1) (fun m => if m = name then some (d.createId pick name).1 else h m) (d.createId pick name).2 ∧
    (∀ i, h name = some i → (d.createId pick name).1 = i) ∧
    (h name = none → ∀ m, h m ≠ some (d.createId pick name).1) ∧ (d.createId pick name).1 ≤ init + (n + 1) * step := by
  have hc1 : init + (n + 1) * step = init + n * step + step := by rw [Nat.add_mul]; omega
  have hcle := hi.cle
  cases hl : d.dict.lookup name with
  | some i =>
    have e : d.createId pick name = (i, d) := by simp [createId, hl]
    rw [e]
    have hh : h name = some i := by rw [← hi.held]; exact hl
    refine ⟨?_, fun j hj => ?_, fun hn => ?_, ?_⟩
    · have : (fun m => if m = name then some i else h m) = h := by
        funext m
        split_ifs with e
        · rw [e, hh]
        · rfl
      simp only
      rw [this]
      exact hi.mono (by omega)
    · rw [hh] at hj
      exact Option.some.inj hj
    · rw [hh] at hn; cases hn
    · have := hi.le hh
      simp only
      omega
  | none =>
    have hn : h name = none := by rw [← hi.held]; exact hl
    have hfst : name ∉ d.dict.map Prod.fst := lookup_none.1 hl
    have key : ∀ (i c : Nat) (fr : List Nat), i ∉ d.dict.map Prod.snd → i ∉ fr → fr.Nodup → (∀ j ∈ fr, j ∈ d.free) → i ≤ c → d.counter ≤ c →
        c ≤ init + (n + 1) * step →
        Inv init step (n + 1) (fun m => if m = name then some i else h m)
          { d with counter := c, free := fr, dict := (name, i) :: d.dict, index := d.link i name } := by
      intro i c fr h1 h2 h3 h4 h5 h6 h7
      refine ⟨hi.hstep, h7, ?_, ?_, ?_, h3, ?_, ?_, ?_⟩
      · show d.link i name = _
        rw [link_new hi.idx h1, hi.idx]
        rfl
      · exact List.nodup_cons.2 ⟨hfst, hi.names⟩
      · exact List.nodup_cons.2 ⟨h1, hi.ids⟩
      · intro j hj hm
        rw [List.map_cons, List.mem_cons] at hm
        rcases hm with rfl | hm
        · exact h2 hj
        · exact hi.disj j (h4 j hj) hm
      · intro j hj
        show j ≤ c
        rw [List.map_cons, List.mem_cons] at hj
        rcases hj with hj | rfl | hj
        · exact (hi.form j (.inl (h4 j hj))).trans h6
        · exact h5
        · exact (hi.form j (.inr hj)).trans h6
      · intro m
        show ((name, i) :: d.dict).lookup m = _
        rw [List.lookup_cons]
        by_cases e : m = name
        · subst e; simp
        · rw [show (m == name) = false from by simpa using e, if_neg e]
          exact hi.held m
    cases hf : d.free[pick % d.free.length]? with
    | some i =>
      have hm : i ∈ d.free := List.mem_of_getElem? hf
      have e : d.createId pick name = (i, { d with free := d.free.erase i, dict := (name, i) :: d.dict, index := d.link i name }) := by
        simp [createId, hl, hf]
      rw [e]
      have hle := hi.form i (.inl hm)
      refine ⟨key i d.counter _ (hi.disj i hm) (List.Nodup.not_mem_erase hi.free) (hi.free.erase i) (fun j hj => List.mem_of_mem_erase hj) hle
        le_rfl (by omega), fun j hj => (by rw [hn] at hj; cases hj), fun _ m hmm => hi.disj i hm (hi.snd.2 ⟨m, hmm⟩), ?_⟩
      simp only
      omega
    | none =>
      have hmod : (d.counter + d.step) % idMod = d.counter + step := by
        rw [hi.hstep]
        apply Nat.mod_eq_of_lt
        unfold badId at hr
        unfold idMod
        omega
      have e : d.createId pick name = (d.counter + step, { d with counter := d.counter + step, dict := (name, d.counter + step) :: d.dict, index := d.link (d.counter + step) name }) := by
        simp [createId, hl, hf, hmod]
      rw [e]
      have h1 : d.counter + step ∉ d.dict.map Prod.snd := fun hm => by
        have := hi.form _ (.inr hm)
        omega
      have h2 : d.counter + step ∉ d.free := fun hm => by
        have := hi.form _ (.inl hm)
        omega
      refine ⟨key _ _ d.free h1 h2 hi.free (fun _ hj => hj) le_rfl (by omega) (by omega), fun j hj => (by rw [hn] at hj; cases hj),
        fun _ m hmm => h1 (hi.snd.2 ⟨m, hmm⟩), ?_⟩
      simp only
      omega

theorem Inv.freeId (hi : Inv init step n h d) (i : Nat) :
    Inv init step n (fun m => if h m = some i then none else h m) (d.freeId i).2 := by
  cases hx : d.index.lookup i with
  | none =>
    have e : d.freeId i = (false, d) := by simp [Dict.freeId, hx]
    rw [e]
    have : (fun m => if h m = some i then none else h m) = h := by
      funext m
      rw [if_neg fun hm => ?_]
      rw [hi.index.2 hm] at hx
      cases hx
    rw [this]
    exact hi
  | some nm =>
    have hm := hi.index.1 hx
    have e : d.freeId i = (false, { d with free := d.free.insert i, dict := d.dict.filter (fun p => p.1 ≠ nm), index := d.index.filter (fun p => p.1 ≠ i) }) := by
      simp [Dict.freeId, hx]
    rw [e]
    have hsub : ∀ {x}, x ∈ (d.dict.filter (fun p => p.1 ≠ nm)).map Prod.snd → x ∈ d.dict.map Prod.snd ∧ x ≠ i := by
      intro x hx
      obtain ⟨⟨a, b⟩, h1, h2⟩ := List.mem_map.1 hx
      rw [List.mem_filter] at h1
      refine ⟨List.mem_map.2 ⟨_, h1.1, h2⟩, ?_⟩
      rintro rfl
      have := hi.inj (hi.mem.1 h1.1) (h2 ▸ hm)
      simp [this] at h1
    refine ⟨hi.hstep, hi.cle, ?_, hi.names.sublist (List.filter_sublist.map _), hi.ids.sublist (List.filter_sublist.map _), hi.free.insert, ?_, ?_, ?_⟩
    · show d.index.filter _ = _
      rw [hi.idx, List.filter_map]
      congr 1
      apply List.filter_congr
      rintro ⟨a, b⟩ hab
      have hab := hi.mem.1 hab
      simp only [Function.comp, Prod.fst_swap]
      by_cases eb : b = i
      · subst eb
        simp [hi.inj hab hm]
      · have : a ≠ nm := by
          rintro rfl
          rw [hm] at hab
          exact eb (Option.some.inj hab).symm
        simp [eb, this]
    · intro j hj hm'
      rcases List.mem_insert_iff.1 hj with rfl | hj
      · exact (hsub hm').2 rfl
      · exact hi.disj j hj (hsub hm').1
    · intro j hj
      rcases hj with hj | hj
      · rcases List.mem_insert_iff.1 hj with rfl | hj
        · exact hi.form j (.inr (hi.snd.2 ⟨nm, hm⟩))
        · exact hi.form j (.inl hj)
      · exact hi.form j (.inr (hsub hj).1)
    · intro m
      show (d.dict.filter (fun p => p.1 ≠ nm)).lookup m = _
      by_cases em : m = nm
      · subst em
        rw [if_pos hm, lookup_none]
        intro hx
        obtain ⟨p, hp, e⟩ := List.mem_map.1 hx
        rw [List.mem_filter] at hp
        simp [e] at hp
      · rw [if_neg fun e => em (hi.inj e hm)]
        cases hh : h m with
        | none =>
          rw [lookup_none]
          intro hx
          obtain ⟨⟨a, b⟩, hp, e⟩ := List.mem_map.1 hx
          have := hi.mem.1 (List.mem_filter.1 hp).1
          simp only at e
          rw [e, hh] at this
          cases this
        | some j =>
          refine lookup_of_mem (hi.names.sublist (List.filter_sublist.map _)) (List.mem_filter.2 ⟨hi.mem.2 hh, ?_⟩)
          simpa using em

theorem Inv.clear (hi : Inv init step n h d) : Inv init step n (fun _ => none) d.clear :=
  ⟨hi.hstep, by simp [Dict.clear], rfl, by simp [Dict.clear], by simp [Dict.clear], by simp [Dict.clear], by simp [Dict.clear],
    by simp [Dict.clear], fun _ => rfl⟩

theorem Inv.getId (hi : Inv init step n h d) (m : Name) : d.getId m = (h m).getD badId := by
  rw [Dict.getId, hi.held]

theorem Inv.freeName (hi : Inv init step n h d) (hr : init + n * step < badId) (name : Name) :
    Inv init step n (fun m => if m = name then none else h m) (d.freeName name).2 := by
  rw [Dict.freeName, hi.getId]
  cases hh : h name with
  | none =>
    simp only [Option.getD_none, if_true]
    have : (fun m => if m = name then none else h m) = h := by
      funext m
      split_ifs with e
      · rw [e, hh]
      · rfl
    rw [this]
    exact hi
  | some i =>
    have := hi.le hh
    simp only [Option.getD_some]
    rw [if_neg (by omega)]
    have e : (fun m => if m = name then none else h m) = fun m => if h m = some i then none else h m := by
      funext m
      by_cases e : m = name
      · rw [if_pos e, e, if_pos hh]
      · rw [if_neg e, if_neg fun e' => e (hi.inj e' hh)]
    rw [e]
    exact hi.freeId i

end Dict
end Wrtstat
