/-
How many ids and positions a registry uses.
-/
import Verif.Lemmas.RegistryMore

namespace Wrtstat
namespace Registry

set_option autoImplicit false

variable {env : Env} {opt : RegistryOpts} {n : Nat} {r r' : Registry}

/-- The number of aggregators that exist. -/
def living (r : Registry) : Nat := r.agarr.countP Option.isSome

/-- Nothing that counts has changed. -/
def SameSize (r r' : Registry) : Prop := r'.dict = r.dict ∧ r'.agarr.length = r.agarr.length

theorem SameSize.rfl' (r : Registry) : SameSize r r := ⟨rfl, rfl⟩

theorem sameSize_update (r : Registry) (k : Nat) (a : Aggregator) : SameSize r (r.update k a) :=
  ⟨rfl, by simp [update]⟩

theorem popLoop_size {force : Bool} {clk : Nat → Int} (is : List Nat) :
    ∀ {r : Registry} {l l' : List (Name × AggData)}, is.foldlM (popStep env force clk) (r, l) = .ok (r', l') → SameSize r r' := by
  induction is with
  | nil => intro r l l' h; cases h; exact .rfl' _
  | cons i is ih =>
    intro r l l' h
    simp only [List.foldlM_cons] at h
    obtain ⟨⟨r1, l1⟩, h1, h2⟩ := bind_inv h
    have h2' := ih h2
    unfold popStep at h1
    simp only at h1
    obtain ⟨id, _, h3⟩ := bind_inv h1
    obtain ⟨o, _, h4⟩ := bind_inv h3
    cases o with
    | none => cases h4; exact h2'
    | some c =>
      obtain ⟨⟨b, out, a⟩, _, h5⟩ := bind_inv h4
      obtain ⟨⟨d, a2⟩, _, h6⟩ := bind_inv h5
      cases h6
      exact ⟨h2'.1, h2'.2.trans (by simp [update])⟩

/-- An operation changes nothing that counts, creates, or removes. -/
theorem step_size {op : RegOp} {resp : Resp} (h : r.step env op = .ok (resp, r')) :
    SameSize r r' ∨ (∃ q name now id r1, r.createAggregator env q name now = .ok (id, r1) ∧ SameSize r1 r') ∨
      ∃ name b, r.del name = .ok (b, r') := by
  cases op with
  | enable v => cases h; exact .inl ⟨rfl, by simp [enable]⟩
  | create q name now =>
    obtain ⟨⟨id, r1⟩, h1, h2⟩ := bind_inv h
    cases h2; exact .inr (.inl ⟨q, name, now, id, _, h1, .rfl' _⟩)
  | addId id c1 c2 now v count =>
    obtain ⟨⟨b, r1⟩, h1, h2⟩ := bind_inv h
    cases h2
    obtain ⟨o, h3, h4⟩ := bind_inv h1
    cases o with
    | none => cases h4; exact .inl (.rfl' _)
    | some c =>
      obtain ⟨⟨ok, a⟩, h5, h6⟩ := bind_inv h4
      cases h6; exact .inl (sameSize_update _ _ _)
  | addData q name c1 c2 rd =>
    obtain ⟨⟨b, r1⟩, h1, h2⟩ := bind_inv h
    cases h2
    obtain ⟨⟨id, r2⟩, h3, h4⟩ := bind_inv h1
    obtain ⟨o, h5, h6⟩ := bind_inv h4
    cases o with
    | none => cases h6; exact .inr (.inl ⟨q, name, rd.ts, id, _, h3, .rfl' _⟩)
    | some c =>
      obtain ⟨⟨ok, a⟩, h7, h8⟩ := bind_inv h6
      cases h8; exact .inr (.inl ⟨q, name, rd.ts, id, _, h3, sameSize_update _ _ _⟩)
  | pop id =>
    obtain ⟨⟨b, r1⟩, h1, h2⟩ := bind_inv h
    cases h2
    obtain ⟨o, h3, h4⟩ := bind_inv h1
    cases o with
    | none => cases h4; exact .inl (.rfl' _)
    | some c => cases h4; exact .inl (sameSize_update _ _ _)
  | forcePop id =>
    obtain ⟨⟨b, r1⟩, h1, h2⟩ := bind_inv h
    cases h2
    obtain ⟨o, h3, h4⟩ := bind_inv h1
    cases o with
    | none => cases h4; exact .inl (.rfl' _)
    | some c =>
      obtain ⟨⟨ok, a⟩, h5, h6⟩ := bind_inv h4
      cases h6; exact .inl (sameSize_update _ _ _)
  | popAll force clk =>
    obtain ⟨⟨l, r1⟩, h1, h2⟩ := bind_inv h
    cases h2
    obtain ⟨⟨r2, l2⟩, h3, h4⟩ := bind_inv h1
    cases h4
    exact .inl (popLoop_size _ h3)
  | getName id => cases h; exact .inl (.rfl' _)
  | setInit v => cases h; exact .inl ⟨rfl, rfl⟩
  | pusherId id hd =>
    obtain ⟨p, h1, h2⟩ := bind_inv h
    cases h2; exact .inl (.rfl' _)
  | pusherName q name now hd =>
    obtain ⟨⟨p, r1⟩, h1, h2⟩ := bind_inv h
    cases h2
    obtain ⟨⟨id, r2⟩, h3, h4⟩ := bind_inv h1
    obtain ⟨p, h5, h6⟩ := bind_inv h4
    cases h6
    exact .inr (.inl ⟨q, name, now, id, _, h3, .rfl' _⟩)
  | call p c1 c2 ts x =>
    obtain ⟨⟨l, r1⟩, h1, h2⟩ := bind_inv h
    cases h2
    unfold call at h1
    split at h1
    · cases h1; exact .inl (.rfl' _)
    · obtain ⟨⟨out, a⟩, _, h6⟩ := bind_inv h1
      cases h6; exact .inl (sameSize_update _ _ _)
  | del name =>
    obtain ⟨⟨b, r1⟩, h1, h2⟩ := bind_inv h
    cases h2
    exact .inr (.inr ⟨name, b, h1⟩)
  | direct id op =>
    obtain ⟨o, h3, h4⟩ := bind_inv h
    cases o with
    | none => cases h4; exact .inl (.rfl' _)
    | some c =>
      obtain ⟨ob, h5, h6⟩ := bind_inv h4
      cases h6; exact .inl (sameSize_update _ _ _)

/-- `k` ids have been given out, and the positions reach as far as the last of them. -/
structure Used (opt : RegistryOpts) (k : Nat) (r : Registry) : Prop where
  counter : r.dict.counter = opt.idInit + k * opt.idStep
  count : r.dict.free.length + r.dict.dict.length = k
  len : r.agarr.length = if k = 0 then 0 else posOf opt.idStep (opt.idInit % opt.idStep) r.dict.counter + 1

theorem used_new (opt : RegistryOpts) : Used opt 0 (Registry.new opt) := ⟨by simp [new], rfl, rfl⟩

theorem Used.same {k : Nat} (h : Used opt k r) (hs : SameSize r r') : Used opt k r' := by
  obtain ⟨h1, h2⟩ := hs
  exact ⟨by rw [h1]; exact h.counter, by rw [h1]; exact h.count, by rw [h1, h2]; exact h.len⟩

theorem Used.create {k : Nat} (h : Used opt k r) (hi : RInv opt n r) (hr : Room opt n) {q : Ask} {name : Name} {now : Int} {id : Nat}
    (hc : r.createAggregator env q name now = .ok (id, r')) :
    Used opt k r' ∨ (Used opt (k + 1) r' ∧ r'.dict.dict.length = k + 1) := by
  have hb := hi.bound hr
  have hs0 := hr.1
  unfold createAggregator at hc
  split_ifs at hc with h0
  · cases hc; exact .inl h
  simp only at hc
  cases hl : r.dict.dict.lookup name with
  | some i =>
    have e : r.dict.createId q.pick name = (i, r.dict) := by simp [Dict.createId, hl]
    rw [e] at hc
    simp only at hc
    obtain ⟨p, hp, hc⟩ := bind_inv hc
    have hm := mem_of_lookup hl
    obtain ⟨f1, f2⟩ := hi.id_form hm
    have hp' : r.dict.id2pos i = .ok (posOf opt.idStep (opt.idInit % opt.idStep) i) :=
      id2pos_ok hi.step hs0 f1 (by unfold idMod at *; omega)
    rw [hp'] at hp
    cases hp
    obtain ⟨c, hcell⟩ := hi.live _ _ hm
    rw [hcell] at hc
    cases hc
    exact .inl h
  | none =>
    cases hf : r.dict.free[q.pick % r.dict.free.length]? with
    | some i =>
      have hmem : i ∈ r.dict.free := List.mem_of_getElem? hf
      have e : r.dict.createId q.pick name = (i, { r.dict with free := r.dict.free.erase i, dict := (name, i) :: r.dict.dict, index := (i, name) :: r.dict.index }) := by
        simp [Dict.createId, hl, hf, Dict.link_new hi.idx (hi.disj i hmem)]
      rw [e] at hc
      simp only at hc
      obtain ⟨p, hp, hc⟩ := bind_inv hc
      obtain ⟨f1, f2⟩ := hi.form i (.inl hmem)
      have hp' : Dict.id2pos { r.dict with free := r.dict.free.erase i, dict := (name, i) :: r.dict.dict, index := (i, name) :: r.dict.index } i =
          .ok (posOf opt.idStep (opt.idInit % opt.idStep) i) :=
        id2pos_ok hi.step hs0 f1 (by unfold idMod at *; omega)
      rw [hp'] at hp
      cases hp
      have hk : k ≠ 0 := by
        have := h.count
        have : 0 < r.dict.free.length := List.length_pos_of_mem hmem
        omega
      have hlen := h.len
      rw [if_neg hk] at hlen
      have hle : posOf opt.idStep (opt.idInit % opt.idStep) i ≤ posOf opt.idStep (opt.idInit % opt.idStep) r.dict.counter := by
        unfold posOf
        have := Nat.div_le_div_right (c := opt.idStep) f2
        omega
      have hcnt : (r.dict.free.erase i).length + ((name, i) :: r.dict.dict).length = k := by
        rw [List.length_erase_of_mem hmem]
        have := h.count
        have : 0 < r.dict.free.length := List.length_pos_of_mem hmem
        simp only [List.length_cons]
        omega
      split at hc
      · cases hc
        exact .inl ⟨h.counter, hcnt, by rw [if_neg hk]; exact hlen⟩
      · obtain ⟨a, _, hc⟩ := bind_inv hc
        cases hc
        refine .inl ⟨h.counter, hcnt, ?_⟩
        rw [if_neg hk]
        show (List.set _ _ _).length = posOf opt.idStep (opt.idInit % opt.idStep) r.dict.counter + 1
        rw [List.length_set, List.length_append, List.length_replicate]
        omega
    | none =>
      have hfree : r.dict.free = [] := by
        cases hf' : r.dict.free with
        | nil => rfl
        | cons x l =>
          rw [hf', List.getElem?_eq_none_iff] at hf
          have := Nat.mod_lt q.pick (y := (x :: l).length) (by simp)
          omega
      have hmod : (r.dict.counter + r.dict.step) % idMod = r.dict.counter + opt.idStep := by
        rw [hi.step]; exact Nat.mod_eq_of_lt (by omega)
      have e : r.dict.createId q.pick name = (r.dict.counter + opt.idStep, { r.dict with counter := r.dict.counter + opt.idStep, dict := (name, r.dict.counter + opt.idStep) :: r.dict.dict, index := (r.dict.counter + opt.idStep, name) :: r.dict.index }) := by
        have hnew : r.dict.counter + opt.idStep ∉ r.dict.dict.map Prod.snd := fun hm => by
          have := (hi.form _ (.inr hm)).2
          omega
        simp [Dict.createId, hl, hf, hmod, Dict.link_new hi.idx hnew]
      rw [e] at hc
      simp only at hc
      obtain ⟨p, hp, hc⟩ := bind_inv hc
      have hres : (r.dict.counter + opt.idStep) % opt.idStep = opt.idInit % opt.idStep := by
        rw [Nat.add_mod_right]; exact hi.res
      have hp' : Dict.id2pos { r.dict with counter := r.dict.counter + opt.idStep, dict := (name, r.dict.counter + opt.idStep) :: r.dict.dict, index := (r.dict.counter + opt.idStep, name) :: r.dict.index }
            (r.dict.counter + opt.idStep) = .ok (posOf opt.idStep (opt.idInit % opt.idStep) (r.dict.counter + opt.idStep)) :=
        id2pos_ok hi.step hs0 hres (by omega)
      rw [hp'] at hp
      cases hp
      have hctr : r.dict.counter + opt.idStep = opt.idInit + (k + 1) * opt.idStep := by
        rw [h.counter]; ring
      have hcnt : r.dict.dict.length = k := by have := h.count; rw [hfree] at this; simpa using this
      have hle : r.agarr.length ≤ posOf opt.idStep (opt.idInit % opt.idStep) (r.dict.counter + opt.idStep) := by
        have h1 : posOf opt.idStep (opt.idInit % opt.idStep) (r.dict.counter + opt.idStep) =
            posOf opt.idStep (opt.idInit % opt.idStep) r.dict.counter + 1 := by
          unfold posOf
          rw [Nat.add_div_right _ hs0]
          omega
        have := hi.len
        omega
      split at hc
      · rename_i c hcell
        rw [List.getElem?_eq_none hle] at hcell
        cases hcell
      · obtain ⟨a, _, hc⟩ := bind_inv hc
        cases hc
        refine .inr ⟨⟨hctr, by simp [hfree, hcnt], ?_⟩, by simp [hcnt]⟩
        rw [if_neg (by omega)]
        show (List.set _ _ _).length = posOf opt.idStep (opt.idInit % opt.idStep) (r.dict.counter + opt.idStep) + 1
        rw [List.length_set, List.length_append, List.length_replicate]
        omega

theorem filter_ne_length {α : Type} {l : List (Name × α)} {x : Name} (hn : (l.map Prod.fst).Nodup) (hm : x ∈ l.map Prod.fst) :
    (l.filter fun p => p.1 ≠ x).length + 1 = l.length := by
  induction l with
  | nil => simp at hm
  | cons p l ih =>
    simp only [List.map_cons, List.nodup_cons] at hn
    by_cases he : p.1 = x
    · have : l.filter (fun p => p.1 ≠ x) = l := by
        rw [List.filter_eq_self]
        intro q hq
        simp only [ne_eq, decide_eq_true_eq]
        intro hx
        exact hn.1 (by rw [he, ← hx]; exact List.mem_map.2 ⟨q, hq, rfl⟩)
      rw [List.filter_cons_of_neg (by simpa using he), this]
      rfl
    · rw [List.filter_cons_of_pos (by simpa using he), List.length_cons, List.length_cons, ih hn.2]
      simp only [List.map_cons, List.mem_cons] at hm
      exact hm.resolve_left (Ne.symm he)

theorem Used.del {k : Nat} (h : Used opt k r) (hi : RInv opt n r) {name : Name} {b : Bool}
    (hd : r.del name = .ok (b, r')) : Used opt k r' := by
  unfold Registry.del at hd
  simp only at hd
  split_ifs at hd with h0
  · cases hd; exact h
  obtain ⟨p, hp, hd⟩ := bind_inv hd
  split_ifs at hd with hlt
  cases hl : r.dict.dict.lookup name with
  | none => exact absurd (by simp [Dict.getId, hl]) h0
  | some id =>
    have hid : r.dict.getId name = id := by simp [Dict.getId, hl]
    rw [hid] at hd
    have hm := mem_of_lookup hl
    have hx := hi.index_lookup.2 hm
    have e : r.dict.freeId id = (false, { r.dict with free := r.dict.free.insert id, dict := r.dict.dict.filter (fun p => p.1 ≠ name), index := r.dict.index.filter (fun p => p.1 ≠ id) }) := by
      simp [Dict.freeId, hx]
    rw [e] at hd
    cases hd
    have hnf : id ∉ r.dict.free := fun hc => hi.disj id hc (List.mem_map.2 ⟨_, hm, rfl⟩)
    refine ⟨h.counter, ?_, ?_⟩
    · show (r.dict.free.insert id).length + (r.dict.dict.filter fun p => p.1 ≠ name).length = k
      rw [List.length_insert_of_not_mem hnf]
      have h1 : (r.dict.dict.filter fun p => p.1 ≠ name).length + 1 = r.dict.dict.length :=
        filter_ne_length hi.names (List.mem_map.2 ⟨_, hm, rfl⟩)
      have h2 : r.dict.free.length + r.dict.dict.length = k := h.count
      omega
    · show (List.set _ _ _).length = _
      rw [List.length_set]
      exact h.len

theorem Used.step {k : Nat} (h : Used opt k r) (hi : RInv opt n r) (hr : Room opt n) {op : RegOp} {resp : Resp}
    (hs : r.step env op = .ok (resp, r')) : Used opt k r' ∨ (Used opt (k + 1) r' ∧ r'.dict.dict.length = k + 1) := by
  rcases step_size hs with h1 | ⟨q, name, now, id, r1, h1, h2⟩ | ⟨name, b, h1⟩
  · exact .inl (h.same h1)
  · rcases h.create hi hr h1 with h3 | ⟨h3, h4⟩
    · exact .inl (h3.same h2)
    · exact .inr ⟨h3.same h2, by rw [h2.1]; exact h4⟩
  · exact .inl (h.del hi h1)

/-- There is one aggregator for every name. -/
theorem living_eq (hi : RInv opt n r) : r.living = r.dict.dict.length := by
  have e1 : r.agarr = (List.range r.agarr.length).map fun p => r.agarr[p]?.join := by
    apply List.ext_getElem
    · simp
    · intro i h1 h2
      simp [List.getElem?_eq_getElem h1]
  have e2 : r.living = ((List.range r.agarr.length).filter fun p => (r.agarr[p]?.join).isSome).length := by
    unfold living
    conv_lhs => rw [e1]
    rw [List.countP_map, List.countP_eq_length_filter]
    rfl
  have e3 : ((List.range r.agarr.length).filter fun p => (r.agarr[p]?.join).isSome).Perm
      (r.dict.dict.map fun p => posOf opt.idStep (opt.idInit % opt.idStep) p.2) := by
    rw [List.perm_ext_iff_of_nodup]
    · intro p
      simp only [List.mem_filter, List.mem_range, List.mem_map]
      constructor
      · rintro ⟨h1, h2⟩
        cases hc : r.agarr[p]? with
        | none => simp [hc] at h2
        | some o =>
          cases o with
          | none => simp [hc] at h2
          | some c =>
            obtain ⟨nm, id, hm, hp⟩ := hi.occ p c hc
            exact ⟨(nm, id), hm, hp⟩
      · rintro ⟨⟨nm, id⟩, hm, rfl⟩
        obtain ⟨c, hc⟩ := hi.live nm id hm
        refine ⟨?_, by simp [hc]⟩
        by_contra hge
        simp only at hge
        rw [List.getElem?_eq_none (by omega)] at hc
        cases hc
    · exact List.nodup_range.filter _
    · have hn := hi.ids
      have e : (r.dict.dict.map fun p => posOf opt.idStep (opt.idInit % opt.idStep) p.2) =
          (r.dict.dict.map Prod.snd).map (posOf opt.idStep (opt.idInit % opt.idStep)) := by rw [List.map_map]; rfl
      rw [e]
      apply List.Nodup.map_on _ hn
      intro a ha b hb hab
      exact posOf_inj (hi.form a (.inr ha)).1 (hi.form b (.inr hb)).1 hab
  rw [e2, e3.length_eq, List.length_map]

end Registry
end Wrtstat
