/-
Creation and removal of aggregators.
-/
import Verif.Lemmas.RegistryEff

namespace Wrtstat
namespace Registry

open Aggregator (AOp AObs Trans)

variable {env : Env} {opt : RegistryOpts} {n : Nat} {r r' r'' : Registry}

/-- The invariant of the dictionary alone. -/
structure DInv (opt : RegistryOpts) (n : Nat) (d : Dict) : Prop where
  step : d.step = opt.idStep
  res : d.counter % opt.idStep = opt.idInit % opt.idStep
  cle : d.counter ≤ opt.idInit + n * opt.idStep
  idx : d.index = d.dict.map Prod.swap
  names : (d.dict.map Prod.fst).Nodup
  ids : (d.dict.map Prod.snd).Nodup
  nonempty : ∀ p ∈ d.dict, p.1 ≠ []
  free : d.free.Nodup
  disj : ∀ id ∈ d.free, id ∉ d.dict.map Prod.snd
  form : ∀ id, id ∈ d.free ∨ id ∈ d.dict.map Prod.snd →
    id % opt.idStep = opt.idInit % opt.idStep ∧ id ≤ d.counter

theorem RInv.dinv (h : RInv opt n r) : DInv opt n r.dict :=
  ⟨h.step, h.res, h.cle, h.idx, h.names, h.ids, h.nonempty, h.free, h.disj, h.form⟩

/-- Creation of an id for a new name. -/
theorem dinv_create {d : Dict} (hi : DInv opt n d) (hr : Room opt n) {name : Name} (h0 : name ≠ [])
    (hn : name ∉ d.dict.map Prod.fst) (pick : Nat) :
    ∃ id d', d.createId pick name = (id, d') ∧ d'.dict = (name, id) :: d.dict ∧ id ∉ d.dict.map Prod.snd ∧
      d.counter ≤ d'.counter ∧ DInv opt (n + 1) d' := by
  unfold Dict.createId
  rw [lookup_none.2 hn]
  have hb : d.counter + 3 * opt.idStep < idMod := by
    have := hi.cle
    have := hr.2
    rw [Nat.add_mul] at this
    omega
  have hp := hr.1
  have hc1 : opt.idInit + (n + 1) * opt.idStep = opt.idInit + n * opt.idStep + opt.idStep := by
    rw [Nat.add_mul]; omega
  cases hf : d.free[pick % d.free.length]? with
  | none =>
    simp only
    have hid : (d.counter + d.step) % idMod = d.counter + opt.idStep := by
      rw [hi.step, Nat.mod_eq_of_lt (by omega)]
    rw [hid]
    have hnew : d.counter + opt.idStep ∉ d.dict.map Prod.snd := by
      intro hm
      have := (hi.form _ (.inr hm)).2
      omega
    have hnewf : d.counter + opt.idStep ∉ d.free := by
      intro hm
      have := (hi.form _ (.inl hm)).2
      omega
    rw [Dict.link_new hi.idx hnew]
    refine ⟨_, _, rfl, rfl, hnew, by simp, ?_⟩
    have hres : (d.counter + opt.idStep) % opt.idStep = opt.idInit % opt.idStep := by
      rw [Nat.add_mod_right]; exact hi.res
    refine ⟨hi.step, hres, ?_, ?_, ?_, ?_, ?_, hi.free, ?_, ?_⟩
    · have := hi.cle
      simp only
      omega
    · simp [hi.idx]
    · simpa using ⟨by simpa using hn, hi.names⟩
    · simpa using ⟨by simpa using hnew, hi.ids⟩
    · intro p hp
      rcases List.mem_cons.1 hp with rfl | hp
      · exact h0
      · exact hi.nonempty p hp
    · intro id hid hm
      simp only [List.map_cons, List.mem_cons] at hm
      rcases hm with rfl | hm
      · exact hnewf hid
      · exact hi.disj id hid hm
    · intro id hid
      simp only [List.map_cons, List.mem_cons] at hid
      rcases hid with hid | rfl | hid
      · have := hi.form id (.inl hid)
        exact ⟨this.1, by simp only; omega⟩
      · exact ⟨hres, le_rfl⟩
      · have := hi.form id (.inr hid)
        exact ⟨this.1, by simp only; omega⟩
  | some id =>
    simp only
    have hm : id ∈ d.free := List.mem_of_getElem? hf
    have hnew := hi.disj id hm
    rw [Dict.link_new hi.idx hnew]
    refine ⟨_, _, rfl, rfl, hnew, le_rfl, ?_⟩
    refine ⟨hi.step, hi.res, ?_, ?_, ?_, ?_, ?_, hi.free.erase id, ?_, ?_⟩
    · have := hi.cle
      simp only
      omega
    · simp [hi.idx]
    · simpa using ⟨by simpa using hn, hi.names⟩
    · simpa using ⟨by simpa using hnew, hi.ids⟩
    · intro p hp
      rcases List.mem_cons.1 hp with rfl | hp
      · exact h0
      · exact hi.nonempty p hp
    · intro id' hid hm'
      simp only [List.map_cons, List.mem_cons] at hm'
      rcases hm' with rfl | hm'
      · exact (List.Nodup.not_mem_erase hi.free) hid
      · exact hi.disj id' (List.mem_of_mem_erase hid) hm'
    · intro id' hid
      simp only [List.map_cons, List.mem_cons] at hid
      rcases hid with hid | rfl | hid
      · exact hi.form id' (.inl (List.mem_of_mem_erase hid))
      · exact hi.form _ (.inl hm)
      · exact hi.form id' (.inr hid)

theorem construct_trans {q : Ask} {now : Int} {a : Aggregator} (h : construct env r q now = .ok a) :
    ∃ a0, Aggregator.new r.opt q.clk q.rand now = .ok a0 ∧ Trans env a0 (r.birth q) a [] := by
  unfold construct at h
  obtain ⟨a0, h1, h2⟩ := bind_inv h
  refine ⟨a0, h1, ?_⟩
  unfold birth
  by_cases he : r.enabled = false
  · rw [if_pos he] at h2 ⊢
    cases h2
    exact Aggregator.trans_one (op := .enable false) rfl
  rw [if_neg he] at h2 ⊢
  by_cases hh : r.hasInit = true
  · rw [if_pos hh] at h2 ⊢
    cases hq : q.ini with
    | none =>
      rw [hq] at h2
      cases h2
      exact Aggregator.trans_nil env _
    | some rd =>
      rw [hq] at h2
      obtain ⟨⟨ok, a'⟩, h3, h4⟩ := bind_inv h2
      cases h4
      have hx : Aggregator.exec env { a := a0 } (.add q.iclk1 q.iclk2 rd.ts (.reduced rd)) =
          .ok { a := a, accepted := AObs.record { a := a0 } ok q.iclk1 rd.ts (.reduced rd) } := by
        simp only [Aggregator.exec, h3, bind_ok']
      simpa using Aggregator.trans_one hx
  · rw [if_neg hh] at h2 ⊢
    cases h2
    exact Aggregator.trans_nil env _

/-- The registry after the creation of an aggregator for a new name. -/
structure Created (env : Env) (opt : RegistryOpts) (r : Registry) (q : Ask) (name : Name) (now : Int) (id : Nat)
    (r' : Registry) : Prop where
  dict : r'.dict.dict = (name, id) :: r.dict.dict
  new : id ∉ r.dict.dict.map Prod.snd
  ropt : r'.opt = r.opt
  enabled : r'.enabled = r.enabled
  hasInit : r'.hasInit = r.hasInit
  next : r'.nextRef = r.nextRef + 1
  cell : ∃ a0 a, Aggregator.new opt.toAggregatorOpts q.clk q.rand now = .ok a0 ∧ Trans env a0 (r.birth q) a [] ∧
    r'.agarr[posOf opt.idStep (opt.idInit % opt.idStep) id]? = some (some { ref := r.nextRef, agg := a })
  others : ∀ (p : Nat) (c : Cell), p ≠ posOf opt.idStep (opt.idInit % opt.idStep) id →
    (r'.agarr[p]? = some (some c) ↔ r.agarr[p]? = some (some c))
  empty : ∀ c, r.agarr[posOf opt.idStep (opt.idInit % opt.idStep) id]? ≠ some (some c)

theorem getElem?_resize_set {arr : List (Option Cell)} {pos p : Nat} {c d : Cell} (hp : p ≠ pos) :
    ((arr ++ List.replicate (pos + 1 - arr.length) none).set pos (some c))[p]? = some (some d) ↔
      arr[p]? = some (some d) := by
  rw [List.getElem?_set_ne (Ne.symm hp)]
  by_cases hl : p < arr.length
  · rw [List.getElem?_append_left hl]
  · rw [List.getElem?_append_right (by omega), List.getElem?_replicate, List.getElem?_eq_none (by omega : arr.length ≤ p)]
    split_ifs <;> simp

/-- `create_aggregator`. -/
theorem create_cases (hi : RInv opt n r) (hr : Room opt n) {q : Ask} {name : Name} {now : Int} {id : Nat}
    (h : r.createAggregator env q name now = .ok (id, r')) :
    (name = [] ∧ id = badId ∧ r' = r) ∨ ((name, id) ∈ r.dict.dict ∧ r' = r) ∨
      (name ≠ [] ∧ name ∉ r.dict.dict.map Prod.fst ∧ Created env opt r q name now id r' ∧ RInv opt (n + 1) r') := by
  unfold createAggregator at h
  by_cases h0 : name = []
  · rw [if_pos h0] at h
    cases h
    exact .inl ⟨h0, rfl, rfl⟩
  rw [if_neg h0] at h
  right
  by_cases hn : name ∈ r.dict.dict.map Prod.fst
  · obtain ⟨⟨nm, id'⟩, hm', rfl⟩ := List.mem_map.1 hn
    have hm := hm'
    simp only at h h0 hn
    have hcr : r.dict.createId q.pick nm = (id', r.dict) := by
      unfold Dict.createId
      rw [hi.dict_lookup.2 hm]
    obtain ⟨c, _, h2⟩ := hi.get_live hr hm
    obtain ⟨f1, f2⟩ := hi.id_form hm
    have hb := hi.bound hr
    rw [hcr] at h
    simp only at h
    rw [id2pos_ok (d := r.dict) hi.step hr.1 f1 (by omega)] at h
    simp only [bind_ok', h2, Option.join_some] at h
    cases h
    exact .inl ⟨hm, rfl⟩
  · right
    obtain ⟨id', d', e1, e2, e3, e4, e5⟩ := dinv_create hi.dinv hr h0 hn q.pick
    rw [e1] at h
    simp only at h
    have hf : id' % opt.idStep = opt.idInit % opt.idStep ∧ id' ≤ d'.counter := e5.form id' (.inr (by rw [e2]; simp))
    have hb : d'.counter + 2 * opt.idStep < idMod := by
      have := e5.cle
      have := hr.2
      rw [Nat.add_mul] at *
      omega
    have hp := hr.1
    rw [id2pos_ok (d := d') e5.step hp hf.1 (by omega)] at h
    simp only [bind_ok'] at h
    have hempty : ∀ c, r.agarr[posOf opt.idStep (opt.idInit % opt.idStep) id']? ≠ some (some c) := by
      intro c hc
      obtain ⟨nm2, id2, hm2, hp2⟩ := hi.occ _ _ hc
      have := posOf_inj (hi.id_form hm2).1 hf.1 hp2
      subst this
      exact e3 (List.mem_map.2 ⟨_, hm2, rfl⟩)
    have hj : (r.agarr[posOf opt.idStep (opt.idInit % opt.idStep) id']?).join = none := by
      cases hc : r.agarr[posOf opt.idStep (opt.idInit % opt.idStep) id']? with
      | none => rfl
      | some o =>
        cases o with
        | none => rfl
        | some c => exact absurd hc (hempty c)
    rw [hj] at h
    simp only at h
    obtain ⟨a, ha, h2⟩ := bind_inv h
    cases h2
    obtain ⟨a0, h3, h4⟩ := construct_trans ha
    generalize hpos : posOf opt.idStep (opt.idInit % opt.idStep) id = pos at *
    have hself : ((r.agarr ++ List.replicate (pos + 1 - r.agarr.length) none).set pos
        (some { ref := r.nextRef, agg := a }))[pos]? = some (some { ref := r.nextRef, agg := a }) := by
      rw [List.getElem?_set_self (by simp; omega)]
    refine ⟨h0, hn, ⟨e2, e3, rfl, rfl, rfl, rfl, ⟨a0, a, by rw [← hi.ropt]; exact h3, h4, by rw [hpos]; exact hself⟩, ?_,
      by rw [hpos]; exact hempty⟩, ?_⟩
    · intro p c hne
      rw [hpos] at hne
      exact getElem?_resize_set hne
    · refine ⟨hi.ropt, e5.step, e5.res, e5.cle, e5.idx, e5.names, e5.ids, e5.nonempty, e5.free, e5.disj, e5.form,
        ?_, ?_, ?_, ?_, ?_, ?_⟩
      · intro p c hc
        simp only at hc ⊢
        rw [e2]
        by_cases hne : p = pos
        · exact ⟨name, id, by simp, by rw [hpos, hne]⟩
        · obtain ⟨nm, i, hm, hh⟩ := hi.occ p c ((getElem?_resize_set hne).1 hc)
          exact ⟨nm, i, List.mem_cons_of_mem _ hm, hh⟩
      · intro nm i hm
        simp only at hm ⊢
        rw [e2] at hm
        rcases List.mem_cons.1 hm with he | hm
        · cases he
          rw [hpos]
          exact ⟨_, hself⟩
        · obtain ⟨c, hc⟩ := hi.live nm i hm
          refine ⟨c, (getElem?_resize_set ?_).2 hc⟩
          intro he
          rw [he] at hc
          exact hempty c hc
      · intro p p' c d hc hd he
        simp only at hc hd
        by_cases h1 : p = pos <;> by_cases h2 : p' = pos
        · rw [h1, h2]
        · exfalso
          rw [h1, hself] at hc
          cases hc
          have := hi.refLt _ _ ((getElem?_resize_set h2).1 hd)
          simp only at he
          omega
        · exfalso
          rw [h2, hself] at hd
          cases hd
          have := hi.refLt _ _ ((getElem?_resize_set h1).1 hc)
          simp only at he
          omega
        · exact hi.refs p p' c d ((getElem?_resize_set h1).1 hc) ((getElem?_resize_set h2).1 hd) he
      · intro p c hc
        simp only at hc ⊢
        by_cases h1 : p = pos
        · rw [h1, hself] at hc
          cases hc
          simp
        · have := hi.refLt _ _ ((getElem?_resize_set h1).1 hc)
          omega
      · intro p c hc
        simp only at hc
        by_cases h1 : p = pos
        · rw [h1, hself] at hc
          cases hc
          rw [Aggregator.trans_alive h4]
          unfold Aggregator.new at h3
          obtain ⟨s, _, h5⟩ := bind_inv h3
          cases h5
          rfl
        · exact hi.alive _ _ ((getElem?_resize_set h1).1 hc)
      · simp only [List.length_set, List.length_append, List.length_replicate]
        have hl := hi.len
        have hle : pos ≤ posOf opt.idStep (opt.idInit % opt.idStep) d'.counter := by
          rw [← hpos]
          unfold posOf
          exact Nat.add_le_add_right (Nat.div_le_div_right hf.2) _
        have hle2 : posOf opt.idStep (opt.idInit % opt.idStep) r.dict.counter ≤
            posOf opt.idStep (opt.idInit % opt.idStep) d'.counter := by
          unfold posOf
          exact Nat.add_le_add_right (Nat.div_le_div_right e4) _
        omega

/-- `del`. -/
theorem del_cases (hi : RInv opt n r) (hr : Room opt n) {name : Name} {b : Bool} (h : r.del name = .ok (b, r')) :
    b = false ∧ ((name ∉ r.dict.dict.map Prod.fst ∧ r' = r) ∨
      ∃ id, (name, id) ∈ r.dict.dict ∧ RInv opt n r' ∧ r'.dict.dict = r.dict.dict.filter (fun p => p.1 ≠ name) ∧
        r'.opt = r.opt ∧ r'.enabled = r.enabled ∧ r'.hasInit = r.hasInit ∧ r'.nextRef = r.nextRef ∧
        r'.agarr = r.agarr.set (posOf opt.idStep (opt.idInit % opt.idStep) id) none) := by
  unfold del at h
  by_cases hn : name ∈ r.dict.dict.map Prod.fst
  · obtain ⟨⟨nm, id⟩, hm', rfl⟩ := List.mem_map.1 hn
    have hm := hm'
    simp only at h hn
    obtain ⟨f1, f2⟩ := hi.id_form hm
    have hb := hi.bound hr
    have hg : r.dict.getId nm = id := by
      unfold Dict.getId
      rw [hi.dict_lookup.2 hm]; rfl
    simp only [hg] at h
    rw [if_neg (hi.id_ne_bad hr f2), id2pos_ok (d := r.dict) hi.step hr.1 f1 (by omega)] at h
    simp only [bind_ok'] at h
    have hfree : r.dict.freeId id = (false, { r.dict with free := r.dict.free.insert id, dict := r.dict.dict.filter (fun p => p.1 ≠ nm), index := r.dict.index.filter (fun p => p.1 ≠ id) }) := by
      unfold Dict.freeId
      rw [hi.index_lookup.2 hm]
    rw [hfree] at h
    obtain ⟨c, hc⟩ := hi.live nm id hm
    split_ifs at h with hlt
    simp only at h
    cases h
    refine ⟨rfl, .inr ⟨id, hm, ?_, rfl, rfl, rfl, rfl, rfl, rfl⟩⟩
    have hidn : id ∉ (r.dict.dict.filter (fun p => p.1 ≠ nm)).map Prod.snd := by
      intro hx
      obtain ⟨⟨nm2, id2⟩, h1, h2⟩ := List.mem_map.1 hx
      simp only at h2
      subst h2
      rw [List.mem_filter] at h1
      have := hi.id_eq h1.1 hm
      simp [this] at h1
    have hsub : ∀ {x}, x ∈ (r.dict.dict.filter (fun p => p.1 ≠ nm)).map Prod.snd → x ∈ r.dict.dict.map Prod.snd := by
      intro x hx
      obtain ⟨p, h1, h2⟩ := List.mem_map.1 hx
      exact List.mem_map.2 ⟨p, (List.mem_filter.1 h1).1, h2⟩
    have hset : ∀ {p : Nat} {d : Cell}, (r.agarr.set (posOf opt.idStep (opt.idInit % opt.idStep) id) none)[p]? = some (some d) →
        p ≠ posOf opt.idStep (opt.idInit % opt.idStep) id ∧ r.agarr[p]? = some (some d) := by
      intro p d hp
      by_cases he : p = posOf opt.idStep (opt.idInit % opt.idStep) id
      · rw [he, List.getElem?_set_self hlt] at hp
        simp at hp
      · rw [List.getElem?_set_ne (Ne.symm he)] at hp
        exact ⟨he, hp⟩
    refine ⟨hi.ropt, hi.step, hi.res, hi.cle, ?_, ?_, ?_, ?_, hi.free.insert, ?_, ?_, ?_, ?_, ?_, ?_, ?_, ?_⟩
    · simp only
      rw [hi.idx, List.filter_map]
      congr 1
      apply List.filter_congr
      rintro ⟨nm2, id2⟩ h2
      simp only [Function.comp, Prod.fst_swap]
      by_cases he : id2 = id
      · subst he
        have := hi.id_eq h2 hm
        simp [this]
      · have : nm2 ≠ nm := by
          rintro rfl
          exact he (hi.name_eq h2 hm)
        simp [he, this]
    · exact (hi.names.sublist (List.filter_sublist.map _))
    · exact (hi.ids.sublist (List.filter_sublist.map _))
    · intro p hp
      exact hi.nonempty p (List.mem_filter.1 hp).1
    · intro i hif hid
      simp only at hif hid
      rcases List.mem_insert_iff.1 hif with rfl | hif
      · exact hidn hid
      · exact hi.disj i hif (hsub hid)
    · intro i hid
      simp only at hid
      rcases hid with hid | hid
      · rcases List.mem_insert_iff.1 hid with rfl | hid
        · exact ⟨f1, f2⟩
        · exact hi.form i (.inl hid)
      · exact hi.form i (.inr (hsub hid))
    · intro p d hp
      obtain ⟨hne, hp⟩ := hset hp
      obtain ⟨nm2, id2, hm2, hp2⟩ := hi.occ p d hp
      refine ⟨nm2, id2, List.mem_filter.2 ⟨hm2, ?_⟩, hp2⟩
      simp only [ne_eq, decide_not, Bool.not_eq_eq_eq_not, Bool.not_true, decide_eq_false_iff_not]
      rintro rfl
      have := hi.name_eq hm2 hm
      subst this
      exact hne hp2.symm
    · intro nm2 id2 hm2
      simp only at hm2 ⊢
      obtain ⟨hm2, hne⟩ := List.mem_filter.1 hm2
      obtain ⟨c2, hc2⟩ := hi.live nm2 id2 hm2
      refine ⟨c2, ?_⟩
      rw [List.getElem?_set_ne]
      · exact hc2
      · intro he
        have := posOf_inj f1 (hi.id_form hm2).1 he
        subst this
        have := hi.id_eq hm2 hm
        simp [this] at hne
    · intro p p' c d h1 h2 he
      exact hi.refs p p' c d (hset h1).2 (hset h2).2 he
    · intro p c h1
      exact hi.refLt p c (hset h1).2
    · intro p c h1
      exact hi.alive p c (hset h1).2
    · simpa using hi.len
  · have hg : r.dict.getId name = badId := by
      unfold Dict.getId
      rw [lookup_none.2 hn]; rfl
    simp only [hg, if_true] at h
    cases h
    exact ⟨rfl, .inl ⟨hn, rfl⟩⟩

/-- `del` never faults. -/
theorem del_total (hi : RInv opt n r) (hr : Room opt n) (name : Name) : ∃ r', r.del name = .ok (false, r') := by
  cases h : r.del name with
  | ok p =>
    obtain ⟨b, r'⟩ := p
    exact ⟨r', by rw [(del_cases hi hr h).1]⟩
  | error e =>
    exfalso
    unfold del at h
    by_cases hn : name ∈ r.dict.dict.map Prod.fst
    · obtain ⟨⟨nm, id⟩, hm', rfl⟩ := List.mem_map.1 hn
      have hm := hm'
      obtain ⟨f1, f2⟩ := hi.id_form hm
      have hb := hi.bound hr
      have hg : r.dict.getId nm = id := by
        unfold Dict.getId
        rw [hi.dict_lookup.2 hm]; rfl
      simp only [hg] at h
      rw [if_neg (hi.id_ne_bad hr f2), id2pos_ok (d := r.dict) hi.step hr.1 f1 (by omega)] at h
      simp only [bind_ok'] at h
      obtain ⟨c, hc⟩ := hi.live nm id hm
      rw [if_pos (by
        by_contra hge
        rw [List.getElem?_eq_none (by omega)] at hc
        simp at hc)] at h
      cases h
    · have hg : r.dict.getId name = badId := by
        unfold Dict.getId
        rw [lookup_none.2 hn]; rfl
      simp only [hg, if_true] at h
      cases h

end Registry
end Wrtstat
