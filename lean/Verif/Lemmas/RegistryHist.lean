/-
Histories of registry operations.
-/
import Verif.Lemmas.RegistryCreate

namespace Wrtstat
namespace Registry

open Aggregator (AOp AObs Trans)

variable {env : Env} {opt : RegistryOpts} {n : Nat} {r r' r'' : Registry}
  {ask ask' : List (Nat × AOp)} {del del' : List (Nat × AggData)} {gone : Name → Prop}

/-- The effect of an operation on every aggregator: those that stay go through the operations
addressed to them, those that appear are new and go through the operations addressed to them. -/
structure Eff (env : Env) (opt : RegistryOpts) (r r' : Registry) (gone : Name → Prop) (ask : List (Nat × AOp))
    (del : List (Nat × AggData)) : Prop where
  next : r.nextRef ≤ r'.nextRef
  askKey : ∀ x ∈ ask, x.1 < r'.nextRef
  delKey : ∀ x ∈ del, x.1 < r'.nextRef
  dict : ∀ nm id, (nm, id) ∈ r.dict.dict → ¬ gone nm → (nm, id) ∈ r'.dict.dict
  cell : ∀ nm id c, (nm, id) ∈ r.dict.dict → ¬ gone nm →
    r.agarr[posOf opt.idStep (opt.idInit % opt.idStep) id]? = some (some c) →
    ∃ c', r'.agarr[posOf opt.idStep (opt.idInit % opt.idStep) id]? = some (some c') ∧ c'.ref = c.ref ∧
      Trans env c.agg (forRef c.ref ask) c'.agg (forRef c.ref del)
  back : ∀ nm id c', (nm, id) ∈ r'.dict.dict →
    r'.agarr[posOf opt.idStep (opt.idInit % opt.idStep) id]? = some (some c') →
    ((nm, id) ∈ r.dict.dict ∧ ¬ gone nm ∧
      ∃ c, r.agarr[posOf opt.idStep (opt.idInit % opt.idStep) id]? = some (some c) ∧ c'.ref = c.ref ∧
        Trans env c.agg (forRef c.ref ask) c'.agg (forRef c.ref del)) ∨
    (nm ∉ r.dict.dict.map Prod.fst ∧ c'.ref = r.nextRef ∧ ∃ clk rand now a0,
      Aggregator.new opt.toAggregatorOpts clk rand now = .ok a0 ∧
        Trans env a0 (forRef c'.ref ask) c'.agg (forRef c'.ref del) ∧
        ∃ q rest, forRef c'.ref ask = r.birth q ++ rest)

theorem eff_seff (h : SEff env r r' ask del) (h1 : ∀ x ∈ ask, x.1 < r.nextRef) (h2 : ∀ x ∈ del, x.1 < r.nextRef) :
    Eff env opt r r' (fun _ => False) ask del :=
  { next := h.next.ge
    askKey := by rw [h.next]; exact h1
    delKey := by rw [h.next]; exact h2
    dict := fun nm id hm _ => by rw [h.dict]; exact hm
    cell := fun nm id c hm _ hc => h.cell _ c hc
    back := fun nm id c' hm hc => by
      rw [h.dict] at hm
      exact .inl ⟨hm, not_false, h.back hc⟩ }

theorem eff_trans (h : Eff env opt r r' gone ask del) (h' : SEff env r' r'' ask' del')
    (h1 : ∀ x ∈ ask', x.1 < r'.nextRef) (h2 : ∀ x ∈ del', x.1 < r'.nextRef) :
    Eff env opt r r'' gone (ask ++ ask') (del ++ del') :=
  { next := by rw [h'.next]; exact h.next
    askKey := by
      intro x hx
      rw [h'.next]
      rcases List.mem_append.1 hx with hx | hx
      · exact h.askKey x hx
      · exact h1 x hx
    delKey := by
      intro x hx
      rw [h'.next]
      rcases List.mem_append.1 hx with hx | hx
      · exact h.delKey x hx
      · exact h2 x hx
    dict := fun nm id hm hg => by rw [h'.dict]; exact h.dict nm id hm hg
    cell := by
      intro nm id c hm hg hc
      obtain ⟨c1, k1, e1, t1⟩ := h.cell nm id c hm hg hc
      obtain ⟨c2, k2, e2, t2⟩ := h'.cell _ c1 k1
      refine ⟨c2, k2, e2.trans e1, ?_⟩
      rw [e1] at t2
      rw [forRef_append, forRef_append]
      exact Aggregator.trans_append t1 t2
    back := by
      intro nm id c' hm hc
      rw [h'.dict] at hm
      obtain ⟨c1, k1, e1, t1⟩ := h'.back hc
      rcases h.back nm id c1 hm k1 with ⟨hm0, hg, c, k, e, t⟩ | ⟨hn, hre, clk, rand, now, a0, ha, t, q, rest, hq⟩
      · refine .inl ⟨hm0, hg, c, k, e1.trans e, ?_⟩
        rw [e] at t1
        rw [forRef_append, forRef_append]
        exact Aggregator.trans_append t t1
      · refine .inr ⟨hn, e1.trans hre, clk, rand, now, a0, ha, ?_, q, rest ++ forRef c1.ref ask', ?_⟩
        · rw [e1, forRef_append, forRef_append]
          exact Aggregator.trans_append t t1
        · rw [e1, forRef_append, hq, List.append_assoc] }

theorem toId_key (hi : RInv opt n r) (hr : Room opt n) {id : Nat} {ops : List AOp} {x : Nat × AOp}
    (hx : x ∈ r.toId id ops) : x.1 < r.nextRef := by
  unfold toId at hx
  cases hc : r.cellAt id with
  | none => rw [hc] at hx; simp at hx
  | some c =>
    rw [hc] at hx
    simp only [Option.toList_some, List.flatMap_cons, List.flatMap_nil, List.append_nil, List.mem_map] at hx
    obtain ⟨op, _, rfl⟩ := hx
    obtain ⟨_, _, _, h4⟩ := hi.cellAt_some hr hc
    exact hi.refLt _ _ h4

theorem cellAt_key (hi : RInv opt n r) (hr : Room opt n) {id : Nat} {l : List AggData} {x : Nat × AggData}
    (hx : x ∈ (r.cellAt id).toList.flatMap fun c => l.map fun d => (c.ref, d)) : x.1 < r.nextRef := by
  cases hc : r.cellAt id with
  | none => rw [hc] at hx; simp at hx
  | some c =>
    rw [hc] at hx
    simp only [Option.toList_some, List.flatMap_cons, List.flatMap_nil, List.append_nil, List.mem_map] at hx
    obtain ⟨op, _, rfl⟩ := hx
    obtain ⟨_, _, _, h4⟩ := hi.cellAt_some hr hc
    exact hi.refLt _ _ h4

theorem births_new {q : Ask} {name : Name} (h0 : name ≠ []) (hn : name ∉ r.dict.dict.map Prod.fst) :
    r.births q name = (r.birth q).map fun op => (r.nextRef, op) := by
  unfold births
  rw [if_pos ⟨h0, by rw [RInv.cellOf_dead hn]; rfl⟩]

theorem births_live (hi : RInv opt n r) (hr : Room opt n) {q : Ask} {name : Name} {id : Nat}
    (hm : (name, id) ∈ r.dict.dict) : r.births q name = [] := by
  unfold births
  obtain ⟨c, hc, _⟩ := hi.cellOf_live hr hm
  rw [if_neg (by rw [hc]; simp)]

theorem eff_create (hi : RInv opt n r) (hr : Room opt n) {q : Ask} {name : Name} {now : Int} {id : Nat}
    (h : r.createAggregator env q name now = .ok (id, r')) :
    RInv opt (n + 1) r' ∧ Eff env opt r r' (fun _ => False) (r.births q name) [] := by
  rcases create_cases hi hr h with ⟨h0, _, rfl⟩ | ⟨hm, rfl⟩ | ⟨h0, hn, hc, hi'⟩
  · refine ⟨hi.mono (by omega), ?_⟩
    have : r'.births q name = [] := by simp [births, h0]
    rw [this]
    exact eff_seff (seff_refl env r') (by simp) (by simp)
  · refine ⟨hi.mono (by omega), ?_⟩
    rw [births_live hi hr hm]
    exact eff_seff (seff_refl env r') (by simp) (by simp)
  · refine ⟨hi', ?_⟩
    rw [births_new h0 hn]
    have hne : ∀ c : Cell, ∀ p : Nat, r.agarr[p]? = some (some c) →
        forRef c.ref ((r.birth q).map fun op => (r.nextRef, op)) = [] := by
      intro c p hp
      apply forRef_other
      have := hi.refLt p c hp
      omega
    refine ⟨by rw [hc.next]; omega, ?_, by simp, ?_, ?_, ?_⟩
    · intro x hx
      obtain ⟨op, _, rfl⟩ := List.mem_map.1 hx
      rw [hc.next]
      simp
    · intro nm i hm _
      rw [hc.dict]
      exact List.mem_cons_of_mem _ hm
    · intro nm i c hm _ hp
      refine ⟨c, (hc.others _ _ ?_).2 hp, rfl, ?_⟩
      · intro he
        rw [he] at hp
        exact hc.empty c hp
      · rw [hne c _ hp]
        exact Aggregator.trans_nil env _
    · intro nm i c' hm hp
      rw [hc.dict] at hm
      rcases List.mem_cons.1 hm with he | hm
      · cases he
        obtain ⟨a0, a, h1, h2, h3⟩ := hc.cell
        rw [h3] at hp
        cases hp
        refine .inr ⟨hn, rfl, q.clk, q.rand, now, a0, h1, ?_, q, [], ?_⟩
        · rw [forRef_self]
          exact h2
        · rw [forRef_self, List.append_nil]
      · have hpp : r.agarr[posOf opt.idStep (opt.idInit % opt.idStep) i]? = some (some c') := by
          refine (hc.others _ _ ?_).1 hp
          intro he
          obtain ⟨c, h1⟩ := hi.live nm i hm
          rw [he] at h1
          exact hc.empty c h1
        refine .inl ⟨hm, not_false, c', hpp, rfl, ?_⟩
        rw [hne c' _ hpp]
        exact Aggregator.trans_nil env _

theorem eff_del (hi : RInv opt n r) (hr : Room opt n) {name : Name} {b : Bool} (h : r.del name = .ok (b, r')) :
    RInv opt n r' ∧ Eff env opt r r' (fun nm => nm = name) [] [] := by
  rcases (del_cases hi hr h).2 with ⟨hn, rfl⟩ | ⟨id, hm, hi', hd, ho, he, hh, hx, ha⟩
  · refine ⟨hi, le_rfl, by simp, by simp, fun _ _ h _ => h, fun _ _ c _ _ h => ⟨c, h, rfl, Aggregator.trans_nil env _⟩, ?_⟩
    intro nm i c hm hp
    refine .inl ⟨hm, ?_, c, hp, rfl, Aggregator.trans_nil env _⟩
    rintro rfl
    exact hn (List.mem_map.2 ⟨_, hm, rfl⟩)
  · refine ⟨hi', by rw [hx], by simp, by simp, ?_, ?_, ?_⟩
    · intro nm i h1 hg
      rw [hd]
      exact List.mem_filter.2 ⟨h1, by simpa using hg⟩
    · intro nm i c h1 hg hp
      refine ⟨c, ?_, rfl, Aggregator.trans_nil env _⟩
      rw [ha, List.getElem?_set_ne]
      · exact hp
      · intro he
        have := posOf_inj (hi.id_form hm).1 (hi.id_form h1).1 he
        subst this
        exact hg (hi.id_eq h1 hm)
    · intro nm i c h1 hp
      rw [hd] at h1
      obtain ⟨h1, hg⟩ := List.mem_filter.1 h1
      refine .inl ⟨h1, by simpa using hg, c, ?_, rfl, Aggregator.trans_nil env _⟩
      rw [ha, List.getElem?_set_ne] at hp
      · exact hp
      · intro he
        have := posOf_inj (hi.id_form hm).1 (hi.id_form h1).1 he
        subst this
        have := hi.id_eq h1 hm
        simp [this] at hg

/-- Whether an operation removes a name. -/
def RegOp.removes (op : RegOp) (nm : Name) : Prop := op = .del nm

theorem attrib_key (hi : RInv opt n r) (hr : Room opt n) {l : List (Name × AggData)} {x : Nat × AggData}
    (hx : x ∈ l.flatMap fun p => (r.cellOf p.1).toList.map fun c => (c.ref, p.2)) : x.1 < r.nextRef := by
  obtain ⟨p, _, hx⟩ := List.mem_flatMap.1 hx
  cases hc : r.cellOf p.1 with
  | none => rw [hc] at hx; simp at hx
  | some c =>
    rw [hc] at hx
    simp only [Option.toList_some, List.map_cons, List.map_nil, List.mem_singleton] at hx
    subst hx
    obtain ⟨id, _, _, h4⟩ := hi.cellOf_some hr hc
    exact hi.refLt _ _ h4

theorem Eff.regone (h : Eff env opt r r' gone ask del) {gone' : Name → Prop} (hg : ∀ nm, gone nm ↔ gone' nm) :
    Eff env opt r r' gone' ask del := by
  have : gone = gone' := funext fun nm => propext (hg nm)
  rw [← this]; exact h

/-- The effect of every operation. -/
theorem eff_step (hi : RInv opt n r) (hr : Room opt n) {op : RegOp} (hid : op.idOk opt) {resp : Resp}
    (h : r.step env op = .ok (resp, r')) :
    RInv opt (n + 1) r' ∧ Eff env opt r r' op.removes (r.asked op) (r.delivered op resp) := by
  have seff : ∀ {r1 : Registry}, SEff env r r1 (r.asked op) (r.delivered op resp) →
      (∀ nm, op ≠ .del nm) →
      (∀ x ∈ r.asked op, x.1 < r.nextRef) → (∀ x ∈ r.delivered op resp, x.1 < r.nextRef) →
      RInv opt (n + 1) r1 ∧ Eff env opt r r1 op.removes (r.asked op) (r.delivered op resp) := by
    intro r1 hs hd h1 h2
    exact ⟨(hs.inv hi).mono (by omega), (eff_seff hs h1 h2).regone (fun nm => by simp [RegOp.removes, hd nm])⟩
  cases op with
  | create q name now =>
    obtain ⟨⟨id, r1⟩, h1, h2⟩ := bind_inv h
    cases h2
    obtain ⟨k1, k2⟩ := eff_create hi hr h1
    exact ⟨k1, k2.regone (by simp [RegOp.removes])⟩
  | addId id c1 c2 now v count =>
    obtain ⟨⟨b, r1⟩, h1, h2⟩ := bind_inv h
    cases h2
    exact seff (seff_addId hi hr (hid id rfl) h1) (by simp) (fun x hx => toId_key hi hr hx) (by simp [delivered])
  | addData q name c1 c2 rd =>
    obtain ⟨⟨b, r1⟩, h1, h2⟩ := bind_inv h
    cases h2
    unfold addData at h1
    obtain ⟨⟨id, r1⟩, h3, h4⟩ := bind_inv h1
    obtain ⟨hi1, he1⟩ := eff_create hi hr h3
    obtain ⟨o, h5, h6⟩ := bind_inv h4
    -- what the second half is asked
    have key : SEff env r1 r' (if name = [] then [] else [(r.refFor name, .add c1 c2 rd.ts (.reduced rd))]) [] ∧
        (∀ x ∈ (if name = [] then [] else [(r.refFor name, AOp.add c1 c2 rd.ts (.reduced rd))]), x.1 < r1.nextRef) := by
      have upd : ∀ {c : Cell} {p : Nat}, o = some c → r1.agarr[p]? = some (some c) →
          SEff env r1 r' [(c.ref, .add c1 c2 rd.ts (.reduced rd))] [] := by
        intro c p ho hp
        rw [ho] at h6
        obtain ⟨⟨ok, a⟩, h7, h8⟩ := bind_inv h6
        cases h8
        have hx : Aggregator.exec env { a := c.agg } (.add c1 c2 rd.ts (.reduced rd)) =
            .ok { a := a, accepted := AObs.record { a := c.agg } b c1 rd.ts (.reduced rd) } := by
          simp only [Aggregator.exec, h7, bind_ok']
        exact seff_update hi1 hp (Aggregator.trans_one hx)
      rcases create_cases hi hr h3 with ⟨h0, rfl, rfl⟩ | ⟨hm, rfl⟩ | ⟨h0, hn, hc, _⟩
      · rw [show r1.getAggregator badId = .ok none from by simp [getAggregator]] at h5
        cases h5
        simp only at h6
        cases h6
        rw [if_pos h0]
        exact ⟨seff_refl env _, by simp⟩
      · obtain ⟨c, k1, k2, k3, k4⟩ := hi.cellOf_live hr hm
        have h0 := hi.nonempty _ hm
        simp only at h0
        rw [k3] at h5
        cases h5
        rw [if_neg h0]
        have : r1.refFor name = c.ref := by simp [refFor, k1]
        rw [this]
        exact ⟨upd rfl k4, by simpa using hi.refLt _ _ k4⟩
      · rw [if_neg h0]
        obtain ⟨a0, a, g1, g2, g3⟩ := hc.cell
        have hm : (name, id) ∈ r1.dict.dict := by rw [hc.dict]; simp
        have hf := hi1.id_form hm
        have hb : r1.dict.counter + 2 * opt.idStep < idMod := by
          have := hi1.cle
          have := hr.2
          rw [Nat.add_mul] at *
          omega
        have hp := hr.1
        have hbad : id ≠ badId := by
          unfold badId idMod at *
          omega
        have h9 : r1.getAggregator id = .ok (some { ref := r.nextRef, agg := a }) := by
          unfold getAggregator
          rw [if_neg hbad, id2pos_ok hi1.step hp hf.1 (by omega)]
          simp [bind_ok', g3]
        rw [h9] at h5
        cases h5
        have : r.refFor name = r.nextRef := by simp [refFor, RInv.cellOf_dead hn]
        rw [this]
        refine ⟨upd rfl g3, ?_⟩
        simp [hc.next]
    have he := eff_trans he1 key.1 key.2 (by simp)
    exact ⟨key.1.inv hi1, he.regone (by simp [RegOp.removes])⟩
  | pop id =>
    obtain ⟨⟨d, r1⟩, h1, h2⟩ := bind_inv h
    cases h2
    exact seff (seff_pop hi hr (hid id rfl) h1) (by simp) (fun x hx => toId_key hi hr hx)
      (fun x hx => cellAt_key hi hr hx)
  | forcePop id =>
    obtain ⟨⟨d, r1⟩, h1, h2⟩ := bind_inv h
    cases h2
    exact seff (seff_forcePop hi hr (hid id rfl) h1) (by simp) (fun x hx => toId_key hi hr hx)
      (fun x hx => cellAt_key hi hr hx)
  | popAll force clk =>
    obtain ⟨⟨l, r1⟩, h1, h2⟩ := bind_inv h
    cases h2
    refine seff (seff_popAll hi hr h1).1 (by simp) ?_ (fun x hx => attrib_key hi hr hx)
    intro x hx
    obtain ⟨p, _, hx⟩ := List.mem_flatMap.1 hx
    exact toId_key hi hr hx
  | getName id =>
    cases h
    exact seff (seff_refl env r) (by simp) (by simp [asked]) (by simp [delivered])
  | setInit v =>
    cases h
    refine seff (r1 := r.setInitializer v) ?_ (by simp) (by simp [asked]) (by simp [delivered])
    exact { dict := rfl, opt := rfl, next := rfl, len := rfl, empty := fun _ h => h,
            cell := fun _ c h => ⟨c, h, rfl, Aggregator.trans_nil env c.agg⟩ }
  | pusherId id hd =>
    obtain ⟨p, h1, h2⟩ := bind_inv h
    cases h2
    exact seff (seff_refl env r) (by simp) (by simp [asked]) (by simp [delivered])
  | pusherName q name now hd =>
    obtain ⟨⟨p, r1⟩, h1, h2⟩ := bind_inv h
    cases h2
    unfold pusherName at h1
    obtain ⟨⟨id, r2⟩, h3, h4⟩ := bind_inv h1
    obtain ⟨p, h5, h6⟩ := bind_inv h4
    cases h6
    obtain ⟨k1, k2⟩ := eff_create hi hr h3
    exact ⟨k1, k2.regone (by simp [RegOp.removes])⟩
  | call p c1 c2 ts x =>
    obtain ⟨⟨l, r1⟩, h1, h2⟩ := bind_inv h
    cases h2
    have hk : (r.find p.ref).isSome = true → p.ref < r.nextRef := by
      intro hs
      obtain ⟨a, ha⟩ := Option.isSome_iff_exists.1 hs
      obtain ⟨q, c, hq, hk, _⟩ := hi.find_eq.1 ha
      rw [← hk]
      exact hi.refLt q c hq
    refine seff (seff_call hi h1) (by simp) ?_ ?_
    · intro y hy
      simp only [asked] at hy
      by_cases hc : (r.find p.ref).isSome = true ∧ p.p.token = true
      · rw [if_pos hc] at hy
        simp only [List.mem_singleton] at hy
        subst hy
        exact hk hc.1
      · rw [if_neg hc] at hy
        simp at hy
    · intro y hy
      simp only [delivered] at hy
      cases hf : r.find p.ref with
      | none =>
        unfold call at h1
        rw [hf] at h1
        cases h1
        simp at hy
      | some a =>
        obtain ⟨d, _, rfl⟩ := List.mem_map.1 hy
        exact hk (by rw [hf]; rfl)
  | enable v =>
    cases h
    refine seff (seff_enable hi hr v) (by simp) ?_ (by simp [delivered])
    intro x hx
    obtain ⟨p, _, hx⟩ := List.mem_flatMap.1 hx
    exact toId_key hi hr hx
  | del name =>
    obtain ⟨⟨b, r1⟩, h1, h2⟩ := bind_inv h
    cases h2
    obtain ⟨k1, k2⟩ := eff_del (env := env) hi hr h1
    refine ⟨k1.mono (by omega), k2.regone (fun nm => ?_)⟩
    simp only [RegOp.removes, RegOp.del.injEq]
    exact eq_comm
  | direct id op =>
    refine seff (seff_direct hi hr (hid id rfl) h) (by simp) (fun x hx => toId_key hi hr hx) ?_
    intro x hx
    cases resp with
    | handed l => exact cellAt_key hi hr hx
    | _ => simp [delivered] at hx

/-- Every aggregator has gone through the operations addressed to it since it was built. -/
structure Sim (env : Env) (opt : RegistryOpts) (n : Nat) (o : RObs) : Prop where
  inv : RInv opt n o.r
  askKey : ∀ x ∈ o.asked, x.1 < o.r.nextRef
  recKey : ∀ x ∈ o.received, x.1 < o.r.nextRef
  cell : ∀ nm id c, (nm, id) ∈ o.r.dict.dict →
    o.r.agarr[posOf opt.idStep (opt.idInit % opt.idStep) id]? = some (some c) →
    ∃ clk rand now a0, Aggregator.new opt.toAggregatorOpts clk rand now = .ok a0 ∧
      Trans env a0 (forRef c.ref o.asked) c.agg (forRef c.ref o.received)

theorem sim_exec {o o' : RObs} (s : Sim env opt n o) (hr : Room opt n) {op : RegOp} (hid : op.idOk opt)
    (h : rexec env o op = .ok o') : Sim env opt (n + 1) o' := by
  unfold rexec at h
  obtain ⟨⟨resp, r'⟩, h1, h2⟩ := bind_inv h
  cases h2
  obtain ⟨hi, he⟩ := eff_step s.inv hr hid h1
  refine ⟨hi, ?_, ?_, ?_⟩
  · intro x hx
    rcases List.mem_append.1 hx with hx | hx
    · exact lt_of_lt_of_le (s.askKey x hx) he.next
    · exact he.askKey x hx
  · intro x hx
    rcases List.mem_append.1 hx with hx | hx
    · exact lt_of_lt_of_le (s.recKey x hx) he.next
    · exact he.delKey x hx
  · intro nm id c' hm hc
    simp only at hm hc ⊢
    rw [forRef_append, forRef_append]
    rcases he.back nm id c' hm hc with ⟨hm0, _, c, k, e, t⟩ | ⟨hn, hre, clk, rand, now, a0, ha, t, _⟩
    · obtain ⟨clk, rand, now, a0, ha, t0⟩ := s.cell nm id c hm0 k
      refine ⟨clk, rand, now, a0, ha, ?_⟩
      rw [e]
      exact Aggregator.trans_append t0 t
    · refine ⟨clk, rand, now, a0, ha, ?_⟩
      have e1 : forRef c'.ref o.asked = [] := forRef_key (fun x hx => by have := s.askKey x hx; omega)
      have e2 : forRef c'.ref o.received = [] := forRef_key (fun x hx => by have := s.recKey x hx; omega)
      rw [e1, e2]
      exact t

theorem sim_new (env : Env) (opt : RegistryOpts) : Sim env opt 0 { r := Registry.new opt } :=
  ⟨rinv_new opt, by simp, by simp, by simp [Registry.new]⟩

theorem Room.mono {m : Nat} (h : Room opt n) (hm : m ≤ n) : Room opt m := by
  refine ⟨h.1, lt_of_le_of_lt ?_ h.2⟩
  exact Nat.add_le_add_left (Nat.mul_le_mul_right _ (by omega)) _

theorem sim_execAll (ops : List RegOp) : ∀ {n : Nat} {o o' : RObs}, Sim env opt n o → Room opt (n + ops.length) →
    (∀ op ∈ ops, op.idOk opt) → rexecAll env o ops = .ok o' → Sim env opt (n + ops.length) o' := by
  induction ops with
  | nil => intro n o o' s _ _ h; cases h; exact s
  | cons op ops ih =>
    intro n o o' s hr hid h
    unfold rexecAll at *
    simp only [List.foldlM_cons] at h
    obtain ⟨o1, h1, h2⟩ := bind_inv h
    have s1 := sim_exec s (hr.mono (by omega)) (hid op List.mem_cons_self) h1
    have := ih (n := n + 1) s1 (hr.mono (by simp; omega)) (fun x hx => hid x (List.mem_cons_of_mem _ hx)) h2
    have e : n + 1 + ops.length = n + (op :: ops).length := by simp; omega
    rw [e] at this
    exact this

end Registry
end Wrtstat
