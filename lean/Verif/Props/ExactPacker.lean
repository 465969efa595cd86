/-
When exactly the claims that the code violates hold: C50, C60, C64, C66, C67, C69.
-/
import Verif.Props.Packer
import Verif.Props.Reducer

namespace Wrtstat

set_option autoImplicit false

/-! ### C60 -/

namespace Reducer

/-- `min ≤ max` exactly if the window received a sample or a non-zero extreme; a merged summary is covered
from below exactly if its minimum is not 0 or something not above 0 was received besides, and from above
likewise. -/
theorem C60_exact_partial (env : Env) (opt : ReducerOpts) (ops : List ROp) (r r' : Reducer) (d : AggData)
    (h : run env (new opt) ops = .ok r) (hd : detach env r = .ok (some d, r')) :
    (d.min ≤ d.max ↔ allExtremes (pending ops) ≠ []) ∧
    ∀ rd, AddArg.reduced rd ∈ pending ops →
      (d.min ≤ rd.min ↔ rd.min ≠ 0 ∨ ∃ v ∈ allExtremes (pending ops), v ≤ 0) ∧
      (rd.max ≤ d.max ↔ rd.max ≠ 0 ∨ ∃ v ∈ allExtremes (pending ops), 0 ≤ v) := by
  obtain ⟨_, r1, _, g, hle, _, _, _, _, a, _, rfl⟩ := detach_some (goodA_run h) hd
  simp only [resultOf, (goodA_run h).good.min, (goodA_run h).good.max]
  obtain ⟨m1, m2, m3⟩ := minI_aux (allExtremes (pending ops)) I64max
  obtain ⟨x1, x2, x3⟩ := maxI_aux (allExtremes (pending ops)) I64min
  have e1 : minI (allExtremes (pending ops)) = (allExtremes (pending ops)).foldl Min.min I64max := rfl
  have e2 : maxI (allExtremes (pending ops)) = (allExtremes (pending ops)).foldl Max.max I64min := rfl
  have p1 : (0 : Int) < I64max := by decide
  have p2 : I64min < 0 := by decide
  rw [e1, e2]
  refine ⟨⟨fun hle hn => ?_, fun hne => ?_⟩, fun rd hrd => ⟨⟨fun hle => ?_, ?_⟩, ⟨fun hle => ?_, ?_⟩⟩⟩
  · rw [hn] at hle
    simp only [List.foldl_nil] at hle
    omega
  · obtain ⟨v, hv⟩ := List.exists_mem_of_ne_nil _ hne
    exact (m2 _ hv).trans (x2 _ hv)
  · by_cases h0 : rd.min = 0
    · right
      rcases m3 with m3 | m3
      · omega
      · exact ⟨_, m3, by omega⟩
    · exact .inl h0
  · intro hc
    by_cases h0 : rd.min = 0
    · rcases hc with hc | ⟨v, hv, hv0⟩
      · exact absurd h0 hc
      · have := m2 _ hv; omega
    · refine m2 _ ?_
      unfold allExtremes
      exact List.mem_flatMap.2 ⟨_, hrd, by simp [AddArg.extremes, h0]⟩
  · by_cases h0 : rd.max = 0
    · right
      rcases x3 with x3 | x3
      · omega
      · exact ⟨_, x3, by omega⟩
    · exact .inl h0
  · intro hc
    by_cases h0 : rd.max = 0
    · rcases hc with hc | ⟨v, hv, hv0⟩
      · exact absurd h0 hc
      · have := x2 _ hv; omega
    · refine x2 _ ?_
      unfold allExtremes
      exact List.mem_flatMap.2 ⟨_, hrd, by simp [AddArg.extremes, h0]⟩

/-- A minimum of 0 is lost next to the samples 3 and 5, and kept next to -1. -/
example : ∃ r r' d s s' e,
    run exactEnv (new exOpt) [.add (.reduced { count := 1, min := 0, max := 3 }), .add (.many [3, 5] 2)] = .ok r ∧
    detach exactEnv r = .ok (some d, r') ∧ ¬ d.min ≤ 0 ∧
    run exactEnv (new exOpt) [.add (.reduced { count := 1, min := 0, max := 3 }), .add (.many [3, -1] 2)] = .ok s ∧
    detach exactEnv s = .ok (some e, s') ∧ e.min ≤ 0 := by
  have a2 : detach exactEnv (Reducer.add exactEnv (Reducer.add exactEnv (new exOpt) (.reduced { count := 1, min := 0, max := 3 }))
      (.many [3, 5] 2)) = .ok (some { data := [3, 5], avg := 4, count := 3, lossy := 1, min := 3, max := 5 }, new exOpt) := by
    decide +kernel
  have b2 : detach exactEnv (Reducer.add exactEnv (Reducer.add exactEnv (new exOpt) (.reduced { count := 1, min := 0, max := 3 }))
      (.many [3, -1] 2)) = .ok (some { data := [3, -1], avg := 1, count := 3, lossy := 1, min := -1, max := 3 }, new exOpt) := by
    decide +kernel
  refine ⟨_, _, _, _, _, _, rfl, a2, ?_, rfl, b2, ?_⟩
  · rw [((C60_exact_partial exactEnv exOpt [.add (.reduced { count := 1, min := 0, max := 3 }), .add (.many [3, 5] 2)] _ _ _ rfl a2).2 { count := 1, min := 0, max := 3 } (by decide)).1]
    decide
  · rw [((C60_exact_partial exactEnv exOpt [.add (.reduced { count := 1, min := 0, max := 3 }), .add (.many [3, -1] 2)] _ _ _ rfl b2).2 { count := 1, min := 0, max := 3 } (by decide)).1]
    decide

end Reducer

open Packer

/-! ### C50 -/

/-- Pushing ends exactly if names are not compacted or the separator is not empty. -/
theorem C50_exact_partial (J : Json) (opt : PackerOpts) (hd : Bool) (ops : List PackOp) (o : PObs) (req : PushRequest)
    (h : pexecAll J { pk := Packer.new opt hd } ops = .ok o) :
    (∃ pk, push J o.pk req = .ok pk) ↔ (opt.nameCompact = true → opt.nameSep ≠ []) := by
  constructor
  · rintro ⟨pk, hp⟩ hc hs
    have hb := pbooks_execAll (pbooks_new J opt hd) h
    unfold push at hp
    obtain ⟨r, h1, -⟩ := bind_inv hp
    unfold Packer.measure at h1
    rw [hb.optEq] at h1
    simp only [hc, if_true] at h1
    obtain ⟨q, h2, -⟩ := bind_inv h1
    unfold compactName at h2
    rw [hs, C50_diverges] at h2
    simp at h2
  · intro he
    obtain ⟨pk, h1, -⟩ := C50_push_partial J opt hd ops o req h he
    exact ⟨pk, h1⟩

open ExPacker in
/-- An empty separator does no harm without compaction. -/
example : ∃ pk, push exJson (Packer.new { nameSep := [] } true) (rq "a" [1]) = .ok pk :=
  (C50_exact_partial exJson { nameSep := [] } true [] _ _ rfl).2 (by decide)

/-! ### C64 -/

/-- The number of requests of a batch. -/
theorem Packer.BatchOf.length_data {J : Json} {opt : PackerOpts} {b : MultiPush} {data : List PushRequest} (h : BatchOf J opt b data) :
    b.data.length = data.length := by
  obtain ⟨b', q1, -, q2, -⟩ := finishPop_spec opt h.ne
  have hf := h.fin
  rw [q1] at hf
  simp at hf
  subst hf
  simpa using congrArg List.length q2

/-- All batches of `pushout` keep to `push_limit` exactly if there is none, or no more requests than it allows
are left when popping gives no batch any more. -/
theorem C64_exact_partial (J : Json) (opt : PackerOpts) (ops : List PackOp) (o : PObs)
    (h : pexecAll J { pk := Packer.new opt true } ops = .ok o) :
    ∃ n out pk bs pk', pushout J o.pk = .ok (n, out, pk) ∧ popAll J (o.pk.top.length + 1) o.pk [] = .ok (bs, pk') ∧
      ((∀ b ∈ out, opt.pushLimit ≠ 0 → b.data.length ≤ opt.pushLimit) ↔
        opt.pushLimit = 0 ∨ pk'.contents.length ≤ opt.pushLimit) := by
  have hb := pbooks_execAll (pbooks_new J opt true) h
  obtain ⟨out, pk1, datas, h1, -, -, -, h2, -⟩ := popAll_spec J (o.pk.top.length + 1) [] hb.inv (Nat.lt_succ_self _)
  rw [List.nil_append] at h1
  rw [hb.optEq] at h2
  have hout : ∀ b ∈ out, opt.pushLimit ≠ 0 → b.data.length ≤ opt.pushLimit := by
    clear h1
    induction h2 with
    | nil => simp
    | cons c _ ih =>
      intro b hb' hz
      rcases List.mem_cons.1 hb' with rfl | hb'
      · rw [c.length_data]; exact c.room hz
      · exact ih b hb' hz
  rcases leftover_spec pk1.top with ⟨e, h4⟩ | ⟨b, h4, h5⟩
  · refine ⟨out.length, out ++ [], { pk1 with top := [] }, out, pk1, ?_, h1, ?_⟩
    · unfold pushout
      rw [if_neg (by simp [hb.handlerEq])]
      simp only [h1, bind_ok', h4]
    · rw [List.append_nil]
      exact ⟨fun _ => .inr (by rw [contents_length, e]; exact Nat.zero_le _), fun _ => hout⟩
  · refine ⟨out.length, out ++ [b], { pk1 with top := [] }, out, pk1, ?_, h1, ?_⟩
    · unfold pushout
      rw [if_neg (by simp [hb.handlerEq])]
      simp only [h1, bind_ok', h4]
    · have hl : b.data.length = pk1.contents.length := by simpa [contents] using congrArg List.length (compactAll_ag h5.comp)
      rw [← hl]
      constructor
      · intro hall
        by_cases hz : opt.pushLimit = 0
        · exact .inl hz
        · exact .inr (hall b (by simp) hz)
      · rintro hc c hc' hz
        rcases List.mem_append.1 hc' with hc' | hc'
        · exact hout c hc' hz
        · rw [List.mem_singleton.1 hc']
          exact hc.resolve_left hz

open ExPacker in
/-- Two requests are left over: too many for a limit of 1, but not for one of 2. -/
example : Passes (pexecAll exJson { pk := Packer.new { pushLimit := 2, jsonLimit := 40 } true }
    [.push (rq "a" []), .push (rq "b" [])] >>= fun o => popAll exJson (o.pk.top.length + 1) o.pk []) (fun r =>
      decide (r.1 = []) && decide (r.2.contents.length = 2)) = true := by decide +kernel

/-! ### C66 -/

/-- `multi_push` takes over the requests the sender of the batch meant exactly if the names in the batch, up to
the order, are those names already. -/
theorem C66_exact_partial (J : Json) (W : Wjson) (opt : PackerOpts) (hd : Bool) (ops : List PackOp) (o : PObs) (m : MultiPush)
    (l : List PushRequest) (pk : Packer) (h : pexecAll J { pk := Packer.new opt hd } ops = .ok o) (_hr : Restores W m l)
    (hm : multiPush J o.pk m.data = .ok pk) : pk.contents.Perm (l ++ o.pk.contents) ↔ m.data.Perm l := by
  have hb := pbooks_execAll (pbooks_new J opt hd) h
  have hp := (multiPush_inv hb.inv hm).2.2.2
  constructor
  · intro hl
    exact (List.perm_append_right_iff _).1 (hp.symm.trans hl)
  · intro hl
    exact hp.trans (hl.append_right _)

open ExPacker in
/-- The word for 0 is `0`: the batch says what is meant even without the legend. -/
example : ∃ pk, multiPush exJson (Packer.new {} true) [rq "0" [4]] = .ok pk ∧ pk.contents.Perm ([rq "0" [4]] ++ []) := by
  have h : Passes (multiPush exJson (Packer.new {} true) [rq "0" [4]]) (fun _ => true) = true := by decide +kernel
  obtain ⟨pk, h1, -⟩ := of_passes h
  refine ⟨pk, h1, (C66_exact_partial exJson exWjson {} true [] _ { legend := [['0']], data := [rq "0" [4]] }
    [rq "0" [4]] pk rfl ?_ h1).2 (List.Perm.refl _)⟩
  unfold Restores
  decide +kernel

/-! ### C67 -/

/-- What was taken is kept. -/
theorem popLoop_prefix (J : Json) (fuel : Nat) (st st' : PopState) (h : popLoop J fuel st = .ok st') : st.data <+: st'.data := by
  induction fuel generalizing st with
  | zero => simp [popLoop] at h
  | succ fuel ih =>
    unfold popLoop at h
    by_cases h0 : st.json = 0
    · rw [if_pos h0] at h; cases h; exact List.prefix_refl _
    rw [if_neg h0] at h
    obtain ⟨⟨r, pk⟩, h1, h2⟩ := bind_inv h
    cases r with
    | none => simp only at h2; cases h2; exact List.prefix_refl _
    | some t =>
      simp only at h2
      by_cases h3 : st.json ≥ (charge t.legend st.set t.size).2
      · rw [if_pos h3] at h2
        by_cases h4 : (limits pk.opt st.pushes st.samples).1 = true
        · rw [if_pos h4] at h2
          cases h2
          exact List.prefix_append _ _
        · rw [if_neg h4] at h2
          exact (List.prefix_append _ _).trans (ih _ h2)
      · rw [if_neg h3] at h2
        obtain ⟨pk2, -, h5⟩ := bind_inv h2
        cases h5
        exact List.prefix_refl _

/-- The words recorded for a request are all different. -/
theorem Packer.measure_nodup (J : Json) (opt : PackerOpts) (p : PushRequest) (n : Nat) (lg : List PName)
    (h : Packer.measure J opt p = .ok (n, lg)) : lg.Nodup := by
  unfold Packer.measure at h
  simp only at h
  by_cases hc : opt.nameCompact = true
  · rw [if_pos hc] at h
    obtain ⟨⟨m, l⟩, h1, h2⟩ := bind_inv h
    simp only [Except.ok.injEq, Prod.mk.injEq] at h2
    obtain ⟨-, rfl⟩ := h2
    unfold compactName at h1
    rw [compactLoop_words] at h1
    obtain ⟨ws, -, h3⟩ := bind_inv h1
    simp only [Except.ok.injEq, Prod.mk.injEq] at h3
    rw [← h3.2]
    exact nodup_indexAll ws List.nodup_nil
  · rw [if_neg hc] at h
    simp only [Except.ok.injEq, Prod.mk.injEq] at h
    rw [← h.2]
    exact List.nodup_nil

theorem charge_nodup {ws : List PName} (h : ws.Nodup) (cur : Nat) :
    (charge ws [] cur).2 = cur + (ws.map fun w => w.length + 4).sum := by
  obtain ⟨c1, c2, c3⟩ := charge_spec ws List.nodup_nil cur
  have hp : (charge ws [] cur).1.Perm ws := (List.perm_ext_iff_of_nodup c1 h).2 fun x => by simpa using c2 x
  have := (hp.map fun w => w.length + 4).sum_eq
  simp only [cost, List.map_nil, List.sum_nil] at c3
  omega

/-- `multi_pop` returns no batch exactly if nothing but an empty batch would fit, or no recorded size fits in
the rest, or the request with the largest such size does not fit together with its words, each at the price of
its length and 4. -/
theorem C67_exact_partial (J : Json) (opt : PackerOpts) (hd : Bool) (ops : List PackOp) (o : PObs)
    (r : Option MultiPush) (pk : Packer) (h : pexecAll J { pk := Packer.new opt hd } ops = .ok o)
    (hm : multiPop J o.pk = .ok (r, pk)) :
    ∃ t pk1, popByJsonSize o.pk (opt.jsonLimit - J.multiSize opt.jsonCompact {}) = .ok (t, pk1) ∧
      (r = none ↔ opt.jsonLimit ≤ J.multiSize opt.jsonCompact {} ∨ t = none ∨
        ∃ x, t = some x ∧ opt.jsonLimit < J.multiSize opt.jsonCompact {} + x.size + (x.legend.map fun w => w.length + 4).sum) := by
  have hb := pbooks_execAll (pbooks_new J opt hd) h
  have hpop : ∃ t pk1, popByJsonSize o.pk (opt.jsonLimit - J.multiSize opt.jsonCompact {}) = .ok (t, pk1) ∧
      ∀ x, t = some x → x ∈ o.pk.top := by
    rcases popSize_spec hb.inv (opt.jsonLimit - J.multiSize opt.jsonCompact {}) with ⟨h1, -⟩ | ⟨t, pk', h1, -, -, -, pm, -⟩
    · exact ⟨_, _, h1, by simp⟩
    · exact ⟨_, _, h1, fun x hx => by cases hx; exact pm.mem_iff.1 (by simp)⟩
  obtain ⟨t, pk1, h1, htop⟩ := hpop
  refine ⟨t, pk1, h1, ?_⟩
  unfold multiPop at hm
  by_cases h0 : o.pk.top = []
  · rw [if_pos h0] at hm
    cases hm
    have : t = none := by
      cases t with
      | none => rfl
      | some x => have := htop x rfl; rw [h0] at this; simp at this
    exact ⟨fun _ => .inr (.inl this), fun _ => rfl⟩
  rw [if_neg h0, hb.optEq] at hm
  simp only at hm
  by_cases hE : J.multiSize opt.jsonCompact {} > opt.jsonLimit
  · rw [if_pos hE] at hm
    cases hm
    exact ⟨fun _ => .inl (by omega), fun _ => rfl⟩
  rw [if_neg hE] at hm
  obtain ⟨st, h2, h3⟩ := bind_inv hm
  obtain ⟨res, h4, h5⟩ := bind_inv h3
  cases h5
  have hfin : r = none ↔ st.data = [] := by
    by_cases hdt : st.data = []
    · unfold finishPop at h4
      rw [if_pos hdt] at h4
      cases h4
      exact ⟨fun _ => hdt, fun _ => rfl⟩
    · obtain ⟨b, hb', -⟩ := finishPop_spec st.pk.opt hdt
      rw [hb'] at h4
      cases h4
      exact ⟨fun hx => (by cases hx), fun hx => absurd hx hdt⟩
  rw [hfin]
  unfold popLoop at h2
  simp only at h2
  by_cases hz : opt.jsonLimit - J.multiSize opt.jsonCompact {} = 0
  · rw [if_pos hz] at h2
    cases h2
    exact ⟨fun _ => .inl (by omega), fun _ => rfl⟩
  rw [if_neg hz, h1, bind_ok'] at h2
  cases t with
  | none =>
    simp only at h2
    cases h2
    exact ⟨fun _ => .inr (.inl rfl), fun _ => rfl⟩
  | some x =>
    simp only at h2
    have hnd := measure_nodup J _ _ _ _ (hb.inv.meas x (htop x rfl))
    rw [charge_nodup hnd] at h2
    by_cases hfit : opt.jsonLimit - J.multiSize opt.jsonCompact {} ≥ x.size + (x.legend.map fun w => w.length + 4).sum
    · rw [if_pos hfit] at h2
      have hpre : [x.req] <+: st.data := by
        by_cases hl : (limits pk1.opt opt.pushLimit opt.dataLimit).1 = true
        · rw [if_pos hl] at h2
          cases h2
          exact List.prefix_refl _
        · rw [if_neg hl] at h2
          exact popLoop_prefix J _ _ _ h2
      constructor
      · intro hx; rw [hx] at hpre; simp at hpre
      · rintro (hx | hx | ⟨y, hy, hx⟩)
        · omega
        · cases hx
        · cases hy; omega
    · rw [if_neg hfit] at h2
      obtain ⟨pk2, -, h6⟩ := bind_inv h2
      cases h6
      exact ⟨fun _ => .inr (.inr ⟨x, rfl, by omega⟩), fun _ => rfl⟩

open ExPacker in
/-- The limit is 52 and an empty batch takes 12.  Of the two requests recorded as 30 the one found is `w…`, whose
only word costs 28; `b` would have fitted. -/
example : Passes (pexecAll exJson { pk := Packer.new { jsonLimit := 52, jsonCompact := true, nameCompact := true } true }
    [.push (rq "wwwwwwwwwwwwwwwwwwwwwwww" []), .push (rq "b" [])] >>= fun o => popByJsonSize o.pk (52 - exJson.multiSize true {}))
    (fun r => decide (r.1.map (fun x => (exJson.multiSize true {}, x.size, (x.legend.map fun w => w.length + 4).sum)) =
      some (12, 30, 28))) = true := by decide +kernel

/-! ### C69 -/

/-- A failing `recompact` of the requests: the first bad one, and those before it restored. -/
theorem recompactAll_split (W : Wjson) (sep : PName) (legend : List PName) (ps qs : List PushRequest)
    (h : recompactAll W sep legend ps = .ok (false, qs)) : ∃ a p b a', ps = a ++ p :: b ∧ qs = a' ++ p :: b ∧
      recompactAll W sep legend a = .ok (true, a') ∧ recompactAll W sep legend [p] = .ok (false, [p]) := by
  induction ps generalizing qs with
  | nil => simp [recompactAll] at h
  | cons p ps ih =>
    unfold recompactAll at h
    obtain ⟨r, h1, h2⟩ := bind_inv h
    cases r with
    | none =>
      simp only [Except.ok.injEq, Prod.mk.injEq, true_and] at h2
      refine ⟨[], p, ps, [], rfl, h2.symm, rfl, ?_⟩
      unfold recompactAll
      rw [h1]; rfl
    | some n =>
      obtain ⟨⟨ok, qs'⟩, h3, h4⟩ := bind_inv h2
      simp only [Except.ok.injEq, Prod.mk.injEq] at h4
      obtain ⟨rfl, rfl⟩ := h4
      obtain ⟨a, q, b, a', rfl, rfl, h5, h6⟩ := ih qs' h3
      refine ⟨p :: a, q, b, { p with name := n } :: a', rfl, rfl, ?_, h6⟩
      unfold recompactAll
      rw [h1, bind_ok']
      simp only [h5, bind_ok']

/-- When `recompact` fails, either the separator is empty and nothing changes; or there is a first request that
cannot be restored, those before it have been restored, and nothing else changes.  So nothing changes exactly if
those before it were, all of them, written as they are restored. -/
theorem C69_exact_partial (W : Wjson) (m m' : MultiPush) (h : recompact W m = .ok (false, m')) :
    (m.sep = [] ∧ m' = m) ∨
    ∃ a p b a', m.data = a ++ p :: b ∧ m' = { m with data := a' ++ p :: b } ∧ Restores W { m with data := a } a' ∧
      recompact W { m with data := [p] } = .ok (false, { m with data := [p] }) ∧ (m' = m ↔ a' = a) := by
  unfold recompact at h
  by_cases hl : m.legend = []
  · rw [if_pos hl] at h; simp at h
  rw [if_neg hl] at h
  by_cases hs : m.sep = []
  · rw [if_pos hs] at h
    simp only [Except.ok.injEq, Prod.mk.injEq, true_and] at h
    exact .inl ⟨hs, h.symm⟩
  rw [if_neg hs] at h
  obtain ⟨⟨ok, qs⟩, h6, h7⟩ := bind_inv h
  simp only [Except.ok.injEq, Prod.mk.injEq] at h7
  obtain ⟨rfl, rfl⟩ := h7
  obtain ⟨a, p, b, a', e1, e2, e3, e4⟩ := recompactAll_split W _ _ _ _ h6
  refine .inr ⟨a, p, b, a', e1, by rw [e2]; rfl, ?_, ?_, ?_⟩
  · unfold Restores recompact
    simp only
    rw [if_neg hl, if_neg hs, e3]
    rfl
  · unfold recompact
    simp only
    rw [if_neg hl, if_neg hs, e4]
    rfl
  · rw [e2]
    cases m
    simp only at e1
    subst e1
    simp

open ExPacker in
/-- The first request of this batch is restored, the second cannot be, the third is not looked at. -/
example : recompact exWjson { legend := [['a']], data := [rq "0" [], rq "x" [], rq "0" []] } =
    .ok (false, { legend := [['a']], data := [rq "a" [], rq "x" [], rq "0" []] }) := by decide +kernel

end Wrtstat
