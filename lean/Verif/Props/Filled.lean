/-
C139: batches are filled.
-/
import Verif.Props.PackerSizes

namespace Wrtstat

set_option autoImplicit false

open Packer

/-- The batch of these requests, as the packer would send it. -/
def asBatch (opt : PackerOpts) (l : List PushRequest) : M MultiPush :=
  let m : MultiPush := { sep := opt.nameSep, data := l }
  if opt.nameCompact then compact m >>= fun r => .ok r.2 else .ok m

/-- The claim: no request left behind by `multi_pop` would have fitted in the batch, unless the batch has as many requests as
allowed. -/
def C139_FullClaim : Prop :=
  ∀ (J : Json) (opt : PackerOpts) (hd : Bool) (ops : List PackOp) (o : PObs) (b b' : MultiPush) (l : List PushRequest) (pk : Packer)
    (p : PushRequest), pexecAll J { pk := Packer.new opt hd } ops = .ok o → multiPop J o.pk = .ok (some b, pk) → asBatch opt l = .ok b →
    (opt.pushLimit ≠ 0 → l.length < opt.pushLimit) → p ∈ pk.contents → asBatch opt (l ++ [p]) = .ok b' →
    opt.jsonLimit < J.multiSize opt.jsonCompact b'

/-- A run that ends with a request left behind that would have fitted. -/
def leavesOne (opt : PackerOpts) (ps l : List PushRequest) (p : PushRequest) : Bool :=
  match pexecAll exJson (ExPacker.start opt) (ps.map .push), asBatch opt l, asBatch opt (l ++ [p]) with
  | .ok o, .ok b, .ok b' =>
    match multiPop exJson o.pk with
    | .ok (some c, pk) => decide (c = b ∧ p ∈ pk.contents ∧ exJson.multiSize opt.jsonCompact b' ≤ opt.jsonLimit)
    | _ => false
  | _, _, _ => false

theorem refute_filled {opt : PackerOpts} {ps l : List PushRequest} {p : PushRequest} (hl : opt.pushLimit ≠ 0 → l.length < opt.pushLimit)
    (h : leavesOne opt ps l p = true) : ¬ C139_FullClaim := by
  intro hf
  unfold leavesOne at h
  split at h
  · rename_i o b b' e1 e2 e3
    split at h
    · rename_i c pk e4
      simp only [decide_eq_true_eq] at h
      obtain ⟨rfl, h1, h2⟩ := h
      have := hf exJson opt true _ o c b' l pk p e1 e4 e2 hl h1 e3
      omega
    · simp at h
  · simp at h

namespace ExPacker

/-- A short separator. -/
def shortOpt : PackerOpts := { nameSep := ['~'], jsonCompact := true, jsonLimit := 73 }

/-- Compaction of names. -/
def wordsOpt : PackerOpts := { jsonCompact := true, nameCompact := true, jsonLimit := 95 }

end ExPacker

/-- With a separator shorter than `~~` the room is computed too small. -/
theorem C139_refuted : ¬ C139_FullClaim :=
  refute_filled (opt := ExPacker.shortOpt) (ps := [ExPacker.rq "aa" [], ExPacker.rq "b" []]) (l := [ExPacker.rq "aa" []])
    (p := ExPacker.rq "b" []) (by decide) (by decide +kernel)

/-- With compaction of names `multi_pop` stops at a request that does not fit together with its words. -/
theorem C139_refuted_compact : ∃ ps l p, leavesOne ExPacker.wordsOpt ps l p = true ∧ l.length < ExPacker.wordsOpt.pushLimit ∧
    ExPacker.wordsOpt.nameSep = ['~', '~'] :=
  ⟨[ExPacker.rq "a" [1, 1, 1], ExPacker.rq "wwwwwwwwwwwwwwwwwwww" [1, 1], ExPacker.rq "a" []], [ExPacker.rq "a" [1, 1, 1]],
    ExPacker.rq "a" [], by decide +kernel, by decide, rfl⟩

/-! ### Without compaction -/

theorem pushSize_pos (J : Json) (c : Bool) (p : PushRequest) : 0 < J.pushSize c p := by
  have := J.le_strSize p.name
  unfold Json.pushSize
  omega

/-- The room of the batch, counted exactly. -/
def Room139 (J : Json) (opt : PackerOpts) (d : List PushRequest) (j : Nat) : Prop :=
  emptySize J opt + (d.map (J.pushSize opt.jsonCompact)).sum + d.length + j = opt.jsonLimit ∨
    (j = 0 ∧ emptySize J opt + (d.map (J.pushSize opt.jsonCompact)).sum + d.length = opt.jsonLimit + 1)

theorem popLoop_full {J : Json} (fuel : Nat) {st r : PopState} (hi : PInv J st.pk) (hc : st.pk.opt.nameCompact = false)
    (hr : PushRoom st.pk.opt st.data.length st.pushes) (hp : st.pk.opt.pushLimit ≠ 0 → 0 < st.pushes)
    (hs : st.pk.opt.dataLimit ≠ 0 → 0 < st.samples) (hm : Room139 J st.pk.opt st.data st.json) (h : popLoop J fuel st = .ok r) :
    r.pk.opt = st.pk.opt ∧ PInv J r.pk ∧ Room139 J st.pk.opt r.data r.json ∧
      ((st.pk.opt.pushLimit ≠ 0 ∧ r.data.length = st.pk.opt.pushLimit) ∨ r.json = 0 ∨ ∀ t ∈ r.pk.top, r.json < t.size) := by
  induction fuel generalizing st with
  | zero => simp [popLoop] at h
  | succ n ih =>
    unfold popLoop at h
    by_cases h0 : st.json = 0
    · rw [if_pos h0] at h
      simp only [Except.ok.injEq] at h
      subst h
      exact ⟨rfl, hi, hm, Or.inr (Or.inl h0)⟩
    · rw [if_neg h0] at h
      rcases popSize_spec hi st.json with ⟨h1, h2⟩ | ⟨t, pk', h1, i', o', -, pm, h3, -⟩
      · rw [h1, bind_ok'] at h
        simp only [Except.ok.injEq] at h
        subst h
        exact ⟨rfl, hi, hm, Or.inr (Or.inr h2)⟩
      · obtain ⟨l1, s1⟩ := rec_plain hi hc (pm.mem_iff.1 List.mem_cons_self)
        obtain ⟨k1, k2, k3, k4⟩ := limits_spec (n := st.data.length) hr hp hs
        rw [h1, bind_ok'] at h
        have hjl : st.pk.opt.jsonLimit ≠ 0 := by
          have := emptySize_eq J st.pk.opt
          rcases hm with hm | hm <;> omega
        simp only [l1, charge, ge_iff_le, h3, if_true, o', hjl, ne_eq, not_false_iff] at h
        have hm' : Room139 J st.pk.opt (st.data ++ [t.req]) (if st.json - t.size > 0 then st.json - t.size - 1 else st.json - t.size) := by
          unfold Room139 at hm ⊢
          rw [List.map_append, List.sum_append, List.map_singleton, List.sum_singleton, ← s1, List.length_append, List.length_singleton]
          rcases hm with hm | hm
          · split <;> omega
          · omega
        split at h
        · rename_i hst
          simp only [Except.ok.injEq] at h
          subst h
          refine ⟨o', i', hm', Or.inl ?_⟩
          obtain ⟨g1, g2⟩ := k4 hst
          have := k2 g1
          refine ⟨g1, ?_⟩
          rw [List.length_append, List.length_singleton]
          omega
        · rename_i hst
          have q := ih (st := PopState.mk (if st.json - t.size > 0 then st.json - t.size - 1 else st.json - t.size)
              (limits st.pk.opt st.pushes st.samples).2.1 (limits st.pk.opt st.pushes st.samples).2.2
              st.set pk' (st.data ++ [t.req])) i' (by rw [o']; exact hc)
            (by show PushRoom pk'.opt (st.data ++ [t.req]).length _; rw [List.length_append, o']; exact k2)
            (by show pk'.opt.pushLimit ≠ 0 → _; rw [o']; exact k3 (by simpa using hst))
            (by show pk'.opt.dataLimit ≠ 0 → _; rw [o']; simp only [k1]; exact hs)
            (by show Room139 J pk'.opt _ _; rw [o']; exact hm') h
          simpa only [o'] using q

theorem multiPop_full {J : Json} {pk pk' : Packer} {b : MultiPush} (hi : PInv J pk) (hc : pk.opt.nameCompact = false)
    (h : multiPop J pk = .ok (some b, pk')) :
    PInv J pk' ∧ pk'.opt = pk.opt ∧ b.sep = pk.opt.nameSep ∧ b.legend = [] ∧ b.data ≠ [] ∧
      ((pk.opt.pushLimit ≠ 0 ∧ b.data.length = pk.opt.pushLimit) ∨
        ∀ p ∈ pk'.contents, pk.opt.jsonLimit <
          emptySize J pk.opt + (b.data.map (J.pushSize pk.opt.jsonCompact)).sum + b.data.length + J.pushSize pk.opt.jsonCompact p) := by
  unfold multiPop at h
  split at h
  · simp at h
  · simp only at h
    split at h
    · simp at h
    · rename_i h1 h2
      obtain ⟨st, g1, h⟩ := bind_inv h
      obtain ⟨x, g2, h⟩ := bind_inv h
      simp only [Except.ok.injEq, Prod.mk.injEq] at h
      obtain ⟨rfl, rfl⟩ := h
      have hE : emptySize J pk.opt = J.multiSize pk.opt.jsonCompact {} := rfl
      obtain ⟨a1, a2, a3, a4⟩ := popLoop_full (pk.top.length + 1) (st := PopState.mk (pk.opt.jsonLimit - J.multiSize pk.opt.jsonCompact {})
        pk.opt.pushLimit pk.opt.dataLimit [] pk []) hi hc (fun _ => by simp)
        (fun h => Nat.pos_of_ne_zero h) (fun h => Nat.pos_of_ne_zero h) (Or.inl (by simp; omega)) g1
      simp only at a1 a3 a4
      unfold finishPop at g2
      split at g2
      · simp at g2
      · rename_i hne
        simp only [a1, hc, Bool.false_eq_true, if_false, Except.ok.injEq, Option.some.injEq] at g2
        subst g2
        refine ⟨a2, a1, rfl, rfl, hne, ?_⟩
        rcases a4 with a4 | a4
        · exact Or.inl a4
        · refine Or.inr fun p hp => ?_
          obtain ⟨t, ht, rfl⟩ := List.mem_map.1 hp
          have hs := (rec_plain a2 (by rw [a1]; exact hc) ht).2
          rw [a1] at hs
          have hpos := pushSize_pos J pk.opt.jsonCompact t.req
          unfold Room139 at a3
          simp only at a3 ⊢
          rcases a4 with a4 | a4
          · rcases a3 with a3 | a3 <;> omega
          · have := a4 t ht
            rcases a3 with a3 | a3 <;> omega

/-- The length of a plain batch. -/
theorem multiSize_plain (J : Json) (opt : PackerOpts) (l : List PushRequest) :
    J.multiSize opt.jsonCompact { sep := opt.nameSep, legend := [], data := l } + 4 =
      emptySize J opt + J.strSize opt.nameSep + (l.map (J.pushSize opt.jsonCompact)).sum + (l.length - 1) := by
  rw [emptySize_eq]
  unfold Json.multiSize listSize
  simp only [List.map_nil, List.sum_nil, List.length_nil, List.length_map]
  omega

/-- Without compaction of names every batch is filled, up to the difference between the separator and `~~`: with any request left
behind it would be too long, unless it has as many requests as allowed; missing are packers that compact names. -/
theorem C139_filled_partial (J : Json) (opt : PackerOpts) (hd : Bool) (hc : opt.nameCompact = false) (ops : List PackOp) (o : PObs)
    (b : MultiPush) (pk : Packer) (p : PushRequest) (h : pexecAll J { pk := Packer.new opt hd } ops = .ok o)
    (hm : multiPop J o.pk = .ok (some b, pk)) (hl : opt.pushLimit ≠ 0 → b.data.length < opt.pushLimit) (hp : p ∈ pk.contents) :
    opt.jsonLimit + J.strSize opt.nameSep < J.multiSize opt.jsonCompact { b with data := b.data ++ [p] } + 4 := by
  have hb := pbooks_execAll (pbooks_new J opt hd) h
  obtain ⟨-, -, e1, e2, -, e3⟩ := multiPop_full hb.inv (by rw [hb.optEq]; exact hc) hm
  rw [hb.optEq] at e1 e3
  have e : { b with data := b.data ++ [p] } = ({ sep := opt.nameSep, legend := [], data := b.data ++ [p] } : MultiPush) := by rw [e1, e2]
  rw [e, multiSize_plain, List.map_append, List.sum_append, List.map_singleton, List.sum_singleton, List.length_append, List.length_singleton]
  rcases e3 with e3 | e3
  · have := hl e3.1
    omega
  · have := e3 p hp
    omega

/-- The lengths of the requests of a batch, and of a comma for each. -/
def payload (J : Json) (c : Bool) (l : List PushRequest) : Nat := (l.map (J.pushSize c)).sum + l.length

/-- The two batches do not fit in one. -/
def TooLong (J : Json) (opt : PackerOpts) (b b' : MultiPush) : Prop :=
  opt.jsonLimit + J.strSize opt.nameSep + J.strSize opt.nameSep < J.multiSize opt.jsonCompact b + J.multiSize opt.jsonCompact b' ∧
    opt.jsonLimit + 1 < emptySize J opt + payload J opt.jsonCompact b.data + payload J opt.jsonCompact b'.data

/-- The batch has as many requests as allowed. -/
def FullOf (opt : PackerOpts) (b : MultiPush) : Prop := opt.pushLimit ≠ 0 ∧ b.data.length = opt.pushLimit

theorem popAll_pairs {J : Json} (fuel : Nat) {pk pk' : Packer} {out res : List MultiPush} (hi : PInv J pk) (hc : pk.opt.nameCompact = false)
    (hj : ∀ b ∈ out, b.sep = pk.opt.nameSep ∧ b.legend = [] ∧ b.data ≠ [] ∧ (FullOf pk.opt b ∨ ∀ p ∈ pk.contents, pk.opt.jsonLimit <
      emptySize J pk.opt + (b.data.map (J.pushSize pk.opt.jsonCompact)).sum + b.data.length + J.pushSize pk.opt.jsonCompact p))
    (ho : out.Pairwise fun b b' => FullOf pk.opt b ∨ TooLong J pk.opt b b') (h : popAll J fuel pk out = .ok (res, pk')) :
    res.Pairwise fun b b' => FullOf pk.opt b ∨ TooLong J pk.opt b b' := by
  induction fuel generalizing pk out with
  | zero => simp [popAll] at h
  | succ n ih =>
    unfold popAll at h
    obtain ⟨⟨r, q⟩, g, h⟩ := bind_inv h
    cases r with
    | none =>
      simp only [Except.ok.injEq, Prod.mk.injEq] at h
      rw [← h.1]
      exact ho
    | some b =>
      obtain ⟨a1, a2, a3, a4, a5, a6⟩ := multiPop_full hi hc g
      have cont : (b.data ++ q.contents).Perm pk.contents := by
        obtain ⟨r1, q1, g1, -, -, -, g2⟩ := multiPop_spec J hi
        rw [g] at g1
        simp only [Except.ok.injEq, Prod.mk.injEq] at g1
        obtain ⟨rfl, rfl⟩ := g1
        rcases g2 with ⟨e, -⟩ | ⟨b1, data, e, bo, g2⟩
        · simp at e
        · simp only [Option.some.injEq] at e
          subst e
          obtain ⟨b2, f1, -, -, -, f2, -⟩ := finishPop_spec pk.opt bo.ne
          have := bo.fin
          rw [f1] at this
          simp only [Except.ok.injEq, Option.some.injEq] at this
          have e := f2 hc
          rw [this] at e
          rw [e]
          exact g2
      have := ih (pk := q) (out := out ++ [b]) a1 (by rw [a2]; exact hc) (by
          rw [a2]
          intro x hx
          rcases List.mem_append.1 hx with hx | hx
          · obtain ⟨c1, c2, c3, c4⟩ := hj x hx
            exact ⟨c1, c2, c3, c4.imp_right fun c4 p hp => c4 p (cont.mem_iff.1 (List.mem_append_right _ hp))⟩
          · rw [List.mem_singleton] at hx
            subst hx
            exact ⟨a3, a4, a5, a6⟩) (by
          rw [a2]
          rw [List.pairwise_append]
          refine ⟨ho, List.pairwise_singleton _ _, ?_⟩
          intro x hx y hy
          rw [List.mem_singleton] at hy
          subst hy
          obtain ⟨c1, c2, c3, c4⟩ := hj x hx
          refine c4.imp_right fun c4 => ?_
          obtain ⟨p, hpb⟩ := List.exists_mem_of_ne_nil _ a5
          have c5 := c4 p (cont.mem_iff.1 (List.mem_append_left _ hpb))
          have ex : x = { sep := pk.opt.nameSep, legend := [], data := x.data } := by rw [← c1, ← c2]
          have ey : y = { sep := pk.opt.nameSep, legend := [], data := y.data } := by rw [← a3, ← a4]
          have m1 := multiSize_plain J pk.opt x.data
          have m2 := multiSize_plain J pk.opt y.data
          rw [← ex] at m1
          rw [← ey] at m2
          have l1 := List.length_pos_iff.2 c3
          have l2 : J.pushSize pk.opt.jsonCompact p ≤ (y.data.map (J.pushSize pk.opt.jsonCompact)).sum :=
            List.single_le_sum (fun _ _ => Nat.zero_le _) _ (List.mem_map_of_mem hpb)
          have l3 := List.length_pos_iff.2 a5
          have := emptySize_eq J pk.opt
          unfold TooLong payload
          split at this <;> omega) h
      rw [a2] at this
      exact this

theorem sum_pairs {α : Type} (f : α → Nat) (L : Nat) (l : List α) (h : l.Pairwise fun b b' => L ≤ f b + f b') :
    L * (l.length / 2) ≤ (l.map f).sum := by
  match l, h with
  | [], _ => simp
  | [a], _ => simp
  | a :: b :: l, h =>
    have h1 := List.pairwise_cons.1 h
    have h2 := List.pairwise_cons.1 h1.2
    have := sum_pairs f L l h2.2
    simp only [List.length_cons, List.map_cons, List.sum_cons]
    have e : (l.length + 1 + 1) / 2 = l.length / 2 + 1 := by omega
    rw [e, Nat.mul_add, Nat.mul_one]
    have := h1.1 b List.mem_cons_self
    omega

/-- Of the batches that `pushout` counts no two fit in one, unless the first has as many requests as allowed, so without a limit to
the number of requests there are at most about twice as many as necessary; missing are packers that compact names. -/
theorem C139_pairs_partial (J : Json) (opt : PackerOpts) (hd : Bool) (hc : opt.nameCompact = false)
    (ops : List PackOp) (o : PObs) (n : Nat) (out : List MultiPush) (pk : Packer) (h : pexecAll J { pk := Packer.new opt hd } ops = .ok o)
    (hm : pushout J o.pk = .ok (n, out, pk)) :
    (∀ i j b b', i < j → j < n → out[i]? = some b → out[j]? = some b' → (opt.pushLimit ≠ 0 ∧ b.data.length = opt.pushLimit) ∨
      opt.jsonLimit < J.multiSize opt.jsonCompact b + J.multiSize opt.jsonCompact b') ∧
    (opt.pushLimit = 0 → opt.jsonLimit * (n / 2) ≤ (out.map (J.multiSize opt.jsonCompact)).sum) := by
  have hb := pbooks_execAll (pbooks_new J opt hd) h
  unfold pushout at hm
  split at hm
  · simp only [Except.ok.injEq, Prod.mk.injEq] at hm
    obtain ⟨rfl, rfl, rfl⟩ := hm
    exact ⟨fun i j b b' hi hj => by omega, by simp⟩
  · obtain ⟨⟨res, q⟩, g1, hm⟩ := bind_inv hm
    obtain ⟨last, g2, hm⟩ := bind_inv hm
    simp only [Except.ok.injEq, Prod.mk.injEq] at hm
    obtain ⟨rfl, rfl, rfl⟩ := hm
    have ch := popAll_pairs _ hb.inv (by rw [hb.optEq]; exact hc) (by simp) List.Pairwise.nil g1
    rw [hb.optEq] at ch
    refine ⟨fun i j b b' hi hj e e' => ?_, fun h0 => ?_⟩
    · rw [List.getElem?_append_left (by omega)] at e e'
      obtain ⟨l1, e⟩ := List.getElem?_eq_some_iff.1 e
      obtain ⟨l2, e'⟩ := List.getElem?_eq_some_iff.1 e'
      have := List.pairwise_iff_getElem.1 ch i j l1 l2 hi
      rw [e, e'] at this
      exact this.imp id fun t => by have := t.1; omega
    · have := sum_pairs (J.multiSize opt.jsonCompact) opt.jsonLimit res (ch.imp fun {a b} h => by
        rcases h with h | h
        · exact absurd h0 h.1
        · have := h.1
          omega)
      rw [List.map_append, List.sum_append]
      omega

/-- A witness: three requests, two of which fit in a batch; the batch with the third would be too long, and so are the two batches of
`pushout` together. -/
example : (match pexecAll exJson (ExPacker.start { jsonCompact := true, jsonLimit := 80 })
      ([ExPacker.rq "aa" [], ExPacker.rq "b" [], ExPacker.rq "c" [7]].map .push) with
    | .ok o => match multiPop exJson o.pk, pushout exJson o.pk with
      | .ok (some b, pk), .ok (n, out, _) => decide (b.data = [ExPacker.rq "aa" [], ExPacker.rq "c" [7]] ∧ pk.contents = [ExPacker.rq "b" []] ∧
          n = 2 ∧ out.map (exJson.multiSize true) = [75, 42])
      | _, _ => false
    | _ => false) = true := by decide +kernel

end Wrtstat
