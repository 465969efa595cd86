/-
Property C114: a handler that throws in `basic_packer::pushout`.

An exception on a batch of `multi_pop` costs nothing: what was not handed over is still in the packer and `pushout`, called
again, goes on (`C114_kept_partial`, `C114_again_partial`).  The last batch, of requests that exceed the limits, is built by
moving the requests out of `_top`, which is cleared only after the handler returns: an exception leaves requests with empty
names and no data, but with their counts, which are handed over again (`C114_refuted`, `C114_rest_partial`).
-/
import Verif.Model.PackerThrow
import Verif.Props.Packer

namespace Wrtstat

set_option autoImplicit false

open Packer

/-- After an exception the packer holds exactly the requests that were not handed over. -/
def C114_FullClaim : Prop :=
  ∀ (J : Json) (W : Wjson) (opt : PackerOpts) (ops : List PackOp) (o : PObs) (thr : List MultiPush → Bool) (t : Thrown) (n : Nat)
    (out : List MultiPush) (pk : Packer), pexecAll J { pk := Packer.new opt true } ops = .ok o →
    pushoutX J o.pk thr = .ok (t, n, out, pk) → (∀ b ∈ out, b.legend.length ≤ 2 ^ 64) →
    ∃ datas, List.Forall₂ (Restores W) out datas ∧ (datas.flatten ++ pk.contents).Perm o.pk.contents

namespace ExPacker

/-- Two requests that exceed the limit of a batch. -/
def tight : M PObs := pexecAll exJson (start { jsonLimit := 10 })
  [.push { name := ['a'], ag := { count := 3, data := [1, 2, 3] } }, .push { name := ['b'], ag := { count := 1, data := [4] } }]

/-- The handler throws on the last batch; `pushout` called again hands over four events of nothing. -/
theorem phantom : (match (do
    let o ← tight
    let (t, _, out, pk) ← pushoutX exJson o.pk fun _ => true
    let (_, out', _) ← pushout exJson pk
    .ok (t, o, out, pk, out') : M (Thrown × PObs × List MultiPush × Packer × List MultiPush)) with
    | .ok (t, o, out, pk, out') => decide (t = .rest ∧ (∀ b ∈ out, b.legend.length ≤ 2 ^ 64) ∧
        o.pk.contents.length = 2 ∧ out.map (fun b => b.data.length) = [2] ∧
        pk.contents.map (fun p => (p.name, p.ag.count, p.ag.data)) = [([], 1, []), ([], 3, [])] ∧
        out'.map (fun b => (b.legend, b.data.map fun p => (p.ag.count, p.ag.data))) = [([[]], [(1, []), (3, [])])])
    | .error _ => false) = true := by decide +kernel

end ExPacker

theorem recompactAll_length {W : Wjson} {sep : PName} {lg : List PName} : ∀ {ps qs : List PushRequest} {ok : Bool},
    recompactAll W sep lg ps = .ok (ok, qs) → qs.length = ps.length := by
  intro ps
  induction ps with
  | nil => intro qs ok h; cases h; rfl
  | cons p ps ih =>
    intro qs ok h
    rw [recompactAll] at h
    obtain ⟨r, h1, h⟩ := bind_inv h
    cases r with
    | none => cases h; rfl
    | some n =>
      simp only at h
      obtain ⟨⟨ok', qs'⟩, h2, h⟩ := bind_inv h
      cases h
      simp [ih h2]

theorem restores_length {W : Wjson} {b : MultiPush} {l : List PushRequest} (h : Restores W b l) : l.length = b.data.length := by
  unfold Restores recompact at h
  by_cases h1 : b.legend = []
  · rw [if_pos h1] at h
    simp only [Except.ok.injEq, Prod.mk.injEq, true_and] at h
    have := congrArg MultiPush.data h
    simp only at this
    rw [this]
  rw [if_neg h1] at h
  by_cases h2 : b.sep = []
  · rw [if_pos h2] at h; cases h
  rw [if_neg h2] at h
  obtain ⟨⟨ok, data⟩, h3, h⟩ := bind_inv h
  have hd : data = l := by
    simp only [Except.ok.injEq, Prod.mk.injEq] at h
    exact congrArg MultiPush.data h.2
  rw [← hd]
  exact recompactAll_length h3

theorem restoresAll_length {W : Wjson} {out : List MultiPush} {datas : List (List PushRequest)}
    (h : List.Forall₂ (Restores W) out datas) : datas.flatten.length = (out.map fun b => b.data.length).sum := by
  induction h with
  | nil => rfl
  | cons c _ ih => rw [List.flatten_cons, List.length_append, ih, restores_length c, List.map_cons, List.sum_cons]

theorem C114_refuted : ¬ C114_FullClaim := by
  intro h
  have hw := ExPacker.phantom
  split at hw
  · rename_i t o out pk out' e
    obtain ⟨o1, e1, e⟩ := bind_inv e
    obtain ⟨⟨t1, n1, out1, pk1⟩, e2, e⟩ := bind_inv e
    obtain ⟨⟨n2, out2, pk2⟩, e3, e⟩ := bind_inv e
    cases e
    simp only [decide_eq_true_eq] at hw
    obtain ⟨_, h2, h3, h4, h5, _⟩ := hw
    obtain ⟨datas, k1, k2⟩ := h exJson exWjson { jsonLimit := 10 } _ o _ t n1 out pk e1 e2 h2
    have hl := k2.length_eq
    have h5' : pk.contents.length = 2 := by
      have := congrArg List.length h5
      simpa using this
    have h6 := restoresAll_length k1
    rw [List.length_append, h5', h3, h6, h4] at hl
    simp at hl
  · cases hw

/-! ### The loop -/

theorem popAllX_spec (J : Json) (thr : List MultiPush → Bool) (fuel : Nat) {pk : Packer} (out : List MultiPush) (hi : PInv J pk)
    (hf : pk.top.length < fuel) :
    ∃ t out' pk' datas, popAllX J thr fuel pk out = .ok (t, out ++ out', pk') ∧ PInv J pk' ∧ pk'.opt = pk.opt ∧
      pk'.handler = pk.handler ∧ List.Forall₂ (BatchOf J pk.opt) out' datas ∧
      (datas.flatten ++ pk'.contents).Perm pk.contents ∧
      (t = false → popAll J fuel pk out = .ok (out ++ out', pk')) ∧
      (t = true → out' ≠ [] ∧ thr (out ++ out') = true ∧
        ∀ f r, popAll J f pk' (out ++ out') = .ok r → ∃ F, popAll J F pk out = .ok r) := by
  induction fuel generalizing pk out with
  | zero => omega
  | succ fuel ih =>
    obtain ⟨r, pk1, h1, i1, o1, d1, h2⟩ := multiPop_spec J hi
    unfold popAllX
    simp only [h1, bind_ok']
    rcases h2 with ⟨rfl, h2, -⟩ | ⟨b, data, rfl, h2, h3⟩
    · exact ⟨false, [], pk1, [], by simp, i1, o1, d1, List.Forall₂.nil, by simpa using h2,
        fun _ => by rw [popAll, h1, bind_ok']; simp, fun h => (by cases h)⟩
    · have hlen := h3.length_eq
      have hne := List.length_pos_iff.2 h2.ne
      rw [List.length_append, contents_length, contents_length] at hlen
      simp only
      by_cases ht : thr (out ++ [b]) = true
      · rw [if_pos ht]
        refine ⟨true, [b], pk1, [data], rfl, i1, o1, d1, List.Forall₂.cons h2 List.Forall₂.nil, by simpa using h3,
          fun h => (by cases h), fun _ => ⟨by simp, ht, fun f r hr => ⟨f + 1, ?_⟩⟩⟩
        rw [popAll, h1, bind_ok']
        exact hr
      · rw [if_neg ht]
        obtain ⟨t, out', pk2, datas, k1, k2, k3, k4, k5, k6, k7, k8⟩ := ih (out ++ [b]) i1 (by omega)
        refine ⟨t, b :: out', pk2, data :: datas, by rw [k1]; simp, k2, k3.trans o1, k4.trans d1, ?_, ?_, fun ht => ?_, fun ht => ?_⟩
        · rw [o1] at k5; exact List.Forall₂.cons h2 k5
        · rw [List.flatten_cons, List.append_assoc]
          exact (List.Perm.append_left _ k6).trans h3
        · rw [popAll, h1, bind_ok']
          simpa using k7 ht
        · obtain ⟨_, j2, j3⟩ := k8 ht
          have e : out ++ [b] ++ out' = out ++ b :: out' := by simp
          rw [e] at j2 j3
          refine ⟨by simp, j2, fun f r hr => ?_⟩
          obtain ⟨F, hF⟩ := j3 f r hr
          refine ⟨F + 1, ?_⟩
          rw [popAll, h1, bind_ok']
          exact hF

theorem popAll_mono {J : Json} : ∀ (f g : Nat) (pk : Packer) (out : List MultiPush) (r : List MultiPush × Packer), f ≤ g →
    popAll J f pk out = .ok r → popAll J g pk out = .ok r := by
  intro f
  induction f with
  | zero => intro g pk out r _ h; cases h
  | succ f ih =>
    intro g pk out r hg h
    obtain ⟨g', rfl⟩ : ∃ g', g = g' + 1 := ⟨g - 1, by omega⟩
    rw [popAll] at h ⊢
    obtain ⟨⟨b, pk1⟩, h1, h⟩ := bind_inv h
    rw [h1, bind_ok']
    cases b with
    | none => exact h
    | some b => exact ih g' _ _ _ (by omega) h

theorem popAll_out {J : Json} : ∀ (f : Nat) (pk : Packer) (out : List MultiPush), popAll J f pk out =
    (popAll J f pk []).map fun r => (out ++ r.1, r.2) := by
  intro f
  induction f with
  | zero => intro pk out; rfl
  | succ f ih =>
    intro pk out
    rw [popAll, popAll]
    cases h : multiPop J pk with
    | error e => rfl
    | ok q =>
      obtain ⟨b, pk1⟩ := q
      rw [bind_ok', bind_ok']
      cases b with
      | none => simp [Except.map]
      | some b =>
        simp only [List.nil_append]
        rw [ih pk1 (out ++ [b]), ih pk1 [b]]
        cases popAll J f pk1 [] with
        | error e => rfl
        | ok r => simp [Except.map]

theorem cameAll_restores {J : Json} {opt : PackerOpts} {W : Wjson} {out : List MultiPush} {datas : List (List PushRequest)}
    (h : List.Forall₂ (Came J opt) out datas) (hl : ∀ b ∈ out, b.legend.length ≤ 2 ^ 64) :
    List.Forall₂ (Restores W) out datas := by
  induction h with
  | nil => exact .nil
  | cons c _ ih => exact .cons (c.restores W (hl _ (by simp))) (ih fun b hb => hl b (by simp [hb]))

/-! ### What holds -/

/-- What `pushout` does, in terms of the batches. -/
theorem pushoutX_spec (J : Json) {pk : Packer} (hi : PInv J pk) (hh : pk.handler = true) (thr : List MultiPush → Bool) :
    ∃ t n out pk' datas rest, pushoutX J pk thr = .ok (t, n, out, pk') ∧ List.Forall₂ (Came J pk.opt) out datas ∧
      PInv J { pk' with top := if t = .rest then [] else pk'.top } ∧
      (datas.flatten ++ rest).Perm pk.contents ∧
      (t = .no → rest = [] ∧ pushout J pk = .ok (n, out, pk')) ∧
      (t = .batch → pk'.contents = rest ∧ out ≠ [] ∧ thr out = true ∧
        ∀ n2 o2 pk2, pushout J pk' = .ok (n2, o2, pk2) → pushout J pk = .ok (out.length + n2, out ++ o2, pk2)) ∧
      (t = .rest → thr out = true ∧ rest = [] ∧ ∃ data, datas.getLast? = some data ∧ data ≠ [] ∧
        pk'.contents = data.map PushRequest.gutted) := by
  obtain ⟨t, out, pk1, datas, k1, k2, k3, k4, k5, k6, k7, k8⟩ := popAllX_spec J thr (pk.top.length + 1) [] hi (Nat.lt_succ_self _)
  simp only [List.nil_append] at k1 k7 k8
  have came : List.Forall₂ (Came J pk.opt) out datas := k5.imp fun _ _ h => Or.inl h
  have hx : pushoutX J pk thr = (do
      let (t, out, pk) ← popAllX J thr (pk.top.length + 1) pk []
      if t = true then .ok (.batch, 0, out, pk)
      else do
        let last ← leftover pk.top
        if last ≠ [] ∧ thr (out ++ last) = true then
          .ok (.rest, 0, out ++ last, { pk with top := pk.top.map fun t => { t with req := t.req.gutted } })
        else .ok (.no, out.length, out ++ last, { pk with top := [] })) := by
    unfold pushoutX
    rw [if_neg (by simp [hh])]
  have hp : ∀ q : Packer, q.handler = true → pushout J q = (do
      let (out, pk) ← popAll J (q.top.length + 1) q []
      let last ← leftover pk.top
      .ok (out.length, out ++ last, { pk with top := [] })) := by
    intro q hq
    unfold pushout
    rw [if_neg (by simp [hq])]
  rw [k1, bind_ok'] at hx
  simp only at hx
  have hnil : ∀ q : Packer, PInv J { q with top := [] } := fun q => ⟨List.Pairwise.nil, fun t ht => by simp at ht⟩
  cases t with
  | true =>
    rw [if_pos rfl] at hx
    obtain ⟨j1, j2, j3⟩ := k8 rfl
    refine ⟨.batch, 0, out, pk1, datas, pk1.contents, hx, came, k2, k6, fun h => (by cases h), fun _ => ⟨rfl, j1, j2, ?_⟩,
      fun h => (by cases h)⟩
    intro n2 o2 pk2 h2
    rw [hp pk1 (k4.trans hh)] at h2
    obtain ⟨⟨oa, pa⟩, h3, h2⟩ := bind_inv h2
    have h4 : popAll J (pk1.top.length + 1) pk1 out = .ok (out ++ oa, pa) := by
      rw [popAll_out, h3]
      rfl
    obtain ⟨F, hF⟩ := j3 _ _ h4
    obtain ⟨ob, pb, _, h5, _⟩ := popAll_spec J (pk.top.length + 1) [] hi (Nat.lt_succ_self _)
    have e1 := popAll_mono _ (max F (pk.top.length + 1)) _ _ _ (le_max_left _ _) hF
    have e2 := popAll_mono _ (max F (pk.top.length + 1)) _ _ _ (le_max_right _ _) h5
    rw [e1] at e2
    rw [← e2] at h5
    rw [hp pk hh, h5, bind_ok']
    obtain ⟨last, h6, h2⟩ := bind_inv h2
    cases h2
    simp only
    rw [h6, bind_ok']
    simp
  | false =>
    rw [if_neg (by simp)] at hx
    have h5 := k7 rfl
    rcases leftover_spec pk1.top with ⟨e, h4⟩ | ⟨b, h4, h6⟩
    · rw [h4, bind_ok', if_neg (by simp)] at hx
      refine ⟨.no, _, _, _, datas, [], hx, by simpa using came, hnil pk1, ?_, fun _ => ⟨rfl, ?_⟩, fun h => (by cases h),
        fun h => (by cases h)⟩
      · have : pk1.contents = [] := by unfold contents; rw [e]; rfl
        rwa [this] at k6
      · rw [hp pk hh, h5, bind_ok']
        simp only
        rw [h4, bind_ok']
    · have came2 : List.Forall₂ (Came J pk.opt) (out ++ [b]) (datas ++ [pk1.contents]) :=
        forall₂_append came (List.Forall₂.cons (Or.inr h6) List.Forall₂.nil)
      have hperm : ((datas ++ [pk1.contents]).flatten ++ []).Perm pk.contents := by simpa using k6
      rw [h4, bind_ok'] at hx
      by_cases ht : thr (out ++ [b]) = true
      · rw [if_pos ⟨by simp, ht⟩] at hx
        refine ⟨.rest, _, _, _, _, [], hx, came2, by rw [if_pos rfl]; exact hnil pk1, hperm, fun h => (by cases h),
          fun h => (by cases h), fun _ => ⟨ht, rfl, pk1.contents, by simp, h6.ne, ?_⟩⟩
        simp [contents]
      · rw [if_neg (fun h => ht h.2)] at hx
        refine ⟨.no, _, _, _, _, [], hx, came2, hnil pk1, hperm, fun _ => ⟨rfl, ?_⟩, fun h => (by cases h), fun h => (by cases h)⟩
        rw [hp pk hh, h5, bind_ok']
        simp only
        rw [h4, bind_ok']

/-- Unless the handler threw on the batch of what is left, the packer holds exactly the requests that were not handed over. -/
theorem C114_kept_partial (J : Json) (W : Wjson) (opt : PackerOpts) (ops : List PackOp) (o : PObs) (thr : List MultiPush → Bool)
    (t : Thrown) (n : Nat) (out : List MultiPush) (pk : Packer) (h : pexecAll J { pk := Packer.new opt true } ops = .ok o)
    (hx : pushoutX J o.pk thr = .ok (t, n, out, pk)) (hl : ∀ b ∈ out, b.legend.length ≤ 2 ^ 64) (ht : t ≠ .rest) :
    ∃ datas, List.Forall₂ (Restores W) out datas ∧ (datas.flatten ++ pk.contents).Perm o.pk.contents := by
  have hb := pbooks_execAll (pbooks_new J opt true) h
  obtain ⟨t', n', out', pk', datas, rest, e, k1, k2, k3, k4, k5, k6⟩ := pushoutX_spec J hb.inv hb.handlerEq thr
  rw [hx] at e
  cases e
  refine ⟨datas, ?_, ?_⟩
  · exact cameAll_restores k1 hl
  · cases t with
    | no =>
      have : pk.contents = [] := by
        obtain ⟨_, e⟩ := k4 rfl
        obtain ⟨_, _, _, _, e', _⟩ := pushout_spec J hb.inv hb.handlerEq
        rw [e] at e'
        cases e'
        rfl
      rw [this, ← (k4 rfl).1]
      exact k3
    | batch => rw [(k5 rfl).1]; exact k3
    | rest => exact absurd rfl ht

/-- An exception in the loop: `pushout`, called again, hands over the batches that are missing, as if nothing had happened. -/
theorem C114_again_partial (J : Json) (opt : PackerOpts) (ops : List PackOp) (o : PObs) (thr : List MultiPush → Bool)
    (n : Nat) (out : List MultiPush) (pk : Packer) (h : pexecAll J { pk := Packer.new opt true } ops = .ok o)
    (hx : pushoutX J o.pk thr = .ok (.batch, n, out, pk)) :
    thr out = true ∧ ∃ n2 o2 pk2, pushout J pk = .ok (n2, o2, pk2) ∧ pushout J o.pk = .ok (out.length + n2, out ++ o2, pk2) := by
  have hb := pbooks_execAll (pbooks_new J opt true) h
  obtain ⟨t', n', out', pk', datas, rest, e, k1, k2, k3, k4, k5, k6⟩ := pushoutX_spec J hb.inv hb.handlerEq thr
  rw [hx] at e
  cases e
  obtain ⟨_, _, j3, j4⟩ := k5 rfl
  have hh : pk.handler = true := by
    obtain ⟨_, _, pk1, _, q1, _, _, q4, _⟩ := popAllX_spec J thr (o.pk.top.length + 1) [] hb.inv (Nat.lt_succ_self _)
    unfold pushoutX at hx
    rw [if_neg (by simp [hb.handlerEq]), q1, bind_ok'] at hx
    simp only at hx
    split_ifs at hx
    · cases hx; exact q4.trans hb.handlerEq
    · obtain ⟨last, _, hx⟩ := bind_inv hx
      split_ifs at hx <;> cases hx
  obtain ⟨oa, la, _, _, e', _⟩ := pushout_spec J (pk := pk) k2 hh
  exact ⟨j3, _, _, _, e', j4 _ _ _ e'⟩

/-- A call that did not throw is one with a handler that returns. -/
theorem C114_returned_partial (J : Json) (opt : PackerOpts) (ops : List PackOp) (o : PObs) (thr : List MultiPush → Bool)
    (n : Nat) (out : List MultiPush) (pk : Packer) (h : pexecAll J { pk := Packer.new opt true } ops = .ok o)
    (hx : pushoutX J o.pk thr = .ok (.no, n, out, pk)) : pushout J o.pk = .ok (n, out, pk) := by
  have hb := pbooks_execAll (pbooks_new J opt true) h
  obtain ⟨t', n', out', pk', datas, rest, e, k1, k2, k3, k4, k5, k6⟩ := pushoutX_spec J hb.inv hb.handlerEq thr
  rw [hx] at e
  cases e
  exact (k4 rfl).2

/-- An exception on the batch of what is left: everything has been handed over, and of each request of this batch the packer
holds one without name and data, but with its numbers. -/
theorem C114_rest_partial (J : Json) (W : Wjson) (opt : PackerOpts) (ops : List PackOp) (o : PObs) (thr : List MultiPush → Bool)
    (n : Nat) (out : List MultiPush) (pk : Packer) (h : pexecAll J { pk := Packer.new opt true } ops = .ok o)
    (hx : pushoutX J o.pk thr = .ok (.rest, n, out, pk)) (hl : ∀ b ∈ out, b.legend.length ≤ 2 ^ 64) :
    ∃ datas data, List.Forall₂ (Restores W) out (datas ++ [data]) ∧ (datas ++ [data]).flatten.Perm o.pk.contents ∧ data ≠ [] ∧
      pk.contents = data.map fun p => { name := [], ag := { p.ag with data := [] } } := by
  have hb := pbooks_execAll (pbooks_new J opt true) h
  obtain ⟨t', n', out', pk', datas, rest, e, k1, k2, k3, k4, k5, k6⟩ := pushoutX_spec J hb.inv hb.handlerEq thr
  rw [hx] at e
  cases e
  obtain ⟨_, j2, data, j3, j4, j5⟩ := k6 rfl
  obtain ⟨ds, rfl⟩ := List.getLast?_eq_some_iff.1 j3
  refine ⟨ds, data, ?_, ?_, j4, j5⟩
  · exact cameAll_restores k1 hl
  · rw [j2, List.append_nil] at k3
    exact k3

/-- So the claim holds exactly if the handler does not throw on the batch of what is left. -/
theorem C114_exact_partial (J : Json) (W : Wjson) (opt : PackerOpts) (ops : List PackOp) (o : PObs) (thr : List MultiPush → Bool)
    (t : Thrown) (n : Nat) (out : List MultiPush) (pk : Packer) (h : pexecAll J { pk := Packer.new opt true } ops = .ok o)
    (hx : pushoutX J o.pk thr = .ok (t, n, out, pk)) (hl : ∀ b ∈ out, b.legend.length ≤ 2 ^ 64) :
    (∃ datas, List.Forall₂ (Restores W) out datas ∧ (datas.flatten ++ pk.contents).Perm o.pk.contents) ↔ t ≠ .rest := by
  refine ⟨fun ⟨datas, k1, k2⟩ ht => ?_, C114_kept_partial J W opt ops o thr t n out pk h hx hl⟩
  subst ht
  obtain ⟨ds, data, j1, j2, j3, j4⟩ := C114_rest_partial J W opt ops o thr n out pk h hx hl
  have e1 := k2.length_eq
  have e2 := j2.length_eq
  rw [List.length_append, restoresAll_length k1] at e1
  rw [restoresAll_length j1] at e2
  have : pk.contents.length = data.length := by rw [j4]; simp
  have := List.length_pos_iff.2 j3
  omega

open ExPacker in
/-- An exception on the first of two batches, and the second call. -/
example : (match (do
    let o ← pexecAll exJson (start { jsonLimit := 200 })
      [.push (rq "a" [1, 2]), .push (rq "b" [3]), .push (rq "c" [4])]
    let (t, _, out, pk) ← pushoutX exJson o.pk fun l => decide (l.length = 1)
    let (n, out', _) ← pushout exJson pk
    .ok (t, out, n, out') : M (Thrown × List MultiPush × Nat × List MultiPush)) with
    | .ok (t, out, n, out') => decide (t = .batch ∧ out.map (fun b => b.data.length) = [1] ∧ n = 2 ∧ out'.map (fun b => b.data.length) = [1, 1])
    | .error _ => false) = true := by decide +kernel

end Wrtstat
