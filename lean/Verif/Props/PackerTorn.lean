/-
Property C175: whole histories of a packer whose handler throws.

C114 describes one call of `pushout` on a packer that has not seen an exception.  After an exception on the batch of what is
left the packer holds requests whose recorded sizes are wrong, and the client may go on: push, pop, call `pushout` again, and
meet the next exception.  The list stays ordered, so nothing goes wrong (`C175_total`), and everything that comes out is what
was pushed and, once for every such exception and every request of its batch, a request with neither name nor data but with the
numbers (`C175_books`, `C175_events`).
-/
import Verif.Props.PackerThrow

namespace Wrtstat

set_option autoImplicit false

open Packer

namespace Packer

/-- Calls of the packer; the handler may throw in `pushout`. -/
inductive TornOp where
  | call (op : PackOp)
  | pushout (thr : List MultiPush → Bool)

/-- Beside the observations of `PObs`, the batches of what was left on which the handler threw. -/
structure TornObs where
  obs : PObs
  torn : List MultiPush := []

/-- One call. -/
def texec (J : Json) (o : TornObs) : TornOp → M TornObs
  | .call op => do
    let obs ← pexec J o.obs op
    .ok { o with obs := obs }
  | .pushout thr => do
    let (t, _, out, pk) ← pushoutX J o.obs.pk thr
    .ok { obs := { o.obs with pk := pk, batches := o.obs.batches ++ out },
          torn := o.torn ++ (if t = .rest then out.getLast?.toList else []) }

/-- A sequence of calls. -/
def texecAll (J : Json) : TornObs → List TornOp → M TornObs
  | o, [] => .ok o
  | o, op :: ops => do
    let o ← texec J o op
    texecAll J o ops

/-! ### What holds of an ordered list -/

/-- The requests a batch was made of, whatever the recorded sizes. -/
def Made (opt : PackerOpts) (b : MultiPush) (data : List PushRequest) : Prop :=
  data ≠ [] ∧ (finishPop opt data = .ok (some b) ∨ LeftOver b data)

theorem Made.restores {opt : PackerOpts} {b : MultiPush} {data : List PushRequest} (h : Made opt b data) (W : Wjson)
    (hb : b.legend.length ≤ 2 ^ 64) : Restores W b data := by
  rcases h.2 with h2 | h2
  · obtain ⟨b', h1, -, -, h3, -⟩ := finishPop_spec opt h.1
    rw [h1] at h2
    simp at h2
    subst h2
    exact h3 W hb
  · exact h2.restores W hb

theorem madeAll_restores {opt : PackerOpts} {W : Wjson} {out : List MultiPush} {datas : List (List PushRequest)}
    (h : List.Forall₂ (Made opt) out datas) (hl : ∀ b ∈ out, b.legend.length ≤ 2 ^ 64) :
    List.Forall₂ (Restores W) out datas := by
  induction h with
  | nil => exact .nil
  | cons c _ ih => exact .cons (c.restores W (hl _ (by simp))) (ih fun b hb => hl b (by simp [hb]))

theorem push_sorted (J : Json) {pk : Packer} (hs : Sorted pk.top) (he : Ends pk.opt) (req : PushRequest) :
    ∃ pk', push J pk req = .ok pk' ∧ Sorted pk'.top ∧ pk'.opt = pk.opt ∧ pk'.handler = pk.handler ∧
      pk'.contents.Perm (req :: pk.contents) := by
  obtain ⟨n, lg, hm⟩ := measure_total J he req
  obtain ⟨lo, hi, h1, h2, h3, h4⟩ := lowerBound_spec hs n
  refine ⟨{ pk with top := lo ++ { size := n, req := req, legend := lg } :: hi }, ?_, ?_, rfl, rfl, ?_⟩
  · unfold push
    simp only [hm, bind_ok', h1]
  · exact sorted_mid (by rw [h2]; exact hs) (fun x hx => Nat.le_of_lt (h3 x hx)) h4
  · unfold contents
    rw [← h2]
    simp only [List.map_append, List.map_cons]
    exact List.perm_middle

theorem multiPush_sorted (J : Json) (ps : List PushRequest) {pk : Packer} (hs : Sorted pk.top) (he : Ends pk.opt) :
    ∃ pk', multiPush J pk ps = .ok pk' ∧ Sorted pk'.top ∧ pk'.opt = pk.opt ∧ pk'.handler = pk.handler ∧
      pk'.contents.Perm (ps ++ pk.contents) := by
  induction ps generalizing pk with
  | nil => exact ⟨pk, rfl, hs, rfl, rfl, List.Perm.refl _⟩
  | cons p ps ih =>
    obtain ⟨pk1, a0, a1, a2, a3, a4⟩ := push_sorted J hs he p
    obtain ⟨pk2, b0, b1, b2, b3, b4⟩ := ih a1 (by rw [a2]; exact he)
    refine ⟨pk2, by rw [multiPush, a0, bind_ok', b0], b1, b2.trans a2, b3.trans a3, ?_⟩
    exact b4.trans (((List.Perm.append_left ps a4).trans List.perm_middle))

theorem popSize_sorted {pk : Packer} (hs : Sorted pk.top) (n : Nat) :
    popByJsonSize pk n = .ok (none, pk) ∨
    (∃ t pk', popByJsonSize pk n = .ok (some t, pk') ∧ Sorted pk'.top ∧ pk'.opt = pk.opt ∧ pk'.handler = pk.handler ∧
      (t :: pk'.top).Perm pk.top) := by
  rcases popTop_spec hs n with ⟨h1, h2⟩ | ⟨a, t, b, h1, h2, h3, h4⟩
  · left
    unfold popByJsonSize
    simp only [h1, bind_ok']
  · right
    refine ⟨t, { pk with top := a ++ b }, ?_, sorted_drop (by rw [← h2]; exact hs), rfl, rfl, ?_⟩
    · unfold popByJsonSize
      simp only [h1, bind_ok']
    · rw [h2]; exact List.perm_middle.symm

theorem popLoop_sorted (J : Json) (fuel : Nat) (st : PopState) (hf : st.pk.top.length < fuel) (hs : Sorted st.pk.top)
    (he : Ends st.pk.opt) :
    ∃ st', popLoop J fuel st = .ok st' ∧ Sorted st'.pk.top ∧ st'.pk.opt = st.pk.opt ∧ st'.pk.handler = st.pk.handler ∧
      (st'.data ++ st'.pk.contents).Perm (st.data ++ st.pk.contents) := by
  induction fuel generalizing st with
  | zero => omega
  | succ fuel ih =>
    unfold popLoop
    by_cases h0 : st.json = 0
    · rw [if_pos h0]
      exact ⟨st, rfl, hs, rfl, rfl, List.Perm.refl _⟩
    rw [if_neg h0]
    rcases popSize_sorted hs st.json with h1 | ⟨t, pk', h1, i', o', hd', pm⟩
    · simp only [h1, bind_ok']
      exact ⟨_, rfl, hs, rfl, rfl, List.Perm.refl _⟩
    · simp only [h1, bind_ok']
      have hcon : (t.req :: pk'.contents).Perm st.pk.contents := pm.map TopItem.req
      have hlen : (t :: pk'.top).length = st.pk.top.length := pm.length_eq
      simp only [List.length_cons] at hlen
      by_cases h5 : st.json ≥ (charge t.legend st.set t.size).2
      · rw [if_pos h5]
        have hp : ((st.data ++ [t.req]) ++ pk'.contents).Perm (st.data ++ st.pk.contents) := by
          rw [List.append_assoc]
          exact List.Perm.append_left _ hcon
        by_cases h6 : (limits pk'.opt st.pushes st.samples).1
        · rw [if_pos h6]
          exact ⟨_, rfl, i', o', hd', hp⟩
        · rw [if_neg h6]
          obtain ⟨st', g1, g2, g3, g4, g5⟩ := ih
            { json := _, pushes := (limits pk'.opt st.pushes st.samples).2.1,
              samples := (limits pk'.opt st.pushes st.samples).2.2,
              set := (charge t.legend st.set t.size).1, pk := pk', data := st.data ++ [t.req] }
            (by show pk'.top.length < fuel; omega) i' (by show Ends pk'.opt; rw [o']; exact he)
          exact ⟨st', g1, g2, g3.trans o', g4.trans hd', g5.trans hp⟩
      · rw [if_neg h5]
        obtain ⟨pk2, a0, a1, a2, a3, a4⟩ := push_sorted J i' (by rw [o']; exact he) t.req
        simp only [a0, bind_ok']
        exact ⟨_, rfl, a1, a2.trans o', a3.trans hd', List.Perm.append_left _ (a4.trans hcon)⟩

theorem multiPop_sorted (J : Json) {pk : Packer} (hs : Sorted pk.top) (he : Ends pk.opt) :
    ∃ r pk', multiPop J pk = .ok (r, pk') ∧ Sorted pk'.top ∧ pk'.opt = pk.opt ∧ pk'.handler = pk.handler ∧
      ((r = none ∧ pk'.contents.Perm pk.contents) ∨
       (∃ b data, r = some b ∧ Made pk.opt b data ∧ (data ++ pk'.contents).Perm pk.contents)) := by
  unfold multiPop
  by_cases h0 : pk.top = []
  · rw [if_pos h0]
    exact ⟨_, _, rfl, hs, rfl, rfl, Or.inl ⟨rfl, List.Perm.refl _⟩⟩
  rw [if_neg h0]
  simp only
  by_cases h1 : J.multiSize pk.opt.jsonCompact {} > pk.opt.jsonLimit
  · rw [if_pos h1]
    exact ⟨_, _, rfl, hs, rfl, rfl, Or.inl ⟨rfl, List.Perm.refl _⟩⟩
  rw [if_neg h1]
  obtain ⟨st, g1, g2, g3, g4, g5⟩ := popLoop_sorted J (pk.top.length + 1)
    { json := pk.opt.jsonLimit - J.multiSize pk.opt.jsonCompact {}, pushes := pk.opt.pushLimit,
      samples := pk.opt.dataLimit, set := [], pk := pk, data := [] } (Nat.lt_succ_self _) hs he
  simp only [g1, bind_ok']
  simp only at g3 g4 g5
  rw [List.nil_append] at g5
  by_cases hd : st.data = []
  · refine ⟨none, st.pk, ?_, g2, g3, g4, Or.inl ⟨rfl, ?_⟩⟩
    · unfold finishPop; rw [if_pos hd]; rfl
    · rw [hd] at g5; simpa using g5
  · obtain ⟨b, hb, -⟩ := finishPop_spec st.pk.opt hd
    refine ⟨some b, st.pk, ?_, g2, g3, g4, Or.inr ⟨b, st.data, rfl, ⟨hd, Or.inl (by rw [← g3]; exact hb)⟩, g5⟩⟩
    simp only [hb, bind_ok']

theorem popAllX_sorted (J : Json) (thr : List MultiPush → Bool) (fuel : Nat) {pk : Packer} (out : List MultiPush)
    (hs : Sorted pk.top) (he : Ends pk.opt) (hf : pk.top.length < fuel) :
    ∃ t out' pk' datas, popAllX J thr fuel pk out = .ok (t, out ++ out', pk') ∧ Sorted pk'.top ∧ pk'.opt = pk.opt ∧
      pk'.handler = pk.handler ∧ List.Forall₂ (Made pk.opt) out' datas ∧ (datas.flatten ++ pk'.contents).Perm pk.contents := by
  induction fuel generalizing pk out with
  | zero => omega
  | succ fuel ih =>
    obtain ⟨r, pk1, h1, i1, o1, d1, h2⟩ := multiPop_sorted J hs he
    unfold popAllX
    simp only [h1, bind_ok']
    rcases h2 with ⟨rfl, h2⟩ | ⟨b, data, rfl, h2, h3⟩
    · exact ⟨false, [], pk1, [], by simp, i1, o1, d1, List.Forall₂.nil, by simpa using h2⟩
    · have hlen := h3.length_eq
      have hne := List.length_pos_iff.2 h2.1
      rw [List.length_append, contents_length, contents_length] at hlen
      simp only
      by_cases ht : thr (out ++ [b]) = true
      · rw [if_pos ht]
        exact ⟨true, [b], pk1, [data], rfl, i1, o1, d1, List.Forall₂.cons h2 List.Forall₂.nil, by simpa using h3⟩
      · rw [if_neg ht]
        obtain ⟨t, out', pk2, datas, k1, k2, k3, k4, k5, k6⟩ := ih (out ++ [b]) i1 (by rw [o1]; exact he) (by omega)
        refine ⟨t, b :: out', pk2, data :: datas, by rw [k1]; simp, k2, k3.trans o1, k4.trans d1, ?_, ?_⟩
        · rw [o1] at k5; exact List.Forall₂.cons h2 k5
        · rw [List.flatten_cons, List.append_assoc]
          exact (List.Perm.append_left _ k6).trans h3

/-- One call of `pushout` on any ordered list: what was handed over and what is in the packer is what was in it, and the shells
of the requests of a torn batch. -/
theorem pushoutX_sorted (J : Json) {pk : Packer} (hs : Sorted pk.top) (he : Ends pk.opt) (thr : List MultiPush → Bool) :
    ∃ t n out pk' datas shells, pushoutX J pk thr = .ok (t, n, out, pk') ∧ Sorted pk'.top ∧ pk'.opt = pk.opt ∧
      pk'.handler = pk.handler ∧ List.Forall₂ (Made pk.opt) out datas ∧
      List.Forall₂ (Made pk.opt) (if t = .rest then out.getLast?.toList else []) shells ∧
      (datas.flatten ++ pk'.contents).Perm (pk.contents ++ shells.flatten.map PushRequest.gutted) := by
  unfold pushoutX
  by_cases hh : pk.handler = false
  · rw [if_pos hh]
    exact ⟨.no, 0, [], pk, [], [], rfl, hs, rfl, rfl, .nil, .nil, by simp⟩
  rw [if_neg hh]
  obtain ⟨t, out, pk1, datas, k1, k2, k3, k4, k5, k6⟩ := popAllX_sorted J thr (pk.top.length + 1) [] hs he (Nat.lt_succ_self _)
  rw [List.nil_append] at k1
  rw [k1, bind_ok']
  simp only
  cases t with
  | true =>
    rw [if_pos rfl]
    exact ⟨.batch, 0, out, pk1, datas, [], rfl, k2, k3, k4, k5, .nil, by simpa using k6⟩
  | false =>
    rw [if_neg (by simp)]
    rcases leftover_spec pk1.top with ⟨e, h4⟩ | ⟨b, h4, h6⟩
    · rw [h4, bind_ok', if_neg (by simp)]
      have : pk1.contents = [] := by unfold contents; rw [e]; rfl
      rw [this] at k6
      exact ⟨.no, _, _, _, datas, [], rfl, List.Pairwise.nil, k3, k4, by simpa using k5, .nil, by simpa [contents] using k6⟩
    · have hm : Made pk.opt b pk1.contents := ⟨h6.ne, Or.inr h6⟩
      have m2 : List.Forall₂ (Made pk.opt) (out ++ [b]) (datas ++ [pk1.contents]) :=
        forall₂_append k5 (List.Forall₂.cons hm List.Forall₂.nil)
      have hperm : (datas ++ [pk1.contents]).flatten.Perm pk.contents := by simpa using k6
      rw [h4, bind_ok']
      by_cases ht : thr (out ++ [b]) = true
      · rw [if_pos ⟨by simp, ht⟩]
        refine ⟨.rest, _, _, _, _, [pk1.contents], rfl, ?_, k3, k4, m2, ?_, ?_⟩
        · show Sorted (pk1.top.map _)
          unfold Sorted at k2 ⊢
          rw [List.pairwise_map]
          exact k2
        · simpa using hm
        · have e : (Packer.contents { pk1 with top := pk1.top.map fun t => { t with req := t.req.gutted } }) =
              pk1.contents.map PushRequest.gutted := by simp [contents]
          rw [e]
          refine List.Perm.append hperm ?_
          simp
      · rw [if_neg (fun h => ht h.2)]
        exact ⟨.no, _, _, _, _, [], rfl, List.Pairwise.nil, k3, k4, m2, .nil, by simpa [contents] using k6⟩

/-- A handler that does not throw. -/
theorem pushoutX_calm (J : Json) (pk : Packer) :
    pushoutX J pk (fun _ => false) = (pushout J pk).map fun r => (.no, r.1, r.2.1, r.2.2) := by
  have hl : ∀ (fuel : Nat) (pk : Packer) (out : List MultiPush), popAllX J (fun _ => false) fuel pk out =
      (popAll J fuel pk out).map fun r => (false, r.1, r.2) := by
    intro fuel
    induction fuel with
    | zero => intro pk out; rfl
    | succ fuel ih =>
      intro pk out
      rw [popAllX, popAll]
      cases h : multiPop J pk with
      | error e => rfl
      | ok q =>
        obtain ⟨b, pk1⟩ := q
        rw [bind_ok', bind_ok']
        cases b with
        | none => rfl
        | some b => simp [ih]
  unfold pushoutX pushout
  by_cases hh : pk.handler = false
  · rw [if_pos hh, if_pos hh]; rfl
  rw [if_neg hh, if_neg hh, hl]
  cases popAll J (pk.top.length + 1) pk [] with
  | error e => rfl
  | ok q =>
    obtain ⟨out, pk1⟩ := q
    simp only [Except.map, bind_ok', Bool.false_eq_true, if_false]
    cases h : leftover pk1.top with
    | error e => rfl
    | ok last => simp [bind_ok']

/-! ### The books -/

/-- The books of a packer whose handler throws. -/
structure TBooks (opt : PackerOpts) (hd : Bool) (o : TornObs) : Prop where
  sorted : Sorted o.obs.pk.top
  optEq : o.obs.pk.opt = opt
  handlerEq : o.obs.pk.handler = hd
  books : ∃ datas shells, List.Forall₂ (Made opt) o.obs.batches datas ∧ List.Forall₂ (Made opt) o.torn shells ∧
    (datas.flatten ++ o.obs.popped ++ o.obs.pk.contents).Perm (o.obs.pushed ++ shells.flatten.map PushRequest.gutted)

theorem tbooks_new (opt : PackerOpts) (hd : Bool) : TBooks opt hd { obs := { pk := Packer.new opt hd } } :=
  ⟨List.Pairwise.nil, rfl, rfl, [], [], .nil, .nil, List.Perm.refl _⟩

theorem perm_pushed {L P E S : List PushRequest} (h : L.Perm (P ++ S ++ E)) : L.Perm (P ++ E ++ S) := by
  refine h.trans ?_
  rw [List.append_assoc, List.append_assoc]
  exact List.Perm.append_left _ List.perm_append_comm

theorem tbooks_out {opt : PackerOpts} {hd : Bool} {o : TornObs} (hb : TBooks opt hd o) {pk : Packer} {out torn : List MultiPush}
    {ds ss : List (List PushRequest)} (hs : Sorted pk.top) (ho : pk.opt = o.obs.pk.opt) (hh : pk.handler = o.obs.pk.handler)
    (h1 : List.Forall₂ (Made o.obs.pk.opt) out ds) (h2 : List.Forall₂ (Made o.obs.pk.opt) torn ss)
    (h3 : (ds.flatten ++ pk.contents).Perm (o.obs.pk.contents ++ ss.flatten.map PushRequest.gutted)) :
    TBooks opt hd { obs := { o.obs with pk := pk, batches := o.obs.batches ++ out }, torn := o.torn ++ torn } := by
  obtain ⟨s, e, e', datas, shells, b1, b2, b3⟩ := hb
  rw [e] at h1 h2
  refine ⟨hs, ho.trans e, hh.trans e', datas ++ ds, shells ++ ss, forall₂_append b1 h1, forall₂_append b2 h2, ?_⟩
  have h4 : (datas.flatten ++ o.obs.popped ++ (o.obs.pk.contents ++ ss.flatten.map PushRequest.gutted)).Perm
      ((o.obs.pushed ++ shells.flatten.map PushRequest.gutted) ++ ss.flatten.map PushRequest.gutted) := by
    rw [← List.append_assoc]
    exact List.Perm.append_right _ b3
  have h5 := perm_out h4 h3
  simpa using h5

theorem texec_books (J : Json) {opt : PackerOpts} {hd : Bool} {o : TornObs} (op : TornOp) (hb : TBooks opt hd o) (he : Ends opt) :
    ∃ o', texec J o op = .ok o' ∧ TBooks opt hd o' := by
  have hb0 := hb
  obtain ⟨s, e, e', datas, shells, b1, b2, b3⟩ := hb
  have he' : Ends o.obs.pk.opt := by rw [e]; exact he
  cases op with
  | pushout thr =>
    obtain ⟨t, n, out, pk, ds, ss, k1, k2, k3, k4, k5, k6, k7⟩ := pushoutX_sorted J s he' thr
    refine ⟨_, by simp only [texec, k1, bind_ok']; rfl, ?_⟩
    exact tbooks_out hb0 k2 k3 k4 k5 k6 k7
  | call op =>
    cases op with
    | push req =>
      obtain ⟨pk, a0, a1, a2, a3, a4⟩ := push_sorted J s he' req
      refine ⟨_, by simp only [texec, pexec, a0, bind_ok']; rfl, ?_⟩
      refine ⟨a1, a2.trans e, a3.trans e', datas, shells, b1, b2, ?_⟩
      exact perm_pushed (perm_in b3 a4)
    | multiPush m =>
      obtain ⟨pk, a0, a1, a2, a3, a4⟩ := multiPush_sorted J m.data s he'
      refine ⟨_, by simp only [texec, pexec, a0, bind_ok']; rfl, ?_⟩
      refine ⟨a1, a2.trans e, a3.trans e', datas, shells, b1, b2, ?_⟩
      exact perm_pushed (perm_in b3 a4)
    | popSize n =>
      rcases popSize_sorted s n with k1 | ⟨t, pk', k1, k2, k3, k4, k5⟩
      · refine ⟨_, by simp only [texec, pexec, k1, bind_ok']; rfl, ?_⟩
        refine ⟨s, e, e', datas, shells, b1, b2, ?_⟩
        simpa using b3
      · refine ⟨_, by simp only [texec, pexec, k1, bind_ok']; rfl, ?_⟩
        refine ⟨k2, k3.trans e, k4.trans e', datas, shells, b1, b2, ?_⟩
        have hp : (t.req :: pk'.contents).Perm o.obs.pk.contents := k5.map TopItem.req
        show (datas.flatten ++ (o.obs.popped ++ [t.req]) ++ pk'.contents).Perm _
        refine List.Perm.trans ?_ ((List.Perm.append_left _ hp).trans b3)
        simp
    | multiPop =>
      obtain ⟨r, pk', k1, k2, k3, k4, k5⟩ := multiPop_sorted J s he'
      refine ⟨_, by simp only [texec, pexec, k1, bind_ok']; rfl, ?_⟩
      rcases k5 with ⟨rfl, k5⟩ | ⟨b, data, rfl, k5, k6⟩
      · simpa using tbooks_out hb0 (out := []) (torn := []) (ds := []) (ss := []) k2 k3 k4 .nil .nil (by simpa using k5)
      · simpa using tbooks_out hb0 (out := [b]) (torn := []) (ds := [data]) (ss := []) k2 k3 k4 (.cons k5 .nil) .nil
          (by simpa using k6)
    | pushout =>
      obtain ⟨t, n, out, pk, ds, ss, k1, k2, k3, k4, k5, k6, k7⟩ := pushoutX_sorted J s he' fun _ => false
      rw [pushoutX_calm] at k1
      cases hp : pushout J o.obs.pk with
      | error x => rw [hp] at k1; cases k1
      | ok r =>
        rw [hp] at k1
        obtain ⟨n', out', pk''⟩ := r
        cases k1
        refine ⟨_, by simp only [texec, pexec, hp, bind_ok']; rfl, ?_⟩
        simpa using tbooks_out hb0 k2 k3 k4 k5 k6 k7

theorem texecAll_books (J : Json) {opt : PackerOpts} {hd : Bool} (ops : List TornOp) {o : TornObs} (hb : TBooks opt hd o)
    (he : Ends opt) : ∃ o', texecAll J o ops = .ok o' ∧ TBooks opt hd o' := by
  induction ops generalizing o with
  | nil => exact ⟨o, rfl, hb⟩
  | cons op ops ih =>
    obtain ⟨o1, h1, b1⟩ := texec_books J op hb he
    obtain ⟨o2, h2, b2⟩ := ih b1
    exact ⟨o2, by rw [texecAll, h1, bind_ok', h2], b2⟩

end Packer

/-! ### The claims -/

/-- Whatever is called and whenever the handler throws, no call goes wrong. -/
theorem C175_total (J : Json) (opt : PackerOpts) (hd : Bool) (ops : List TornOp)
    (he : opt.nameCompact = true → opt.nameSep ≠ []) :
    ∃ o, texecAll J { obs := { pk := Packer.new opt hd } } ops = .ok o :=
  let ⟨o, h, _⟩ := texecAll_books J ops (tbooks_new opt hd) he
  ⟨o, h⟩

/-- What came out and what is in the packer is what was pushed, and, for every request of a batch of what was left on which the
handler threw, a request without name and data. -/
theorem C175_books (J : Json) (W : Wjson) (opt : PackerOpts) (hd : Bool) (ops : List TornOp) (o : TornObs)
    (he : opt.nameCompact = true → opt.nameSep ≠ []) (h : texecAll J { obs := { pk := Packer.new opt hd } } ops = .ok o)
    (hl : ∀ b ∈ o.obs.batches ++ o.torn, b.legend.length ≤ 2 ^ 64) :
    ∃ datas shells, List.Forall₂ (Restores W) o.obs.batches datas ∧ List.Forall₂ (Restores W) o.torn shells ∧
      (datas.flatten ++ o.obs.popped ++ o.obs.pk.contents).Perm
        (o.obs.pushed ++ shells.flatten.map fun p => { name := [], ag := { p.ag with data := [] } }) := by
  obtain ⟨o', h', b⟩ := texecAll_books J ops (tbooks_new opt hd) he
  rw [h] at h'
  cases h'
  obtain ⟨datas, shells, b1, b2, b3⟩ := b.books
  exact ⟨datas, shells, madeAll_restores b1 fun b hb => hl b (by simp [hb]),
    madeAll_restores b2 fun b hb => hl b (by simp [hb]), b3⟩

/-- The events of some requests. -/
def eventsOf (l : List PushRequest) : Int := (l.map fun p => p.ag.count).sum

theorem eventsOf_append (a b : List PushRequest) : eventsOf (a ++ b) = eventsOf a + eventsOf b := by simp [eventsOf]

theorem restoresAll_events {opt : PackerOpts} {out : List MultiPush} {datas : List (List PushRequest)}
    (h : List.Forall₂ (Made opt) out datas) : (out.map fun b => eventsOf b.data).sum = eventsOf datas.flatten := by
  induction h with
  | nil => rfl
  | @cons b data _ _ c _ ih =>
    rw [List.map_cons, List.sum_cons, List.flatten_cons, eventsOf_append, ih]
    congr 1
    have hag : b.data.map PushRequest.ag = data.map PushRequest.ag := by
      rcases c.2 with h2 | h2
      · obtain ⟨b', h1, -, h3, -⟩ := finishPop_spec opt c.1
        rw [h1] at h2
        simp at h2
        subst h2
        exact h3
      · exact compactAll_ag h2.comp
    have := congrArg (fun l => (l.map fun a => (a.count : Int)).sum) hag
    simpa [eventsOf, Function.comp_def] using this

/-- The events of a torn batch are handed over once more: by the counts on the wire, what came out and what is in the packer is
what was pushed and the torn batches. -/
theorem C175_events (J : Json) (opt : PackerOpts) (hd : Bool) (ops : List TornOp) (o : TornObs)
    (he : opt.nameCompact = true → opt.nameSep ≠ []) (h : texecAll J { obs := { pk := Packer.new opt hd } } ops = .ok o) :
    (o.obs.batches.map fun b => eventsOf b.data).sum + eventsOf o.obs.popped + eventsOf o.obs.pk.contents =
      eventsOf o.obs.pushed + (o.torn.map fun b => eventsOf b.data).sum := by
  obtain ⟨o', h', b⟩ := texecAll_books J ops (tbooks_new opt hd) he
  rw [h] at h'
  cases h'
  obtain ⟨datas, shells, b1, b2, b3⟩ := b.books
  rw [restoresAll_events b1, restoresAll_events b2, ← eventsOf_append, ← eventsOf_append]
  have e : eventsOf shells.flatten = eventsOf (shells.flatten.map PushRequest.gutted) := by
    simp [eventsOf, PushRequest.gutted, Function.comp_def]
  rw [e, ← eventsOf_append]
  exact (b3.map fun p => (p.ag.count : Int)).sum_eq

/-- Without an exception on a batch of what is left the books are those of C43, whatever else was thrown. -/
theorem C175_clean (J : Json) (W : Wjson) (opt : PackerOpts) (hd : Bool) (ops : List TornOp) (o : TornObs)
    (he : opt.nameCompact = true → opt.nameSep ≠ []) (h : texecAll J { obs := { pk := Packer.new opt hd } } ops = .ok o)
    (ht : o.torn = []) (hl : ∀ b ∈ o.obs.batches, b.legend.length ≤ 2 ^ 64) :
    ∃ datas, List.Forall₂ (Restores W) o.obs.batches datas ∧
      (datas.flatten ++ o.obs.popped ++ o.obs.pk.contents).Perm o.obs.pushed := by
  obtain ⟨datas, shells, b1, b2, b3⟩ := C175_books J W opt hd ops o he h (by rw [ht]; simpa using hl)
  rw [ht] at b2
  cases b2
  exact ⟨datas, b1, by simpa using b3⟩

/-- With a handler that never throws the histories are those of C43. -/
theorem C175_calm (J : Json) (o : TornObs) :
    texec J o (.pushout fun _ => false) = texec J o (.call .pushout) := by
  unfold texec pexec
  simp only
  rw [pushoutX_calm]
  cases pushout J o.obs.pk with
  | error e => rfl
  | ok r => simp [Except.map, bind_ok']

open ExPacker in
/-- Requests that exceed the limit and a handler that throws three times: for nine events twenty-six come out, seventeen of them
of requests with neither name nor data. -/
example : (match texecAll exJson { obs := start { jsonLimit := 10 } }
    [.call (.push { name := ['a'], ag := { count := 3, data := [1, 2, 3] } }), .call (.push { name := ['b'], ag := { count := 1, data := [4] } }),
     .pushout fun _ => true, .pushout fun _ => true, .call (.push { name := ['c'], ag := { count := 5, data := [] } }),
     .pushout fun _ => true, .call .pushout] with
    | .ok o => decide (o.torn.length = 3 ∧ eventsOf o.obs.pushed = 9 ∧ o.obs.batches.map (fun b => eventsOf b.data) = [4, 4, 9, 9] ∧
        o.obs.batches.map (fun b => b.legend) = [[['b'], ['a']], [[]], [['c'], []], [[]]] ∧ o.obs.pk.contents = [])
    | .error _ => false) = true := by decide +kernel

end Wrtstat
