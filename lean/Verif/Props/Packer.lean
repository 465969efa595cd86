/-
Properties of the packer: C42-C50, C64-C68.
-/
import Verif.Lemmas.PackerPop
import Verif.Lemmas.MultiTotal
import Verif.Model.PackerInstances

namespace Wrtstat

set_option autoImplicit false

open Packer

/-! ### Examples -/

namespace ExPacker

def rq (s : String) (d : List Int) : PushRequest := { name := s.toList, ag := { data := d } }

/-- Compact names, room for about two requests in a batch. -/
def opt : PackerOpts := { jsonLimit := 120, jsonCompact := true, nameCompact := true }

def ops : List PackOp :=
  [.push (rq "a~~b" [1, 2]), .multiPush { data := [rq "a~~c" [1], rq "cddd" []] }, .multiPop, .push (rq "x" [7]), .popSize 32]

def start (opt : PackerOpts) : PObs := { pk := Packer.new opt true }

end ExPacker

open ExPacker in
example : Passes (pexecAll exJson (start opt) ops) (fun o =>
    decide (o.batches.map (fun b => b.legend) = [[['a'], ['b'], ['c']]]) &&
    decide (o.batches.map (fun b => b.data.map PushRequest.name) = [["0~1".toList, "0~2".toList]]) &&
    decide (o.batches.map (exJson.multiSize true) = [92]) &&
    decide (o.popped = [rq "x" [7]]) && decide (o.pk.contents = [rq "cddd" []])) = true := by
  decide +kernel

/-- The sizes of the model are those of the texts in tests/json_suite.cpp. -/
example : exJson.multiSize true {} = "['~~',[],[]]".length ∧
    exJson.multiSize false {} = "{'sep':'~~','legend':[],'data':[]}".length ∧
    exJson.pushSize true {} = "['',0,0,0,0,0,0,0,0,0,0,0,[]]".length ∧
    exJson.pushSize false {} = ("{'name':'','ts':0,'avg':0,'count':0,'perc50':0,'perc80':0,'perc95':0,'perc99':0," ++
      "'perc100':0,'lossy':0,'min':0,'max':0,'data':[]}").length := by
  decide +kernel

theorem exJson_additive : exJson.Additive := by
  intro s t
  show 2 + ((s ++ t).map charSize).sum + 2 = _
  rw [List.map_append, List.sum_append]
  show _ = 2 + (s.map charSize).sum + (2 + (t.map charSize).sum)
  omega

/-! ### C42 -/

/-- What `compact` made of a request is turned back into it, names and data, and the legend is cleared. -/
theorem C42_roundtrip (W : Wjson) (m m' : MultiPush) (ok : Bool) (hs : m.sep ≠ []) (h : compact m = .ok (ok, m'))
    (hb : m'.legend.length ≤ 2 ^ 64) : ok = true ∧ recompact W m' = .ok (true, { m with legend := [] }) :=
  let ⟨h1, _, h3⟩ := compact_restores W h hs hb
  ⟨h1, h3⟩

/-- `compact` terminates, changes nothing but names and legend, and extends the legend. -/
theorem C42_compact (m : MultiPush) (hs : m.sep ≠ []) :
    ∃ m', compact m = .ok (true, m') ∧ m'.sep = m.sep ∧ m'.data.map PushRequest.ag = m.data.map PushRequest.ag ∧ m.legend <+: m'.legend := by
  obtain ⟨⟨ps, lg⟩, hr⟩ := compactAll_total hs m.data m.legend
  exact ⟨{ m with data := ps, legend := lg }, by unfold compact; rw [if_neg hs]; simp only [hr, bind_ok'], rfl,
    compactAll_ag hr, (compactAll_prefix hr).1⟩

open ExPacker in
example : Passes (compact { data := [rq "~~a~~a~b~~" [1], rq "~~~" [], rq "" [4]] }) (fun r => r.1 &&
    decide (r.2.legend = [[], ['a'], "a~b".toList, ['~']]) &&
    decide (r.2.data.map PushRequest.name = ["0~1~2~0".toList, "0~3".toList, ['0']]) &&
    Passes (recompact exWjson r.2) (fun q => q.1 && decide (q.2 = { data := [rq "~~a~~a~b~~" [1], rq "~~~" [], rq "" [4]] }))) =
    true := by
  decide +kernel

/-! ### C43 -/

/-- Whatever is called, what was pushed is in the packer, or was popped, or can be restored from exactly
one batch. -/
theorem C43_conserved (J : Json) (W : Wjson) (opt : PackerOpts) (hd : Bool) (ops : List PackOp) (o : PObs)
    (h : pexecAll J { pk := Packer.new opt hd } ops = .ok o) (hb : ∀ b ∈ o.batches, b.legend.length ≤ 2 ^ 64) :
    ∃ datas, List.Forall₂ (Restores W) o.batches datas ∧ (datas.flatten ++ o.popped ++ o.pk.contents).Perm o.pushed := by
  obtain ⟨-, -, -, datas, h1, h2⟩ := pbooks_execAll (pbooks_new J opt hd) h
  refine ⟨datas, ?_, h2⟩
  revert hb
  generalize o.batches = bs at h1
  intro hb
  clear h2
  induction h1 with
  | nil => exact List.Forall₂.nil
  | cons h1 _ ih => exact List.Forall₂.cons (h1.restores W (hb _ (by simp))) (ih fun b hb' => hb b (by simp [hb']))

/-- No call goes wrong, unless compaction is asked for with an empty separator. -/
theorem C43_total (J : Json) (opt : PackerOpts) (hd : Bool) (ops : List PackOp)
    (he : opt.nameCompact = true → opt.nameSep ≠ []) : ∃ o, pexecAll J { pk := Packer.new opt hd } ops = .ok o :=
  pexecAll_total ops (pbooks_new J opt hd) he

/-! ### C44 -/

/-- The claim as it is stated. -/
def C44_FullClaim (P : PackerOpts → Prop) : Prop :=
  ∀ (J : Json) (opt : PackerOpts) (hd : Bool) (ops : List PackOp) (o : PObs) (b : MultiPush) (pk : Packer), P opt →
    pexecAll J { pk := Packer.new opt hd } ops = .ok o → multiPop J o.pk = .ok (some b, pk) →
    J.multiSize opt.jsonCompact b ≤ opt.jsonLimit

theorem refute_by {P : PackerOpts → Prop} (opt : PackerOpts) (hP : P opt) (ops : List PackOp)
    (h : Passes (pexecAll exJson { pk := Packer.new opt true } ops >>= fun o => multiPop exJson o.pk) (fun r =>
      match r.1 with
      | none => false
      | some b => decide (opt.jsonLimit < exJson.multiSize opt.jsonCompact b)) = true) : ¬ C44_FullClaim P := by
  intro hf
  obtain ⟨⟨r, pk⟩, h1, h2⟩ := of_passes h
  obtain ⟨o, h3, h4⟩ := bind_inv h1
  cases r with
  | none => simp at h2
  | some b =>
    simp only [decide_eq_true_eq] at h2
    have := hf exJson opt true ops o b pk hP h3 h4
    omega

open ExPacker in
/-- The room for the batch is computed with the default separator; the real one may be longer. -/
theorem C44_refuted : ¬ C44_FullClaim (fun _ => True) :=
  refute_by { jsonLimit := 45, jsonCompact := true, nameSep := List.replicate 40 'x' } trivial [.push {}] (by decide +kernel)

open ExPacker in
/-- With the default separator: the recorded size counts one digit for the only word of `k`, but in a batch
with eleven words its index has two. -/
theorem C44_refuted_compact : ¬ C44_FullClaim (fun opt => opt.nameSep = ['~', '~']) :=
  refute_by { jsonLimit := 614, jsonCompact := true, nameCompact := true } rfl
    (.push (rq "a~~b~~c~~d~~e~~f~~g~~h~~i~~j~~k" []) :: List.replicate 16 (.push (rq "k" []))) (by decide +kernel)

theorem multiPop_batch {J : Json} {opt : PackerOpts} {hd : Bool} {ops : List PackOp} {o : PObs} {b : MultiPush} {pk : Packer}
    (h : pexecAll J { pk := Packer.new opt hd } ops = .ok o) (hp : multiPop J o.pk = .ok (some b, pk)) :
    ∃ data, BatchOf J opt b data ∧ (data ++ pk.contents).Perm o.pk.contents := by
  have hb := pbooks_execAll (pbooks_new J opt hd) h
  obtain ⟨r, pk', h1, h2, h3, h4, h5⟩ := multiPop_spec J hb.inv
  rw [h1] at hp
  simp at hp
  obtain ⟨rfl, rfl⟩ := hp
  rcases h5 with ⟨h, -⟩ | ⟨b', data, e, h6, h7⟩
  · simp at h
  · simp at e
    subst e
    exact ⟨data, by rw [← hb.optEq]; exact h6, h7⟩

/-- Without compaction of names the limit is exceeded by no more than the separator is longer than `~~`.
Missing from the full claim: longer separators, and what C44_compact_partial does not say. -/
theorem C44_plain_partial (J : Json) (opt : PackerOpts) (hd : Bool) (ops : List PackOp) (o : PObs) (b : MultiPush) (pk : Packer)
    (h : pexecAll J { pk := Packer.new opt hd } ops = .ok o) (hp : multiPop J o.pk = .ok (some b, pk))
    (hc : opt.nameCompact = false) :
    J.multiSize opt.jsonCompact b ≤ opt.jsonLimit + (J.strSize opt.nameSep - 4) := by
  obtain ⟨data, h1, -⟩ := multiPop_batch h hp
  have := h1.size_plain hc
  omega

/-- The same with compaction, if the batch has at most ten words. -/
theorem C44_compact_partial (J : Json) (ha : J.Additive) (opt : PackerOpts) (hd : Bool) (ops : List PackOp) (o : PObs)
    (b : MultiPush) (pk : Packer) (h : pexecAll J { pk := Packer.new opt hd } ops = .ok o)
    (hp : multiPop J o.pk = .ok (some b, pk)) (hs : opt.nameSep ≠ []) (hten : b.legend.length ≤ 10) :
    J.multiSize opt.jsonCompact b ≤ opt.jsonLimit + (J.strSize opt.nameSep - 4) := by
  obtain ⟨data, h1, -⟩ := multiPop_batch h hp
  cases hc : opt.nameCompact with
  | false => have := h1.size_plain hc; omega
  | true => have := h1.size_additive ha hc hs hten; omega

/-- With a separator of at most two characters that need no escape, and no compaction, the limit is kept. -/
theorem C44_limit_partial (J : Json) (opt : PackerOpts) (hd : Bool) (ops : List PackOp) (o : PObs) (b : MultiPush) (pk : Packer)
    (h : pexecAll J { pk := Packer.new opt hd } ops = .ok o) (hp : multiPop J o.pk = .ok (some b, pk))
    (hc : opt.nameCompact = false) (hs : J.strSize opt.nameSep ≤ 4) : J.multiSize opt.jsonCompact b ≤ opt.jsonLimit := by
  have := C44_plain_partial J opt hd ops o b pk h hp hc
  omega

/-! ### C45 -/

/-- A batch is not empty and has at most `push_limit` requests, taken from the packer. -/
theorem C45_batch (J : Json) (opt : PackerOpts) (hd : Bool) (ops : List PackOp) (o : PObs) (b : MultiPush) (pk : Packer)
    (h : pexecAll J { pk := Packer.new opt hd } ops = .ok o) (hp : multiPop J o.pk = .ok (some b, pk)) :
    b.data ≠ [] ∧ (opt.pushLimit ≠ 0 → b.data.length ≤ opt.pushLimit) ∧
    b.data.length + pk.size = o.pk.size := by
  obtain ⟨data, h1, h2⟩ := multiPop_batch h hp
  obtain ⟨b', k1, -, k2, -⟩ := finishPop_spec opt h1.ne
  have hf := h1.fin
  rw [k1] at hf
  simp at hf
  subst hf
  have hl : b'.data.length = data.length := by simpa using congrArg List.length k2
  refine ⟨?_, fun hz => by rw [hl]; exact h1.room hz, ?_⟩
  · intro e
    rw [e] at hl
    exact h1.ne (List.length_eq_zero_iff.1 hl.symm)
  · have := h2.length_eq
    rw [List.length_append, contents_length, contents_length] at this
    rw [hl]; exact this

open ExPacker in
example : Passes (pexecAll exJson (start { pushLimit := 2 }) [.push (rq "a" [1]), .push (rq "b" []), .push (rq "c" [3]), .multiPop])
    (fun o => decide (o.batches.map (fun b => b.data.length) = [2]) && decide (o.pk.size = 1)) = true := by
  decide +kernel

/-! ### C46 -/

/-- The number of samples in a batch. -/
def MultiPush.samples (b : MultiPush) : Nat := (b.data.map fun p => p.ag.data.length).sum

/-- The claim as it is stated. -/
def C46_FullClaim : Prop :=
  ∀ (J : Json) (opt : PackerOpts) (hd : Bool) (ops : List PackOp) (o : PObs) (b : MultiPush) (pk : Packer),
    pexecAll J { pk := Packer.new opt hd } ops = .ok o → multiPop J o.pk = .ok (some b, pk) →
    opt.dataLimit ≠ 0 → b.samples ≤ opt.dataLimit

open ExPacker in
/-- The check looks at the vector after it has been moved away. -/
theorem C46_refuted : ¬ C46_FullClaim := by
  intro hf
  have h : Passes (pexecAll exJson { pk := Packer.new { dataLimit := 1 } true } [.push (rq "a" [1, 2, 3])] >>= fun o =>
      multiPop exJson o.pk) (fun r => match r.1 with
        | none => false
        | some b => decide (b.samples = 3)) = true := by decide +kernel
  obtain ⟨⟨r, pk⟩, h1, h2⟩ := of_passes h
  obtain ⟨o, h3, h4⟩ := bind_inv h1
  cases r with
  | none => simp at h2
  | some b =>
    simp only [decide_eq_true_eq] at h2
    have := hf exJson { dataLimit := 1 } true _ o b pk h3 h4 (by decide)
    simp only at this
    omega

theorem numSize_pos (v : Int) : 1 ≤ numSize v := by
  unfold numSize
  have := decimal_length_pos v.natAbs
  split <;> omega

theorem samples_le (J : Json) (c : Bool) (b : MultiPush) : 2 * b.samples ≤ J.multiSize c b := by
  have h1 : ∀ l : List Int, l.length ≤ (l.map numSize).sum := by
    intro l
    induction l with
    | nil => simp
    | cons v l ih => have := numSize_pos v; simp only [List.length_cons, List.map_cons, List.sum_cons]; omega
  have h2 : ∀ p : PushRequest, 2 * p.ag.data.length ≤ J.pushSize c p := by
    intro p
    have := h1 p.ag.data
    unfold Json.pushSize Json.restSize
    simp only [listSize, List.sum_cons, List.sum_append, List.sum_nil, List.length_map]
    omega
  have h3 : ∀ l : List PushRequest, 2 * (l.map fun p => p.ag.data.length).sum ≤ (l.map (J.pushSize c)).sum := by
    intro l
    induction l with
    | nil => simp
    | cons p l ih => have := h2 p; simp only [List.map_cons, List.sum_cons]; omega
  have := h3 b.data
  unfold MultiPush.samples Json.multiSize listSize
  omega

/-- The number of samples is bounded through the length of the text; so the limit is kept when the text
keeps to `json_limit` (C44) and `json_limit ≤ 2 * data_limit`.  Missing from the full claim: any effect of
`data_limit` itself (C46_no_effect). -/
theorem C46_bounded_partial (J : Json) (opt : PackerOpts) (b : MultiPush)
    (hj : J.multiSize opt.jsonCompact b ≤ opt.jsonLimit) (hd : opt.jsonLimit ≤ 2 * opt.dataLimit) :
    b.samples ≤ opt.dataLimit := by
  have := samples_le J opt.jsonCompact b
  omega

/-- The same packer with another `data_limit`. -/
def Packer.withData (pk : Packer) (d : Nat) : Packer := { pk with opt := { pk.opt with dataLimit := d } }

theorem limits_data {opt : PackerOpts} {p s : Nat} (hs : opt.dataLimit ≠ 0 → 0 < s) :
    limits opt p s = ((limits { opt with dataLimit := 0 } p s).1, (limits { opt with dataLimit := 0 } p s).2.1, s) := by
  unfold limits
  by_cases h1 : opt.pushLimit ≠ 0 ∧ (if opt.pushLimit ≠ 0 then p - 1 else p) = 0
  · simp only; rw [if_pos h1, if_pos h1]
  · simp only; rw [if_neg h1, if_neg h1, if_neg (show ¬ (0 ≠ 0) by simp)]
    by_cases h2 : opt.dataLimit ≠ 0
    · have := hs h2
      rw [if_pos h2, if_neg (by omega)]
      have e : s ≠ 0 := by omega
      simp [e]
    · rw [if_neg h2]

theorem limits_zero (opt : PackerOpts) (h : opt.dataLimit = 0) (p s s' : Nat) :
    (limits opt p s).1 = (limits opt p s').1 ∧ (limits opt p s).2.1 = (limits opt p s').2.1 := by
  unfold limits
  simp only [h, ne_eq, not_true, if_false]
  generalize (if ¬ opt.pushLimit = 0 then p - 1 else p) = q
  by_cases h1 : ¬ opt.pushLimit = 0 ∧ q = 0
  · rw [if_pos h1, if_pos h1]; exact ⟨rfl, rfl⟩
  · rw [if_neg h1, if_neg h1]; exact ⟨rfl, rfl⟩

theorem push_withData (J : Json) (pk : Packer) (d : Nat) (req : PushRequest) :
    push J (pk.withData d) req = (push J pk req).map fun q => q.withData d := by
  unfold push
  have : measure J (pk.withData d).opt req = measure J pk.opt req := rfl
  rw [this]
  cases measure J pk.opt req with
  | error e => rfl
  | ok r =>
    obtain ⟨n, lg⟩ := r
    simp only [bind_ok']
    have : (pk.withData d).top = pk.top := rfl
    rw [this]
    cases lowerBound pk.top n with
    | error e => rfl
    | ok r => rfl

theorem popLoop_withData (J : Json) (d s2 : Nat) (fuel : Nat) (st : PopState) (h1 : st.pk.opt.dataLimit ≠ 0 → 0 < st.samples)
    (h2 : d ≠ 0 → 0 < s2) :
    popLoop J fuel { st with pk := st.pk.withData d, samples := s2 } =
      (popLoop J fuel st).map fun r => { r with pk := r.pk.withData d, samples := s2 } := by
  induction fuel generalizing st with
  | zero => rfl
  | succ fuel ih =>
    unfold popLoop
    by_cases h0 : st.json = 0
    · simp only; rw [if_pos h0, if_pos h0]; rfl
    simp only
    rw [if_neg h0, if_neg h0]
    unfold popByJsonSize
    have et : (st.pk.withData d).top = st.pk.top := rfl
    rw [et]
    cases hp : popTop st.pk.top st.json with
    | error e => rfl
    | ok r =>
      obtain ⟨r, top⟩ := r
      simp only [bind_ok']
      cases r with
      | none => rfl
      | some t =>
        simp only
        by_cases h5 : st.json ≥ (charge t.legend st.set t.size).2
        · rw [if_pos h5, if_pos h5]
          have e1 : limits ({ st.pk.withData d with top := top } : Packer).opt st.pushes s2 =
              ((limits { st.pk.opt with dataLimit := 0 } st.pushes s2).1,
               (limits { st.pk.opt with dataLimit := 0 } st.pushes s2).2.1, s2) := limits_data h2
          have e2 : limits st.pk.opt st.pushes st.samples =
              ((limits { st.pk.opt with dataLimit := 0 } st.pushes st.samples).1,
               (limits { st.pk.opt with dataLimit := 0 } st.pushes st.samples).2.1, st.samples) := limits_data h1
          have e3 : (limits { st.pk.opt with dataLimit := 0 } st.pushes st.samples).1 =
              (limits { st.pk.opt with dataLimit := 0 } st.pushes s2).1 := by
            exact (limits_zero _ rfl _ _ _).1
          have e4 : (limits { st.pk.opt with dataLimit := 0 } st.pushes st.samples).2.1 =
              (limits { st.pk.opt with dataLimit := 0 } st.pushes s2).2.1 := by
            exact (limits_zero _ rfl _ _ _).2
          simp only [e1, e2, e3, e4]
          by_cases h6 : (limits { st.pk.opt with dataLimit := 0 } st.pushes s2).1 = true
          · rw [if_pos h6, if_pos h6]; rfl
          · rw [if_neg h6, if_neg h6]
            exact ih { json := _, pushes := _, samples := st.samples, set := _, pk := { st.pk with top := top }, data := _ } h1
        · rw [if_neg h5, if_neg h5]
          have := push_withData J { st.pk with top := top } d t.req
          have e : ({ st.pk.withData d with top := top } : Packer) = Packer.withData { st.pk with top := top } d := rfl
          rw [e, this]
          cases push J { st.pk with top := top } t.req with
          | error e => rfl
          | ok q => rfl

/-- `data_limit` has no effect at all on what `multi_pop` does. -/
theorem C46_no_effect (J : Json) (pk : Packer) (d : Nat) :
    multiPop J (pk.withData d) = (multiPop J pk).map fun r => (r.1, r.2.withData d) := by
  unfold multiPop
  have e1 : (pk.withData d).top = pk.top := rfl
  have e2 : (pk.withData d).opt.jsonCompact = pk.opt.jsonCompact := rfl
  have e3 : (pk.withData d).opt.jsonLimit = pk.opt.jsonLimit := rfl
  have e4 : (pk.withData d).opt.pushLimit = pk.opt.pushLimit := rfl
  have e5 : (pk.withData d).opt.dataLimit = d := rfl
  rw [e1, e2, e3, e4, e5]
  by_cases h0 : pk.top = []
  · rw [if_pos h0, if_pos h0]; rfl
  rw [if_neg h0, if_neg h0]
  simp only
  by_cases h1 : J.multiSize pk.opt.jsonCompact {} > pk.opt.jsonLimit
  · rw [if_pos h1, if_pos h1]; rfl
  rw [if_neg h1, if_neg h1]
  rw [popLoop_withData J d d (pk.top.length + 1)
    { json := pk.opt.jsonLimit - J.multiSize pk.opt.jsonCompact {}, pushes := pk.opt.pushLimit,
      samples := pk.opt.dataLimit, set := [], pk := pk, data := [] } Nat.pos_of_ne_zero Nat.pos_of_ne_zero]
  cases popLoop J (pk.top.length + 1) _ with
  | error e => rfl
  | ok st =>
    have : finishPop (st.pk.withData d).opt st.data = finishPop st.pk.opt st.data := rfl
    show (finishPop (st.pk.withData d).opt st.data >>= _) = _
    rw [this]
    show _ = (finishPop st.pk.opt st.data >>= _).map _
    cases finishPop st.pk.opt st.data with
    | error e => rfl
    | ok r => rfl

/-! ### C47 -/

/-- `pop_by_json_size` is best fit on the recorded sizes. -/
theorem C47_best_fit (J : Json) (opt : PackerOpts) (hd : Bool) (ops : List PackOp) (o : PObs)
    (h : pexecAll J { pk := Packer.new opt hd } ops = .ok o) (n : Nat) :
    (popByJsonSize o.pk n = .ok (none, o.pk) ∧ ∀ t ∈ o.pk.top, n < t.size) ∨
    (∃ t pk, popByJsonSize o.pk n = .ok (some t, pk) ∧ (t :: pk.top).Perm o.pk.top ∧ t.size ≤ n ∧
      ∀ x ∈ o.pk.top, x.size ≤ n → x.size ≤ t.size) := by
  rcases popSize_spec (pbooks_execAll (pbooks_new J opt hd) h).inv n with h | ⟨t, pk, h1, -, -, -, h2, h3, h4⟩
  · exact Or.inl h
  · exact Or.inr ⟨t, pk, h1, h2, h3, h4⟩

/-- The recorded size is the length of the text of the request, with the compact name in the place of the
name if compaction is on. -/
theorem C47_recorded (J : Json) (opt : PackerOpts) (hd : Bool) (ops : List PackOp) (o : PObs)
    (h : pexecAll J { pk := Packer.new opt hd } ops = .ok o) (t : TopItem) (ht : t ∈ o.pk.top) :
    (opt.nameCompact = false → t.size = J.pushSize opt.jsonCompact t.req) ∧
    (opt.nameCompact = true → ∃ n lg, compactName opt.nameSep t.req.name [] = .ok (n, lg) ∧
      t.size = J.pushSize opt.jsonCompact t.req - t.req.name.length + n.length) := by
  have hb := pbooks_execAll (pbooks_new J opt hd) h
  have hm := hb.inv.meas t ht
  rw [hb.optEq] at hm
  unfold Packer.measure at hm
  constructor
  · intro hc
    simp only [hc, Bool.false_eq_true, if_false, Except.ok.injEq, Prod.mk.injEq] at hm
    exact hm.1.symm
  · intro hc
    simp only [hc, if_true] at hm
    obtain ⟨⟨n, lg⟩, h1, h2⟩ := bind_inv hm
    simp only [Except.ok.injEq, Prod.mk.injEq] at h2
    exact ⟨n, lg, h1, h2.1.symm⟩

open ExPacker in
/-- tests/packer_suite.cpp:114-150. -/
example : Passes (pexecAll exJson (start { jsonCompact := true })
      [.push (rq "1" []), .push (rq "22" []), .push (rq "333" []), .popSize 32, .popSize 31, .popSize 29, .popSize 30])
    (fun o => decide (o.popped.map PushRequest.name = ["333".toList, "22".toList, "1".toList]) && o.pk.empty) = true := by
  decide +kernel

/-! ### C48 -/

/-- `pushout` with a handler ends, leaves the packer empty, and every request it held can be restored from
exactly one of the batches handed over. -/
theorem C48_pushout (J : Json) (W : Wjson) (opt : PackerOpts) (ops : List PackOp) (o : PObs)
    (h : pexecAll J { pk := Packer.new opt true } ops = .ok o) :
    ∃ n out pk, pushout J o.pk = .ok (n, out, pk) ∧ pk.contents = [] ∧ (∀ b ∈ out, b.data ≠ []) ∧
      ((∀ b ∈ out, b.legend.length ≤ 2 ^ 64) →
        ∃ datas, List.Forall₂ (Restores W) out datas ∧ datas.flatten.Perm o.pk.contents) := by
  have hb := pbooks_execAll (pbooks_new J opt true) h
  obtain ⟨out, last, datas, rest, h1, h2, h3, h4⟩ := pushout_spec J hb.inv hb.handlerEq
  have hall : ∃ ds, List.Forall₂ (Came J opt) (out ++ last) ds ∧ ds.flatten = datas.flatten ++ rest := by
    have h2' : List.Forall₂ (Came J opt) out datas := h2.imp fun b l hbl => Or.inl (by rw [← hb.optEq]; exact hbl)
    rcases h3 with ⟨rfl, rfl⟩ | ⟨b, rfl, h3⟩
    · exact ⟨datas, by simpa using h2', by simp⟩
    · exact ⟨datas ++ [rest], forall₂_append h2' (List.Forall₂.cons (Or.inr h3) List.Forall₂.nil), by simp⟩
  obtain ⟨ds, k1, k2⟩ := hall
  refine ⟨_, _, _, h1, rfl, ?_, fun hl => ⟨ds, ?_, by rw [k2]; exact h4⟩⟩
  · clear h1 k2
    revert k1
    generalize out ++ last = bs
    intro k1
    induction k1 with
    | nil => simp
    | cons c _ ih =>
      intro b hb'
      rcases List.mem_cons.1 hb' with rfl | hb'
      · rcases c with c | c
        · obtain ⟨b'', q1, -, q2, -⟩ := finishPop_spec opt c.ne
          have hf := c.fin
          rw [q1] at hf
          simp at hf
          subst hf
          intro e
          rw [e] at q2
          exact c.ne (by simpa using q2.symm)
        · intro e
          have := compactAll_ag c.comp
          rw [e] at this
          exact c.ne (by simpa using this.symm)
      · exact ih b hb'
  · clear h1 k2
    revert k1 hl
    generalize out ++ last = bs
    intro k1 hl
    induction k1 with
    | nil => exact List.Forall₂.nil
    | cons c _ ih => exact List.Forall₂.cons (c.restores W (hl _ (by simp))) (ih fun b hb' => hl b (by simp [hb']))

/-- Without a handler nothing happens. -/
theorem C48_no_handler (J : Json) (pk : Packer) (h : pk.handler = false) : pushout J pk = .ok (0, [], pk) := by
  unfold pushout; rw [if_pos h]

open ExPacker in
example : Passes (pexecAll exJson (start opt)
      [.push (rq "a~~b" [1, 2]), .push (rq "a~~c" [1]), .push (rq "cddd" []), .push (rq (String.ofList (List.replicate 120 'z')) []),
       .pushout])
    (fun o => o.pk.empty && decide (o.batches.map (fun b => b.data.length) = [2, 1, 1]) &&
      decide (o.batches.map (exJson.multiSize true) = [92, 48, 164])) = true := by
  decide +kernel

/-! ### C49 -/

/-- Whatever the request and whatever the parser does, `recompact` returns; it changes nothing but names and
legend, and clears the legend if it succeeds. -/
theorem C49_safe (W : Wjson) (m : MultiPush) :
    ∃ ok m', recompact W m = .ok (ok, m') ∧ m'.sep = m.sep ∧ m'.data.map PushRequest.ag = m.data.map PushRequest.ag ∧
      (ok = true → m'.legend = []) ∧ (ok = false → m'.legend = m.legend) := by
  unfold recompact
  by_cases h1 : m.legend = []
  · rw [if_pos h1]
    exact ⟨true, m, rfl, rfl, rfl, fun _ => h1, by simp⟩
  rw [if_neg h1]
  by_cases h2 : m.sep = []
  · rw [if_pos h2]
    exact ⟨false, m, rfl, rfl, rfl, by simp, fun _ => rfl⟩
  rw [if_neg h2]
  obtain ⟨ok, qs, h3, h4⟩ := recompactAll_total W m.sep m.legend m.data
  refine ⟨ok, { m with data := qs, legend := if ok then [] else m.legend }, by simp only [h3, bind_ok'], rfl, h4, ?_, ?_⟩
  · intro h; simp [h]
  · intro h; simp [h]

/-- An index outside the legend is refused. -/
theorem C49_range (W : Wjson) (m : MultiPush) (p : PushRequest) (i : Nat) (hp : m.data = [p]) (hn : p.name = decimal i)
    (hi : m.legend.length ≤ i) (h64 : i < 2 ^ 64) (hl : m.legend ≠ []) (hs : m.sep ≠ []) : recompact W m = .ok (false, m) := by
  have hr := W.readInt_decimal i [] h64 (Or.inl rfl)
  have hnum := W.isNumber_decimal i []
  rw [List.append_nil, ← hn] at hr hnum
  have hne : p.name ≠ [] := by rw [hn]; exact decimal_ne_nil i
  have hloop : recompactLoop W m.sep m.legend (p.name.length + 1) p.name [] = .ok none := by
    cases h : p.name with
    | nil => exact absurd h hne
    | cons c s =>
      rw [h] at hr hnum
      unfold recompactLoop
      rw [if_neg (by rw [hnum]; simp)]
      simp only [hr]
      rw [if_pos hi]
  unfold recompact
  rw [if_neg hl, if_neg hs, hp]
  unfold recompactAll
  simp only [hloop, bind_ok', Bool.false_eq_true, if_false]
  rw [← hp]

open ExPacker in
example : [['5'], "0~x".toList, "x".toList, "0x".toList, "-1".toList].map (fun n =>
      Passes (recompact exWjson { legend := [['a']], data := [rq (String.ofList n) []] }) fun r => !r.1) =
    [true, true, true, true, true] ∧
    Passes (recompact exWjson { legend := [['a']], data := [rq "0~" []] }) (fun r =>
      r.1 && decide (r.2.data.map PushRequest.name = ["a~~".toList])) = true := by
  decide +kernel

/-! ### C50 -/

/-- The claim as it is stated. -/
def C50_FullClaim : Prop :=
  ∀ (J : Json) (opt : PackerOpts) (req : PushRequest), ∃ pk, push J (Packer.new opt true) req = .ok pk

/-- With an empty separator the loop of `compact_` goes on for ever: no number of iterations is enough. -/
theorem C50_diverges (fuel : Nat) (name : PName) (lg : List PName) : compactLoop [] fuel name lg = .error .diverge := by
  rw [compactLoop_words, splitWords_diverges]; rfl

/-- Pushing with compaction and an empty separator never ends. -/
theorem C50_refuted : ¬ C50_FullClaim := by
  intro h
  obtain ⟨pk, hp⟩ := h exJson { nameCompact := true, nameSep := [] } {}
  unfold push at hp
  obtain ⟨r, h1, -⟩ := bind_inv hp
  unfold Packer.measure at h1
  simp only [Packer.new, if_true] at h1
  obtain ⟨q, h2, -⟩ := bind_inv h1
  unfold compactName at h2
  rw [C50_diverges] at h2
  simp at h2

/-- With a separator, or without compaction, pushing ends.  Missing from the full claim: the empty separator,
for which it does not (C50_diverges). -/
theorem C50_push_partial (J : Json) (opt : PackerOpts) (hd : Bool) (ops : List PackOp) (o : PObs) (req : PushRequest)
    (h : pexecAll J { pk := Packer.new opt hd } ops = .ok o) (he : opt.nameCompact = true → opt.nameSep ≠ []) :
    ∃ pk, push J o.pk req = .ok pk ∧ pk.contents.Perm (req :: o.pk.contents) := by
  have hb := pbooks_execAll (pbooks_new J opt hd) h
  obtain ⟨n, lg, hm⟩ := measure_total J (opt := o.pk.opt) (by rw [hb.optEq]; exact he) req
  obtain ⟨pk, h1, -, -, -, h2⟩ := push_spec J hb.inv hm
  exact ⟨pk, h1, h2⟩

/-! ### C64 -/

/-- The claim as it is stated: batches handed over by `pushout` keep to `push_limit`. -/
def C64_FullClaim : Prop :=
  ∀ (J : Json) (opt : PackerOpts) (ops : List PackOp) (o : PObs) (n : Nat) (out : List MultiPush) (pk : Packer),
    pexecAll J { pk := Packer.new opt true } ops = .ok o → pushout J o.pk = .ok (n, out, pk) →
    ∀ b ∈ out, opt.pushLimit ≠ 0 → b.data.length ≤ opt.pushLimit

open ExPacker in
/-- What does not fit goes out in one batch without any limit. -/
theorem C64_refuted : ¬ C64_FullClaim := by
  intro hf
  have h : Passes (pexecAll exJson { pk := Packer.new { pushLimit := 1, jsonLimit := 40 } true }
      [.push (rq "a" []), .push (rq "b" [])] >>= fun o => pushout exJson o.pk) (fun r =>
        decide (r.2.1.map (fun b => b.data.length) = [2])) = true := by decide +kernel
  obtain ⟨⟨n, out, pk⟩, h1, h2⟩ := of_passes h
  obtain ⟨o, h3, h4⟩ := bind_inv h1
  simp only [decide_eq_true_eq] at h2
  cases out with
  | nil => simp at h2
  | cons b out =>
    simp only [List.map_cons, List.cons.injEq] at h2
    have := hf exJson { pushLimit := 1, jsonLimit := 40 } _ o n _ pk h3 h4 b (by simp) (by decide)
    simp only at this
    omega

/-- All batches but possibly the last keep to `push_limit` and, with no compaction of names and a separator
not longer than `~~`, to `json_limit`.  Missing from the full claim: the batch of what is left over. -/
theorem C64_limits_partial (J : Json) (opt : PackerOpts) (ops : List PackOp) (o : PObs)
    (h : pexecAll J { pk := Packer.new opt true } ops = .ok o) :
    ∃ n out last pk, pushout J o.pk = .ok (n, out ++ last, pk) ∧ last.length ≤ 1 ∧
      ∀ b ∈ out, (opt.pushLimit ≠ 0 → b.data.length ≤ opt.pushLimit) ∧
        (opt.nameCompact = false → J.strSize opt.nameSep ≤ 4 → J.multiSize opt.jsonCompact b ≤ opt.jsonLimit) := by
  have hb := pbooks_execAll (pbooks_new J opt true) h
  obtain ⟨out, last, datas, rest, h1, h2, h3, h4⟩ := pushout_spec J hb.inv hb.handlerEq
  refine ⟨_, out, last, _, h1, ?_, ?_⟩
  · rcases h3 with ⟨rfl, -⟩ | ⟨b, rfl, -⟩ <;> simp
  · clear h1 h4
    rw [hb.optEq] at h2
    induction h2 with
    | nil => simp
    | cons c _ ih =>
      intro b hb'
      rcases List.mem_cons.1 hb' with rfl | hb'
      · refine ⟨fun hz => ?_, fun hc hs => by have := c.size_plain hc; omega⟩
        obtain ⟨b'', q1, -, q2, -⟩ := finishPop_spec opt c.ne
        have hf := c.fin
        rw [q1] at hf
        simp at hf
        subst hf
        have := congrArg List.length q2
        rw [List.length_map, List.length_map] at this
        rw [this]; exact c.room hz
      · exact ih b hb'

/-! ### C65 -/

/-- The claim as it is stated: `pushout` returns the number of batches handed over. -/
def C65_FullClaim : Prop :=
  ∀ (J : Json) (opt : PackerOpts) (ops : List PackOp) (o : PObs) (n : Nat) (out : List MultiPush) (pk : Packer),
    pexecAll J { pk := Packer.new opt true } ops = .ok o → pushout J o.pk = .ok (n, out, pk) → n = out.length

open ExPacker in
/-- The batch of what is left over is not counted. -/
theorem C65_refuted : ¬ C65_FullClaim := by
  intro hf
  have h : Passes (pexecAll exJson { pk := Packer.new { jsonLimit := 40 } true } [.push (rq "a" [])] >>= fun o =>
      pushout exJson o.pk) (fun r => decide (r.1 = 0) && decide (r.2.1.length = 1)) = true := by decide +kernel
  obtain ⟨⟨n, out, pk⟩, h1, h2⟩ := of_passes h
  obtain ⟨o, h3, h4⟩ := bind_inv h1
  simp only [Bool.and_eq_true, decide_eq_true_eq] at h2
  have := hf exJson { jsonLimit := 40 } _ o n out pk h3 h4
  omega

/-- It returns that number, or one less; the number itself if afterwards nothing was left over, that is if
popping until there is no batch empties the packer.  Missing from the full claim: the other case. -/
theorem C65_count_partial (J : Json) (opt : PackerOpts) (ops : List PackOp) (o : PObs)
    (h : pexecAll J { pk := Packer.new opt true } ops = .ok o) :
    ∃ n out pk bs pk', pushout J o.pk = .ok (n, out, pk) ∧ popAll J (o.pk.top.length + 1) o.pk [] = .ok (bs, pk') ∧
      n = bs.length ∧ bs <+: out ∧ (pk'.contents = [] → n = out.length) ∧ (pk'.contents ≠ [] → n + 1 = out.length) := by
  have hb := pbooks_execAll (pbooks_new J opt true) h
  obtain ⟨out, pk1, datas, h1, -, -, -, -, -⟩ := popAll_spec J (o.pk.top.length + 1) [] hb.inv (Nat.lt_succ_self _)
  rw [List.nil_append] at h1
  rcases leftover_spec pk1.top with ⟨e, h4⟩ | ⟨b, h4, h5⟩
  · refine ⟨out.length, out ++ [], { pk1 with top := [] }, out, pk1, ?_, h1, rfl, List.prefix_append _ _, by simp, ?_⟩
    · unfold pushout
      rw [if_neg (by simp [hb.handlerEq])]
      simp only [h1, bind_ok', h4]
    · intro hne; exact absurd (by unfold contents; rw [e]; rfl) hne
  · refine ⟨out.length, out ++ [b], { pk1 with top := [] }, out, pk1, ?_, h1, rfl, List.prefix_append _ _, ?_, by simp⟩
    · unfold pushout
      rw [if_neg (by simp [hb.handlerEq])]
      simp only [h1, bind_ok', h4]
    · intro he; exact absurd he h5.ne

/-! ### C66 -/

/-- The claim as it is stated: `multi_push` takes over the requests the sender of the batch meant. -/
def C66_FullClaim : Prop :=
  ∀ (J : Json) (W : Wjson) (opt : PackerOpts) (ops : List PackOp) (o : PObs) (m : MultiPush) (l : List PushRequest) (pk : Packer),
    pexecAll J { pk := Packer.new opt true } ops = .ok o → Restores W m l → multiPush J o.pk m.data = .ok pk →
    pk.contents.Perm (l ++ o.pk.contents)

open ExPacker in
/-- The legend of the request is ignored, the compact names are kept. -/
theorem C66_refuted : ¬ C66_FullClaim := by
  intro hf
  have hr : Restores exWjson { legend := [['a']], data := [rq "0" []] } [rq "a" []] := by
    unfold Restores
    decide +kernel
  have h : Passes (multiPush exJson (Packer.new {} true) [rq "0" []]) (fun pk => decide (pk.contents = [rq "0" []])) = true := by
    decide +kernel
  obtain ⟨pk, h1, h2⟩ := of_passes h
  simp only [decide_eq_true_eq] at h2
  have := hf exJson exWjson {} [] _ _ _ pk rfl hr h1
  rw [h2] at this
  have h3 : (Packer.new {} true).contents = [] := rfl
  have h4 := this.mem_iff (a := rq "0" [])
  rw [h3] at h4
  revert h4
  decide +kernel

/-- It does if the request has no legend.  Missing from the full claim: compacted requests. -/
theorem C66_plain_partial (J : Json) (W : Wjson) (opt : PackerOpts) (hd : Bool) (ops : List PackOp) (o : PObs) (m : MultiPush)
    (l : List PushRequest) (pk : Packer) (h : pexecAll J { pk := Packer.new opt hd } ops = .ok o) (hr : Restores W m l)
    (hm : multiPush J o.pk m.data = .ok pk) (hl : m.legend = []) : pk.contents.Perm (l ++ o.pk.contents) := by
  have hb := pbooks_execAll (pbooks_new J opt hd) h
  unfold Restores recompact at hr
  rw [if_pos hl] at hr
  simp only [Except.ok.injEq, Prod.mk.injEq, true_and] at hr
  have : m.data = l := by rw [hr]
  rw [← this]
  exact (multiPush_inv hb.inv hm).2.2.2

/-! ### C67 -/

/-- The claim as it is stated: `multi_pop` returns a batch whenever some request would fit in one alone. -/
def C67_FullClaim : Prop :=
  ∀ (J : Json) (opt : PackerOpts) (ops : List PackOp) (o : PObs) (p : PushRequest) (b : MultiPush) (r : Option MultiPush) (pk : Packer),
    pexecAll J { pk := Packer.new opt true } ops = .ok o → p ∈ o.pk.contents →
    finishPop opt [p] = .ok (some b) → J.multiSize opt.jsonCompact b ≤ opt.jsonLimit →
    multiPop J o.pk = .ok (r, pk) → r ≠ none

open ExPacker in
/-- With compaction `multi_pop` gives up at the first request that does not fit together with its words. -/
theorem C67_refuted : ¬ C67_FullClaim := by
  intro hf
  have h : Passes (pexecAll exJson { pk := Packer.new { jsonLimit := 52, jsonCompact := true, nameCompact := true } true }
      [.push (rq "wwwwwwwwwwwwwwwwwwwwwwww" []), .push (rq "b" [])]) (fun o => decide (rq "b" [] ∈ o.pk.contents) &&
        Passes (multiPop exJson o.pk) fun r => decide (r.1 = none)) = true := by decide +kernel
  have hb : Passes (finishPop { jsonLimit := 52, jsonCompact := true, nameCompact := true } [rq "b" []]) (fun b =>
      match b with
      | none => false
      | some b => decide (exJson.multiSize true b ≤ 52)) = true := by decide +kernel
  obtain ⟨o, h1, h2⟩ := of_passes h
  simp only [Bool.and_eq_true, decide_eq_true_eq] at h2
  obtain ⟨⟨r, pk⟩, h3, h4⟩ := of_passes h2.2
  obtain ⟨b, h5, h6⟩ := of_passes hb
  cases b with
  | none => simp at h6
  | some b =>
    simp only [decide_eq_true_eq] at h4 h6
    exact hf exJson _ _ o (rq "b" []) b r pk h1 h2.1 h5 h6 h3 h4

/-- Without compaction it does, when the request fits with the default separator.  Missing from the full
claim: compaction of names. -/
theorem C67_progress_partial (J : Json) (opt : PackerOpts) (hd : Bool) (ops : List PackOp) (o : PObs) (p : PushRequest)
    (r : Option MultiPush) (pk : Packer) (h : pexecAll J { pk := Packer.new opt hd } ops = .ok o) (hp : p ∈ o.pk.contents)
    (hc : opt.nameCompact = false) (hfit : J.multiSize opt.jsonCompact { data := [p] } ≤ opt.jsonLimit)
    (hm : multiPop J o.pk = .ok (r, pk)) : r ≠ none := by
  have hb := pbooks_execAll (pbooks_new J opt hd) h
  obtain ⟨r', pk', h1, -, -, -, h5⟩ := multiPop_spec J hb.inv
  rw [h1] at hm
  simp at hm
  obtain ⟨rfl, rfl⟩ := hm
  rcases h5 with ⟨rfl, -, h6⟩ | ⟨b, data, rfl, -⟩
  · exfalso
    obtain ⟨t, ht, rfl⟩ := List.mem_map.1 hp
    have hsz := (C47_recorded J opt hd ops o h t ht).1 hc
    have h4 : J.strSize ['~', '~'] = 4 := J.plain _ (by decide)
    have hE := emptySize_eq J opt
    have hpos : 2 ≤ J.pushSize opt.jsonCompact t.req := by
      unfold Json.pushSize
      have := J.le_strSize t.req.name
      omega
    have hfit' : emptySize J opt + t.size ≤ opt.jsonLimit := by
      unfold Json.multiSize listSize at hfit
      simp only [h4, List.map_nil, List.map_cons, List.sum_nil, List.sum_cons, List.length_nil, List.length_cons] at hfit
      omega
    rw [hb.optEq] at h6
    rcases h6 with h6 | h6 | h6 | h6
    · rw [h6] at ht; simp at ht
    · omega
    · have := h6 t ht; omega
    · rw [hc] at h6; simp at h6
  · simp

/-! ### C68 -/

/-- `empty`, `size`, `data_size`, `max_val` and `min_val` tell what is in the packer. -/
theorem C68_accessors (J : Json) (opt : PackerOpts) (hd : Bool) (ops : List PackOp) (o : PObs)
    (h : pexecAll J { pk := Packer.new opt hd } ops = .ok o) :
    (o.pk.empty = true ↔ o.pk.contents = []) ∧ o.pk.size = o.pk.contents.length ∧
    o.pk.dataSize = (o.pk.contents.map fun p => p.ag.data.length).sum ∧
    (∀ t ∈ o.pk.top, o.pk.minVal ≤ t.size ∧ t.size ≤ o.pk.maxVal) ∧
    (o.pk.contents ≠ [] → (∃ t ∈ o.pk.top, t.size = o.pk.minVal) ∧ ∃ t ∈ o.pk.top, t.size = o.pk.maxVal) := by
  have hs := (pbooks_execAll (pbooks_new J opt hd) h).inv.sorted
  refine ⟨?_, by simp [Packer.size, contents], by simp [dataSize, contents, Function.comp_def], ?_, ?_⟩
  · simp [Packer.empty, contents]
  · intro t ht
    have hne : o.pk.top ≠ [] := List.ne_nil_of_mem ht
    constructor
    · unfold minVal
      cases hc : o.pk.top with
      | nil => exact absurd hc hne
      | cons a l =>
        rw [hc] at ht hs
        simp only [List.head?_cons]
        rcases List.mem_cons.1 ht with rfl | ht
        · exact Nat.le_refl _
        · exact (List.pairwise_cons.1 hs).1 t ht
    · unfold maxVal
      rw [List.getLast?_eq_some_getLast hne]
      have hsp := (List.dropLast_append_getLast hne)
      rw [← hsp] at ht hs
      rcases List.mem_append.1 ht with ht | ht
      · exact (List.pairwise_append.1 hs).2.2 t ht _ (by simp)
      · simp only [List.mem_singleton] at ht
        rw [ht]
  · intro hne
    have hne : o.pk.top ≠ [] := fun e => hne (by unfold contents; rw [e]; rfl)
    refine ⟨⟨o.pk.top.head hne, List.head_mem hne, ?_⟩, ⟨o.pk.top.getLast hne, List.getLast_mem hne, ?_⟩⟩
    · unfold minVal; rw [List.head?_eq_some_head hne]
    · unfold maxVal; rw [List.getLast?_eq_some_getLast hne]

/-! ### C69 -/

/-- The claim as it is stated: a `recompact` that fails leaves the request as it was. -/
def C69_FullClaim : Prop :=
  ∀ (W : Wjson) (m m' : MultiPush), recompact W m = .ok (false, m') → m' = m

open ExPacker in
/-- The requests before the bad one have been given their names already. -/
theorem C69_refuted : ¬ C69_FullClaim := by
  intro hf
  have h : recompact exWjson { legend := [['a']], data := [rq "0" [], rq "5" []] } =
      .ok (false, { legend := [['a']], data := [rq "a" [], rq "5" []] }) := by decide +kernel
  have := hf exWjson _ _ h
  revert this
  decide +kernel

theorem recompactAll_stops (W : Wjson) (sep : PName) (legend : List PName) (ps qs : List PushRequest)
    (h : recompactAll W sep legend ps = .ok (false, qs)) : ∃ k < ps.length, qs.drop k = ps.drop k := by
  induction ps generalizing qs with
  | nil => simp [recompactAll] at h
  | cons p ps ih =>
    unfold recompactAll at h
    obtain ⟨r, h1, h2⟩ := bind_inv h
    cases r with
    | none =>
      simp only [Except.ok.injEq, Prod.mk.injEq, true_and] at h2
      exact ⟨0, by simp, by rw [← h2]⟩
    | some n =>
      obtain ⟨⟨ok, qs'⟩, h3, h4⟩ := bind_inv h2
      simp only [Except.ok.injEq, Prod.mk.injEq] at h4
      obtain ⟨rfl, rfl⟩ := h4
      obtain ⟨k, hk, e⟩ := ih qs' h3
      exact ⟨k + 1, by simpa using hk, by simpa using e⟩

/-- The legend, the data, and all requests from the bad one on are left; so all of it if there is only one
request.  Missing from the full claim: the names of the requests before. -/
theorem C69_rest_partial (W : Wjson) (m m' : MultiPush) (h : recompact W m = .ok (false, m')) :
    m'.sep = m.sep ∧ m'.legend = m.legend ∧ m'.data.map PushRequest.ag = m.data.map PushRequest.ag ∧
    (m.data.length ≤ 1 → m' = m) ∧ (m.data ≠ [] → ∃ k < m.data.length, m'.data.drop k = m.data.drop k) := by
  obtain ⟨ok, m'', h1, h2, h3, -, h5⟩ := C49_safe W m
  rw [h1] at h
  simp only [Except.ok.injEq, Prod.mk.injEq] at h
  obtain ⟨rfl, rfl⟩ := h
  have hd : m.data ≠ [] → ∃ k < m.data.length, m''.data.drop k = m.data.drop k := by
    intro hne
    unfold recompact at h1
    by_cases hl : m.legend = []
    · rw [if_pos hl] at h1; simp at h1
    rw [if_neg hl] at h1
    by_cases hs : m.sep = []
    · rw [if_pos hs] at h1
      simp only [Except.ok.injEq, Prod.mk.injEq, true_and] at h1
      exact ⟨0, List.length_pos_of_ne_nil hne, by rw [h1]⟩
    rw [if_neg hs] at h1
    obtain ⟨⟨ok, qs⟩, h6, h7⟩ := bind_inv h1
    simp only [Except.ok.injEq, Prod.mk.injEq] at h7
    obtain ⟨rfl, rfl⟩ := h7
    exact recompactAll_stops W _ _ _ _ h6
  refine ⟨h2, h5 rfl, h3, ?_, hd⟩
  intro hle
  have hlen : m''.data.length = m.data.length := by simpa using congrArg List.length h3
  have hdata : m''.data = m.data := by
    by_cases hne : m.data = []
    · rw [hne] at hlen ⊢; exact List.length_eq_zero_iff.1 hlen
    · obtain ⟨k, hk, e⟩ := hd hne
      have : k = 0 := by omega
      subst this
      simpa using e
  have h5' := h5 rfl
  cases m; cases m''
  simp only at h2 h5' hdata
  subst h2 h5' hdata
  rfl

end Wrtstat
