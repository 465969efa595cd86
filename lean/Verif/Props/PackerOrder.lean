/-
Property C116: the order in which requests leave a packer.

A batch is filled with the largest request that fits, again and again: of two requests for one name the larger leaves first,
whichever was pushed first (`C116_refuted`, `C116_larger_first_partial`); the last batch of `pushout` has the smaller ones first
(`C116_rest_partial`).  The order is kept for names of which the packer never holds two requests (`C116_spaced_partial`).
-/
import Verif.Props.Packer

namespace Wrtstat

set_option autoImplicit false

open Packer

/-- The requests of a name. -/
def ofName (n : PName) (l : List PushRequest) : List PushRequest := l.filter fun p => p.name = n

/-- Requests leave in batches only. -/
def PackOp.batched : PackOp → Prop
  | .popSize _ => False
  | _ => True

/-- The requests of a name leave the packer in the order in which they were pushed. -/
def C116_FullClaim : Prop :=
  ∀ (J : Json) (W : Wjson) (opt : PackerOpts) (hd : Bool) (ops : List PackOp) (o : PObs) (datas : List (List PushRequest)),
    (∀ op ∈ ops, PackOp.batched op) → pexecAll J { pk := Packer.new opt hd } ops = .ok o →
    List.Forall₂ (Restores W) o.batches datas → ∀ n, ofName n datas.flatten <+: ofName n o.pushed

namespace ExPacker

/-- Two records of one name; the later one has more samples. -/
def twice : List PackOp := [.push (rq "a" [1]), .push (rq "a" [2, 3]), .multiPop]

theorem swapped : (match pexecAll exJson (start {}) twice with
    | .ok o => decide (o.batches.map (fun b => (b.legend, b.data)) = [([], [rq "a" [2, 3], rq "a" [1]])] ∧
        o.pushed = [rq "a" [1], rq "a" [2, 3]])
    | .error _ => false) = true := by decide +kernel

end ExPacker

theorem C116_refuted : ¬ C116_FullClaim := by
  intro H
  have hw := ExPacker.swapped
  split at hw
  · rename_i o ho
    simp only [decide_eq_true_eq] at hw
    obtain ⟨h1, h2⟩ := hw
    have hb : ∃ b, o.batches = [b] ∧ b.legend = [] ∧ b.data = [ExPacker.rq "a" [2, 3], ExPacker.rq "a" [1]] := by
      obtain ⟨b, e, h1⟩ := List.map_eq_singleton_iff.1 h1
      exact ⟨b, e, (Prod.mk.inj h1).1, (Prod.mk.inj h1).2⟩
    obtain ⟨b, e1, e2, e3⟩ := hb
    have hr : Restores exWjson b b.data := by
      unfold Restores recompact
      rw [if_pos e2]
      cases b
      simp only at e2
      rw [e2]
    have := H exJson exWjson {} true ExPacker.twice o [b.data] (by
      intro op hop
      simp only [ExPacker.twice, List.mem_cons, List.not_mem_nil, or_false] at hop
      rcases hop with rfl | rfl | rfl <;> exact trivial) ho (by rw [e1]; exact .cons hr .nil) ['a']
    rw [h2, List.flatten_singleton, e3] at this
    revert this
    decide +kernel
  · cases hw

/-! ### The larger first -/

theorem popLoop_order {J : Json} : ∀ (fuel : Nat) (st st' : PopState), PInv J st.pk → popLoop J fuel st = .ok st' →
    ∃ ts : List TopItem, st'.data = st.data ++ ts.map (fun t => t.req) ∧ ts.Pairwise (fun a b => b.size ≤ a.size) ∧
      (∀ t ∈ ts, t ∈ st.pk.top ∧ t.size ≤ st.json) ∧ st'.pk.opt = st.pk.opt := by
  intro fuel
  induction fuel with
  | zero => intro st st' _ h; cases h
  | succ fuel ih =>
    intro st st' hi h
    unfold popLoop at h
    by_cases h0 : st.json = 0
    · rw [if_pos h0] at h
      cases h
      exact ⟨[], by simp, List.Pairwise.nil, by simp, rfl⟩
    rw [if_neg h0] at h
    rcases popSize_spec hi st.json with ⟨h1, h2⟩ | ⟨t, pk', h1, i', o', hd', pm, h3, h4⟩
    · simp only [h1, bind_ok'] at h
      cases h
      exact ⟨[], by simp, List.Pairwise.nil, by simp, rfl⟩
    · simp only [h1, bind_ok'] at h
      have htm : t ∈ st.pk.top := pm.mem_iff.1 (by simp)
      have hsub : ∀ x ∈ pk'.top, x ∈ st.pk.top := fun x hx => pm.mem_iff.1 (by simp [hx])
      split_ifs at h with h5 h6 h7 h8 h9
      all_goals first
        | (cases h
           exact ⟨[t], by simp, List.pairwise_singleton _ _, by simp [htm, h3], o'⟩)
        | (obtain ⟨ts, k1, k2, k3, k4⟩ := ih _ _ i' h
           refine ⟨t :: ts, by rw [k1]; simp, List.pairwise_cons.2 ⟨fun b hb => ?_, k2⟩, ?_, k4.trans o'⟩
           · obtain ⟨m1, m2⟩ := k3 b hb
             simp only at m1 m2
             exact h4 b (hsub b m1) (by omega)
           · intro x hx
             rcases List.mem_cons.1 hx with rfl | hx
             · exact ⟨htm, h3⟩
             · obtain ⟨m1, m2⟩ := k3 x hx
               simp only at m1 m2
               exact ⟨hsub x m1, by omega⟩)
        | (obtain ⟨pk2, hp, h⟩ := bind_inv h
           cases h
           exact ⟨[], by simp, List.Pairwise.nil, by simp, (push_inv i' hp).2.1.trans o'⟩)

theorem multiPop_order {J : Json} {pk pk' : Packer} {b : MultiPush} (hi : PInv J pk) (h : multiPop J pk = .ok (some b, pk')) :
    ∃ data, finishPop pk.opt data = .ok (some b) ∧ data ≠ [] ∧ data.Pairwise fun p q => ∀ n l n' l',
      measure J pk.opt p = .ok (n, l) → measure J pk.opt q = .ok (n', l') → n' ≤ n := by
  unfold multiPop at h
  by_cases h1 : pk.top = []
  · rw [if_pos h1] at h; cases h
  rw [if_neg h1] at h
  simp only at h
  by_cases h2 : J.multiSize pk.opt.jsonCompact {} > pk.opt.jsonLimit
  · rw [if_pos h2] at h; cases h
  rw [if_neg h2] at h
  obtain ⟨st, h3, h⟩ := bind_inv h
  obtain ⟨r, h4, h⟩ := bind_inv h
  cases h
  obtain ⟨ts, e1, e2, e3, e4⟩ := popLoop_order _ _ _ hi h3
  simp only [List.nil_append] at e1 e3 e4
  refine ⟨st.data, by rw [← e4]; exact h4, ?_, ?_⟩
  · intro h0
    unfold finishPop at h4
    rw [if_pos h0] at h4
    cases h4
  · rw [e1, List.pairwise_map]
    refine (List.Pairwise.and_mem.1 e2).imp ?_
    rintro a c ⟨ha, hc, hle⟩ n l n' l' m1 m2
    have q1 := hi.meas a (e3 a ha).1
    have q2 := hi.meas c (e3 c hc).1
    rw [q1] at m1
    rw [q2] at m2
    cases m1
    cases m2
    exact hle

/-- In a batch of `multi_pop` the recorded sizes do not increase. -/
theorem C116_larger_first_partial (J : Json) (W : Wjson) (opt : PackerOpts) (hd : Bool) (ops : List PackOp) (o : PObs)
    (b : MultiPush) (pk : Packer) (h : pexecAll J { pk := Packer.new opt hd } ops = .ok o)
    (hp : multiPop J o.pk = .ok (some b, pk)) (hb : b.legend.length ≤ 2 ^ 64) :
    ∃ data, Restores W b data ∧ data ≠ [] ∧
      (data.Pairwise fun p q => ∀ n l n' l', measure J opt p = .ok (n, l) → measure J opt q = .ok (n', l') → n' ≤ n) ∧
      (opt.nameCompact = false → data.Pairwise fun p q => J.pushSize opt.jsonCompact q ≤ J.pushSize opt.jsonCompact p) := by
  have g := pbooks_execAll (pbooks_new J opt hd) h
  obtain ⟨data, h1, h2, h3⟩ := multiPop_order g.inv hp
  rw [g.optEq] at h1 h3
  obtain ⟨b', e1, _, _, e2, _⟩ := finishPop_spec opt h2
  rw [e1] at h1
  cases h1
  refine ⟨data, e2 W hb, h2, h3, fun hc => h3.imp fun {p q} h => h _ [] _ [] ?_ ?_⟩ <;>
  · unfold Packer.measure
    simp only [hc, Bool.false_eq_true, if_false]

/-- In the last batch of `pushout` they do not decrease. -/
theorem C116_rest_partial (J : Json) (W : Wjson) (opt : PackerOpts) (ops : List PackOp) (o : PObs) (n : Nat)
    (out : List MultiPush) (pk : Packer) (h : pexecAll J { pk := Packer.new opt true } ops = .ok o)
    (hp : pushout J o.pk = .ok (n, out, pk)) (hb : ∀ b ∈ out, b.legend.length ≤ 2 ^ 64) :
    out.length = n ∨ (out.length = n + 1 ∧ ∃ b data, out.getLast? = some b ∧ Restores W b data ∧ data ≠ [] ∧
      data.Pairwise fun p q => ∀ n l n' l', measure J opt p = .ok (n, l) → measure J opt q = .ok (n', l') → n ≤ n') := by
  have g := pbooks_execAll (pbooks_new J opt true) h
  unfold pushout at hp
  rw [if_neg (by simp [g.handlerEq])] at hp
  obtain ⟨⟨l, pk1⟩, h1, hp⟩ := bind_inv hp
  obtain ⟨last, h2, hp⟩ := bind_inv hp
  cases hp
  obtain ⟨l', pk2, _, k1, k2, k3, _⟩ := popAll_spec J (o.pk.top.length + 1) [] g.inv (Nat.lt_succ_self _)
  rw [h1] at k1
  cases k1
  rcases leftover_spec pk1.top with ⟨_, e⟩ | ⟨b, e, k4⟩
  · rw [e] at h2
    cases h2
    left
    simp
  · rw [e] at h2
    cases h2
    right
    refine ⟨by simp, b, _, by simp, k4.restores W (hb b (by simp)), k4.ne, ?_⟩
    rw [List.pairwise_map]
    refine (List.Pairwise.and_mem.1 k2.sorted).imp ?_
    rintro a c ⟨ha, hc, hle⟩ n l n' l' m1 m2
    have q1 := k2.meas a ha
    have q2 := k2.meas c hc
    rw [k3, g.optEq] at q1 q2
    rw [q1] at m1
    rw [q2] at m2
    cases m1
    cases m2
    exact hle

/-! ### Names that come one at a time -/

/-- What an operation brings into the packer. -/
def PackOp.brings : PackOp → List PushRequest
  | .push req => [req]
  | .multiPush m => m.data
  | _ => []

theorem pexec_step {J : Json} {opt : PackerOpts} {hd : Bool} {o o' : PObs} {op : PackOp} (hb : PBooks J opt hd o)
    (hop : PackOp.batched op) (h : pexec J o op = .ok o') :
    ∃ out E, o'.batches = o.batches ++ out ∧ List.Forall₂ (Came J opt) out E ∧ o'.pushed = o.pushed ++ PackOp.brings op ∧
      (E = [] ∨ PackOp.brings op = []) ∧ (E.flatten ++ o'.pk.contents).Perm (o.pk.contents ++ PackOp.brings op) := by
  obtain ⟨hi, ho, hh, -⟩ := hb
  cases op with
  | push req =>
    obtain ⟨pk, h1, h⟩ := bind_inv h
    cases h
    refine ⟨[], [], by simp, .nil, rfl, Or.inl rfl, ?_⟩
    exact (push_inv hi h1).2.2.2.trans (List.perm_append_comm (l₁ := [req]))
  | multiPush m =>
    obtain ⟨pk, h1, h⟩ := bind_inv h
    cases h
    refine ⟨[], [], by simp, .nil, rfl, Or.inl rfl, ?_⟩
    exact (multiPush_inv hi h1).2.2.2.trans List.perm_append_comm
  | popSize n => exact hop.elim
  | multiPop =>
    obtain ⟨⟨r, pk⟩, h1, h⟩ := bind_inv h
    cases h
    obtain ⟨r', pk', k1, k2, k3, k4, k5⟩ := multiPop_spec J hi
    rw [k1] at h1
    cases h1
    rcases k5 with ⟨rfl, k5, -⟩ | ⟨b, data, rfl, k5, k6⟩
    · exact ⟨[], [], by simp, .nil, by simp [PackOp.brings], Or.inr rfl, by simpa [PackOp.brings] using k5⟩
    · exact ⟨[b], [data], by simp, .cons (Or.inl (by rw [← ho]; exact k5)) .nil, by simp [PackOp.brings], Or.inr rfl,
        by simpa [PackOp.brings] using k6⟩
  | pushout =>
    obtain ⟨⟨n, out, pk⟩, h1, h⟩ := bind_inv h
    cases h
    cases hcase : o.pk.handler with
    | false =>
      unfold pushout at h1
      rw [if_pos hcase] at h1
      cases h1
      exact ⟨[], [], by simp, .nil, by simp [PackOp.brings], Or.inr rfl, by simp [PackOp.brings]⟩
    | true =>
      obtain ⟨out', last, ds, rest, k1, k2, k3, k4⟩ := pushout_spec J hi hcase
      rw [k1] at h1
      cases h1
      have hc : (Packer.contents { o.pk with top := [] }) = [] := rfl
      have k2' : List.Forall₂ (Came J opt) out' ds := k2.imp fun b l hbl => Or.inl (by rw [← ho]; exact hbl)
      rcases k3 with ⟨rfl, rfl⟩ | ⟨b, rfl, k3⟩
      · exact ⟨out', ds, by simp, k2', by simp [PackOp.brings], Or.inr rfl, by simpa [hc, PackOp.brings] using k4⟩
      · exact ⟨_, ds ++ [rest], rfl, forall₂_append k2' (.cons (Or.inr k3) .nil), by simp [PackOp.brings], Or.inr rfl,
          by simpa [hc, PackOp.brings] using k4⟩

theorem perm_short {α : Type} {l m : List α} (h : l.Perm m) (hm : m.length ≤ 1) : l = m := by
  match m, hm with
  | [], _ => exact List.perm_nil.1 h
  | [a], _ => exact List.perm_singleton.1 h

theorem pexecAll_snoc {J : Json} (ops : List PackOp) (op : PackOp) : ∀ (o : PObs),
    pexecAll J o (ops ++ [op]) = pexecAll J o ops >>= fun o => pexec J o op := by
  induction ops with
  | nil =>
    intro o
    show (pexec J o op >>= fun o => pexecAll J o []) = pexec J o op
    cases pexec J o op <;> rfl
  | cons p ops ih =>
    intro o
    show (pexec J o p >>= fun o => pexecAll J o (ops ++ [op])) = (pexec J o p >>= fun o => pexecAll J o ops) >>= _
    cases pexec J o p with
    | error e => rfl
    | ok o1 => exact ih o1

theorem restores_inj {W : Wjson} {b : MultiPush} {l l' : List PushRequest} (h : Restores W b l) (h' : Restores W b l') : l = l' := by
  unfold Restores at h h'
  rw [h] at h'
  have e := congrArg MultiPush.data (Prod.mk.inj (Except.ok.inj h')).2
  exact e

theorem restoresAll_inj {W : Wjson} {bs : List MultiPush} {ls ls' : List (List PushRequest)}
    (h : List.Forall₂ (Restores W) bs ls) (h' : List.Forall₂ (Restores W) bs ls') : ls = ls' := by
  induction h generalizing ls' with
  | nil => cases h'; rfl
  | cons c _ ih =>
    cases h' with
    | cons c' h' => rw [restores_inj c c', ih h']

theorem ofName_append (n : PName) (l m : List PushRequest) : ofName n (l ++ m) = ofName n l ++ ofName n m :=
  List.filter_append _ _

/-- The requests of a name of which the packer never holds two leave it in order, and none is left behind. -/
theorem C116_spaced_partial (J : Json) (W : Wjson) (opt : PackerOpts) (hd : Bool) (ops : List PackOp) (o : PObs)
    (datas : List (List PushRequest)) (n : PName) (hops : ∀ op ∈ ops, PackOp.batched op)
    (h : pexecAll J { pk := Packer.new opt hd } ops = .ok o) (hd' : List.Forall₂ (Restores W) o.batches datas)
    (hb : ∀ b ∈ o.batches, b.legend.length ≤ 2 ^ 64)
    (hn : ∀ k o', pexecAll J { pk := Packer.new opt hd } (ops.take k) = .ok o' → (ofName n o'.pk.contents).length ≤ 1) :
    ofName n datas.flatten ++ ofName n o.pk.contents = ofName n o.pushed := by
  have key : ∃ ds, List.Forall₂ (Came J opt) o.batches ds ∧ ofName n ds.flatten ++ ofName n o.pk.contents = ofName n o.pushed := by
    clear hd' hb datas
    induction ops using List.reverseRecOn generalizing o with
    | nil => cases h; exact ⟨[], .nil, rfl⟩
    | append_singleton ops op ih =>
      rw [pexecAll_snoc] at h
      obtain ⟨o1, h1, h2⟩ := bind_inv h
      have hlen : (ofName n o.pk.contents).length ≤ 1 := by
        refine hn (ops.length + 1) o ?_
        rw [List.take_of_length_le (by simp), pexecAll_snoc, h1]
        exact h2
      have hlen1 : (ofName n o1.pk.contents).length ≤ 1 := by
        refine hn ops.length o1 ?_
        rw [List.take_left]
        exact h1
      obtain ⟨ds, d1, d2⟩ := ih o1 (fun op hop => hops op (by simp [hop])) h1 (fun k o' hk => by
        by_cases hkl : k ≤ ops.length
        · refine hn k o' ?_
          rw [List.take_append_of_le_length hkl]
          exact hk
        · refine hn ops.length o' ?_
          rw [List.take_left]
          rw [List.take_of_length_le (by omega)] at hk
          exact hk)
      obtain ⟨out, E, e1, e2, e3, e0, e4⟩ := pexec_step (pbooks_execAll (pbooks_new J opt hd) h1) (hops op (by simp)) h2
      refine ⟨ds ++ E, by rw [e1]; exact forall₂_append d1 e2, ?_⟩
      have e5 : (ofName n E.flatten ++ ofName n o.pk.contents).Perm (ofName n o1.pk.contents ++ ofName n (PackOp.brings op)) := by
        have := e4.filter (fun p => decide (p.name = n))
        rw [List.filter_append, List.filter_append] at this
        exact this
      have e6 : ofName n E.flatten ++ ofName n o.pk.contents = ofName n o1.pk.contents ++ ofName n (PackOp.brings op) := by
        rcases e0 with rfl | e0
        · exact (perm_short e5.symm (by simpa [ofName] using hlen)).symm
        · exact perm_short e5 (by rw [e0]; simpa [ofName] using hlen1)
      rw [List.flatten_append, ofName_append, e3, ofName_append, ← d2, List.append_assoc, e6, List.append_assoc]
  obtain ⟨ds, k1, k2⟩ := key
  have : datas = ds := by
    refine restoresAll_inj hd' ?_
    clear hd' k2 h hn
    revert hb
    generalize o.batches = bs at k1
    intro hb
    induction k1 with
    | nil => exact .nil
    | cons c _ ih => exact .cons (c.restores W (hb _ (by simp))) (ih fun b hb' => hb b (by simp [hb']))
  rw [this]
  exact k2

/-- One at a time: the order is kept. -/
example : (match pexecAll exJson (ExPacker.start {}) [.push (ExPacker.rq "a" [1]), .multiPop,
      .push (ExPacker.rq "a" [2, 3]), .push (ExPacker.rq "b" []), .multiPop] with
    | .ok o => decide (o.batches.map (fun b => b.data) = [[ExPacker.rq "a" [1]], [ExPacker.rq "a" [2, 3], ExPacker.rq "b" []]] ∧
        o.pk.contents = [])
    | .error _ => false) = true := by decide +kernel

end Wrtstat
