/-
C138: the order in which requests are pushed into a packer does not matter.
-/
import Verif.Props.Packer

namespace Wrtstat

set_option autoImplicit false

open Packer

/-- Rounds of pushing some requests and making one more call. -/
def roundCalls (rs : List (List PushRequest × PackOp)) : List PackOp := rs.flatMap fun r => r.1.map PackOp.push ++ [r.2]

/-- A call that takes requests out. -/
def PackOp.takes : PackOp → Prop
  | .push _ => False
  | .multiPush _ => False
  | _ => True

/-- The claim: if in every round the same requests are pushed, in whatever order, the same batches come out. -/
def C138_FullClaim : Prop :=
  ∀ (J : Json) (opt : PackerOpts) (hd : Bool) (rs rs' : List (List PushRequest × PackOp)) (o o' : PObs),
    List.Forall₂ (fun r r' => r'.2 = r.2 ∧ r'.1.Perm r.1) rs rs' → (∀ r ∈ rs, PackOp.takes r.2) →
    pexecAll J { pk := Packer.new opt hd } (roundCalls rs) = .ok o → pexecAll J { pk := Packer.new opt hd } (roundCalls rs') = .ok o' →
    o'.batches = o.batches

namespace ExPacker

/-- Room for one request in a batch. -/
def oneOpt : PackerOpts := { pushLimit := 1 }

theorem oneOrder : (match pexecAll exJson (start oneOpt) (roundCalls [([rq "a" [1], rq "b" [2]], .multiPop)]),
      pexecAll exJson (start oneOpt) (roundCalls [([rq "b" [2], rq "a" [1]], .multiPop)]) with
    | .ok o, .ok o' => decide (o.batches = [{ data := [rq "a" [1]] }] ∧ o'.batches = [{ data := [rq "b" [2]] }])
    | _, _ => false) = true := by decide +kernel

end ExPacker

/-- Of requests of the same size the one pushed first leaves first, or last. -/
theorem C138_refuted : ¬ C138_FullClaim := by
  intro h
  have hw := ExPacker.oneOrder
  split at hw
  · rename_i o o' e e'
    simp only [decide_eq_true_eq] at hw
    have hr : List.Forall₂ (fun (r r' : List PushRequest × PackOp) => r'.2 = r.2 ∧ r'.1.Perm r.1)
        [([ExPacker.rq "a" [1], ExPacker.rq "b" [2]], .multiPop)] [([ExPacker.rq "b" [2], ExPacker.rq "a" [1]], .multiPop)] :=
      .cons ⟨rfl, List.Perm.swap _ _ _⟩ .nil
    have := h exJson ExPacker.oneOpt true _ _ o o' hr (by
      intro r hr
      rw [List.mem_singleton] at hr
      subst hr
      exact trivial) e e'
    rw [hw.1, hw.2] at this
    revert this
    decide
  · simp at hw

/-! ### Runs of pushes -/

theorem pexecAll_append {J : Json} {o o' : PObs} {a b : List PackOp} (h : pexecAll J o (a ++ b) = .ok o') :
    ∃ o1, pexecAll J o a = .ok o1 ∧ pexecAll J o1 b = .ok o' := by
  induction a generalizing o with
  | nil => exact ⟨o, rfl, h⟩
  | cons x a ih =>
    obtain ⟨o2, h1, h2⟩ := bind_inv (show (pexec J o x >>= fun y => pexecAll J y (a ++ b)) = .ok o' from h)
    obtain ⟨o1, h3, h4⟩ := ih h2
    refine ⟨o1, ?_, h4⟩
    show (pexec J o x >>= fun y => pexecAll J y a) = .ok o1
    rw [h1]
    exact h3

theorem pushes_spec {J : Json} {ps : List PushRequest} {o o' : PObs} (hi : PInv J o.pk)
    (h : pexecAll J o (ps.map PackOp.push) = .ok o') :
    PInv J o'.pk ∧ o'.pk.opt = o.pk.opt ∧ o'.pk.handler = o.pk.handler ∧ o'.pk.contents.Perm (ps ++ o.pk.contents) ∧
      o'.batches = o.batches ∧ o'.popped = o.popped := by
  induction ps generalizing o with
  | nil =>
    simp only [List.map_nil, pexecAll, Except.ok.injEq] at h
    subst h
    exact ⟨hi, rfl, rfl, List.Perm.refl _, rfl, rfl⟩
  | cons p ps ih =>
    obtain ⟨o1, h1, h2⟩ := bind_inv (show (pexec J o (.push p) >>= fun y => pexecAll J y (ps.map PackOp.push)) = .ok o' from h)
    obtain ⟨pk, h3, h4⟩ := bind_inv (show (push J o.pk p >>= fun pk => .ok { o with pk := pk, pushed := o.pushed ++ [p] }) = .ok o1 from h1)
    obtain ⟨a1, a2, a3, a4⟩ := push_inv hi h3
    simp only [Except.ok.injEq] at h4
    subst h4
    obtain ⟨b1, b2, b3, b4, b5, b6⟩ := ih (o := { o with pk := pk, pushed := o.pushed ++ [p] }) a1 h2
    refine ⟨b1, b2.trans a2, b3.trans a3, b4.trans ?_, b5, b6⟩
    exact (List.Perm.append_left ps a4).trans List.perm_middle

/-! ### Sizes -/

/-- Two packers with records of the same sizes. -/
structure SameSizes (J : Json) (pk pk' : Packer) : Prop where
  inv : PInv J pk
  inv' : PInv J pk'
  opt : pk'.opt = pk.opt
  handler : pk'.handler = pk.handler
  sizes : pk'.top.map (·.size) = pk.top.map (·.size)

theorem sizes_of_perm {l l' : List TopItem} (h : Packer.Sorted l) (h' : Packer.Sorted l')
    (hp : (l'.map (·.size)).Perm (l.map (·.size))) : l'.map (·.size) = l.map (·.size) :=
  hp.eq_of_pairwise (le := (· ≤ ·)) (fun _ _ _ _ => Nat.le_antisymm) (List.pairwise_map.2 h') (List.pairwise_map.2 h)

theorem popSize_same {J : Json} {pk pk' : Packer} (hz : SameSizes J pk pk') (n : Nat) :
    (popByJsonSize pk n = .ok (none, pk) ∧ popByJsonSize pk' n = .ok (none, pk')) ∨
    (∃ t t' p p', popByJsonSize pk n = .ok (some t, p) ∧ popByJsonSize pk' n = .ok (some t', p') ∧ SameSizes J p p' ∧
      t'.size = t.size ∧ t ∈ pk.top ∧ t' ∈ pk'.top ∧ p.opt = pk.opt) := by
  have tr : ∀ {a b : List TopItem}, b.map (·.size) = a.map (·.size) → ∀ x ∈ a, ∃ y ∈ b, y.size = x.size := by
    intro a b h x hx
    have : x.size ∈ b.map (·.size) := by rw [h]; exact List.mem_map_of_mem hx
    exact List.mem_map.1 this
  rcases popSize_spec hz.inv n with ⟨h1, h2⟩ | ⟨t, p, h1, i1, o1, d1, q1, l1, b1⟩ <;>
    rcases popSize_spec hz.inv' n with ⟨h1', h2'⟩ | ⟨t', p', h1', i1', o1', d1', q1', l1', b1'⟩
  · exact Or.inl ⟨h1, h1'⟩
  · obtain ⟨y, hy, e⟩ := tr hz.sizes.symm t' (q1'.mem_iff.1 List.mem_cons_self)
    have := h2 y hy
    omega
  · obtain ⟨y, hy, e⟩ := tr hz.sizes t (q1.mem_iff.1 List.mem_cons_self)
    have := h2' y hy
    omega
  · have m := q1.mem_iff.1 List.mem_cons_self
    have m' := q1'.mem_iff.1 List.mem_cons_self
    have e : t'.size = t.size := by
      obtain ⟨y, hy, e⟩ := tr hz.sizes t m
      obtain ⟨y', hy', e'⟩ := tr hz.sizes.symm t' m'
      have g1 := b1' y hy (by omega)
      have g2 := b1 y' hy' (by omega)
      omega
    refine Or.inr ⟨t, t', p, p', h1, h1', ⟨i1, i1', by rw [o1', o1, hz.opt], by rw [d1', d1, hz.handler], ?_⟩, e, m, m', o1⟩
    refine sizes_of_perm i1.sorted i1'.sorted ?_
    have g := (q1'.map (·.size)).trans ((List.Perm.of_eq hz.sizes).trans (q1.map (·.size)).symm)
    rw [List.map_cons, List.map_cons, e] at g
    exact List.perm_cons _ |>.1 g

/-- Without compaction of names the record of a request is its size. -/
theorem rec_plain {J : Json} {pk : Packer} (hi : PInv J pk) (hc : pk.opt.nameCompact = false) {t : TopItem} (h : t ∈ pk.top) :
    t.legend = [] ∧ t.size = J.pushSize pk.opt.jsonCompact t.req := by
  have := hi.meas t h
  unfold Packer.measure at this
  simp only [hc, Bool.false_eq_true, if_false, Except.ok.injEq, Prod.mk.injEq] at this
  exact ⟨this.2.symm, this.1.symm⟩

theorem popLoop_same {J : Json} (fuel : Nat) {j p s : Nat} {set : List PName} {pk pk' : Packer} {d d' : List PushRequest} {r r' : PopState}
    (hz : SameSizes J pk pk') (hc : pk.opt.nameCompact = false)
    (hd : d'.map (J.pushSize pk.opt.jsonCompact) = d.map (J.pushSize pk.opt.jsonCompact))
    (h : popLoop J fuel { json := j, pushes := p, samples := s, set := set, pk := pk, data := d } = .ok r)
    (h' : popLoop J fuel { json := j, pushes := p, samples := s, set := set, pk := pk', data := d' } = .ok r') :
    SameSizes J r.pk r'.pk ∧ r.pk.opt = pk.opt ∧
      r'.data.map (J.pushSize pk.opt.jsonCompact) = r.data.map (J.pushSize pk.opt.jsonCompact) := by
  induction fuel generalizing j p s set pk pk' d d' with
  | zero => simp [popLoop] at h
  | succ n ih =>
    unfold popLoop at h h'
    simp only at h h'
    by_cases h0 : j = 0
    · rw [if_pos h0] at h h'
      simp only [Except.ok.injEq] at h h'
      subst h h'
      exact ⟨hz, rfl, hd⟩
    · rw [if_neg h0] at h h'
      rcases popSize_same hz j with ⟨e, e'⟩ | ⟨t, t', q, q', e, e', hq, es, m, m', o1⟩
      · rw [e, bind_ok'] at h
        rw [e', bind_ok'] at h'
        simp only [Except.ok.injEq] at h h'
        subst h h'
        exact ⟨hz, rfl, hd⟩
      · obtain ⟨l1, s1⟩ := rec_plain hz.inv hc m
        obtain ⟨l2, s2⟩ := rec_plain hz.inv' (by rw [hz.opt]; exact hc) m'
        rw [hz.opt] at s2
        have le : t.size ≤ j := by
          rcases popSize_spec hz.inv j with ⟨g, -⟩ | ⟨_, _, g, -, -, -, -, g2, -⟩
          · rw [e] at g; simp at g
          · rw [e] at g; simp at g; rw [g.1]; exact g2
        rw [e, bind_ok'] at h
        rw [e', bind_ok'] at h'
        simp only [l1, l2, charge, es, ge_iff_le, le, if_true, hq.opt] at h h'
        have hd2 : (d' ++ [t'.req]).map (J.pushSize q.opt.jsonCompact) = (d ++ [t.req]).map (J.pushSize q.opt.jsonCompact) := by
          rw [List.map_append, List.map_append, o1, hd, List.map_singleton, List.map_singleton, ← s1, ← s2, es]
        split at h
        · rename_i hs
          rw [if_pos hs] at h'
          simp only [Except.ok.injEq] at h h'
          subst h h'
          exact ⟨hq, o1, by rw [← o1]; exact hd2⟩
        · rename_i hs
          rw [if_neg hs] at h'
          obtain ⟨a1, a2, a3⟩ := ih hq (by rw [o1]; exact hc) hd2 h h'
          exact ⟨a1, a2.trans o1, by rw [← o1]; exact a3⟩

/-- Two batches of requests of the same sizes: both plain, or both with compacted names. -/
inductive SameFill (J : Json) (c : Bool) : MultiPush → MultiPush → Prop
  | plain (sep : PName) (l l' : List PushRequest) (h : l'.map (J.pushSize c) = l.map (J.pushSize c)) :
      SameFill J c { sep := sep, legend := [], data := l } { sep := sep, legend := [], data := l' }
  | packed (b b' : MultiPush) (l l' : List PushRequest) (hb : compact { data := l } = .ok (true, b))
      (hb' : compact { data := l' } = .ok (true, b')) (h : l'.map (J.pushSize c) = l.map (J.pushSize c)) : SameFill J c b b'

theorem multiPop_same {J : Json} {pk pk' p p' : Packer} {r r' : Option MultiPush} (hz : SameSizes J pk pk') (hc : pk.opt.nameCompact = false)
    (h : multiPop J pk = .ok (r, p)) (h' : multiPop J pk' = .ok (r', p')) :
    SameSizes J p p' ∧ p.opt = pk.opt ∧ List.Forall₂ (SameFill J pk.opt.jsonCompact) r.toList r'.toList := by
  have hl : pk'.top.length = pk.top.length := by
    have := congrArg List.length hz.sizes
    simpa using this
  have he : pk'.top = [] ↔ pk.top = [] := by rw [← List.length_eq_zero_iff, ← List.length_eq_zero_iff, hl]
  unfold multiPop at h h'
  by_cases h0 : pk.top = []
  · rw [if_pos h0] at h
    rw [if_pos (he.2 h0)] at h'
    simp only [Except.ok.injEq, Prod.mk.injEq] at h h'
    obtain ⟨rfl, rfl⟩ := h
    obtain ⟨rfl, rfl⟩ := h'
    exact ⟨hz, rfl, .nil⟩
  · rw [if_neg h0] at h
    rw [if_neg (fun e => h0 (he.1 e))] at h'
    simp only [hz.opt, hl] at h h'
    split at h
    · rename_i hs
      rw [if_pos hs] at h'
      simp only [Except.ok.injEq, Prod.mk.injEq] at h h'
      obtain ⟨rfl, rfl⟩ := h
      obtain ⟨rfl, rfl⟩ := h'
      exact ⟨hz, rfl, .nil⟩
    · rename_i hs
      rw [if_neg hs] at h'
      obtain ⟨st, g1, h⟩ := bind_inv h
      obtain ⟨st', g1', h'⟩ := bind_inv h'
      obtain ⟨a1, a2, a3⟩ := popLoop_same _ hz hc rfl g1 g1'
      obtain ⟨x, g2, h⟩ := bind_inv h
      obtain ⟨x', g2', h'⟩ := bind_inv h'
      simp only [Except.ok.injEq, Prod.mk.injEq] at h h'
      obtain ⟨rfl, rfl⟩ := h
      obtain ⟨rfl, rfl⟩ := h'
      refine ⟨a1, a2, ?_⟩
      rw [a1.opt, a2] at g2'
      rw [a2] at g2
      have hn : st'.data = [] ↔ st.data = [] := by
        have := congrArg List.length a3
        simp only [List.length_map] at this
        rw [← List.length_eq_zero_iff, ← List.length_eq_zero_iff, this]
      unfold finishPop at g2 g2'
      by_cases hd : st.data = []
      · rw [if_pos hd] at g2
        rw [if_pos (hn.2 hd)] at g2'
        simp only [Except.ok.injEq] at g2 g2'
        subst g2 g2'
        exact .nil
      · rw [if_neg hd] at g2
        rw [if_neg (fun e => hd (hn.1 e))] at g2'
        simp only [hc, Bool.false_eq_true, if_false, Except.ok.injEq] at g2 g2'
        subst g2 g2'
        exact .cons (.plain _ _ _ a3) .nil

theorem popAll_same {J : Json} (fuel : Nat) {pk pk' p p' : Packer} {out out' res res' : List MultiPush} (hz : SameSizes J pk pk')
    (hc : pk.opt.nameCompact = false) (ho : List.Forall₂ (SameFill J pk.opt.jsonCompact) out out')
    (h : popAll J fuel pk out = .ok (res, p)) (h' : popAll J fuel pk' out' = .ok (res', p')) :
    SameSizes J p p' ∧ p.opt = pk.opt ∧ List.Forall₂ (SameFill J pk.opt.jsonCompact) res res' := by
  induction fuel generalizing pk pk' out out' with
  | zero => simp [popAll] at h
  | succ n ih =>
    unfold popAll at h h'
    obtain ⟨⟨r, q⟩, g, h⟩ := bind_inv h
    obtain ⟨⟨r', q'⟩, g', h'⟩ := bind_inv h'
    obtain ⟨a1, a2, a3⟩ := multiPop_same hz hc g g'
    cases r with
    | none =>
      cases r' with
      | some b' => cases a3
      | none =>
        simp only [Except.ok.injEq, Prod.mk.injEq] at h h'
        obtain ⟨rfl, rfl⟩ := h
        obtain ⟨rfl, rfl⟩ := h'
        exact ⟨a1, a2, ho⟩
    | some b =>
      cases r' with
      | none => cases a3
      | some b' =>
        simp only at h h'
        obtain ⟨c1, c2, c3⟩ := ih a1 (by rw [a2]; exact hc) (by rw [a2]; exact forall₂_append ho a3) h h'
        exact ⟨c1, c2.trans a2, by rw [← a2]; exact c3⟩

theorem leftover_same {J : Json} {pk pk' : Packer} {l l' : List MultiPush} (hz : SameSizes J pk pk') (hc : pk.opt.nameCompact = false)
    (h : leftover pk.top = .ok l) (h' : leftover pk'.top = .ok l') : List.Forall₂ (SameFill J pk.opt.jsonCompact) l l' := by
  have hs : (pk'.top.map fun t => t.req).map (J.pushSize pk.opt.jsonCompact) =
      (pk.top.map fun t => t.req).map (J.pushSize pk.opt.jsonCompact) := by
    have := hz.sizes
    rw [List.map_map, List.map_map]
    refine Eq.trans ?_ (this.trans ?_)
    · refine List.map_congr_left fun t ht => ?_
      have := (rec_plain hz.inv' (by rw [hz.opt]; exact hc) ht).2
      rw [hz.opt] at this
      exact this.symm
    · exact List.map_congr_left fun t ht => (rec_plain hz.inv hc ht).2
  have hl : pk'.top.length = pk.top.length := by
    have := congrArg List.length hz.sizes
    simpa using this
  have he : pk'.top = [] ↔ pk.top = [] := by rw [← List.length_eq_zero_iff, ← List.length_eq_zero_iff, hl]
  unfold leftover at h h'
  by_cases h0 : pk.top = []
  · rw [if_pos h0] at h
    rw [if_pos (he.2 h0)] at h'
    simp only [Except.ok.injEq] at h h'
    subst h h'
    exact .nil
  · rw [if_neg h0] at h
    rw [if_neg (fun e => h0 (he.1 e))] at h'
    obtain ⟨⟨k, b⟩, g, h⟩ := bind_inv h
    obtain ⟨⟨k', b'⟩, g', h'⟩ := bind_inv h'
    simp only [Except.ok.injEq] at h h'
    subst h h'
    have yes : ∀ {m : MultiPush} {k : Bool} {b : MultiPush}, m.sep ≠ [] → compact m = .ok (k, b) → k = true := by
      intro m k b hm e
      unfold compact at e
      rw [if_neg hm] at e
      obtain ⟨_, -, e⟩ := bind_inv e
      simp only [Except.ok.injEq, Prod.mk.injEq] at e
      exact e.1.symm
    obtain rfl := yes (by simp) g
    obtain rfl := yes (by simp) g'
    exact .cons (.packed _ _ _ _ g g' hs) .nil

/-- Two packers, and what came out of them. -/
structure SameObs (J : Json) (opt : PackerOpts) (o o' : PObs) : Prop where
  pk : SameSizes J o.pk o'.pk
  optEq : o.pk.opt = opt
  batches : List.Forall₂ (SameFill J opt.jsonCompact) o.batches o'.batches
  popped : o'.popped.map (J.pushSize opt.jsonCompact) = o.popped.map (J.pushSize opt.jsonCompact)

theorem takes_same {J : Json} {opt : PackerOpts} (hc : opt.nameCompact = false) {op : PackOp} (ht : PackOp.takes op) {o o' u u' : PObs}
    (hs : SameObs J opt o o') (h : pexec J o op = .ok u) (h' : pexec J o' op = .ok u') : SameObs J opt u u' := by
  obtain ⟨hz, ho, hb, hp⟩ := hs
  subst ho
  cases op with
  | push req => exact ht.elim
  | multiPush m => exact ht.elim
  | popSize n =>
    obtain ⟨⟨r, p⟩, g, h⟩ := bind_inv h
    obtain ⟨⟨r', p'⟩, g', h'⟩ := bind_inv h'
    simp only [Except.ok.injEq] at h h'
    subst h h'
    rcases popSize_same hz n with ⟨e, e'⟩ | ⟨t, t', q, q', e, e', hq, es, m, m', o1⟩
    · rw [e] at g
      rw [e'] at g'
      simp only [Except.ok.injEq, Prod.mk.injEq] at g g'
      obtain ⟨rfl, rfl⟩ := g
      obtain ⟨rfl, rfl⟩ := g'
      exact ⟨hz, rfl, hb, by simpa using hp⟩
    · rw [e] at g
      rw [e'] at g'
      simp only [Except.ok.injEq, Prod.mk.injEq] at g g'
      obtain ⟨rfl, rfl⟩ := g
      obtain ⟨rfl, rfl⟩ := g'
      obtain ⟨-, s1⟩ := rec_plain hz.inv hc m
      obtain ⟨-, s2⟩ := rec_plain hz.inv' (by rw [hz.opt]; exact hc) m'
      rw [hz.opt] at s2
      refine ⟨hq, o1, hb, ?_⟩
      simp only [Option.map_some, Option.toList_some, List.map_append, List.map_cons, List.map_nil, hp, ← s1, ← s2, es]
  | multiPop =>
    obtain ⟨⟨r, p⟩, g, h⟩ := bind_inv h
    obtain ⟨⟨r', p'⟩, g', h'⟩ := bind_inv h'
    simp only [Except.ok.injEq] at h h'
    subst h h'
    obtain ⟨a1, a2, a3⟩ := multiPop_same hz hc g g'
    exact ⟨a1, a2, forall₂_append hb a3, hp⟩
  | pushout =>
    obtain ⟨⟨n, r, p⟩, g, h⟩ := bind_inv h
    obtain ⟨⟨n', r', p'⟩, g', h'⟩ := bind_inv h'
    simp only [Except.ok.injEq] at h h'
    subst h h'
    have hl : o'.pk.top.length = o.pk.top.length := by
      have := congrArg List.length hz.sizes
      simpa using this
    unfold pushout at g g'
    by_cases hh : o.pk.handler = false
    · rw [if_pos hh] at g
      rw [if_pos (by rw [hz.handler]; exact hh)] at g'
      simp only [Except.ok.injEq, Prod.mk.injEq] at g g'
      obtain ⟨rfl, rfl, rfl⟩ := g
      obtain ⟨rfl, rfl, rfl⟩ := g'
      exact ⟨hz, rfl, by simpa using hb, hp⟩
    · rw [if_neg hh] at g
      rw [if_neg (by rw [hz.handler]; exact hh), hl] at g'
      obtain ⟨⟨out, q⟩, k1, g⟩ := bind_inv g
      obtain ⟨⟨out', q'⟩, k1', g'⟩ := bind_inv g'
      obtain ⟨last, k2, g⟩ := bind_inv g
      obtain ⟨last', k2', g'⟩ := bind_inv g'
      simp only [Except.ok.injEq, Prod.mk.injEq] at g g'
      obtain ⟨rfl, rfl, rfl⟩ := g
      obtain ⟨rfl, rfl, rfl⟩ := g'
      obtain ⟨a1, a2, a3⟩ := popAll_same _ hz hc .nil k1 k1'
      have a4 := leftover_same a1 (by rw [a2]; exact hc) k2 k2'
      rw [a2] at a4
      exact ⟨⟨⟨List.Pairwise.nil, fun t ht => by simp at ht⟩, ⟨List.Pairwise.nil, fun t ht => by simp at ht⟩, a1.opt, a1.handler, rfl⟩,
        a2, forall₂_append hb (forall₂_append a3 a4), hp⟩

/-- The sizes of what a packer holds. -/
theorem contents_sizes {J : Json} {pk : Packer} (hi : PInv J pk) (hc : pk.opt.nameCompact = false) :
    pk.contents.map (J.pushSize pk.opt.jsonCompact) = pk.top.map (·.size) := by
  unfold Packer.contents
  rw [List.map_map]
  exact List.map_congr_left fun t ht => (rec_plain hi hc ht).2.symm

theorem rounds_same {J : Json} {opt : PackerOpts} (hc : opt.nameCompact = false) {rs rs' : List (List PushRequest × PackOp)}
    (hr : List.Forall₂ (fun r r' => r'.2 = r.2 ∧ (r'.1.map (J.pushSize opt.jsonCompact)).Perm (r.1.map (J.pushSize opt.jsonCompact))) rs rs')
    (ht : ∀ r ∈ rs, PackOp.takes r.2) {o o' u u' : PObs} (hs : SameObs J opt o o') (h : pexecAll J o (roundCalls rs) = .ok u)
    (h' : pexecAll J o' (roundCalls rs') = .ok u') : SameObs J opt u u' := by
  induction hr generalizing o o' with
  | nil =>
    simp only [roundCalls, List.flatMap_nil, pexecAll, Except.ok.injEq] at h h'
    subst h h'
    exact hs
  | @cons r r' rs rs' e _ ih =>
    have x : ∀ (r : List PushRequest × PackOp) rs, roundCalls (r :: rs) = r.1.map PackOp.push ++ r.2 :: roundCalls rs := by
      intro r rs
      simp [roundCalls]
    rw [x] at h h'
    obtain ⟨v, h1, h⟩ := pexecAll_append h
    obtain ⟨v', h1', h'⟩ := pexecAll_append h'
    obtain ⟨w, h2, h⟩ := bind_inv (show (pexec J v r.2 >>= fun y => pexecAll J y (roundCalls rs)) = .ok u from h)
    obtain ⟨w', h2', h'⟩ := bind_inv (show (pexec J v' r'.2 >>= fun y => pexecAll J y (roundCalls rs')) = .ok u' from h')
    rw [e.1] at h2'
    obtain ⟨i1, o1, d1, c1, b1, p1⟩ := pushes_spec hs.pk.inv h1
    obtain ⟨i1', o1', d1', c1', b1', p1'⟩ := pushes_spec hs.pk.inv' h1'
    have ov : v.pk.opt = opt := o1.trans hs.optEq
    have ov' : v'.pk.opt = opt := o1'.trans (hs.pk.opt.trans hs.optEq)
    have hv : SameObs J opt v v' := by
      refine ⟨⟨i1, i1', by rw [ov, ov'], by rw [d1, d1', hs.pk.handler], ?_⟩, ov, by rw [b1, b1']; exact hs.batches, by rw [p1, p1']; exact hs.popped⟩
      refine sizes_of_perm i1.sorted i1'.sorted ?_
      rw [← contents_sizes i1 (by rw [ov]; exact hc), ← contents_sizes i1' (by rw [ov']; exact hc), ov, ov']
      refine (c1'.map _).trans (List.Perm.trans ?_ (c1.map _).symm)
      rw [List.map_append, List.map_append]
      refine List.Perm.append e.2 (List.Perm.of_eq ?_)
      have a := contents_sizes hs.pk.inv (by rw [hs.optEq]; exact hc)
      have a' := contents_sizes hs.pk.inv' (by rw [hs.pk.opt, hs.optEq]; exact hc)
      rw [hs.optEq] at a
      rw [hs.pk.opt, hs.optEq] at a'
      rw [a, a', hs.pk.sizes]
    exact ih (fun r hr => ht r (List.mem_cons_of_mem _ hr)) (takes_same hc (ht r List.mem_cons_self) hv h2 h2') h h'

/-- The sizes of the requests decide: whatever is pushed in a round, in whatever order, if the sizes are the same then
as many batches come out, each with requests of the same sizes in the same order; missing are packers that compact names,
where the words matter too. -/
theorem C138_sizes_partial (J : Json) (opt : PackerOpts) (hd : Bool) (hc : opt.nameCompact = false)
    (rs rs' : List (List PushRequest × PackOp)) (o o' : PObs)
    (hr : List.Forall₂ (fun r r' => r'.2 = r.2 ∧ (r'.1.map (J.pushSize opt.jsonCompact)).Perm (r.1.map (J.pushSize opt.jsonCompact))) rs rs')
    (ht : ∀ r ∈ rs, PackOp.takes r.2) (h : pexecAll J { pk := Packer.new opt hd } (roundCalls rs) = .ok o)
    (h' : pexecAll J { pk := Packer.new opt hd } (roundCalls rs') = .ok o') :
    List.Forall₂ (SameFill J opt.jsonCompact) o.batches o'.batches ∧
      o'.popped.map (J.pushSize opt.jsonCompact) = o.popped.map (J.pushSize opt.jsonCompact) ∧
      o'.pk.contents.map (J.pushSize opt.jsonCompact) = o.pk.contents.map (J.pushSize opt.jsonCompact) := by
  have hs := rounds_same (o := { pk := Packer.new opt hd }) (o' := { pk := Packer.new opt hd }) hc hr ht
    ⟨⟨pinv_new J opt hd, pinv_new J opt hd, rfl, rfl, rfl⟩, rfl, .nil, rfl⟩ h h'
  refine ⟨hs.batches, hs.popped, ?_⟩
  have a := contents_sizes hs.pk.inv (by rw [hs.optEq]; exact hc)
  have a' := contents_sizes hs.pk.inv' (by rw [hs.pk.opt, hs.optEq]; exact hc)
  rw [hs.optEq] at a
  rw [hs.pk.opt, hs.optEq] at a'
  rw [a, a', hs.pk.sizes]

/-! ### Distinct sizes -/

/-- The two requests are recorded with the same size. -/
def SameRecord (J : Json) (opt : PackerOpts) (p q : PushRequest) : Prop :=
  ∃ n lg lg', Packer.measure J opt p = .ok (n, lg) ∧ Packer.measure J opt q = .ok (n, lg')

theorem top_eq {J : Json} {pk pk' : Packer} (hi : PInv J pk) (hi' : PInv J pk') (ho : pk'.opt = pk.opt) (hh : pk'.handler = pk.handler)
    (hp : pk'.contents.Perm pk.contents)
    (hinj : ∀ p ∈ pk.contents, ∀ q ∈ pk.contents, SameRecord J pk.opt p q → p = q) : pk' = pk := by
  have key : ∀ {k : Packer}, PInv J k → k.opt = pk.opt →
      k.top = k.contents.map (fun p => { size := msize J pk.opt p, req := p, legend := mlegend J pk.opt p }) := by
    intro k h e
    unfold Packer.contents
    rw [List.map_map]
    symm
    refine (List.map_congr_left fun t ht => ?_).trans (List.map_id _)
    have := h.meas t ht
    rw [e] at this
    simp only [Function.comp, msize, mlegend, this, id]
  have hp2 : pk'.top.Perm pk.top := by
    rw [key hi rfl, key hi' ho]
    exact hp.map _
  have : pk'.top = pk.top := by
    refine hp2.eq_of_pairwise (le := fun (a b : TopItem) => a.size ≤ b.size) (fun a b ha hb h1 h2 => ?_) hi'.sorted hi.sorted
    have ma := hp2.mem_iff.1 ha
    have ea := hi.meas a ma
    have eb := hi.meas b hb
    have er : a.req = b.req := by
      refine hinj _ (List.mem_map_of_mem ma) _ (List.mem_map_of_mem hb) ?_
      exact ⟨a.size, a.legend, b.legend, ea, by rw [eb, Nat.le_antisymm h1 h2]⟩
    rw [er, eb] at ea
    simp only [Except.ok.injEq, Prod.mk.injEq] at ea
    cases a
    cases b
    simp_all
  cases pk
  cases pk'
  simp_all

theorem takes_eq {J : Json} {op : PackOp} (ht : PackOp.takes op) {o o' u u' : PObs} (hk : o'.pk = o.pk) (hb : o'.batches = o.batches)
    (hp : o'.popped = o.popped) (h : pexec J o op = .ok u) (h' : pexec J o' op = .ok u') :
    u'.pk = u.pk ∧ u'.batches = u.batches ∧ u'.popped = u.popped ∧ u.pushed = o.pushed ∧ u'.pushed = o'.pushed := by
  cases op with
  | push req => exact ht.elim
  | multiPush m => exact ht.elim
  | popSize n | multiPop | pushout =>
    obtain ⟨x, g, h⟩ := bind_inv h
    obtain ⟨x', g', h'⟩ := bind_inv h'
    rw [hk, g] at g'
    simp only [Except.ok.injEq] at g' h h'
    subst g' h h'
    simp [hb, hp]

theorem pushes_pushed {J : Json} {ps : List PushRequest} {o o' : PObs} (h : pexecAll J o (ps.map PackOp.push) = .ok o') :
    o'.pushed = o.pushed ++ ps := by
  induction ps generalizing o with
  | nil =>
    simp only [List.map_nil, pexecAll, Except.ok.injEq] at h
    subst h
    simp
  | cons p ps ih =>
    obtain ⟨o1, h1, h2⟩ := bind_inv (show (pexec J o (.push p) >>= fun y => pexecAll J y (ps.map PackOp.push)) = .ok o' from h)
    obtain ⟨pk, -, h4⟩ := bind_inv (show (push J o.pk p >>= fun pk => .ok { o with pk := pk, pushed := o.pushed ++ [p] }) = .ok o1 from h1)
    simp only [Except.ok.injEq] at h4
    subst h4
    rw [ih h2]
    simp

theorem rounds_eq {J : Json} {opt : PackerOpts} {hd : Bool} (P : PushRequest → Prop)
    (hinj : ∀ p q, P p → P q → SameRecord J opt p q → p = q) {rs rs' : List (List PushRequest × PackOp)}
    (hr : List.Forall₂ (fun r r' => r'.2 = r.2 ∧ r'.1.Perm r.1) rs rs')
    (ht : ∀ r ∈ rs, PackOp.takes r.2) (hP : ∀ r ∈ rs, ∀ p ∈ r.1, P p) {o o' u u' : PObs} (ho : PBooks J opt hd o) (ho' : PBooks J opt hd o')
    (hk : o'.pk = o.pk) (hb : o'.batches = o.batches) (hp : o'.popped = o.popped) (hu : ∀ p ∈ o.pushed, P p)
    (h : pexecAll J o (roundCalls rs) = .ok u) (h' : pexecAll J o' (roundCalls rs') = .ok u') :
    u'.pk = u.pk ∧ u'.batches = u.batches ∧ u'.popped = u.popped := by
  induction hr generalizing o o' with
  | nil =>
    simp only [roundCalls, List.flatMap_nil, pexecAll, Except.ok.injEq] at h h'
    subst h h'
    exact ⟨hk, hb, hp⟩
  | @cons r r' rs rs' e _ ih =>
    have x : ∀ (r : List PushRequest × PackOp) rs, roundCalls (r :: rs) = r.1.map PackOp.push ++ r.2 :: roundCalls rs := by
      intro r rs
      simp [roundCalls]
    rw [x] at h h'
    obtain ⟨v, h1, h⟩ := pexecAll_append h
    obtain ⟨v', h1', h'⟩ := pexecAll_append h'
    obtain ⟨w, h2, h⟩ := bind_inv (show (pexec J v r.2 >>= fun y => pexecAll J y (roundCalls rs)) = .ok u from h)
    obtain ⟨w', h2', h'⟩ := bind_inv (show (pexec J v' r'.2 >>= fun y => pexecAll J y (roundCalls rs')) = .ok u' from h')
    rw [e.1] at h2'
    have kv := pbooks_execAll ho h1
    have kv' := pbooks_execAll ho' h1'
    obtain ⟨-, -, -, c1, b1, p1⟩ := pushes_spec ho.inv h1
    obtain ⟨-, -, -, c1', b1', p1'⟩ := pushes_spec ho'.inv h1'
    have hv : ∀ p ∈ v.pushed, P p := by
      intro p hp
      rw [pushes_pushed h1, List.mem_append] at hp
      exact hp.elim (hu p) (hP r List.mem_cons_self p)
    have hin : ∀ p ∈ v.pk.contents, P p := by
      intro p hp
      obtain ⟨datas, -, g⟩ := kv.books
      exact hv p (g.mem_iff.1 (List.mem_append_right _ hp))
    have hpk : v'.pk = v.pk := by
      refine top_eq kv.inv kv'.inv (by rw [kv.optEq, kv'.optEq]) (by rw [kv.handlerEq, kv'.handlerEq]) ?_ ?_
      · refine c1'.trans (List.Perm.trans ?_ c1.symm)
        rw [hk]
        exact List.Perm.append_right _ e.2
      · intro p hp q hq
        rw [kv.optEq]
        exact hinj p q (hin p hp) (hin q hq)
    obtain ⟨d1, d2, d3, d4, -⟩ := takes_eq (ht r List.mem_cons_self) hpk (by rw [b1, b1', hb]) (by rw [p1, p1', hp]) h2 h2'
    exact ih (fun r hr => ht r (List.mem_cons_of_mem _ hr)) (fun r hr => hP r (List.mem_cons_of_mem _ hr)) (pbooks_exec kv h2)
      (pbooks_exec kv' h2') d1 d2 d3 (by rw [d4]; exact hv) h h'

/-- When no two different requests are recorded with the same size, the same batches come out, the same single requests,
and the packer is left the same; missing are different requests of the same recorded size. -/
theorem C138_distinct_partial (J : Json) (opt : PackerOpts) (hd : Bool) (rs rs' : List (List PushRequest × PackOp)) (o o' : PObs)
    (hr : List.Forall₂ (fun r r' => r'.2 = r.2 ∧ r'.1.Perm r.1) rs rs') (ht : ∀ r ∈ rs, PackOp.takes r.2)
    (hinj : ∀ r ∈ rs, ∀ r1 ∈ rs, ∀ p ∈ r.1, ∀ q ∈ r1.1, SameRecord J opt p q → p = q)
    (h : pexecAll J { pk := Packer.new opt hd } (roundCalls rs) = .ok o)
    (h' : pexecAll J { pk := Packer.new opt hd } (roundCalls rs') = .ok o') :
    o'.batches = o.batches ∧ o'.popped = o.popped ∧ o'.pk = o.pk := by
  obtain ⟨a, b, c⟩ := rounds_eq (o := { pk := Packer.new opt hd }) (o' := { pk := Packer.new opt hd })
    (fun p => ∃ r ∈ rs, p ∈ r.1) (by
      rintro p q ⟨r, hr, hp⟩ ⟨r1, hr1, hq⟩
      exact hinj r hr r1 hr1 p hp q hq) hr ht (fun r hr p hp => ⟨r, hr, hp⟩) (pbooks_new J opt hd) (pbooks_new J opt hd) rfl rfl rfl
    (fun p hp => by simp at hp) h h'
  exact ⟨b, c, a⟩

/-- A witness: three requests of different sizes pushed in two orders, two to a batch, then a single request taken out: the
same batch of two requests in both runs. -/
example : (match pexecAll exJson (ExPacker.start { ExPacker.oneOpt with pushLimit := 2 })
        (roundCalls [([ExPacker.rq "a" [1], ExPacker.rq "bb" [2, 3], ExPacker.rq "ccc" [4, 5, 6]], .multiPop), ([], .popSize 1000)]),
      pexecAll exJson (ExPacker.start { ExPacker.oneOpt with pushLimit := 2 })
        (roundCalls [([ExPacker.rq "ccc" [4, 5, 6], ExPacker.rq "a" [1], ExPacker.rq "bb" [2, 3]], .multiPop), ([], .popSize 1000)]) with
    | .ok o, .ok o' => decide (o.batches = [{ data := [ExPacker.rq "ccc" [4, 5, 6], ExPacker.rq "bb" [2, 3]] }] ∧
        o.popped = [ExPacker.rq "a" [1]] ∧ o'.batches = o.batches ∧ o'.popped = o.popped)
    | _, _ => false) = true := by decide +kernel

end Wrtstat
