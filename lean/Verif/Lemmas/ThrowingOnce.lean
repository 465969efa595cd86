/-
Which windows are reported twice when handlers throw: those of the records on which the handler threw.
-/
import Verif.Lemmas.Throwing

namespace Wrtstat
namespace Aggregator

set_option autoImplicit false

/-- The windows of some records. -/
def stamps (l : List AggData) : List Int := l.map fun d => d.ts

/-- The records received and those waiting. -/
def AObs.records (o : AObs) : List AggData := o.received ++ o.a.agList ++ o.a.sep.sepList

/-- One window at most is reported, the current one, and then it is over. -/
def Adv (step next next' : Int) (new : List Int) : Prop :=
  (new = [] ∧ next ≤ next') ∨ (new = [next - step] ∧ next + step ≤ next')

theorem after_le {step ts next : Int} (hs : 0 < step) : next ≤ after step ts next ∧ (next ≤ ts → next + step ≤ after step ts next) := by
  unfold after
  split_ifs with h
  · exact ⟨le_refl _, fun h' => by omega⟩
  · have h1 : 0 ≤ (ts - next) / step := Int.ediv_nonneg (by omega) (by omega)
    have h2 : step ≤ ((ts - next) / step + 1) * step := by nlinarith
    exact ⟨by omega, fun _ => by omega⟩

theorem sepLoop_shape {env : Env} {step ts next : Int} {r : Reducer} {l : List AggData} {n : Int} {r' : Reducer} (hs : 0 < step)
    (h : Separator.sepLoop env step ts next r = .ok (l, n, r')) : Adv step next n (stamps l) := by
  rw [Separator.sepLoop] at h
  split_ifs at h with hn
  · obtain ⟨⟨d, r1⟩, h1, h⟩ := bind_inv h
    have he := detach_empty h1
    simp only at h
    rw [sepLoop_after hs he _ _ (le_refl _), bind_ok', after_step hs hn] at h
    cases h
    have hle := (after_le (ts := ts) (next := next) hs).2 hn
    cases d with
    | none => exact .inl ⟨rfl, by simp only; omega⟩
    | some d => exact .inr ⟨rfl, hle⟩
  · cases h
    exact .inl ⟨rfl, le_refl _⟩

theorem separate_recs {env : Env} {s s' : Separator} {clk ts : Int} {handler force b : Bool} {out : List AggData} (hs : 0 < s.step)
    (h : s.separate env clk ts handler force = .ok (b, out, s')) :
    s'.step = s.step ∧ ∃ new, (stamps out ++ stamps s'.sepList).Perm (stamps s.sepList ++ new) ∧ Adv s.step s.next s'.next new := by
  unfold Separator.separate at h
  obtain ⟨t, _, h1⟩ := bind_inv h
  clear h
  by_cases hc : force = false ∧ t < s.next
  · rw [if_pos hc] at h1
    cases h1
    exact ⟨rfl, [], by simp [stamps], .inl ⟨rfl, le_refl _⟩⟩
  · rw [if_neg hc] at h1
    obtain ⟨⟨l, n, r⟩, h2, h3⟩ := bind_inv h1
    have := sepLoop_shape hs h2
    cases handler with
    | true =>
      cases h3
      exact ⟨rfl, _, List.perm_append_comm, this⟩
    | false =>
      cases h3
      exact ⟨rfl, _, by simp [stamps], this⟩

theorem push_recs {env : Env} {s s' : Separator} {clk1 clk2 ts : Int} {x : AddArg} {handler b : Bool} {out : List AggData} (hs : 0 < s.step)
    (h : s.push env clk1 clk2 ts x handler = .ok (b, out, s')) :
    s'.step = s.step ∧ ∃ new, (stamps out ++ stamps s'.sepList).Perm (stamps s.sepList ++ new) ∧ Adv s.step s.next s'.next new := by
  unfold Separator.push at h
  obtain ⟨t, _, h1⟩ := bind_inv h
  obtain ⟨⟨b', out', s1⟩, h2, h3⟩ := bind_inv h1
  have := separate_recs hs h2
  simp only at h3
  split_ifs at h3 <;> cases h3 <;> exact this

theorem stamps_mapM {E : NthElement} {R : Nat} : ∀ {l out : List AggData}, l.mapM (finish E R) = .ok out → stamps out = stamps l := by
  intro l
  induction l with
  | nil => intro out h; cases h; rfl
  | cons d l ih =>
    intro out h
    rw [List.mapM_cons] at h
    obtain ⟨d', h1, h2⟩ := bind_inv h
    obtain ⟨out', h3, h4⟩ := bind_inv h2
    cases h4
    obtain ⟨d'', e, hd⟩ := finish_spec E R d
    rw [e] at h1
    cases h1
    have := ih h3
    simp only [stamps, List.map_cons] at this ⊢
    rw [this, hd.ts]

theorem aggregate0_recs {E : NthElement} {a a' : Aggregator} (h : aggregate0_ E a = .ok a') :
    a'.sep = { a.sep with sepList := [] } ∧ stamps a'.agList = stamps a.agList ++ stamps a.sep.sepList := by
  unfold aggregate0_ at h
  obtain ⟨out, h1, h2⟩ := bind_inv h
  cases h2
  refine ⟨rfl, ?_⟩
  simp only [stamps, List.map_append]
  rw [← stamps, ← stamps, ← stamps, stamps_mapM h1]

theorem add_recs {env : Env} {a a' : Aggregator} {clk1 clk2 ts : Int} {x : AddArg} {b : Bool} (hs : 0 < a.sep.step)
    (h : a.add env clk1 clk2 ts x = .ok (b, a')) :
    a'.sep.step = a.sep.step ∧ ∃ new, (stamps a'.agList ++ stamps a'.sep.sepList).Perm (stamps a.agList ++ stamps a.sep.sepList ++ new) ∧
      Adv a.sep.step a.sep.next a'.sep.next new := by
  unfold add at h
  split_ifs at h with he
  · cases h
    exact ⟨rfl, [], by simp, .inl ⟨rfl, le_refl _⟩⟩
  · obtain ⟨⟨ok, s⟩, h1, h2⟩ := bind_inv h
    unfold Separator.add at h1
    obtain ⟨⟨b1, out, s1⟩, h3, h4⟩ := bind_inv h1
    cases h4
    obtain ⟨e1, new, e2, e3⟩ := push_recs hs h3
    have hout : stamps out = [] := by
      unfold Separator.push Separator.separate at h3
      obtain ⟨t, _, h5⟩ := bind_inv h3
      obtain ⟨⟨b2, out2, s2⟩, h6, h7⟩ := bind_inv h5
      obtain ⟨t', _, h8⟩ := bind_inv h6
      simp only at h7
      have : out = out2 := by split_ifs at h7 <;> cases h7 <;> rfl
      subst this
      by_cases hc : t' < a.sep.next
      · rw [if_pos ⟨rfl, hc⟩] at h8
        cases h8
        rfl
      · rw [if_neg (fun h => hc h.2)] at h8
        obtain ⟨⟨l, n, r⟩, _, h9⟩ := bind_inv h8
        cases h9
        rfl
    rw [hout, List.nil_append] at e2
    cases ok with
    | false =>
      cases h2
      exact ⟨e1, new, by rw [List.append_assoc]; exact e2.append_left _, e3⟩
    | true =>
      simp only [Bool.true_eq_false, if_false] at h2
      obtain ⟨a1, h5, h6⟩ := bind_inv h2
      cases h6
      obtain ⟨f1, f2⟩ := aggregate0_recs h5
      rw [f1]
      refine ⟨e1, new, ?_, e3⟩
      rw [f2]
      simp only [stamps, List.map_nil, List.append_nil]
      rw [List.append_assoc]
      exact e2.append_left _

/-- Operations other than `force_pop`: one window at most is reported, the current one, and then it is over. -/
theorem exec_recs {env : Env} {o o' : AObs} {op : AOp} (hs : 0 < o.a.sep.step) (hf : op.forced = false)
    (h : exec env o op = .ok o') : o'.a.sep.step = o.a.sep.step ∧
      ∃ new, (stamps o'.records).Perm (stamps o.records ++ new) ∧ Adv o.a.sep.step o.a.sep.next o'.a.sep.next new := by
  have rs : ∀ o : AObs, stamps o.records = stamps o.received ++ (stamps o.a.agList ++ stamps o.a.sep.sepList) := fun o => by
    simp [stamps, AObs.records]
  have sa : ∀ l l' : List AggData, stamps (l ++ l') = stamps l ++ stamps l' := fun l l' => by simp [stamps]
  cases op with
  | add clk1 clk2 ts x =>
    obtain ⟨⟨b, a'⟩, h1, h2⟩ := bind_inv h
    cases h2
    obtain ⟨e1, new, e2, e3⟩ := add_recs hs h1
    refine ⟨e1, new, ?_, e3⟩
    rw [rs, rs, List.append_assoc]
    exact e2.append_left _
  | push clk1 clk2 ts x handler =>
    obtain ⟨⟨b, out, a'⟩, h1, h2⟩ := bind_inv h
    cases h2
    unfold push at h1
    split_ifs at h1 with he hh
    · cases h1
      exact ⟨rfl, [], by simp [AObs.records], .inl ⟨rfl, le_refl _⟩⟩
    · obtain ⟨⟨b1, a1⟩, h3, h4⟩ := bind_inv h1
      cases h4
      obtain ⟨e1, new, e2, e3⟩ := add_recs hs h3
      refine ⟨e1, new, ?_, e3⟩
      rw [rs, rs, List.append_assoc, sa]
      simp only [stamps, List.map_nil, List.append_nil] at e2 ⊢
      exact e2.append_left _
    · obtain ⟨⟨b1, out1, s1⟩, h3, h4⟩ := bind_inv h1
      obtain ⟨out2, h5, h6⟩ := bind_inv h4
      cases h6
      obtain ⟨e1, new, e2, e3⟩ := push_recs hs h3
      refine ⟨e1, new, ?_, e3⟩
      rw [rs, rs]
      simp only
      rw [sa, stamps_mapM h5]
      have p1 : (stamps o.received ++ stamps out1 ++ (stamps o.a.agList ++ stamps s1.sepList)).Perm
          (stamps o.received ++ (stamps o.a.agList ++ (stamps out1 ++ stamps s1.sepList))) := by
        rw [List.append_assoc]
        refine List.Perm.append_left _ ?_
        rw [← List.append_assoc, ← List.append_assoc]
        exact List.perm_append_comm.append_right _
      refine p1.trans ?_
      rw [List.append_assoc, List.append_assoc]
      exact (e2.append_left _).append_left _
  | separate clk ts handler force =>
    obtain ⟨⟨b, out, a'⟩, h1, h2⟩ := bind_inv h
    cases h2
    obtain ⟨⟨b1, out1, s1⟩, h3, h4⟩ := bind_inv h1
    obtain ⟨a1, h5, h6⟩ := bind_inv h4
    cases h6
    obtain ⟨e1, new, e2, e3⟩ := separate_recs hs h3
    obtain ⟨f1, f2⟩ := aggregate0_recs h5
    simp only at f1 f2
    refine ⟨by rw [f1]; exact e1, new, ?_, by rw [f1]; exact e3⟩
    rw [rs, rs]
    simp only
    rw [sa, f1, f2]
    simp only [show stamps ([] : List AggData) = [] from rfl, List.append_nil]
    have p1 : (stamps o.received ++ stamps out ++ (stamps o.a.agList ++ stamps s1.sepList)).Perm
        (stamps o.received ++ (stamps o.a.agList ++ (stamps out ++ stamps s1.sepList))) := by
      rw [List.append_assoc]
      refine List.Perm.append_left _ ?_
      rw [← List.append_assoc, ← List.append_assoc]
      exact List.perm_append_comm.append_right _
    refine p1.trans ?_
    rw [List.append_assoc, List.append_assoc]
    exact (e2.append_left _).append_left _
  | pop =>
    unfold exec pop at h
    cases hl : o.a.agList with
    | nil =>
      rw [hl] at h
      cases h
      exact ⟨rfl, [], by simp [AObs.records], .inl ⟨rfl, le_refl _⟩⟩
    | cons d l =>
      rw [hl] at h
      cases h
      exact ⟨rfl, [], by simp [AObs.records, hl], .inl ⟨rfl, le_refl _⟩⟩
  | forcePop => cases hf
  | look =>
    obtain ⟨_, _, h2⟩ := bind_inv h
    cases h2
    exact ⟨rfl, [], by simp, .inl ⟨rfl, le_refl _⟩⟩
  | enable v =>
    cases h
    exact ⟨rfl, [], by simp [AObs.records, enable], .inl ⟨rfl, le_refl _⟩⟩

/-! ### More fuel -/

theorem seqX_ok {f f' : AObs → AOp → M (AObs × Bool)} {c : Bool} (hf : ∀ op o p, f o op = .ok p → f' o op = .ok p) (l : List AOp) :
    ∀ {o : AObs} {p : AObs × Bool}, seqX f c l o = .ok p → seqX f' c l o = .ok p := by
  induction l with
  | nil => intro o p h; exact h
  | cons op l ih =>
    intro o p h
    rw [seqX] at h ⊢
    obtain ⟨⟨o1, th⟩, h1, h2⟩ := bind_inv h
    rw [hf _ _ _ h1, bind_ok']
    simp only at h2 ⊢
    split_ifs at h2 ⊢
    · exact h2
    · exact ih h2

/-- A larger bound gives the same result. -/
theorem execX_mono {env : Env} {H : THandler} {k : Nat} : ∀ {k' : Nat}, k ≤ k' →
    (∀ op o p, execX env H k o op = .ok p → execX env H k' o op = .ok p) ∧
    (∀ raw ts o p, loopX env H raw k ts o = .ok p → loopX env H raw k' ts o = .ok p) := by
  induction k with
  | zero =>
    intro k' _
    refine ⟨fun op o p h => ?_, fun raw ts o p h => ?_⟩
    · rw [execX] at h; cases h
    · rw [loopX] at h; cases h
  | succ k ih =>
    intro k' hk
    obtain ⟨k', rfl⟩ : ∃ m, k' = m + 1 := ⟨k' - 1, by omega⟩
    obtain ⟨ih1, ih2⟩ := ih (k' := k') (by omega)
    refine ⟨fun op o p h => ?_, fun raw ts o p h => ?_⟩
    · cases op with
      | push clk1 clk2 ts x handler =>
        cases handler with
        | false => rw [execX] at h ⊢ <;> simp_all
        | true =>
          rw [execX] at h ⊢
          split_ifs at h ⊢
          · exact h
          · obtain ⟨t, h1, h2⟩ := bind_inv h
            obtain ⟨t', h3, h4⟩ := bind_inv h2
            obtain ⟨o1, h5, h6⟩ := bind_inv h4
            rw [h1, bind_ok', h3, bind_ok', ih2 _ _ _ _ h5, bind_ok']
            exact h6
      | separate clk ts handler force =>
        cases handler with
        | false => rw [execX] at h ⊢ <;> simp_all
        | true =>
          rw [execX] at h ⊢
          obtain ⟨t, h1, h2⟩ := bind_inv h
          obtain ⟨o1, h3, h4⟩ := bind_inv h2
          rw [h1, bind_ok', ih2 _ _ _ _ h3, bind_ok']
          exact h4
      | add => rw [execX] at h ⊢ <;> simp_all
      | pop => rw [execX] at h ⊢ <;> simp_all
      | forcePop => rw [execX] at h ⊢ <;> simp_all
      | look => rw [execX] at h ⊢ <;> simp_all
      | enable => rw [execX] at h ⊢ <;> simp_all
    · rw [loopX] at h ⊢
      split_ifs at h ⊢
      · obtain ⟨⟨d, r⟩, h1, h2⟩ := bind_inv h
        obtain ⟨⟨o1, th⟩, h3, h4⟩ := bind_inv h2
        rw [h1, bind_ok']
        simp only at h3 h4 ⊢
        cases d with
        | none =>
          cases h3
          rw [bind_ok']
          simp only [Bool.false_eq_true, if_false] at h4 ⊢
          exact ih2 _ _ _ _ h4
        | some d =>
          simp only at h3 ⊢
          obtain ⟨d', h5, h6⟩ := bind_inv h3
          obtain ⟨⟨o2, th2⟩, h7, h8⟩ := bind_inv h6
          rw [h5, bind_ok', seqX_ok (fun op o p h => ih1 op o p h) _ h7, bind_ok']
          cases h8
          rw [bind_ok']
          simp only at h4 ⊢
          split_ifs at h4 ⊢
          · exact h4
          · exact ih2 _ _ _ _ h4
      · exact h

/-! ### The windows reported -/

/-- The handler threw on a record of the window. -/
def Threw (H : THandler) (o : AObs) (w : Int) : Prop :=
  ∃ l d, l ++ [d] <+: o.received ∧ d.ts = w ∧ (H (l ++ [d])).throws = true

/-- What holds between the calls of a client. -/
structure Once (H : THandler) (o : AObs) : Prop where
  step : 0 < o.a.sep.step
  past : ∀ w ∈ stamps o.records, w < o.a.sep.next - o.a.sep.step ∨ (w = o.a.sep.next - o.a.sep.step ∧ Threw H o w)
  once : ∀ w, ¬ Threw H o w → (stamps o.records).count w ≤ 1

theorem received_prefix {env : Env} {o o' : AObs} {op : AOp} (h : exec env o op = .ok o') : o.received <+: o'.received := by
  cases op with
  | add => obtain ⟨p, _, h2⟩ := bind_inv h; cases h2; exact List.prefix_refl _
  | push => obtain ⟨p, _, h2⟩ := bind_inv h; cases h2; exact List.prefix_append _ _
  | separate => obtain ⟨p, _, h2⟩ := bind_inv h; cases h2; exact List.prefix_append _ _
  | pop => cases h; exact List.prefix_append _ _
  | forcePop => obtain ⟨p, _, h2⟩ := bind_inv h; cases h2; exact List.prefix_append _ _
  | look => obtain ⟨p, _, h2⟩ := bind_inv h; cases h2; exact List.prefix_refl _
  | enable => cases h; exact List.prefix_refl _

theorem Threw.mono {H : THandler} {o o' : AObs} {w : Int} (hp : o.received <+: o'.received) (h : Threw H o w) : Threw H o' w := by
  obtain ⟨l, d, h1, h2, h3⟩ := h
  exact ⟨l, d, h1.trans hp, h2, h3⟩

/-- One window at most is reported, the current one; it is over or the handler threw. -/
theorem Once.extend {H : THandler} {o o' : AObs} (g : Once H o) (hp : o.received <+: o'.received) (hs : o'.a.sep.step = o.a.sep.step)
    {new : List Int} (hr : (stamps o'.records).Perm (stamps o.records ++ new))
    (ha : Adv o.a.sep.step o.a.sep.next o'.a.sep.next new ∨
      (new = [o.a.sep.next - o.a.sep.step] ∧ o'.a.sep.next = o.a.sep.next ∧ Threw H o' (o.a.sep.next - o.a.sep.step))) :
    Once H o' := by
  have hpos := g.step
  refine ⟨by rw [hs]; exact g.step, fun w hw => ?_, fun w hw => ?_⟩
  · rw [hs]
    rcases List.mem_append.1 (hr.mem_iff.1 hw) with hw | hw
    · rcases g.past w hw with h | ⟨h, ht⟩
      · left
        rcases ha with (⟨_, h'⟩ | ⟨_, h'⟩) | ⟨_, h', _⟩ <;> omega
      · by_cases he : o'.a.sep.next = o.a.sep.next
        · exact .inr ⟨by rw [he]; exact h, ht.mono hp⟩
        · left
          rcases ha with (⟨_, h'⟩ | ⟨_, h'⟩) | ⟨_, h', _⟩ <;> omega
    · rcases ha with (⟨rfl, h'⟩ | ⟨rfl, h'⟩) | ⟨rfl, h', ht⟩
      · cases hw
      · rw [List.mem_singleton] at hw
        left; omega
      · rw [List.mem_singleton] at hw
        subst hw
        exact .inr ⟨by rw [h'], ht⟩
  · rw [hr.count_eq, List.count_append]
    have hw' : ¬ Threw H o w := fun h => hw (h.mono hp)
    have h1 := g.once w hw'
    by_cases hin : w ∈ new
    · have hnew : new = [o.a.sep.next - o.a.sep.step] := by
        rcases ha with (⟨rfl, _⟩ | ⟨rfl, _⟩) | ⟨rfl, _⟩
        · cases hin
        · rfl
        · rfl
      subst hnew
      rw [List.mem_singleton] at hin
      have h0 : (stamps o.records).count w = 0 := by
        rw [List.count_eq_zero]
        intro hm
        rcases g.past w hm with h | ⟨_, h⟩
        · omega
        · exact hw' h
      rw [h0, hin]
      simp
    · rw [List.count_eq_zero.2 hin]
      omega

theorem once_execX {env : Env} {H : THandler} {k : Nat} {o : AObs} {p : AObs × Bool} {op : AOp} (hp : Pure H) (g : Once H o)
    (hf : op.forced = false) (h : execX env H k o op = .ok p) : Once H p.1 := by
  obtain ⟨o1, th⟩ := p
  obtain ⟨o2, e, h1, h2⟩ := execX_pure hp g.step h
  cases th with
  | false =>
    rw [h1 rfl]
    obtain ⟨e1, new, e2, e3⟩ := exec_recs g.step hf e
    exact g.extend (received_prefix e) e1 e2 (.inl e3)
  | true =>
    obtain ⟨_, _, ⟨d, e1, e2⟩, ⟨r, e3⟩, e4, _⟩ := h2 rfl
    refine g.extend (new := [o.a.sep.next - o.a.sep.step]) (by rw [e1]; exact List.prefix_append _ _) (by rw [e3]) ?_
      (.inr ⟨rfl, by rw [e3], o.received, d, by rw [e1], e2, by rw [← e1]; exact e4⟩)
    simp only [AObs.records, e1, e3, stamps, List.map_append, List.map_cons, List.map_nil, e2, List.append_assoc]
    exact (List.perm_append_comm.trans (by rw [List.append_assoc])).append_left _

theorem once_fresh {env : Env} {opt : AggregatorOpts} {a : Aggregator} {H : THandler} (hs : 0 < opt.step) (h : Fresh env opt a) :
    Once H { a := a } := by
  have g := pgood_fresh (Q := fun _ _ => True) hs h
  have h1 : a.agList = [] := by have := g.wait; cases hl : a.agList with | nil => rfl | cons d l => rw [hl] at this; cases this
  have h2 : a.sep.sepList = [] := by
    have := g.sep.recs
    cases hl : a.sep.sepList with
    | nil => rfl
    | cons d l => simp only at this; rw [hl] at this; cases this
  have h3 : stamps ({ a := a } : AObs).records = [] := by simp [AObs.records, stamps, h1, h2]
  refine ⟨by have := g.sep.step.1; simp only at this ⊢; omega, ?_, ?_⟩
  · rw [h3]; simp
  · rw [h3]; simp

end Aggregator
end Wrtstat
