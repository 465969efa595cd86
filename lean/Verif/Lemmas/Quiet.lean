/-
Handlers that only read (`pop`, `aggregate_current`) do not change a run, except for the place of the records they take.
-/
import Verif.Lemmas.Reentrant

namespace Wrtstat
namespace Aggregator

set_option autoImplicit false

/-- Two runs differ in who has taken which record only. -/
structure Alike (o o' : AObs) : Prop where
  obj : o.a = { o'.a with agList := o.a.agList }
  accepted : o.accepted = o'.accepted
  recs : (o.received ++ o.a.agList).Perm (o'.received ++ o'.a.agList)

theorem Alike.refl (o : AObs) : Alike o o := ⟨rfl, rfl, List.Perm.refl _⟩

theorem Alike.trans {a b c : AObs} (h : Alike a b) (h' : Alike b c) : Alike a c := by
  refine ⟨?_, h.accepted.trans h'.accepted, h.recs.trans h'.recs⟩
  have h1 := h.obj
  have h2 := h'.obj
  rw [h2] at h1
  exact h1

theorem Alike.sep {a b : AObs} (h : Alike a b) : a.a.sep = b.a.sep := by have := h.obj; rw [this]

theorem Alike.outSize {a b : AObs} (h : Alike a b) : a.a.outSize = b.a.outSize := by have := h.obj; rw [this]

/-- Both runs may change the separator in the same way and receive the same records. -/
theorem Alike.set {a b : AObs} (h : Alike a b) (s : Separator) (l : List AggData) (acc : List (Int × AddArg)) :
    Alike ⟨{ a.a with sep := s }, a.received ++ l, a.accepted ++ acc⟩
      ⟨{ b.a with sep := s }, b.received ++ l, b.accepted ++ acc⟩ := by
  refine ⟨?_, by simp only [h.accepted], ?_⟩
  · have h1 := h.obj
    simp only
    rw [h1]
  · simp only [List.append_assoc]
    have e : ∀ (p q : List AggData), (p ++ (l ++ q)).Perm (l ++ (p ++ q)) := fun p q => by
      rw [← List.append_assoc, ← List.append_assoc]
      exact List.perm_append_comm.append_right _
    exact ((e _ _).trans (h.recs.append_left l)).trans (e _ _).symm

theorem aggregate0_agList {E : NthElement} {a a' : Aggregator} (h : aggregate0_ E a = .ok a') (l : List AggData) :
    ∃ ext, a'.agList = a.agList ++ ext ∧ aggregate0_ E { a with agList := l } = .ok { a' with agList := l ++ ext } := by
  unfold aggregate0_ at h ⊢
  cases hx : a.sep.sepList.mapM (finish E a.outSize) with
  | error e => rw [hx] at h; cases h
  | ok m => rw [hx] at h; cases h; exact ⟨m, rfl, by simp only; rfl⟩

theorem add_agList {env : Env} {a a' : Aggregator} {c1 c2 ts : Int} {x : AddArg} {b : Bool}
    (h : a.add env c1 c2 ts x = .ok (b, a')) (l : List AggData) :
    ∃ ext, a'.agList = a.agList ++ ext ∧
      ({ a with agList := l } : Aggregator).add env c1 c2 ts x = .ok (b, { a' with agList := l ++ ext }) := by
  unfold add at h ⊢
  by_cases he : a.enabled = false
  · rw [if_pos he] at h
    cases h
    exact ⟨[], by simp, by simp [he]⟩
  · rw [if_neg he] at h
    rw [if_neg (show ¬({ a with agList := l } : Aggregator).enabled = false from he)]
    cases hx : a.sep.add env c1 c2 ts x with
    | error e => rw [hx] at h; cases h
    | ok p =>
      obtain ⟨ok, s⟩ := p
      rw [hx] at h
      simp only [bind_ok'] at h ⊢
      cases ok with
      | false => cases h; exact ⟨[], by simp, by simp⟩
      | true =>
        simp only [Bool.true_eq_false, if_false] at h ⊢
        cases hy : aggregate0_ env.nth { a with sep := s } with
        | error e => rw [hy] at h; cases h
        | ok a1 =>
          rw [hy] at h
          cases h
          obtain ⟨ext, e1, e2⟩ := aggregate0_agList hy l
          exact ⟨ext, e1, by simp only at e2 ⊢; rw [e2]; rfl⟩

theorem pop_spec (a : Aggregator) : a.pop.1.toList ++ a.pop.2.agList = a.agList ∧
    a.pop.2 = { a with agList := a.pop.2.agList } := by
  unfold pop
  cases hl : a.agList with
  | nil => exact ⟨by simp [hl], rfl⟩
  | cons d l => exact ⟨rfl, rfl⟩

/-- The same operation keeps two runs alike. -/
theorem alike_exec {env : Env} {o1 o2 o2' : AObs} (s : Alike o1 o2) (op : AOp) (h : exec env o2 op = .ok o2') :
    ∃ o1', exec env o1 op = .ok o1' ∧ Alike o1' o2' := by
  obtain ⟨a1, r1, acc1⟩ := o1
  obtain ⟨a2, r2, acc2⟩ := o2
  obtain ⟨hobj, hacc, hrec⟩ := s
  simp only at hobj hacc hrec
  subst hacc
  generalize a1.agList = l1 at hobj hrec
  subst hobj
  have keep : ∀ (a' : Aggregator) (out ext : List AggData) (acc : List (Int × AddArg)), a'.agList = a2.agList ++ ext →
      Alike ⟨{ a' with agList := l1 ++ ext }, r1 ++ out, acc⟩ ⟨a', r2 ++ out, acc⟩ := by
    intro a' out ext acc e
    refine ⟨rfl, rfl, ?_⟩
    simp only [e]
    have p : ∀ (p q : List AggData), (p ++ out ++ (q ++ ext)).Perm (out ++ (p ++ q) ++ ext) := fun p q => by
      simp only [List.append_assoc]
      rw [← List.append_assoc, ← List.append_assoc out p]
      exact List.perm_append_comm.append_right _
    exact ((p _ _).trans ((hrec.append_left out).append_right ext)).trans (p _ _).symm
  cases op with
  | add clk1 clk2 ts x =>
    simp only [exec] at h ⊢
    cases hx : a2.add env clk1 clk2 ts x with
    | error e => rw [hx] at h; cases h
    | ok p =>
      obtain ⟨b, a'⟩ := p
      rw [hx] at h
      cases h
      obtain ⟨ext, e1, e2⟩ := add_agList hx l1
      refine ⟨_, by rw [e2]; rfl, ?_⟩
      have := keep a' [] ext (AObs.record ⟨a2, r2, acc1⟩ b clk1 ts x) e1
      simpa [AObs.record] using this
  | push clk1 clk2 ts x handler =>
    simp only [exec] at h ⊢
    cases hx : a2.push env clk1 clk2 ts x handler with
    | error e => rw [hx] at h; cases h
    | ok p =>
      obtain ⟨b, out, a'⟩ := p
      rw [hx] at h
      cases h
      have : ∃ ext, a'.agList = a2.agList ++ ext ∧ ({ a2 with agList := l1 } : Aggregator).push env clk1 clk2 ts x handler =
          .ok (b, out, { a' with agList := l1 ++ ext }) := by
        unfold push at hx ⊢
        by_cases he : a2.enabled = false
        · rw [if_pos he] at hx
          cases hx
          exact ⟨[], by simp, by simp [he]⟩
        · rw [if_neg he] at hx
          rw [if_neg (show ¬({ a2 with agList := l1 } : Aggregator).enabled = false from he)]
          cases handler with
          | false =>
            simp only [if_true] at hx ⊢
            cases hy : a2.add env clk1 clk2 ts x with
            | error e => rw [hy] at hx; cases hx
            | ok p =>
              rw [hy] at hx
              cases hx
              obtain ⟨ext, e1, e2⟩ := add_agList hy l1
              exact ⟨ext, e1, by rw [e2]; rfl⟩
          | true =>
            simp only [Bool.true_eq_false, if_false] at hx ⊢
            cases hy : a2.sep.push env clk1 clk2 ts x true with
            | error e => rw [hy] at hx; cases hx
            | ok p =>
              obtain ⟨ok, out1, s⟩ := p
              rw [hy] at hx
              simp only [bind_ok'] at hx ⊢
              cases hz : out1.mapM (finish env.nth a2.outSize) with
              | error e => rw [hz] at hx; cases hx
              | ok m => rw [hz] at hx; cases hx; exact ⟨[], by simp, by simp [bind_ok']⟩
      obtain ⟨ext, e1, e2⟩ := this
      refine ⟨_, by rw [e2]; rfl, ?_⟩
      have := keep a' out ext (AObs.record ⟨a2, r2, acc1⟩ b clk1 ts x) e1
      simpa [AObs.record] using this
  | separate clk ts handler force =>
    simp only [exec] at h ⊢
    unfold separate at h ⊢
    cases hx : a2.sep.separate env clk ts handler force with
    | error e => rw [hx] at h; cases h
    | ok p =>
      obtain ⟨res, out, s⟩ := p
      rw [hx] at h
      simp only [bind_ok'] at h ⊢
      cases hy : aggregate0_ env.nth { a2 with sep := s } with
      | error e => rw [hy] at h; cases h
      | ok a' =>
        rw [hy] at h
        cases h
        obtain ⟨ext, e1, e2⟩ := aggregate0_agList hy l1
        simp only at e1 e2
        refine ⟨_, by rw [e2]; rfl, keep a' out ext acc1 e1⟩
  | pop =>
    simp only [exec] at h ⊢
    cases h
    refine ⟨_, rfl, ?_, rfl, ?_⟩
    · have h1 := (pop_spec { a2 with agList := l1 }).2
      have h2 := (pop_spec a2).2
      simp only at h1 h2 ⊢
      rw [h1, h2]
    · have h1 := (pop_spec { a2 with agList := l1 }).1
      have h2 := (pop_spec a2).1
      simp only [List.append_assoc] at h1 h2 ⊢
      rw [h1, h2]
      exact hrec
  | forcePop =>
    simp only [exec] at h ⊢
    unfold forcePop at h ⊢
    cases hx : a2.sep.forcePop env with
    | error e => rw [hx] at h; cases h
    | ok p =>
      obtain ⟨d, s⟩ := p
      rw [hx] at h
      simp only [bind_ok'] at h ⊢
      cases d with
      | none =>
        cases h
        refine ⟨_, rfl, ?_⟩
        have := keep { a2 with sep := s } [] [] acc1 (by simp)
        simpa using this
      | some d =>
        simp only at h ⊢
        cases hy : finish env.nth a2.outSize d with
        | error e => rw [hy] at h; cases h
        | ok d' =>
          rw [hy] at h
          cases h
          refine ⟨_, rfl, ?_⟩
          have := keep { a2 with sep := s } [d'] [] acc1 (by simp)
          simpa using this
  | look =>
    simp only [exec] at h ⊢
    unfold aggregateCurrent at h ⊢
    cases hx : a2.sep.getCurrent env with
    | error e => rw [hx] at h; cases h
    | ok p =>
      rw [hx] at h
      simp only [bind_ok'] at h ⊢
      cases p with
      | none => cases h; exact ⟨_, rfl, rfl, rfl, hrec⟩
      | some d =>
        simp only at h ⊢
        cases hy : finish env.nth a2.outSize d with
        | error e => rw [hy] at h; cases h
        | ok d' => rw [hy] at h; cases h; exact ⟨_, rfl, rfl, rfl, hrec⟩
  | enable v => cases h; exact ⟨_, rfl, rfl, rfl, hrec⟩

theorem foldlM_ok {σ α : Type} {f f' : σ → α → M σ} (hf : ∀ a s s', f s a = .ok s' → f' s a = .ok s') (l : List α) :
    ∀ {s s' : σ}, l.foldlM f s = .ok s' → l.foldlM f' s = .ok s' := by
  induction l with
  | nil => intro s s' h; exact h
  | cons a l ih =>
    intro s s' h
    rw [List.foldlM_cons] at h ⊢
    obtain ⟨s1, h1, h⟩ := bind_inv h
    rw [hf a s s1 h1]
    exact ih h

/-- A larger bound gives the same result. -/
theorem execR_mono {env : Env} {H : AggData → List AOp} {k : Nat} : ∀ {k' : Nat}, k ≤ k' →
    (∀ op o o', execR env H k o op = .ok o' → execR env H k' o op = .ok o') ∧
    (∀ raw ts o o', loopR env H raw k ts o = .ok o' → loopR env H raw k' ts o = .ok o') := by
  induction k with
  | zero =>
    intro k' _
    refine ⟨fun op o o' h => ?_, fun raw ts o o' h => ?_⟩
    · rw [execR] at h; cases h
    · rw [loopR] at h; cases h
  | succ k ih =>
    intro k' hk
    obtain ⟨k', rfl⟩ : ∃ m, k' = m + 1 := ⟨k' - 1, by omega⟩
    obtain ⟨ih1, ih2⟩ := ih (k' := k') (by omega)
    refine ⟨fun op o o' h => ?_, fun raw ts o o' h => ?_⟩
    · cases op with
      | push clk1 clk2 ts x handler =>
        cases handler with
        | false => rw [execR] at h ⊢ <;> simp_all
        | true =>
          rw [execR] at h ⊢
          split_ifs at h ⊢
          · exact h
          · obtain ⟨t, h1, h⟩ := bind_inv h
            obtain ⟨t', h2, h⟩ := bind_inv h
            obtain ⟨o1, h3, h⟩ := bind_inv h
            rw [h1, bind_ok', h2, bind_ok', ih2 _ _ _ _ h3, bind_ok']
            exact h
      | separate clk ts handler force =>
        cases handler with
        | false => rw [execR] at h ⊢ <;> simp_all
        | true =>
          rw [execR] at h ⊢
          obtain ⟨t, h1, h⟩ := bind_inv h
          obtain ⟨o1, h3, h⟩ := bind_inv h
          rw [h1, bind_ok', ih2 _ _ _ _ h3, bind_ok']
          exact h
      | add => rw [execR] at h ⊢ <;> simp_all
      | pop => rw [execR] at h ⊢ <;> simp_all
      | forcePop => rw [execR] at h ⊢ <;> simp_all
      | look => rw [execR] at h ⊢ <;> simp_all
      | enable => rw [execR] at h ⊢ <;> simp_all
    · rw [loopR] at h ⊢
      split_ifs at h ⊢
      · obtain ⟨⟨d, r⟩, h1, h4⟩ := bind_inv h
        clear h
        obtain ⟨o1, h2, h5⟩ := bind_inv h4
        clear h4
        rw [h1, bind_ok']
        simp only at h2 h5 ⊢
        cases d with
        | none => cases h2; rw [bind_ok']; exact ih2 _ _ _ _ h5
        | some d =>
          simp only at h2 ⊢
          obtain ⟨d', h3, h2⟩ := bind_inv h2
          rw [h3, bind_ok', foldlM_ok (fun a s s' h => ih1 a s s' h) _ h2, bind_ok']
          exact ih2 _ _ _ _ h5
      · exact h

/-- The handler only reads. -/
def Quiet (H : AggData → List AOp) : Prop := ∀ d, ∀ op ∈ H d, op = .pop ∨ op = .look

theorem alike_pop (o : AObs) {env : Env} {o' : AObs} (h : exec env o .pop = .ok o') : Alike o o' ∧ o'.a.sep = o.a.sep := by
  simp only [exec, pop] at h
  cases hl : o.a.agList with
  | nil => rw [hl] at h; cases h; exact ⟨⟨rfl, rfl, by simp⟩, rfl⟩
  | cons d l => rw [hl] at h; cases h; exact ⟨⟨rfl, rfl, by simp [hl]⟩, rfl⟩

theorem look_empty (env : Env) {o : AObs} (h : o.a.sep.reducer.empty = true) : exec env o .look = .ok o := by
  simp only [exec]
  unfold aggregateCurrent Separator.getCurrent Reducer.getReduced Reducer.detach Reducer.clone
  simp [h, bind_ok']

theorem detach_empty {env : Env} {r r' : Reducer} {d : Option AggData} (h : r.detach env = .ok (d, r')) : r'.empty = true := by
  unfold Reducer.detach at h
  split_ifs at h with he
  · cases h; exact he
  · obtain ⟨r1, _, h⟩ := bind_inv h
    obtain ⟨a, _, h⟩ := bind_inv h
    cases h
    rfl

/-- The handler reading an aggregator whose current window is empty. -/
theorem quiet_reads {env : Env} {H : AggData → List AOp} (k : Nat) (l : List AOp) (hl : ∀ op ∈ l, op = .pop ∨ op = .look) :
    ∀ {o : AObs}, o.a.sep.reducer.empty = true →
      ∃ o', l.foldlM (execR env H (k + 1)) o = .ok o' ∧ Alike o o' := by
  induction l with
  | nil => intro o _; exact ⟨o, rfl, .refl o⟩
  | cons op l ih =>
    intro o he
    rw [List.foldlM_cons]
    rcases hl op (by simp) with rfl | rfl
    · have hx : execR env H (k + 1) o .pop = exec env o .pop := by rw [execR] <;> simp
      obtain ⟨h1, h2⟩ := alike_pop (env := env) o rfl
      obtain ⟨o', h3, h4⟩ := ih (fun op h => hl op (by simp [h])) (o := _) (by rw [h2]; exact he)
      refine ⟨o', ?_, h1.trans h4⟩
      rw [hx]
      exact h3
    · have hx : execR env H (k + 1) o .look = exec env o .look := by rw [execR] <;> simp
      rw [hx, look_empty env he]
      exact ih (fun op h => hl op (by simp [h])) he

/-- What the handler is given for the records of the separator. -/
def handAll (env : Env) (raw : Bool) (R : Nat) (l : List AggData) : M (List AggData) :=
  if raw then .ok l else l.mapM (finish env.nth R)

theorem handAll_nil (env : Env) (raw : Bool) (R : Nat) : handAll env raw R [] = .ok [] := by
  unfold handAll
  cases raw <;> rfl

theorem handAll_cons {env : Env} {raw : Bool} {a : Aggregator} {d d' : AggData} {l l' : List AggData}
    (h : handOver env raw a d = .ok d') (h' : handAll env raw a.outSize l = .ok l') :
    handAll env raw a.outSize (d :: l) = .ok (d' :: l') := by
  unfold handOver at h
  unfold handAll at h' ⊢
  cases raw with
  | true => cases h; cases h'; rfl
  | false =>
    simp only [Bool.false_eq_true, if_false] at h h' ⊢
    rw [List.mapM_cons, h, bind_ok', h']
    rfl

theorem handOver_total (env : Env) (raw : Bool) (a : Aggregator) (d : AggData) : ∃ d', handOver env raw a d = .ok d' := by
  unfold handOver
  cases raw with
  | true => exact ⟨d, rfl⟩
  | false =>
    obtain ⟨d', e, _⟩ := finish_spec env.nth a.outSize d
    exact ⟨d', e⟩

/-- The loop with a quiet handler does what the loop of the model does. -/
theorem quiet_loop {env : Env} {H : AggData → List AOp} (hq : Quiet H) (raw : Bool) (ts : Int) (k : Nat) :
    ∀ {o o' : AObs}, 0 < o.a.sep.step → loopR env H raw k ts o = .ok o' →
      ∃ out next r out', Separator.sepLoop env o.a.sep.step ts o.a.sep.next o.a.sep.reducer = .ok (out, next, r) ∧
        handAll env raw o.a.outSize out = .ok out' ∧
        Alike ⟨{ o.a with sep := { o.a.sep with next := next, reducer := r } }, o.received ++ out', o.accepted⟩ o' := by
  induction k with
  | zero => intro o o' _ h; rw [loopR] at h; cases h
  | succ k ih =>
    intro o o' hs h
    rw [loopR] at h
    split_ifs at h with hn
    · cases h1 : o.a.sep.reducer.detach env with
      | error e => rw [h1] at h; cases h
      | ok p =>
        obtain ⟨d, r⟩ := p
        rw [h1, bind_ok'] at h
        simp only at h
        rw [Separator.sepLoop, dif_pos hn, dif_pos hs, h1]
        cases d with
        | none =>
          rw [bind_ok'] at h
          obtain ⟨out, next, r', out', e1, e2, e3⟩ := ih (o := { o with a := { o.a with sep := { o.a.sep with reducer := r, next := o.a.sep.next + o.a.sep.step } } }) hs h
          simp only at e1 e2 e3
          refine ⟨out, next, r', out', ?_, e2, e3⟩
          simp only [bind_ok', e1]
          rfl
        | some d =>
          simp only at h
          obtain ⟨o1, h2, h⟩ := bind_inv h
          obtain ⟨d', h3, h2⟩ := bind_inv h2
          have he := detach_empty h1
          have hal : Alike { o with a := { o.a with sep := { o.a.sep with reducer := r } }, received := o.received ++ [d'] } o1 := by
            cases k with
            | zero =>
              cases hl : H d' with
              | nil => rw [hl] at h2; cases h2; exact .refl _
              | cons op l =>
                rw [hl, List.foldlM_cons, execR] at h2
                cases h2
            | succ k =>
              obtain ⟨o2, e1, e2⟩ := quiet_reads (env := env) (H := H) k (H d') (hq d')
                (o := { o with a := { o.a with sep := { o.a.sep with reducer := r } }, received := o.received ++ [d'] }) he
              rw [e1] at h2
              cases h2
              exact e2
          have hsep := hal.sep
          have hos := hal.outSize
          simp only at hsep hos
          obtain ⟨out, next, r', out', e1, e2, e3⟩ := ih (o := { o1 with a := { o1.a with sep := { o1.a.sep with next := o1.a.sep.next + o1.a.sep.step } } }) (by rw [← hsep]; exact hs) h
          simp only at e1 e2 e3
          rw [← hsep] at e1
          rw [← hos] at e2
          simp only at e1
          refine ⟨{ d with ts := o.a.sep.next - o.a.sep.step } :: out, next, r', d' :: out', ?_, handAll_cons h3 e2, ?_⟩
          · simp only [bind_ok', e1]
            rfl
          · refine Alike.trans ?_ e3
            have := hal.set { o1.a.sep with next := next, reducer := r' } out' []
            rw [← hsep] at this ⊢
            simpa using this
    · cases h
      refine ⟨[], o.a.sep.next, o.a.sep.reducer, [], ?_, handAll_nil _ _ _, ?_⟩
      · rw [Separator.sepLoop, dif_neg hn]
      · simpa using Alike.refl o

/-- And it ends whenever that one does. -/
theorem quiet_loop_ends {env : Env} {H : AggData → List AOp} (hq : Quiet H) (raw : Bool) (ts : Int) (n : Nat) :
    ∀ {o : AObs} {out : List AggData} {next : Int} {r : Reducer}, (ts - o.a.sep.next + 1).toNat ≤ n → 0 < o.a.sep.step →
      Separator.sepLoop env o.a.sep.step ts o.a.sep.next o.a.sep.reducer = .ok (out, next, r) →
      ∀ k, n + 2 ≤ k → ∃ o', loopR env H raw k ts o = .ok o' := by
  induction n with
  | zero =>
    intro o out next r hn hs h k hk
    obtain ⟨k, rfl⟩ : ∃ k', k = k' + 1 := ⟨k - 1, by omega⟩
    rw [loopR, if_neg (by omega)]
    exact ⟨o, rfl⟩
  | succ n ih =>
    intro o out next r hn hs h k hk
    obtain ⟨k, rfl⟩ : ∃ k', k = k' + 2 := ⟨k - 2, by omega⟩
    rw [loopR]
    by_cases hle : o.a.sep.next ≤ ts
    · rw [if_pos hle]
      rw [Separator.sepLoop, dif_pos hle, dif_pos hs] at h
      obtain ⟨⟨d, r1⟩, h1, h⟩ := bind_inv h
      obtain ⟨⟨out1, next1, r2⟩, h2, h⟩ := bind_inv h
      rw [h1, bind_ok']
      simp only at h2 ⊢
      cases d with
      | none =>
        rw [bind_ok']
        exact ih (o := { o with a := { o.a with sep := { o.a.sep with reducer := r1, next := o.a.sep.next + o.a.sep.step } } })
          (by simp only; omega) hs h2 (k + 1) (by omega)
      | some d =>
        simp only
        obtain ⟨d', h3⟩ := handOver_total env raw { o.a with sep := { o.a.sep with reducer := r1 } }
          { d with ts := o.a.sep.next - o.a.sep.step }
        have he := detach_empty h1
        obtain ⟨o1, e1, e2⟩ := quiet_reads (env := env) (H := H) k (H d') (hq d')
          (o := { o with a := { o.a with sep := { o.a.sep with reducer := r1 } }, received := o.received ++ [d'] }) he
        have hsep := e2.sep
        simp only at hsep
        rw [h3, bind_ok', e1, bind_ok']
        exact ih (o := { o1 with a := { o1.a with sep := { o1.a.sep with next := o1.a.sep.next + o1.a.sep.step } } })
          (by simp only [← hsep]; omega) (by simp only [← hsep]; exact hs) (by simp only [← hsep]; exact h2) (k + 1) (by omega)
    · rw [if_neg hle]
      exact ⟨o, rfl⟩

/-- `separate` with a handler, whether or not there is anything to do. -/
theorem separate_loop {env : Env} {s : Separator} {clk ts t : Int} {force : Bool} (h : s.getTs clk ts = .ok t) :
    (s.separate env clk ts true force).map (fun r => r.2) =
      (Separator.sepLoop env s.step t s.next s.reducer).map
        (fun r => (r.1, { s with next := r.2.1, reducer := r.2.2 })) := by
  unfold Separator.separate
  rw [h, bind_ok']
  by_cases hf : force = false ∧ t < s.next
  · rw [if_pos hf, Separator.sepLoop, dif_neg (by omega)]
    rfl
  · rw [if_neg hf]
    cases Separator.sepLoop env s.step t s.next s.reducer with
    | error e => rfl
    | ok p => rfl

theorem map_ok {α β : Type} {x : M α} {f : α → β} {b : β} (h : x.map f = .ok b) : ∃ a, x = .ok a ∧ f a = b := by
  cases x with
  | error e => cases h
  | ok a => cases h; exact ⟨a, rfl, rfl⟩

theorem getTs_align {s : Separator} (hs : 0 < s.step) (clk ts : Int) :
    s.getTs clk ts = .ok (align s.step (meant s.resolution clk ts)) := by
  unfold Separator.getTs
  exact Separator.getTs_eq (by omega)

/-- An operation with a quiet handler does what the operation of the model does. -/
theorem quiet_exec {env : Env} {H : AggData → List AOp} (hq : Quiet H) {k : Nat} {o o' : AObs} {op : AOp}
    (hs : 0 < o.a.sep.step) (h : execR env H k o op = .ok o') : ∃ o1, exec env o op = .ok o1 ∧ Alike o1 o' := by
  cases k with
  | zero => rw [execR] at h; cases h
  | succ k =>
    have plain : execR env H (k + 1) o op = exec env o op → ∃ o1, exec env o op = .ok o1 ∧ Alike o1 o' :=
      fun e => ⟨o', by rw [← e]; exact h, .refl _⟩
    cases op with
    | push clk1 clk2 ts x handler =>
      cases handler with
      | false => exact plain (by rw [execR] <;> simp)
      | true =>
        rw [execR] at h
        simp only [exec, push]
        by_cases he : o.a.enabled = false
        · rw [if_pos he] at h ⊢
          cases h
          exact ⟨o, by simp [bind_ok', AObs.record, he], .refl _⟩
        · rw [if_neg he] at h ⊢
          rw [getTs_align hs, bind_ok', getTs_align hs, bind_ok'] at h
          obtain ⟨o2, h1, h⟩ := bind_inv h
          obtain ⟨out, next, r, out', e1, e2, e3⟩ := quiet_loop hq false _ k hs h1
          have hsep := separate_loop (env := env) (force := false) (getTs_align hs clk2 (align o.a.sep.step (meant o.a.sep.resolution clk1 ts)))
          rw [e1] at hsep
          obtain ⟨⟨b, p⟩, h3, h4⟩ := map_ok hsep
          simp only at h4
          subst h4
          simp only [Bool.true_eq_false, if_false]
          have e2 : out.mapM (finish env.nth o.a.outSize) = .ok out' := e2
          have hs2 := e3.sep
          simp only at hs2
          unfold Separator.push
          rw [getTs_align hs, bind_ok', h3]
          simp only [bind_ok']
          rw [← hs2] at h
          simp only at h
          split_ifs at h ⊢ with hlt
          · cases h
            simp only [bind_ok', e2]
            exact ⟨_, rfl, by simpa [AObs.record] using e3⟩
          · cases h
            simp only [bind_ok', e2]
            refine ⟨_, rfl, ?_⟩
            have := e3.set { o.a.sep with next := next, reducer := r.add env x } []
              [(align o.a.sep.step (meant o.a.sep.resolution clk1 ts), x)]
            simpa [AObs.record, he] using this
    | separate clk ts handler force =>
      cases handler with
      | false => exact plain (by rw [execR] <;> simp)
      | true =>
        rw [execR, getTs_align hs, bind_ok'] at h
        obtain ⟨o2, h1, h⟩ := bind_inv h
        obtain ⟨a, h2, h⟩ := bind_inv h
        cases h
        obtain ⟨out, next, r, out', e1, e2, e3⟩ := quiet_loop hq true _ k hs h1
        have hsep := separate_loop (env := env) (force := force) (getTs_align hs clk ts)
        rw [e1] at hsep
        obtain ⟨⟨b, p⟩, h3, h4⟩ := map_ok hsep
        simp only at h4
        subst h4
        cases e2
        simp only [exec, separate]
        rw [h3]
        simp only [bind_ok']
        have hobj := e3.obj
        simp only at hobj
        obtain ⟨ext, f1, f2⟩ := aggregate0_agList h2 o.a.agList
        rw [← hobj] at f2
        rw [f2]
        refine ⟨_, rfl, rfl, e3.accepted, ?_⟩
        simp only [f1]
        rw [← List.append_assoc, ← List.append_assoc]
        exact e3.recs.append_right _
    | add => exact plain (by rw [execR] <;> simp)
    | pop => exact plain (by rw [execR] <;> simp)
    | forcePop => exact plain (by rw [execR] <;> simp)
    | look => exact plain (by rw [execR] <;> simp)
    | enable => exact plain (by rw [execR] <;> simp)

/-- And it ends whenever that one does. -/
theorem quiet_exec_ends {env : Env} {H : AggData → List AOp} (hq : Quiet H) {o o1 : AObs} {op : AOp}
    (hs : 0 < o.a.sep.step) (h : exec env o op = .ok o1) : ∃ K, ∀ k, K ≤ k → ∃ o', execR env H k o op = .ok o' := by
  have plain : (∀ k, execR env H (k + 1) o op = exec env o op) → ∃ K, ∀ k, K ≤ k → ∃ o', execR env H k o op = .ok o' := by
    refine fun e => ⟨1, fun k hk => ?_⟩
    obtain ⟨k, rfl⟩ : ∃ k', k = k' + 1 := ⟨k - 1, by omega⟩
    exact ⟨o1, by rw [e]; exact h⟩
  cases op with
  | push clk1 clk2 ts x handler =>
    cases handler with
    | false => exact plain (fun k => by rw [execR] <;> simp)
    | true =>
      simp only [exec, push] at h
      by_cases he : o.a.enabled = false
      · refine ⟨1, fun k hk => ?_⟩
        obtain ⟨k, rfl⟩ : ∃ k', k = k' + 1 := ⟨k - 1, by omega⟩
        rw [execR, if_pos he]
        exact ⟨o, rfl⟩
      · rw [if_neg he] at h
        simp only [Bool.true_eq_false, if_false] at h
        obtain ⟨⟨b, out, a⟩, h1, h⟩ := bind_inv h
        obtain ⟨⟨b', out', s'⟩, h2, h1⟩ := bind_inv h1
        unfold Separator.push at h2
        rw [getTs_align hs, bind_ok'] at h2
        obtain ⟨p, h3, _⟩ := bind_inv h2
        have hsep := separate_loop (env := env) (force := false) (getTs_align hs clk2 (align o.a.sep.step (meant o.a.sep.resolution clk1 ts)))
        rw [h3] at hsep
        obtain ⟨⟨out1, next, r⟩, h4, _⟩ := map_ok hsep.symm
        have hl := quiet_loop_ends hq false _ _ le_rfl hs h4
        generalize (_ - o.a.sep.next + 1).toNat = n at hl
        refine ⟨n + 3, fun k hk => ?_⟩
        obtain ⟨k, rfl⟩ : ∃ k', k = k' + 1 := ⟨k - 1, by omega⟩
        obtain ⟨o', e⟩ := hl k (by omega)
        rw [execR, if_neg he, getTs_align hs, bind_ok', getTs_align hs, bind_ok', e, bind_ok']
        split_ifs
        · exact ⟨_, rfl⟩
        · exact ⟨_, rfl⟩
  | separate clk ts handler force =>
    cases handler with
    | false => exact plain (fun k => by rw [execR] <;> simp)
    | true =>
      simp only [exec, separate] at h
      obtain ⟨⟨b, out, a⟩, h1, h⟩ := bind_inv h
      obtain ⟨p, h3, _⟩ := bind_inv h1
      have hsep := separate_loop (env := env) (force := force) (getTs_align hs clk ts)
      rw [h3] at hsep
      obtain ⟨⟨out1, next, r⟩, h4, _⟩ := map_ok hsep.symm
      have hl := quiet_loop_ends hq true _ _ le_rfl hs h4
      generalize (_ - o.a.sep.next + 1).toNat = n at hl
      refine ⟨n + 3, fun k hk => ?_⟩
      obtain ⟨k, rfl⟩ : ∃ k', k = k' + 1 := ⟨k - 1, by omega⟩
      obtain ⟨o', e⟩ := hl k (by omega)
      obtain ⟨l, e', _⟩ := aggregate0_spec env.nth o'.a
      rw [execR, getTs_align hs, bind_ok', e, bind_ok', e']
      exact ⟨_, rfl⟩
  | add => exact plain (fun k => by rw [execR] <;> simp)
  | pop => exact plain (fun k => by rw [execR] <;> simp)
  | forcePop => exact plain (fun k => by rw [execR] <;> simp)
  | look => exact plain (fun k => by rw [execR] <;> simp)
  | enable => exact plain (fun k => by rw [execR] <;> simp)

theorem pgood_step {env : Env} {opt : AggregatorOpts} {o o1 : AObs} {ops : List AOp} (hs : 0 < opt.step)
    (h0 : ∃ gR gA gS cur, PGood env opt (fun _ _ => True) o gR gA gS cur) (hc : ∀ op ∈ ops, op.clockOk)
    (h : execAll env o ops = .ok o1) : ∃ gR gA gS cur, PGood env opt (fun _ _ => True) o1 gR gA gS cur := by
  obtain ⟨_, _, _, _, g⟩ := h0
  exact pgood_execAll (Q := fun _ _ => True) (fun _ _ _ => trivial) hs ops g hc (fun _ _ _ _ _ _ => trivial) h

/-- Histories with a quiet handler. -/
theorem quiet_execAll {env : Env} {opt : AggregatorOpts} {H : AggData → List AOp} (hs : 0 < opt.step) (hq : Quiet H) {k : Nat}
    (ops : List AOp) : ∀ {o1 o2 o2' : AObs}, (∀ op ∈ ops, op.clockOk) →
      (∃ gR gA gS cur, PGood env opt (fun _ _ => True) o1 gR gA gS cur) → Alike o1 o2 →
      execAllR env H k o2 ops = .ok o2' → ∃ o1', execAll env o1 ops = .ok o1' ∧ Alike o1' o2' := by
  induction ops with
  | nil => intro o1 o2 o2' _ _ h e; cases e; exact ⟨o1, rfl, h⟩
  | cons op ops ih =>
    intro o1 o2 o2' hc hg h e
    unfold execAllR at e
    rw [List.foldlM_cons] at e
    obtain ⟨o3, e1, e⟩ := bind_inv e
    have hst : 0 < o2.a.sep.step := by
      obtain ⟨_, _, _, _, g⟩ := hg
      rw [← h.sep, g.sep.step.1]
      exact hs
    obtain ⟨o4, e2, h2⟩ := quiet_exec hq hst e1
    obtain ⟨o5, e3, h3⟩ := alike_exec h op e2
    have hx : execAll env o1 [op] = .ok o5 := by
      unfold execAll
      rw [List.foldlM_cons, e3]
      rfl
    obtain ⟨o6, e4, h4⟩ := ih (fun op h => hc op (by simp [h])) (pgood_step hs hg (by simpa using hc op (by simp)) hx) (h3.trans h2) e
    refine ⟨o6, ?_, h4⟩
    unfold execAll
    rw [List.foldlM_cons, e3]
    exact e4

theorem Alike.symm {a b : AObs} (h : Alike a b) : Alike b a :=
  ⟨by have := h.obj; rw [this], h.accepted.symm, h.recs.symm⟩

theorem quiet_execAll_ends {env : Env} {opt : AggregatorOpts} {H : AggData → List AOp} (hs : 0 < opt.step) (hq : Quiet H)
    (ops : List AOp) : ∀ {o1 o2 o1' : AObs}, (∀ op ∈ ops, op.clockOk) →
      (∃ gR gA gS cur, PGood env opt (fun _ _ => True) o1 gR gA gS cur) → Alike o1 o2 →
      execAll env o1 ops = .ok o1' → ∃ K, ∀ k, K ≤ k → ∃ o2', execAllR env H k o2 ops = .ok o2' := by
  induction ops with
  | nil => intro o1 o2 o1' _ _ h e; exact ⟨0, fun k _ => ⟨o2, rfl⟩⟩
  | cons op ops ih =>
    intro o1 o2 o1' hc hg h e
    unfold execAll at e
    rw [List.foldlM_cons] at e
    obtain ⟨o3, e1, e⟩ := bind_inv e
    have hst : 0 < o2.a.sep.step := by
      obtain ⟨_, _, _, _, g⟩ := hg
      rw [← h.sep, g.sep.step.1]
      exact hs
    obtain ⟨o4, e2, h2⟩ := alike_exec h.symm op e1
    obtain ⟨K1, hK1⟩ := quiet_exec_ends hq hst e2
    have hx : execAll env o1 [op] = .ok o3 := by
      unfold execAll
      rw [List.foldlM_cons, e1]
      rfl
    obtain ⟨o5, e5⟩ := hK1 K1 le_rfl
    obtain ⟨o6, e6, h6⟩ := quiet_exec hq hst e5
    rw [e2] at e6
    cases e6
    obtain ⟨K2, hK2⟩ := ih (o1 := o3) (o2 := o5) (fun op h => hc op (by simp [h]))
      (pgood_step hs hg (by simpa using hc op (by simp)) hx) (h2.symm.trans h6) e
    refine ⟨max K1 K2, fun k hk => ?_⟩
    unfold execAllR
    rw [List.foldlM_cons, (execR_mono (le_trans (le_max_left K1 K2) hk)).1 _ _ _ e5]
    exact hK2 k (le_trans (le_max_right K1 K2) hk)

end Aggregator
end Wrtstat
