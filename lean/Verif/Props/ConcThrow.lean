/-
C178: the aggregators of a registry used by threads whose handlers throw keep the books that what was asked of them makes, call by call, whether
it threw or not.
-/
import Verif.Model.ConcThrow
import Verif.Props.ThrowDesk
import Verif.Props.ConcTotal

namespace Wrtstat
namespace Registry

set_option autoImplicit false

open Aggregator (AOp AObs Trans Fullbook Slip FBooked fullbookX)
open Relation

variable {T : Type} [Fintype T] [DecidableEq T]

/-- What was asked of aggregator `k`, in the order in which it was done, and whether it threw. -/
def saidOf (said : List (Nat × AOp × Bool)) (k : Nat) : List (AOp × Bool) := forRef k said

section

variable {env : Env}

theorem booked_trans {opt : AggregatorOpts} (hs : 0 < opt.step) {D : Fullbook} {a a' : Aggregator} {R out : List AggData} {ops : List AOp}
    (B : FBooked env opt D ⟨a, R, []⟩) (h : Trans env a ops a' out) :
    FBooked env opt ((ops.map fun op => (op, false)).foldl (AOp.fullbookX opt) D) ⟨a', R ++ out, []⟩ := by
  obtain ⟨o, h, rfl, rfl⟩ := h
  have he := Aggregator.execAll_frame env a R [] ops
  rw [h] at he
  have F := Aggregator.fbooked_execAll hs ops B he
  have e : ∀ (l : List AOp) (D : Fullbook), (l.map fun op => (op, false)).foldl (AOp.fullbookX opt) D = l.foldl (AOp.fullbook opt) D := by
    intro l
    induction l with
    | nil => intro D; rfl
    | cons op l ih => intro D; exact ih _
  rw [e]
  exact ⟨F.page, F.out, F.raw, F.tray, F.en, F.queue, F.made⟩

/-- The books after an exception. -/
theorem booked_breaks {opt : AggregatorOpts} (hs : 0 < opt.step) {D : Fullbook} {a a' : Aggregator} {R out : List AggData} {o : AOp} {thr : AggData → Bool}
    (B : FBooked env opt D ⟨a, R, []⟩) (h : breaks env a thr o = some (out, a')) :
    FBooked env opt (o.torn opt D) ⟨a', R ++ out, []⟩ ∧ ∃ s d, o.given opt D = [s] ∧ out = [d] ∧ Slip.Says env opt s d ∧ thr d = true := by
  have B0 : FBooked env opt { D with made := [] } ⟨a, [], []⟩ := ⟨B.page.congr rfl rfl, B.out, B.raw, B.tray, B.en, B.queue, .nil⟩
  have key : FBooked env opt (o.torn opt { D with made := [] }) ⟨a', [] ++ out, []⟩ → (∃ d, out = [d] ∧ thr d = true) →
      o.given opt { D with made := [] } = o.given opt D →
      FBooked env opt (o.torn opt D) ⟨a', R ++ out, []⟩ ∧ ∃ s d, o.given opt D = [s] ∧ out = [d] ∧ Slip.Says env opt s d ∧ thr d = true := by
    rintro F ⟨d, rfl, ht⟩ hg
    have hm := F.made
    simp only [AOp.torn, hg, List.nil_append] at hm
    refine ⟨⟨F.page.congr rfl rfl, F.out, F.raw, F.tray, F.en, F.queue, List.rel_append B.made hm⟩, ?_⟩
    obtain ⟨s, hs1⟩ := List.length_eq_one_iff.1 (hm.length_eq.trans rfl)
    rw [hs1] at hm
    exact ⟨s, d, hs1, rfl, by cases hm; assumption, ht⟩
  cases o with
  | push c1 c2 ts x hd =>
    cases hd with
    | false => cases h
    | true =>
      simp only [breaks] at h
      split at h
      · rename_i h1
        cases h
        exact key (Aggregator.fbooked_pushX hs B0 h1) ((Aggregator.pushX_spec h1).choose_spec.choose_spec.2.2.2.2 rfl).1 rfl
      · cases h
  | separate c ts hd f =>
    cases hd with
    | false => cases h
    | true =>
      simp only [breaks] at h
      split at h
      · rename_i h1
        cases h
        obtain ⟨F, hd⟩ := Aggregator.fbooked_separateX hs B0 h1
        exact key F hd rfl
      · cases h
  | _ => cases h

end

/-! ### The invariant -/

/-- Aggregator `k` was created for a question, and agrees with the books made by what was asked of it. -/
def LifeX (env : Env) (opt : AggregatorOpts) (s : XReg T) (k : Nat) (a : Aggregator) : Prop :=
  ∃ (q : Ask) (now : Int) (a0 : Aggregator), Aggregator.new opt q.clk q.rand now = .ok a0 ∧
    FBooked env opt (fullbookX opt a0.sep.currentTime a0.enabled (saidOf s.said k)) ⟨a, forRef k (s.c.out.map Prod.snd), []⟩

structure SerialX (env : Env) (opt : AggregatorOpts) (s : XReg T) : Prop where
  uniq : Uniq s.c.r
  ropt : s.c.r.opt = opt
  gone : ∀ c ∈ s.c.gone, NoRef c.ref s.c.r
  all : ∀ k, k < s.c.r.nextRef ↔ ∃ a, s.c.aggOf k = some a
  said : ∀ e ∈ s.said, e.1 < s.c.r.nextRef
  outs : ∀ e ∈ s.c.out, e.2.1 < s.c.r.nextRef
  life : ∀ k a, s.c.aggOf k = some a → LifeX env opt s k a

section

variable {env : Env} {opt : AggregatorOpts}

omit [Fintype T] [DecidableEq T] in
/-- What one aggregator was asked and gave, appended. -/
theorem SerialX.used {s s' : XReg T} {t : T} {k : Nat} {a a' : Aggregator} {l : List (AOp × Bool)} {out : List AggData} (h : SerialX env opt s)
    (ha : s.c.aggOf k = some a)
    (hb : ∀ (D : Fullbook) (R : List AggData), FBooked env opt D ⟨a, R, []⟩ → FBooked env opt (l.foldl (AOp.fullbookX opt) D) ⟨a', R ++ out, []⟩)
    (hr : s'.c.r = s.c.r.update k a') (gone : s'.c.gone = s.c.gone.map fun c => if c.ref = k then { c with agg := a' } else c)
    (hsaid : s'.said = s.said ++ l.map fun p => (k, p)) (hout : s'.c.out = s.c.out ++ out.map fun d => (t, k, d)) : SerialX env opt s' := by
  have ho := aggOf_agg hr gone
  have hg := update_grows h.uniq k a'
  rw [← hr] at hg
  have hn : s'.c.r.nextRef = s.c.r.nextRef := by rw [hr]; rfl
  have hk : k < s.c.r.nextRef := (h.all k).2 ⟨a, ha⟩
  refine ⟨hg.uniq, by rw [hr]; exact h.ropt, ?_, ?_, ?_, ?_, ?_⟩
  · rw [gone]
    intro c hc
    obtain ⟨c0, hc0, rfl⟩ := List.mem_map.1 hc
    have := hg.noref _ (h.gone c0 hc0)
    split <;> exact this
  · intro j
    rw [hn, ho]
    split
    · rename_i hj; subst hj; rw [ha]; simp [hk]
    · exact h.all j
  · rw [hsaid, hn]
    intro e he
    rcases List.mem_append.1 he with he | he
    · exact h.said e he
    · obtain ⟨op, -, rfl⟩ := List.mem_map.1 he
      exact hk
  · rw [hout, hn]
    intro e he
    rcases List.mem_append.1 he with he | he
    · exact h.outs e he
    · obtain ⟨d, -, rfl⟩ := List.mem_map.1 he
      exact hk
  · intro j b hb'
    rw [ho] at hb'
    unfold LifeX saidOf
    rw [hsaid, hout, List.map_append, forRef_append, forRef_append, List.map_map]
    split at hb'
    · rename_i hj
      subst hj
      rw [ha] at hb'
      cases hb'
      obtain ⟨q, now, a0, h1, B⟩ := h.life j a ha
      have e2 : forRef j (out.map (Prod.snd ∘ fun d => (t, j, d))) = out := forRef_self j out
      rw [forRef_self, e2]
      refine ⟨q, now, a0, h1, ?_⟩
      unfold fullbookX
      rw [List.foldl_append]
      exact hb _ _ B
    · rename_i hj
      have e2 : forRef j (out.map (Prod.snd ∘ fun d => (t, k, d))) = [] := forRef_other (fun h => hj h.symm) out
      rw [forRef_other (fun h => hj h.symm) l, e2, List.append_nil, List.append_nil]
      exact h.life j b hb'

omit [Fintype T] [DecidableEq T] in
theorem SerialX.calm {s : XReg T} {c : CReg T} {t : T} (hs : 0 < opt.step) (h : SerialX env opt s) (he : CEff env t s.c c) :
    SerialX env opt (s.calm c) := by
  have keep : ∀ {l : List (Option T × Nat × AOp)}, c.log = s.c.log ++ l → (s.calm c).said = s.said ++ l.map fun e => (e.2.1, e.2.2, false) := by
    intro l hl
    unfold XReg.calm
    simp only [hl, List.drop_left]
  cases he with
  | same arr next dict ropt gone born log out =>
    have ho := aggOf_congr (s := s.c) (s' := c) arr gone
    have hsd : (s.calm c).said = s.said := by rw [keep (l := []) (by rw [log, List.append_nil])]; simp
    refine ⟨⟨?_, ?_⟩, ropt.trans h.ropt, ?_, ?_, ?_, ?_, ?_⟩
    · intro i j d d' h1 h2
      have h1 : c.r.agarr[i]? = some (some d) := h1
      have h2 : c.r.agarr[j]? = some (some d') := h2
      rw [arr] at h1 h2
      exact h.uniq.inj i j d d' h1 h2
    · intro i d h1
      have h1 : c.r.agarr[i]? = some (some d) := h1
      show d.ref < c.r.nextRef
      rw [arr] at h1
      rw [next]
      exact h.uniq.lt i d h1
    · intro d hd
      have hd : d ∈ c.gone := hd
      rw [gone] at hd
      have := h.gone d hd
      show NoRef d.ref c.r
      unfold NoRef At at this ⊢
      rw [arr, next]; exact this
    · intro k
      show k < c.r.nextRef ↔ ∃ a, c.aggOf k = some a
      rw [next, ho]; exact h.all k
    · rw [hsd]
      show ∀ e ∈ s.said, e.1 < c.r.nextRef
      rw [next]; exact h.said
    · show ∀ e ∈ c.out, e.2.1 < c.r.nextRef
      rw [out, next]; exact h.outs
    · intro k a ha
      have ha : c.aggOf k = some a := ha
      rw [ho] at ha
      unfold LifeX
      rw [hsd]
      show ∃ q now a0, _ ∧ FBooked env opt _ ⟨a, forRef k (c.out.map Prod.snd), []⟩
      rw [out]; exact h.life k a ha
  | create q name now id hc free gone born log out =>
    have hg := (create_grows h.uniq hc).1
    rcases aggOf_create h.uniq hc gone with ⟨hn, ho⟩ | ⟨hn, a, ha, ho⟩
    · rw [if_pos hn] at log
      have hsd : (s.calm c).said = s.said := by rw [keep log]; simp
      refine ⟨hg.uniq, (construct_ropt hc).trans h.ropt, ?_, ?_, ?_, ?_, ?_⟩
      · intro d hd
        have hd : d ∈ c.gone := hd
        rw [gone] at hd; exact hg.noref _ (h.gone d hd)
      · intro k
        show k < c.r.nextRef ↔ ∃ a, c.aggOf k = some a
        rw [hn, ho]; exact h.all k
      · rw [hsd]
        show ∀ e ∈ s.said, e.1 < c.r.nextRef
        rw [hn]; exact h.said
      · show ∀ e ∈ c.out, e.2.1 < c.r.nextRef
        rw [out, hn]; exact h.outs
      · intro k a ha
        have ha : c.aggOf k = some a := ha
        rw [ho] at ha
        unfold LifeX
        rw [hsd]
        show ∃ q now a0, _ ∧ FBooked env opt _ ⟨a, forRef k (c.out.map Prod.snd), []⟩
        rw [out]; exact h.life k a ha
    · rw [if_neg (by omega)] at log
      have hsd := keep log
      rw [List.map_map] at hsd
      have hsd : (s.calm c).said = s.said ++ (s.c.r.birth q).map fun op => (s.c.r.nextRef, op, false) := hsd
      refine ⟨hg.uniq, (construct_ropt hc).trans h.ropt, ?_, ?_, ?_, ?_, ?_⟩
      · intro d hd
        have hd : d ∈ c.gone := hd
        rw [gone] at hd; exact hg.noref _ (h.gone d hd)
      · intro k
        show k < c.r.nextRef ↔ ∃ a, c.aggOf k = some a
        rw [ho, hn]
        split
        · rename_i hk; subst hk; simp
        · rename_i hk
          rw [← h.all k]
          omega
      · intro e he
        show e.1 < c.r.nextRef
        rw [hsd] at he
        rcases List.mem_append.1 he with he | he
        · have := h.said e he; omega
        · obtain ⟨op, -, rfl⟩ := List.mem_map.1 he
          simp only; omega
      · intro e he
        have he : e ∈ c.out := he
        show e.2.1 < c.r.nextRef
        rw [out] at he
        have := h.outs e he; omega
      · intro k b hb
        have hb : c.aggOf k = some b := hb
        rw [ho] at hb
        unfold LifeX saidOf
        rw [hsd]
        show ∃ q now a0, _ ∧ FBooked env opt _ ⟨b, forRef k (c.out.map Prod.snd), []⟩
        rw [out, forRef_append]
        split at hb
        · rename_i hk
          cases hb
          subst hk
          obtain ⟨a0, h1, h2⟩ := construct_trans ha
          rw [h.ropt] at h1
          have e1 : forRef s.c.r.nextRef s.said = [] := forRef_key fun x hx => Nat.ne_of_lt (h.said x hx)
          have e2 : forRef s.c.r.nextRef (s.c.out.map Prod.snd) = [] := forRef_key fun x hx => by
            obtain ⟨e, he, rfl⟩ := List.mem_map.1 hx
            exact Nat.ne_of_lt (h.outs e he)
          have e3 : forRef s.c.r.nextRef ((s.c.r.birth q).map fun op => (s.c.r.nextRef, op, false)) = (s.c.r.birth q).map fun op => (op, false) := by
            have := forRef_self s.c.r.nextRef ((s.c.r.birth q).map fun op => (op, false))
            rwa [List.map_map] at this
          rw [e1, e2, e3, List.nil_append]
          have := booked_trans hs (R := []) (fbooked_fresh (env := env) hs (.new h1)) h2
          exact ⟨q, now, a0, h1, this⟩
        · rename_i hk
          have e3 : forRef k ((s.c.r.birth q).map fun op => (s.c.r.nextRef, op, false)) = [] := forRef_key fun x hx => by
            obtain ⟨op, -, rfl⟩ := List.mem_map.1 hx
            exact fun h => hk h.symm
          rw [e3, List.append_nil]
          exact h.life k b hb
  | del name b hd free gone born log out =>
    have hg := del_grows h.uniq hd
    have ho := aggOf_del (s := s.c) (s' := c) h.uniq h.gone hd gone
    have hn : c.r.nextRef = s.c.r.nextRef := by
      rcases del_split hd with ⟨-, -, e⟩ | ⟨_, -, -, -, -, e⟩ <;> rw [e]
    have hopt : c.r.opt = s.c.r.opt := by
      rcases del_split hd with ⟨-, -, e⟩ | ⟨_, -, -, -, -, e⟩ <;> rw [e]
    have hsd : (s.calm c).said = s.said := by rw [keep (l := []) (by rw [log, List.append_nil])]; simp
    refine ⟨hg.uniq, hopt.trans h.ropt, ?_, ?_, ?_, ?_, ?_⟩
    · intro d hd'
      have hd' : d ∈ c.gone := hd'
      rw [gone] at hd'
      rcases List.mem_append.1 hd' with hc | hc
      · exact hg.noref _ (h.gone d hc)
      · exact (dropped_spec h.uniq hd d hc).1
    · intro k
      show k < c.r.nextRef ↔ ∃ a, c.aggOf k = some a
      rw [hn, ho]; exact h.all k
    · rw [hsd]
      show ∀ e ∈ s.said, e.1 < c.r.nextRef
      rw [hn]; exact h.said
    · show ∀ e ∈ c.out, e.2.1 < c.r.nextRef
      rw [out, hn]; exact h.outs
    · intro k a ha
      have ha : c.aggOf k = some a := ha
      rw [ho] at ha
      unfold LifeX
      rw [hsd]
      show ∃ q now a0, _ ∧ FBooked env opt _ ⟨a, forRef k (c.out.map Prod.snd), []⟩
      rw [out]; exact h.life k a ha
  | agg k a a' ops out ha ht hr gone born log hout =>
    refine h.used (s' := s.calm c) (t := t) (l := ops.map fun op => (op, false)) ha (fun D R B => booked_trans hs B ht) hr gone ?_ hout
    rw [keep log, List.map_map, List.map_map]
    rfl

omit [Fintype T] in
/-- What a call that throws does. -/
theorem throws_spec {s s' : XReg T} {t : T} {thr : AggData → Bool} (h : s.throws env t thr = some s') :
    ∃ op k a o out a', s.c.pc t = .have op k ∧ s.c.aggOf k = some a ∧ op.asks a = some o ∧ breaks env a thr o = some (out, a') ∧
      s' = { c := (s.c.setAgg t k a' [] out).goto t .idle, said := s.said ++ [(k, o, true)], threw := s.threw ++ [(t, op, out)] } := by
  unfold XReg.throws at h
  split at h
  · rename_i op k hpc
    split at h
    · cases h
    · rename_i a ha
      split at h
      · cases h
      · rename_i o hasks
        split at h
        · cases h
        · rename_i out a' hb
          cases h
          exact ⟨op, k, a, o, out, a', hpc, ha, hasks, hb, rfl⟩
  · cases h

theorem SerialX.step {P : RegOp → Prop} {s s' : XReg T} (hs : 0 < opt.step) (h : SerialX env opt s) (he : XReg.Step env P s s') : SerialX env opt s' := by
  cases he with
  | calm c hc =>
    obtain ⟨t, e⟩ := step_eff h.uniq hc
    exact h.calm hs e
  | threw _ t thr hx =>
    obtain ⟨op, k, a, o, out, a', -, ha, -, hb, rfl⟩ := throws_spec hx
    exact h.used (t := t) (l := [(o, true)]) ha (fun D R B => (booked_breaks hs B hb).1) rfl rfl rfl rfl

theorem serialX_reach {P : RegOp → Prop} {opt : RegistryOpts} (hs : 0 < opt.step) {s : XReg T}
    (h : ReflTransGen (XReg.Step env P) { c := CReg.init (Registry.new opt) } s) : SerialX env opt.toAggregatorOpts s := by
  induction h with
  | refl =>
    refine ⟨⟨?_, ?_⟩, rfl, ?_, ?_, ?_, ?_, ?_⟩ <;> simp [CReg.init, Registry.new, CReg.aggOf, find]
  | tail _ hst ih => exact ih.step hs hst

end

/-! ### C178 -/

/-- Whatever threads do with a registry at the same time, and whenever their handlers throw, the records that an aggregator has given to some
thread are the slips made in the books kept by hand, call by call, and those that wait are the slips in the queue and in the tray. -/
theorem C178_books (env : Env) (P : RegOp → Prop) (opt : RegistryOpts) (s : XReg T) (hs : 0 < opt.step)
    (h : ReflTransGen (XReg.Step env P) { c := CReg.init (Registry.new opt) } s) (k : Nat) (hk : k < s.c.r.nextRef) :
    ∃ (a : Aggregator) (q : Ask) (now : Int) (a0 : Aggregator), s.c.aggOf k = some a ∧
      Aggregator.new opt.toAggregatorOpts q.clk q.rand now = .ok a0 ∧
      let D := fullbookX opt.toAggregatorOpts a0.sep.currentTime a0.enabled (saidOf s.said k)
      List.Forall₂ (Slip.Says env opt.toAggregatorOpts) D.made (forRef k (s.c.out.map Prod.snd)) ∧
        List.Forall₂ (Slip.Says env opt.toAggregatorOpts) D.queue a.agList ∧
        List.Forall₂ (Slip.Says env opt.toAggregatorOpts) D.tray a.sep.sepList ∧
        a.sep.currentTime = D.begins ∧ a.enabled = D.en := by
  have H := serialX_reach hs h
  obtain ⟨a, ha⟩ := (H.all k).1 hk
  obtain ⟨q, now, a0, h1, B⟩ := H.life k a ha
  refine ⟨a, q, now, a0, ha, h1, B.made, B.queue, B.tray, ?_, B.en⟩
  have e1 := B.page.begins
  have e2 := B.page.step
  simp only at e1 e2
  show a.sep.next - a.sep.step = _
  rw [e1, e2]
  omega

/-- A call that throws is a push of a pusher with a handler, or a call of an aggregator with a handler, that had one slip to give; its handler was
given the record that says it, and threw.  The thread is in no call any more; the registry lock, the names, the other aggregators and the other
threads are as before. -/
theorem C178_threw (env : Env) (P : RegOp → Prop) (opt : RegistryOpts) (s s' : XReg T) (hs : 0 < opt.step) (t : T) (thr : AggData → Bool)
    (h : ReflTransGen (XReg.Step env P) { c := CReg.init (Registry.new opt) } s) (ht : s.throws env t thr = some s') :
    (∃ (op : RegOp) (k : Nat) (o : AOp) (q : Ask) (now : Int) (a0 : Aggregator) (sl : Slip) (d : AggData), s.c.pc t = .have op k ∧ s'.said = s.said ++ [(k, o, true)] ∧ s'.threw = s.threw ++ [(t, op, [d])] ∧
      s'.c.out = s.c.out ++ [(t, k, d)] ∧ (∀ j, j ≠ k → s'.c.aggOf j = s.c.aggOf j) ∧
      ((∃ p c1 c2 ts x, op = .call p c1 c2 ts x ∧ p.p.handler = true ∧ o = .push c1 c2 ts x true) ∨ ∃ id, op = .direct id o) ∧
      Aggregator.new opt.toAggregatorOpts q.clk q.rand now = .ok a0 ∧
      o.given opt.toAggregatorOpts (fullbookX opt.toAggregatorOpts a0.sep.currentTime a0.enabled (saidOf s.said k)) = [sl] ∧
      Slip.Says env opt.toAggregatorOpts sl d ∧ thr d = true) ∧
    s'.c.pc t = .idle ∧ (∀ u, u ≠ t → s'.c.pc u = s.c.pc u) ∧ s'.c.writer = s.c.writer ∧ s'.c.readers = s.c.readers ∧
      s'.c.r.dict = s.c.r.dict ∧ s'.c.hist = s.c.hist := by
  have H := serialX_reach hs h
  obtain ⟨op, k, a, o, out, a', hpc, ha, hasks, hb, rfl⟩ := throws_spec ht
  obtain ⟨q, now, a0, h1, B⟩ := H.life k a ha
  obtain ⟨-, sl, d, h2, rfl, h3, h4⟩ := booked_breaks hs B hb
  refine ⟨⟨op, k, o, q, now, a0, sl, d, hpc, rfl, rfl, rfl, fun j hj => ?_, ?_, h1, h2, h3, h4⟩, ?_, fun u hu => ?_, rfl, rfl, rfl, rfl⟩
  · have := aggOf_agg (s := s.c) (s' := (s.c.setAgg t k a' [] [d]).goto t .idle) (k := k) (a' := a') rfl rfl j
    rw [if_neg hj] at this
    exact this
  · cases op with
    | call p c1 c2 ts x =>
      simp only [RegOp.asks] at hasks
      split at hasks
      · cases hasks
        cases hh : p.p.handler with
        | false => rw [hh] at hb; cases hb
        | true => exact .inl ⟨p, c1, c2, ts, x, rfl, hh, rfl⟩
      · cases hasks
    | direct id op => cases hasks; exact .inr ⟨id, rfl⟩
    | _ => cases hasks
  · exact Function.update_self t CPc.idle s.c.pc
  · exact Function.update_of_ne hu _ _

/-- Handlers that do not throw: the steps are those of C169. -/
theorem C178_calm (env : Env) (P : RegOp → Prop) (opt : RegistryOpts) (c : CReg T)
    (h : ReflTransGen (CReg.Step env P) (CReg.init (Registry.new opt)) c) :
    ReflTransGen (XReg.Step env P) { c := CReg.init (Registry.new opt) }
      { c := c, said := c.log.map fun e => (e.2.1, e.2.2, false), threw := [] } := by
  induction h with
  | refl => exact .refl
  | tail hr hs ih =>
    rename_i c1 c2
    refine ih.tail ?_
    have hl : ∃ l, c2.log = c1.log ++ l := by
      obtain ⟨t, e⟩ := step_eff (serial_reach hr).uniq hs
      cases e with
      | same _ _ _ _ _ _ log _ => exact ⟨[], by rw [log, List.append_nil]⟩
      | create _ _ _ _ _ _ _ _ log _ => exact ⟨_, log⟩
      | del _ _ _ _ _ _ log _ => exact ⟨[], by rw [log, List.append_nil]⟩
      | agg _ _ _ _ _ _ _ _ _ _ log _ => exact ⟨_, log⟩
    obtain ⟨l, hl⟩ := hl
    have := XReg.Step.calm (env := env) (P := P) { c := c1, said := c1.log.map fun e => (e.2.1, e.2.2, false), threw := [] } c2 hs
    unfold XReg.calm at this
    simp only [hl, List.drop_left] at this
    rw [hl, List.map_append]
    exact this

/-- Whatever threw before, no operation of an aggregator faults, and it returns, or throws when its handler does. -/
theorem C178_no_fault (env : Env) (P : RegOp → Prop) (opt : RegistryOpts) (s : XReg T) (m mx : Int) (B : Reducer.Bounds env m mx) (hs : 0 < opt.step)
    (h : ReflTransGen (XReg.Step env P) { c := CReg.init (Registry.new opt) } s) (hv : ∀ e ∈ s.said, ∀ v ∈ e.2.1.vals, m ≤ v ∧ v ≤ mx)
    (k : Nat) (a : Aggregator) (ha : s.c.aggOf k = some a) (x : XOp) (hx : x.op.within m mx) : ∃ r a', a.mtExecX env x = .ok (r, a') := by
  have H := serialX_reach hs h
  obtain ⟨q, now, a0, -, F⟩ := H.life k a ha
  have hw : ∀ (l : List (AOp × Bool)) (D : Fullbook), Aggregator.Within m mx D → (∀ p ∈ l, ∀ v ∈ p.1.vals, m ≤ v ∧ v ≤ mx) →
      Aggregator.Within m mx (l.foldl (AOp.fullbookX opt.toAggregatorOpts) D) := by
    intro l
    induction l with
    | nil => intro D h _; exact h
    | cons p l ih =>
      intro D h hl
      exact ih _ (Aggregator.within_fullbookX p.2 h (hl p (by simp))) fun y hy => hl y (by simp [hy])
  have W := hw (saidOf s.said k) { begins := a0.sep.currentTime, en := a0.enabled } (fun _ h => by cases h) (fun p hp => by
    obtain ⟨e, he, rfl⟩ := List.mem_map.1 hp
    exact hv e (List.mem_filter.1 he).1)
  have A := Aggregator.atDesk_of (D := { fullbookX opt.toAggregatorOpts a0.sep.currentTime a0.enabled (saidOf s.said k) with live := a.alive }) F rfl W
  obtain ⟨r, a', -, e, -⟩ := Aggregator.deskX_step hs B A x hx
  exact ⟨r, a', e⟩

/-! ### Two threads -/

/-- Thread `true` creates `a` and adds an event; `false` pushes one of the next window, with a handler that throws, while `true` looks the aggregator
up; then `true` adds another event of the first window, and `false` pushes again. -/
def exThrown : List (XReg.XTurn Bool) :=
  (CReg.alone true (.create { clk := 1000 } ['a'] 1003) 2 ++ CReg.alone true (.addId 1 0 0 1004 5 1) 3 ++
    ([.call false (.call { ref := 0, p := { token := true, handler := true } } 0 0 1012 (.one 6 1)), .go false,
      .call true (.addId 1 0 0 1005 7 1), .go true] : List (CReg.Turn Bool))).map .turn ++
  [.throw false fun _ => true] ++
  (([.go true, .go true] : List (CReg.Turn Bool)) ++ CReg.alone false (.call { ref := 0, p := { token := true, handler := true } } 0 0 1013 (.one 8 1)) 3).map .turn

/-- The first record has the first event only; the event whose push threw is lost; the other event of the first window makes a second record of it. -/
example : (match XReg.play exactEnv { c := CReg.init (Registry.new exConcOpt) } exThrown with
    | some s => decide (s.c.out.map (fun e => (e.1, e.2.1, e.2.2.ts, e.2.2.count)) = [(false, 0, 1000, 1), (false, 0, 1000, 1)] ∧
        s.said.map (fun e => e.2.2) = [false, true, false, false] ∧ s.threw.map (fun e => e.1) = [false] ∧
        (fullbookX exConcOpt.toAggregatorOpts 1000 true (saidOf s.said 0)).made.map (fun x => (x.time, x.events)) =
          [(1000, [.one 5 1]), (1000, [.one 7 1])] ∧
        (fullbookX exConcOpt.toAggregatorOpts 1000 true (saidOf s.said 0)).on = [.one 8 1])
    | none => false) = true := by decide +kernel

/-- Without the exception the window has one record, of two events. -/
example : (fullbookX exConcOpt.toAggregatorOpts 1000 true [(.add 0 0 1004 (.one 5 1), false), (.add 0 0 1005 (.one 7 1), false),
      (.push 0 0 1012 (.one 6 1) true, false), (.push 0 0 1013 (.one 8 1) true, false)]).made.map (fun x => (x.time, x.events)) =
    [(1000, [.one 5 1, .one 7 1])] := by decide +kernel

end Registry
end Wrtstat
