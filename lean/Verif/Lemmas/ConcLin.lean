/-
Linearization of the simple calls on a registry (`RegOp.simple`) and of `enable`: every call takes effect when it uses its
aggregator; `enable` takes effect when it gets the lock; a call that uses an aggregator already removed is put just before
the `del` that removed it, and a call that uses an aggregator before a running `enable` reaches it just before that `enable`.
-/
import Verif.Lemmas.ConcEnable

namespace Wrtstat
namespace Registry

set_option autoImplicit false

theorem legal_of_append {T S Op Ret : Type} {spec : S → Op → Ret → S → Prop} {s s2 : S} {l1 l2 : List (T × Op × Ret)}
    (h : Legal spec s (l1 ++ l2) s2) : ∃ s1, Legal spec s l1 s1 ∧ Legal spec s1 l2 s2 := by
  induction l1 generalizing s with
  | nil => exact ⟨s, .nil s, h⟩
  | cons e l1 ih =>
    cases h with
    | cons _ s1 _ t op r _ h hl =>
      obtain ⟨s3, h1, h2⟩ := ih hl
      exact ⟨s3, .cons s s1 s3 t op r l1 h h1, h2⟩

theorem legal_append {T S Op Ret : Type} {spec : S → Op → Ret → S → Prop} {s s1 s2 : S} {l1 l2 : List (T × Op × Ret)}
    (h1 : Legal spec s l1 s1) (h2 : Legal spec s1 l2 s2) : Legal spec s (l1 ++ l2) s2 := by
  induction h1 with
  | nil => exact h2
  | cons s s3 s4 t op r l h _ ih => exact .cons s s3 s2 t op r _ h (ih h2)

theorem legal_det {T : Type} {env : Env} {r r1 r2 : Registry} {l : List (T × RegOp × Resp)} (h1 : Legal (RegSpec env) r l r1)
    (h2 : Legal (RegSpec env) r l r2) : r1 = r2 := by
  induction h1 with
  | nil => cases h2; rfl
  | cons s s1 s2 t op x l h _ ih =>
    cases h2 with
    | cons _ s3 _ _ _ _ _ h' hl' =>
      have : (.ok (x, s1) : M (Resp × Registry)) = .ok (x, s3) := by rw [← h, ← h']
      cases this
      exact ih hl'

/-- The calls considered here. -/
def RegOp.plain (op : RegOp) : Prop := op.simple ∨ ∃ v, op = .enable v

theorem plain_grows {env : Env} {r r' : Registry} (hu : Uniq r) {op : RegOp} (hop : op.plain) {resp : Resp}
    (h : r.step env op = .ok (resp, r')) : Grows r r' := by
  rcases hop with hop | ⟨v, rfl⟩
  · exact step_grows hu hop h
  · cases h
    exact enable_grows hu v

theorem legal_keep {T : Type} {env : Env} {r r1 : Registry} {l : List (T × RegOp × Resp)} (h : Legal (RegSpec env) r l r1)
    (hs : ∀ e ∈ l, e.2.1.plain) (hu : Uniq r) : Uniq r1 ∧ ∀ k, NoRef k r → NoRef k r1 := by
  induction h with
  | nil => exact ⟨hu, fun _ h => h⟩
  | cons s s1 s2 t op x l h _ ih =>
    have hg := plain_grows hu (hs (t, op, x) (by simp)) h
    obtain ⟨h1, h2⟩ := ih (fun e he => hs e (List.mem_cons_of_mem _ he)) hg.uniq
    exact ⟨h1, fun k hk => h2 k (hg.noref k hk)⟩

theorem opsOf_append {T Op Ret : Type} [DecidableEq T] (t : T) (l1 l2 : List (T × Op × Ret)) :
    opsOf t (l1 ++ l2) = opsOf t l1 ++ opsOf t l2 := List.filterMap_append

theorem opsOf_cons {T Op Ret : Type} [DecidableEq T] (t u : T) (e : Op × Ret) (l : List (T × Op × Ret)) :
    opsOf t ((u, e) :: l) = (if u = t then [e] else []) ++ opsOf t l := by
  unfold opsOf
  by_cases h : u = t <;> simp [h]

/-- An entry of the sequential execution: the length of the history when it took effect, the thread, the call and its
answer. -/
abbrev Ent (T : Type) := Nat × (T × RegOp × Resp)

/-- The sequential execution itself. -/
def seq {T : Type} (lin : List (Ent T)) : List (T × RegOp × Resp) := lin.map Prod.snd

/-- The part of it that had taken effect when the history had length `n`. -/
def upto {T : Type} (n : Nat) (lin : List (Ent T)) : List (Ent T) := lin.filter fun e => e.1 ≤ n

theorem upto_append {T : Type} (n : Nat) (l1 l2 : List (Ent T)) : upto n (l1 ++ l2) = upto n l1 ++ upto n l2 :=
  List.filter_append ..

theorem upto_all {T : Type} {n : Nat} {l : List (Ent T)} (h : ∀ e ∈ l, e.1 ≤ n) : upto n l = l :=
  List.filter_eq_self.2 fun e he => by simpa using h e he

theorem seq_append {T : Type} (l1 l2 : List (Ent T)) : seq (l1 ++ l2) = seq l1 ++ seq l2 := List.map_append

theorem upto_split {T : Type} {lin : List (Ent T)} (h : lin.Pairwise fun e e' => e.1 ≤ e'.1) (n : Nat) :
    ∃ l2, lin = upto n lin ++ l2 := by
  induction lin with
  | nil => exact ⟨[], rfl⟩
  | cons e l ih =>
    rw [List.pairwise_cons] at h
    by_cases he : e.1 ≤ n
    · obtain ⟨l2, h2⟩ := ih h.2
      refine ⟨l2, ?_⟩
      unfold upto at h2 ⊢
      rw [List.filter_cons_of_pos (by simpa using he), List.cons_append, ← h2]
    · refine ⟨e :: l, ?_⟩
      have : upto n (e :: l) = [] := by
        refine List.filter_eq_nil_iff.2 fun x hx => ?_
        rcases List.mem_cons.1 hx with rfl | hx
        · simpa using he
        · have := h.1 x hx
          simp only [decide_eq_true_eq]
          omega
      rw [this, List.nil_append]

theorem opsOf_upto_nil {T : Type} [DecidableEq T] {t : T} {l : List (Ent T)} (h : opsOf t (seq l) = []) (n : Nat) :
    opsOf t (seq (upto n l)) = [] := by
  unfold opsOf seq upto at *
  rw [List.filterMap_eq_nil_iff] at h ⊢
  intro e he
  obtain ⟨x, hx, rfl⟩ := List.mem_map.1 he
  exact h _ (List.mem_map.2 ⟨x, (List.mem_filter.1 hx).1, rfl⟩)

theorem invOf_take_prefix {T Op Ret : Type} [DecidableEq T] (t : T) (h : List (HEv T Op Ret)) {m n : Nat} (hmn : m ≤ n) :
    invOf t (h.take m) <+: invOf t (h.take n) := by
  have : h.take m <+: h.take n := List.take_prefix_take_left hmn
  obtain ⟨x, hx⟩ := this
  rw [← hx]
  unfold invOf
  rw [List.filterMap_append]
  exact List.prefix_append _ _

theorem resOf_take_prefix {T Op Ret : Type} [DecidableEq T] (t : T) (h : List (HEv T Op Ret)) (n : Nat) :
    resOf t (h.take n) <+: resOf t h := by
  obtain ⟨x, hx⟩ := List.take_prefix n h
  conv_rhs => rw [← hx]
  unfold resOf
  rw [List.filterMap_append]
  exact List.prefix_append _ _

/-! ### The order of the entries -/

section

variable {T : Type} [DecidableEq T] {P : RegOp → Prop}

/-- The entries are in an order that fits the history. -/
structure Book (P : RegOp → Prop) (h : List (HEv T RegOp Resp)) (lin : List (Ent T)) : Prop where
  sorted : lin.Pairwise fun e e' => e.1 ≤ e'.1
  le : ∀ e ∈ lin, e.1 ≤ h.length
  calls : ∀ e ∈ lin, P e.2.2.1
  splits : ∀ n ≤ h.length, ∀ t, resOf t (h.take n) <+: opsOf t (seq (upto n lin)) ∧
    (opsOf t (seq (upto n lin))).map Prod.fst <+: invOf t (h.take n)

theorem Book.event {h : List (HEv T RegOp Resp)} {lin : List (Ent T)} (b : Book P h lin) (e : HEv T RegOp Resp)
    (hends : ∀ t, resOf t (h ++ [e]) <+: opsOf t (seq lin) ∧ (opsOf t (seq lin)).map Prod.fst <+: invOf t (h ++ [e])) :
    Book P (h ++ [e]) lin := by
  have hle : ∀ x ∈ lin, x.1 ≤ (h ++ [e]).length := fun x hx => by have := b.le x hx; rw [List.length_append]; omega
  refine ⟨b.sorted, hle, b.calls, fun n hn u => ?_⟩
  by_cases hn' : n ≤ h.length
  · rw [List.take_append_of_le_length hn']
    exact b.splits n hn' u
  · have : n = (h ++ [e]).length := by rw [List.length_append] at hn ⊢; simp at hn ⊢; omega
    rw [this, upto_all hle, List.take_length]
    exact hends u

theorem Book.append {h : List (HEv T RegOp Resp)} {lin : List (Ent T)} (b : Book P h lin) (t : T) (op : RegOp) (resp : Resp) (hp : P op)
    (hends : ∀ u, resOf u h <+: opsOf u (seq (lin ++ [(h.length, t, op, resp)])) ∧
      (opsOf u (seq (lin ++ [(h.length, t, op, resp)]))).map Prod.fst <+: invOf u h) :
    Book P h (lin ++ [(h.length, t, op, resp)]) := by
  have hle : ∀ e ∈ lin ++ [(h.length, t, op, resp)], e.1 ≤ h.length := by
    intro e he
    rcases List.mem_append.1 he with he | he
    · exact b.le e he
    · rw [List.mem_singleton] at he; subst he; exact Nat.le_refl _
  refine ⟨?_, hle, ?_, ?_⟩
  · rw [List.pairwise_append]
    refine ⟨b.sorted, by simp, fun e he e' he' => ?_⟩
    rw [List.mem_singleton] at he'
    subst he'
    exact b.le e he
  · intro e he
    rcases List.mem_append.1 he with he | he
    · exact b.calls e he
    · rw [List.mem_singleton] at he; subst he; exact hp
  · intro n hn u
    by_cases hn' : n < h.length
    · have : upto n (lin ++ [(h.length, t, op, resp)]) = upto n lin := by
        rw [upto_append]
        unfold upto
        simp only [List.filter_cons, List.filter_nil]
        rw [if_neg (by simpa using hn'), List.append_nil]
      rw [this]
      exact b.splits n (by omega) u
    · have : n = h.length := by omega
      rw [this, upto_all hle, List.take_length]
      exact hends u

theorem opsOf_insert {u t : T} {l1 l2 : List (Ent T)} {d x : Ent T} (hx : x.2.1 = t) (hut : u ≠ t) :
    opsOf u (seq (l1 ++ x :: d :: l2)) = opsOf u (seq (l1 ++ d :: l2)) := by
  obtain ⟨m, t', o⟩ := x
  cases hx
  rw [seq_append, seq_append, opsOf_append, opsOf_append]
  congr 1
  show opsOf u ((t', _) :: _) = _
  rw [opsOf_cons, if_neg (Ne.symm hut)]
  rfl

/-- A call can be put before entry `d` if its thread has called before `d` and has done nothing since. -/
theorem Book.insert {h : List (HEv T RegOp Resp)} {l1 l2 : List (Ent T)} {d : Ent T} (b : Book P h (l1 ++ d :: l2)) {t : T} {op : RegOp}
    (resp : Resp) (hp : P op) (t1 : opsOf t (seq (l1 ++ d :: l2)) = resOf t h) (t2 : invOf t h = (resOf t h).map Prod.fst ++ [op])
    (h8 : opsOf t (seq (d :: l2)) = []) (h10 : invOf t (h.take d.1) = invOf t h) :
    Book P h (l1 ++ (d.1, t, op, resp) :: d :: l2) := by
  have hops_t : opsOf t (seq l1) = resOf t h := by
    rw [← t1, seq_append, opsOf_append, h8, List.append_nil]
  have hinv : ∀ e ∈ l1 ++ (d.1, t, op, resp) :: d :: l2, e = (d.1, t, op, resp) ∨ e ∈ l1 ++ d :: l2 := by
    intro e he
    rcases List.mem_append.1 he with he | he
    · exact .inr (List.mem_append_left _ he)
    · rcases List.mem_cons.1 he with he | he
      · exact .inl he
      · exact .inr (List.mem_append_right _ he)
  have hsorted := b.sorted
  rw [List.pairwise_append] at hsorted
  obtain ⟨o1, o2, o3⟩ := hsorted
  have hcons : ∀ (u : T) (l : List (Ent T)), opsOf u (seq ((d.1, t, op, resp) :: l)) =
      (if t = u then [(op, resp)] else []) ++ opsOf u (seq l) := fun u l => opsOf_cons u t (op, resp) (seq l)
  refine ⟨?_, ?_, ?_, ?_⟩
  · rw [List.pairwise_append]
    refine ⟨o1, List.pairwise_cons.2 ⟨?_, o2⟩, ?_⟩
    · intro e he
      rcases List.mem_cons.1 he with rfl | he
      · exact Nat.le_refl _
      · exact (List.pairwise_cons.1 o2).1 e he
    · intro e he e' he'
      rcases List.mem_cons.1 he' with rfl | he'
      · exact o3 e he d (List.mem_cons_self ..)
      · exact o3 e he e' he'
  · intro e he
    rcases hinv e he with rfl | he
    · exact b.le d (List.mem_append_right _ (List.mem_cons_self ..))
    · exact b.le e he
  · intro e he
    rcases hinv e he with rfl | he
    · exact hp
    · exact b.calls e he
  · intro n hn u
    have hold := b.splits n hn u
    by_cases hmn : d.1 ≤ n
    · have hup : upto n (l1 ++ (d.1, t, op, resp) :: d :: l2) =
          upto n l1 ++ (d.1, t, op, resp) :: upto n (d :: l2) := by
        rw [upto_append]
        congr 1
        exact List.filter_cons_of_pos (by simpa using hmn)
      by_cases hut : u = t
      · subst hut
        have hl1 : upto n l1 = l1 := upto_all fun e he => Nat.le_trans (o3 e he _ (List.mem_cons_self ..)) hmn
        rw [hup, hl1, seq_append, opsOf_append, hops_t, hcons, if_pos rfl, opsOf_upto_nil h8 n, List.append_nil]
        refine ⟨(resOf_take_prefix u h n).trans (List.prefix_append _ _), ?_⟩
        rw [List.map_append]
        show _ ++ [op] <+: _
        rw [← t2, ← h10]
        exact invOf_take_prefix u h hmn
      · have : opsOf u (seq (upto n (l1 ++ (d.1, t, op, resp) :: d :: l2))) = opsOf u (seq (upto n (l1 ++ d :: l2))) := by
          rw [hup, upto_append, seq_append, seq_append, opsOf_append, opsOf_append, hcons, if_neg (Ne.symm hut)]
          rfl
        rw [this]
        exact hold
    · have : upto n (l1 ++ (d.1, t, op, resp) :: d :: l2) = upto n (l1 ++ d :: l2) := by
        rw [upto_append, upto_append]
        congr 1
        exact List.filter_cons_of_neg (by simpa using hmn)
      rw [this]
      exact hold

end

section

variable {T : Type} [DecidableEq T] (env : Env) (P : RegOp → Prop) (r0 : Registry)

/-- Thread `t` has aggregator `k`, which was removed by an operation of the sequential execution; `t` has called before
and has done nothing since. -/
def Detached (s : CReg T) (R : Registry) (lin : List (Ent T)) (t : T) (op : RegOp) (k : Nat) : Prop :=
  ∃ (l1 l2 : List (Ent T)) (m : Nat) (td : T) (nm : Name) (b : Bool) (sd s1 : Registry) (a : Aggregator),
    lin = l1 ++ (m, td, .del nm, .bool b) :: l2 ∧ Legal (RegSpec env) r0 (seq l1) sd ∧ Sees sd op k a ∧
    sd.del nm = .ok (b, s1) ∧ NoRef k s1 ∧ Legal (RegSpec env) s1 (seq l2) R ∧ s.aggOf k = some a ∧
    opsOf t (seq ((m, td, .del nm, .bool b) :: l2)) = [] ∧ m ≤ s.hist.length ∧ invOf t (s.hist.take m) = invOf t s.hist

/-- How far thread `t` is. -/
def Loc (s : CReg T) (R : Registry) (lin : List (Ent T)) (t : T) : CPc → Prop
  | .idle => opsOf t (seq lin) = resOf t s.hist ∧ invOf t s.hist = (resOf t s.hist).map Prod.fst
  | .want op => opsOf t (seq lin) = resOf t s.hist ∧ invOf t s.hist = (resOf t s.hist).map Prod.fst ++ [op] ∧ P op
  | .have op k => opsOf t (seq lin) = resOf t s.hist ∧ invOf t s.hist = (resOf t s.hist).map Prod.fst ++ [op] ∧ P op ∧
      ((∃ a, Sees s.r op k a) ∨ Detached env r0 s R lin t op k)
  | .leave op r => opsOf t (seq lin) = resOf t s.hist ++ [(op, r)] ∧ invOf t s.hist = (resOf t s.hist).map Prod.fst ++ [op]
  | .enab v _ => opsOf t (seq lin) = resOf t s.hist ++ [(.enable v, .unit)] ∧
      invOf t s.hist = (resOf t s.hist).map Prod.fst ++ [.enable v] ∧ s.writer = some t
  | _ => False

/-- Thread `te` is in `enable(v)`, before position `i`: the entry of that call is after `p1` and before `p2`. -/
structure Phase (s : CReg T) (R : Registry) (lin : List (Ent T)) (te : T) (v : Bool) (i : Nat) (p1 p2 : List (Ent T)) (m : Nat)
    (q : Registry) : Prop where
  lin : lin = p1 ++ (m, te, .enable v, .unit) :: p2
  before : Legal (RegSpec env) r0 (seq p1) q
  after : ∀ U : List (Nat × Aggregator), (∀ x ∈ U, Late s.r i x.1) → Legal (RegSpec env) ((q.enable v).updates U) (seq p2) (R.updates U)
  now : R = s.r.enFrom v i
  dict : q.dict = s.r.dict
  late : ∀ j : Nat, i ≤ j → q.agarr[j]? = s.r.agarr[j]?
  nodel : ∀ e ∈ p2, ∀ nm, e.2.2.1 ≠ .del nm
  held : ∀ u op k, s.pc u = .have op k →
    opsOf u (seq ((m, te, .enable v, .unit) :: p2)) = [] ∧ invOf u (s.hist.take m) = invOf u s.hist

/-- The sequential execution has led to `R`: the registry, or what it will be when the running `enable` is through. -/
def Mode (s : CReg T) (R : Registry) (lin : List (Ent T)) : Prop :=
  (s.writer = none ∧ R = s.r) ∨
  ∃ te v i p1 p2 m q, s.writer = some te ∧ s.pc te = .enab v i ∧ Phase env r0 s R lin te v i p1 p2 m q

/-- The sequential execution found so far. -/
structure CInv (s : CReg T) (R : Registry) (lin : List (Ent T)) : Prop where
  legal : Legal (RegSpec env) r0 (seq lin) R
  book : Book P s.hist lin
  gone : ∀ c ∈ s.gone, NoRef c.ref s.r
  loc : ∀ t, Loc env P r0 s R lin t (s.pc t)
  mode : Mode env r0 s R lin

variable {env P r0}

theorem Loc.ends {s : CReg T} {R : Registry} {lin : List (Ent T)} {t : T} {p : CPc} (h : Loc env P r0 s R lin t p) :
    resOf t s.hist <+: opsOf t (seq lin) ∧ (opsOf t (seq lin)).map Prod.fst <+: invOf t s.hist := by
  cases p with
  | idle => rw [h.1, h.2]; exact ⟨List.prefix_refl _, List.prefix_refl _⟩
  | want op => rw [h.1, h.2.1]; exact ⟨List.prefix_refl _, List.prefix_append _ _⟩
  | «have» op k => rw [h.1, h.2.1]; exact ⟨List.prefix_refl _, List.prefix_append _ _⟩
  | leave op r => rw [h.1, h.2]; exact ⟨List.prefix_append _ _, by simp⟩
  | enab v i => rw [h.1, h.2.1]; exact ⟨List.prefix_append _ _, by simp⟩
  | named | sweep | swept => exact h.elim

theorem Mode.noref {s : CReg T} {R : Registry} {lin : List (Ent T)} (h : Mode env r0 s R lin) {k : Nat} : NoRef k R ↔ NoRef k s.r := by
  rcases h with ⟨-, rfl⟩ | ⟨te, v, i, p1, p2, m, q, -, -, hp⟩
  · exact Iff.rfl
  · rw [hp.now]; exact noref_enFrom

theorem Mode.uniq {s : CReg T} {R : Registry} {lin : List (Ent T)} (h : Mode env r0 s R lin) (hu : Uniq R) : Uniq s.r := by
  rcases h with ⟨-, rfl⟩ | ⟨te, v, i, p1, p2, m, q, -, -, hp⟩
  · exact hu
  · rw [hp.now] at hu; exact uniq_of_enFrom hu

variable (hP : ∀ op, P op → op.plain) (hu0 : Uniq r0)

include hP in
theorem CInv.simple {s : CReg T} {R : Registry} {lin : List (Ent T)} (h : CInv env P r0 s R lin) : ∀ e ∈ seq lin, e.2.1.plain := by
  intro e he
  obtain ⟨x, hx, rfl⟩ := List.mem_map.1 he
  exact hP _ (h.book.calls x hx)

include hP hu0 in
theorem CInv.uniqR {s : CReg T} {R : Registry} {lin : List (Ent T)} (h : CInv env P r0 s R lin) : Uniq R :=
  (legal_keep h.legal (h.simple hP) hu0).1

include hP hu0 in
theorem CInv.uniq {s : CReg T} {R : Registry} {lin : List (Ent T)} (h : CInv env P r0 s R lin) : Uniq s.r :=
  h.mode.uniq (h.uniqR hP hu0)

/-- The history grows by an event of thread `t`. -/
theorem CInv.event {s s' : CReg T} {R : Registry} {lin : List (Ent T)} (h : CInv env P r0 s R lin) (t : T) (e : HEv T RegOp Resp) (p : CPc)
    (hr : s'.r = s.r) (hg : s'.gone = s.gone) (hw : s'.writer = s.writer) (hh : s'.hist = s.hist ++ [e])
    (hp : s'.pc = Function.update s.pc t p)
    (he : ∀ u, u ≠ t → resOf u s'.hist = resOf u s.hist ∧ invOf u s'.hist = invOf u s.hist)
    (hnt : ∀ v i, s.pc t ≠ .enab v i) (hnp : ∀ op k, p ≠ .have op k)
    (ht : Loc env P r0 s' R lin t p) : CInv env P r0 s' R lin := by
  have hloc : ∀ u, Loc env P r0 s' R lin u (s'.pc u) := by
    intro u
    rw [hp]
    by_cases hut : u = t
    · subst hut; rw [Function.update_self]; exact ht
    · rw [Function.update_of_ne hut]
      have hl := h.loc u
      obtain ⟨e1, e2⟩ := he u hut
      cases hq : s.pc u with
      | idle => rw [hq] at hl; simp only [Loc, e1, e2] at hl ⊢; exact hl
      | want op => rw [hq] at hl; simp only [Loc, e1, e2] at hl ⊢; exact hl
      | leave op r => rw [hq] at hl; simp only [Loc, e1, e2] at hl ⊢; exact hl
      | «have» op k =>
        rw [hq] at hl
        simp only [Loc, e1, e2] at hl ⊢
        refine ⟨hl.1, hl.2.1, hl.2.2.1, ?_⟩
        rcases hl.2.2.2 with hl | ⟨l1, l2, m, td, nm, b, sd, s1, a, h1, h2, h3, h4, h5, h6, h7, h8, h9, h10⟩
        · rw [hr]; exact .inl hl
        · refine .inr ⟨l1, l2, m, td, nm, b, sd, s1, a, h1, h2, h3, h4, h5, h6, ?_, h8, ?_, ?_⟩
          · unfold CReg.aggOf at h7 ⊢; rw [hr, hg]; exact h7
          · rw [hh, List.length_append]; omega
          · rw [e2, hh, List.take_append_of_le_length h9]; exact h10
      | enab v i => rw [hq] at hl; simp only [Loc, e1, e2, hw] at hl ⊢; exact hl
      | named => rw [hq] at hl; exact hl.elim
      | sweep => rw [hq] at hl; exact hl.elim
      | swept => rw [hq] at hl; exact hl.elim
  have hmode : Mode env r0 s' R lin := by
    rcases h.mode with ⟨m1, m2⟩ | ⟨te, v, i, p1, p2, m, q, m1, m2, hp'⟩
    · exact .inl ⟨by rw [hw, m1], by rw [hr, m2]⟩
    · have hte : te ≠ t := fun e => hnt v i (e ▸ m2)
      refine .inr ⟨te, v, i, p1, p2, m, q, by rw [hw, m1], by rw [hp, Function.update_of_ne hte, m2], hp'.lin, hp'.before,
        by rw [hr]; exact hp'.after, by rw [hr]; exact hp'.now, by rw [hr]; exact hp'.dict, by rw [hr]; exact hp'.late, hp'.nodel, ?_⟩
      intro u op k hu
      rw [hp] at hu
      by_cases hut : u = t
      · subst hut
        rw [Function.update_self] at hu
        exact absurd hu (hnp op k)
      · rw [Function.update_of_ne hut] at hu
        obtain ⟨g1, g2⟩ := hp'.held u op k hu
        refine ⟨g1, ?_⟩
        have hm : m ≤ s.hist.length := h.book.le (m, te, .enable v, .unit) (by rw [hp'.lin]; simp)
        rw [(he u hut).2, hh, List.take_append_of_le_length hm]
        exact g2
  refine ⟨h.legal, ?_, by rw [hg, hr]; exact h.gone, hloc, hmode⟩
  rw [hh]
  refine h.book.event e fun u => ?_
  rw [← hh]
  exact (hloc u).ends

/-- A step that takes effect neither in the sequential execution nor in the history. -/
theorem CInv.shift {s s' : CReg T} {R : Registry} {lin : List (Ent T)} (h : CInv env P r0 s R lin) (t : T) (p : CPc)
    (hh : s'.hist = s.hist) (hp : s'.pc = Function.update s.pc t p)
    (hgone : ∀ c ∈ s'.gone, NoRef c.ref s'.r)
    (hagg : ∀ u op k a, u ≠ t → s.pc u = .have op k → Detached env r0 s R lin u op k → s.aggOf k = some a → s'.aggOf k = some a)
    (hsees : ∀ op' k a, Sees s.r op' k a → ∃ a', Sees s'.r op' k a')
    (hw : ∀ u v i, u ≠ t → s.pc u = .enab v i → s'.writer = some u)
    (ht : Loc env P r0 s' R lin t p) (hmode : Mode env r0 s' R lin) : CInv env P r0 s' R lin := by
  refine ⟨h.legal, by rw [hh]; exact h.book, hgone, fun u => ?_, hmode⟩
  rw [hp]
  by_cases hut : u = t
  · subst hut
    rw [Function.update_self]
    exact ht
  · rw [Function.update_of_ne hut]
    have hl := h.loc u
    cases hq : s.pc u with
    | idle => rw [hq] at hl; simp only [Loc, hh] at hl ⊢; exact hl
    | want op => rw [hq] at hl; simp only [Loc, hh] at hl ⊢; exact hl
    | leave op r => rw [hq] at hl; simp only [Loc, hh] at hl ⊢; exact hl
    | «have» op' k =>
      rw [hq] at hl
      simp only [Loc, hh] at hl ⊢
      refine ⟨hl.1, hl.2.1, hl.2.2.1, ?_⟩
      rcases hl.2.2.2 with ⟨a, hl⟩ | hd
      · exact .inl (hsees op' k a hl)
      · have hk := hagg u op' k
        have hd' := hd
        obtain ⟨l1, l2, m, td, nm, b, sd, s1, a, h1, h2, h3, h4, h5, h6, h7, h8, h9, h10⟩ := hd
        exact .inr ⟨l1, l2, m, td, nm, b, sd, s1, a, h1, h2, h3, h4, h5, h6, hk a hut hq hd' h7, h8, by rw [hh]; exact h9,
          by rw [hh]; exact h10⟩
    | enab v i =>
      rw [hq] at hl
      have := hw u v i hut hq
      simp only [Loc, hh, this] at hl ⊢
      exact ⟨hl.1, hl.2.1, trivial⟩
    | named => rw [hq] at hl; exact hl.elim
    | sweep => rw [hq] at hl; exact hl.elim
    | swept => rw [hq] at hl; exact hl.elim

include hP hu0 in
theorem CInv.detached_norefR {s : CReg T} {R : Registry} {lin : List (Ent T)} (h : CInv env P r0 s R lin) {l1 l2 : List (Ent T)} {m : Nat}
    {td : T} {nm : Name} {b : Bool} {sd s1 : Registry} {k : Nat} (h1 : lin = l1 ++ (m, td, .del nm, .bool b) :: l2)
    (h2 : Legal (RegSpec env) r0 (seq l1) sd) (h4 : sd.del nm = .ok (b, s1)) (h5 : NoRef k s1)
    (h6 : Legal (RegSpec env) s1 (seq l2) R) : NoRef k s.r ∧ Uniq sd ∧ Uniq s1 := by
  have hsd : Uniq sd := by
    refine (legal_keep h2 (fun e he => h.simple hP e ?_) hu0).1
    rw [h1, seq_append]
    exact List.mem_append_left _ he
  have hs1 := (del_grows hsd h4).uniq
  refine ⟨h.mode.noref.1 ((legal_keep h6 (fun e he => h.simple hP e ?_) hs1).2 k h5), hsd, hs1⟩
  rw [h1, seq_append]
  exact List.mem_append_right _ (List.mem_cons_of_mem _ he)

include hP hu0 in
theorem CInv.detached_noref {s : CReg T} {R : Registry} {lin : List (Ent T)} (h : CInv env P r0 s R lin) {u : T} {op : RegOp} {k : Nat}
    (hd : Detached env r0 s R lin u op k) : NoRef k s.r := by
  obtain ⟨l1, l2, m, td, nm, b, sd, s1, a, h1, h2, h3, h4, h5, h6, -⟩ := hd
  exact (h.detached_norefR hP hu0 h1 h2 h4 h5 h6).1

include hP hu0 in
/-- Thread `t` makes its call, which takes effect now. -/
theorem CInv.append {s s' : CReg T} {R R' : Registry} {lin : List (Ent T)} (h : CInv env P r0 s R lin) {t : T} {op : RegOp} {resp : Resp}
    {p : CPc} (hpc : s.pc t = .want op ∨ ∃ k, s.pc t = .have op k)
    (hstep : R.step env op = .ok (resp, R')) (hh : s'.hist = s.hist) (hp : s'.pc = Function.update s.pc t p)
    (hp' : p = .leave op resp ∨ ∃ v, op = .enable v ∧ resp = .unit ∧ p = .enab v 0 ∧ s'.writer = some t)
    (hgone : ∀ c ∈ s'.gone, NoRef c.ref s'.r)
    (hagg : ∀ k a, NoRef k s.r → s.aggOf k = some a → s'.aggOf k = some a)
    (hsees : ∀ u op' k a, u ≠ t → Sees s.r op' k a → (∃ a', Sees s'.r op' k a') ∨
      ∃ nm b, op = .del nm ∧ resp = .bool b ∧ R = s.r ∧ R' = s'.r ∧ s.r.del nm = .ok (b, s'.r) ∧ NoRef k s'.r ∧ s'.aggOf k = some a)
    (hw : ∀ u v i, u ≠ t → s.pc u = .enab v i → s'.writer = some u)
    (hmode : Mode env r0 s' R' (lin ++ [(s.hist.length, t, op, resp)])) :
    CInv env P r0 s' R' (lin ++ [(s.hist.length, t, op, resp)]) := by
  have hlt : opsOf t (seq lin) = resOf t s.hist ∧ invOf t s.hist = (resOf t s.hist).map Prod.fst ++ [op] ∧ P op := by
    have := h.loc t
    rcases hpc with hpc | ⟨k, hpc⟩ <;> rw [hpc] at this
    · exact this
    · exact ⟨this.1, this.2.1, this.2.2.1⟩
  have hseq : seq (lin ++ [(s.hist.length, t, op, resp)]) = seq lin ++ [(t, op, resp)] := by rw [seq_append]; rfl
  have hlegal : Legal (RegSpec env) r0 (seq (lin ++ [(s.hist.length, t, op, resp)])) R' := by
    rw [hseq]; exact h.legal.snoc t hstep
  have hloc : ∀ u, Loc env P r0 s' R' (lin ++ [(s.hist.length, t, op, resp)]) u (s'.pc u) := by
    intro u
    rw [hp]
    by_cases hut : u = t
    · subst hut
      rw [Function.update_self]
      have e : opsOf u (seq (lin ++ [(s.hist.length, u, op, resp)])) = resOf u s'.hist ++ [(op, resp)] := by
        rw [hseq, opsOf_snoc, if_pos rfl, hlt.1, hh]
      rcases hp' with rfl | ⟨v, rfl, rfl, rfl, hw'⟩
      · exact ⟨e, by rw [hh]; exact hlt.2.1⟩
      · exact ⟨e, by rw [hh]; exact hlt.2.1, hw'⟩
    · rw [Function.update_of_ne hut]
      have hl := h.loc u
      have e1 : opsOf u (seq (lin ++ [(s.hist.length, t, op, resp)])) = opsOf u (seq lin) := by
        rw [hseq, opsOf_snoc, if_neg (Ne.symm hut), List.append_nil]
      cases hq : s.pc u with
      | idle => rw [hq] at hl; simp only [Loc, e1, hh] at hl ⊢; exact hl
      | want op => rw [hq] at hl; simp only [Loc, e1, hh] at hl ⊢; exact hl
      | leave op r => rw [hq] at hl; simp only [Loc, e1, hh] at hl ⊢; exact hl
      | «have» op' k =>
        rw [hq] at hl
        simp only [Loc, e1, hh] at hl ⊢
        refine ⟨hl.1, hl.2.1, hl.2.2.1, ?_⟩
        rcases hl.2.2.2 with ⟨a, hl'⟩ | ⟨l1, l2, m, td, nm, b, sd, s1, a, h1, h2, h3, h4, h5, h6, h7, h8, h9, h10⟩
        · rcases hsees u op' k a hut hl' with h' | ⟨nm, b, rfl, rfl, rfl, rfl, g1, g2, g3⟩
          · exact .inl h'
          · refine .inr ⟨lin, [], s.hist.length, t, nm, b, s.r, s'.r, a, rfl, h.legal, hl', g1, g2, .nil _, g3, ?_, by rw [hh], ?_⟩
            · show opsOf u [(t, _)] = []
              rw [opsOf_cons, if_neg (Ne.symm hut)]; rfl
            · rw [hh, List.take_length]
        · have hn := (h.detached_norefR hP hu0 h1 h2 h4 h5 h6).1
          refine .inr ⟨l1, l2 ++ [(s.hist.length, t, op, resp)], m, td, nm, b, sd, s1, a, ?_, h2, h3, h4, h5, ?_, hagg k a hn h7, ?_,
            by rw [hh]; exact h9, by rw [hh]; exact h10⟩
          · rw [h1]; simp
          · rw [seq_append]; exact h6.snoc t hstep
          · rw [← List.cons_append, seq_append, opsOf_append, h8]
            show opsOf u [(t, _)] = []
            rw [opsOf_cons, if_neg (Ne.symm hut)]; rfl
      | enab v i =>
        rw [hq] at hl
        have := hw u v i hut hq
        simp only [Loc, hh, this, e1] at hl ⊢
        exact ⟨hl.1, hl.2.1, trivial⟩
      | named => rw [hq] at hl; exact hl.elim
      | sweep => rw [hq] at hl; exact hl.elim
      | swept => rw [hq] at hl; exact hl.elim
  refine ⟨hlegal, ?_, hgone, hloc, hmode⟩
  rw [hh]
  refine h.book.append t op resp hlt.2.2 fun u => ?_
  have := (hloc u).ends
  rw [hh] at this
  exact this

/-- While `enable` runs: a call that takes effect now, on what `enable` has dealt with. -/
theorem Phase.append {s s' : CReg T} {R R' : Registry} {lin : List (Ent T)} {te : T} {v : Bool} {i : Nat} {p1 p2 : List (Ent T)} {m : Nat}
    {q : Registry} (h : Phase env r0 s R lin te v i p1 p2 m q) {t : T} {op : RegOp} {resp : Resp} (hn : ∀ nm, op ≠ .del nm)
    (hh : s'.hist = s.hist) (hp : s'.pc = Function.update s.pc t (.leave op resp))
    (hstep : ∀ U : List (Nat × Aggregator), (∀ x ∈ U, Late s.r i x.1) → RegSpec env (R.updates U) op resp (R'.updates U))
    (hlate : ∀ k, Late s'.r i k → Late s.r i k) (hnow : R' = s'.r.enFrom v i) (hd : s'.r.dict = s.r.dict)
    (hj : ∀ j : Nat, i ≤ j → s'.r.agarr[j]? = s.r.agarr[j]?) :
    Phase env r0 s' R' (lin ++ [(s.hist.length, t, op, resp)]) te v i p1 (p2 ++ [(s.hist.length, t, op, resp)]) m q := by
  refine ⟨by rw [h.lin]; simp, h.before, fun U hU => ?_, hnow, by rw [hd]; exact h.dict, fun j hij => by rw [hj j hij]; exact h.late j hij,
    ?_, ?_⟩
  · rw [seq_append]
    have hU' := fun x hx => hlate x.1 (hU x hx)
    exact (h.after U hU').snoc t (hstep U hU')
  · intro e he nm
    rcases List.mem_append.1 he with he | he
    · exact h.nodel e he nm
    · rw [List.mem_singleton] at he; subst he; exact hn nm
  · intro u op' k hu
    rw [hp] at hu
    by_cases hut : u = t
    · subst hut
      rw [Function.update_self] at hu
      cases hu
    · rw [Function.update_of_ne hut] at hu
      obtain ⟨g1, g2⟩ := h.held u op' k hu
      rw [hh]
      refine ⟨?_, g2⟩
      rw [← List.cons_append, seq_append, opsOf_append, g1]
      show opsOf u [(t, _)] = []
      rw [opsOf_cons, if_neg (Ne.symm hut)]; rfl

theorem split_cases {α : Type} {l1 l2 p1 p2 : List α} {d e : α} (h : l1 ++ d :: l2 = p1 ++ e :: p2) :
    (l1 = p1 ∧ d = e ∧ l2 = p2) ∨ (∃ q, p1 = l1 ++ d :: q ∧ l2 = q ++ e :: p2) ∨ ∃ q, l1 = p1 ++ e :: q ∧ p2 = q ++ d :: l2 := by
  induction l1 generalizing p1 with
  | nil =>
    cases p1 with
    | nil => cases h; exact .inl ⟨rfl, rfl, rfl⟩
    | cons x p1 => cases h; exact .inr (.inl ⟨p1, rfl, rfl⟩)
  | cons y l1 ih =>
    cases p1 with
    | nil => cases h; exact .inr (.inr ⟨l1, rfl, rfl⟩)
    | cons x p1 =>
      simp only [List.cons_append, List.cons.injEq] at h
      obtain ⟨rfl, h⟩ := h
      rcases ih h with ⟨rfl, rfl, rfl⟩ | ⟨q, rfl, rfl⟩ | ⟨q, rfl, rfl⟩
      · exact .inl ⟨rfl, rfl, rfl⟩
      · exact .inr (.inl ⟨q, rfl, rfl⟩)
      · exact .inr (.inr ⟨q, rfl, rfl⟩)

theorem find_map_ref (k a' : Nat) (b : Aggregator) (l : List Cell) :
    ((l.map fun c => if c.ref = k then { c with agg := b } else c).find? fun c => c.ref = a') =
      (l.find? fun c => c.ref = a').map fun c => if c.ref = k then { c with agg := b } else c := by
  induction l with
  | nil => rfl
  | cons c l ih =>
    rw [List.map_cons, List.find?_cons, List.find?_cons]
    have : (if c.ref = k then { c with agg := b } else c).ref = c.ref := by split <;> rfl
    rw [this]
    by_cases h : c.ref = a'
    · simp [h]
    · simpa [h] using ih

omit [DecidableEq T] in
theorem aggOf_noref {s : CReg T} {k : Nat} (h : ∀ a, ¬ At s.r k a) : s.aggOf k = (s.gone.find? fun c => c.ref = k).map Cell.agg := by
  unfold CReg.aggOf
  rw [find_noref h]

omit [DecidableEq T] in
theorem aggOf_set_ne {s : CReg T} {k j : Nat} (b : Aggregator) (t : T) (ops : List Aggregator.AOp) (out : List AggData) (hj : NoRef j s.r)
    (hne : j ≠ k) : (s.setAgg t k b ops out).aggOf j = s.aggOf j := by
  rw [aggOf_noref hj.1, aggOf_noref (s := s.setAgg t k b ops out) fun a ha => hj.1 a ((at_update_ne b a hne).1 ha)]
  show (List.find? _ (s.gone.map _)).map Cell.agg = _
  rw [find_map_ref]
  cases hf : s.gone.find? fun c => c.ref = j with
  | none => rfl
  | some c =>
    have : c.ref = j := by simpa using List.find?_some hf
    simp only [Option.map_some]
    rw [if_neg (by rw [this]; exact hne)]

omit [DecidableEq T] in
theorem aggOf_set_self {s : CReg T} {k : Nat} {a : Aggregator} (b : Aggregator) (t : T) (ops : List Aggregator.AOp) (out : List AggData)
    (hk : NoRef k s.r) (h : s.aggOf k = some a) : (s.setAgg t k b ops out).aggOf k = some b := by
  have hr : (s.setAgg t k b ops out).r = s.r := update_noref hk.1 b
  rw [aggOf_noref (s := s.setAgg t k b ops out) (by rw [hr]; exact hk.1)]
  rw [aggOf_noref hk.1] at h
  show (List.find? _ (s.gone.map _)).map Cell.agg = _
  rw [find_map_ref]
  cases hf : s.gone.find? fun c => c.ref = k with
  | none => rw [hf] at h; cases h
  | some c =>
    have : c.ref = k := by simpa using List.find?_some hf
    simp only [Option.map_some]
    rw [if_pos this]

theorem del_spec {r r' : Registry} {nm : Name} {b : Bool} (h : r.del nm = .ok (b, r')) : RegSpec env r (.del nm) (.bool b) r' := by
  simp only [RegSpec, step, h, bind_ok']

theorem del_spec_inv {r r' : Registry} {nm : Name} {b : Bool} (h : RegSpec env r (.del nm) (.bool b) r') : r.del nm = .ok (b, r') := by
  obtain ⟨⟨b', r1⟩, h1, h2⟩ := bind_inv h
  cases h2
  exact h1

/-- The result of a call that finds no aggregator. -/
theorem miss_step {r : Registry} {op : RegOp} {id : Nat} (h : r.getAggregator id = .ok none) (hop : op.target = some id) :
    r.step env op = .ok (CReg.miss op, r) := by
  cases op <;> cases hop
  · simp only [step, addId, h, bind_ok', CReg.miss]
  · simp only [step, pop, h, bind_ok', CReg.miss]
  · simp only [step, forcePop, h, bind_ok', CReg.miss]
  · simp only [step, pusherId, h, bind_ok', CReg.miss, Option.map_none]
  · simp only [step, h, bind_ok', CReg.miss]

theorem Phase.del_before {s : CReg T} {R : Registry} {lin : List (Ent T)} {te : T} {v : Bool} {i : Nat} {p1 p2 : List (Ent T)} {m : Nat}
    {q : Registry} (h : Phase env r0 s R lin te v i p1 p2 m q) {l1 l2 : List (Ent T)} {md : Nat} {td : T} {nm : Name} {b : Bool}
    (hl : lin = l1 ++ (md, td, .del nm, .bool b) :: l2) :
    ∃ x, p1 = l1 ++ (md, td, .del nm, .bool b) :: x ∧ l2 = x ++ (m, te, .enable v, .unit) :: p2 := by
  rcases split_cases (hl.symm.trans h.lin) with ⟨-, hde, -⟩ | h' | ⟨x, -, rfl⟩
  · cases hde
  · exact h'
  · exact absurd rfl (h.nodel (md, td, .del nm, .bool b) (by simp) nm)

omit [DecidableEq T] in
/-- What comes between the removal and the running `enable`. -/
theorem legal_between {l1 x : List (Ent T)} {md : Nat} {td : T} {nm : Name} {b : Bool} {sd s1 q : Registry}
    (h : Legal (RegSpec env) r0 (seq (l1 ++ (md, td, .del nm, .bool b) :: x)) q) (h2 : Legal (RegSpec env) r0 (seq l1) sd)
    (h4 : sd.del nm = .ok (b, s1)) : Legal (RegSpec env) s1 (seq x) q := by
  rw [seq_append] at h
  obtain ⟨z, z1, z2⟩ := legal_of_append h
  obtain rfl := legal_det z1 h2
  cases z2 with
  | cons _ y _ _ _ _ _ y1 y2 =>
    have := del_spec_inv y1
    rw [h4] at this
    cases this
    exact y2

include hP hu0 in
/-- Thread `t` finishes its call on a removed aggregator, which takes effect just before the removal. -/
theorem CInv.insert {s s' : CReg T} {R : Registry} {lin : List (Ent T)} (h : CInv env P r0 s R lin) {t : T} {op : RegOp} {resp : Resp}
    {k : Nat} {a a' : Aggregator} {ops : List Aggregator.AOp} {out : List AggData} (hpc : s.pc t = .have op k)
    (hd : Detached env r0 s R lin t op k) (hagg : s.aggOf k = some a) (huse : CReg.use env k a op = .ok (resp, a', ops, out))
    (hs' : s' = (s.setAgg t k a' ops out).goto t (.leave op resp)) : ∃ R' lin', CInv env P r0 s' R' lin' := by
  obtain ⟨l1, l2, m, td, nm, b, sd, s1, a0, h1, h2, h3, h4, h5, h6, h7, h8, h9, h10⟩ := hd
  rw [hagg] at h7
  cases h7
  obtain ⟨hk, hsd, hs1⟩ := h.detached_norefR hP hu0 h1 h2 h4 h5 h6
  have hr : s'.r = s.r := by rw [hs']; exact update_noref hk.1 a'
  have hh : s'.hist = s.hist := by rw [hs']; rfl
  have hw : s'.writer = s.writer := by rw [hs']; rfl
  have hp : s'.pc = Function.update s.pc t (.leave op resp) := by rw [hs']; rfl
  have hself : s'.aggOf k = some a' := by rw [hs']; exact aggOf_set_self a' t ops out hk hagg
  have hother : ∀ j, NoRef j s.r → j ≠ k → s'.aggOf j = s.aggOf j := by
    intro j hj hne; rw [hs']; exact aggOf_set_ne a' t ops out hj hne
  have hlt := h.loc t
  rw [hpc] at hlt
  obtain ⟨t1, t2, t3, -⟩ := hlt
  have hx : Legal (RegSpec env) sd (seq ((m, t, op, resp) :: (m, td, .del nm, .bool b) :: l2)) R :=
    .cons _ _ _ _ _ _ _ (use_step hsd h3 huse) (.cons _ _ _ _ _ _ _ (del_spec (del_update h4 h5.1 a')) h6)
  have hlegal : Legal (RegSpec env) r0 (seq (l1 ++ (m, t, op, resp) :: (m, td, .del nm, .bool b) :: l2)) R := by
    rw [seq_append]; exact legal_append h2 hx
  have hops : ∀ u, u ≠ t → opsOf u (seq (l1 ++ (m, t, op, resp) :: (m, td, .del nm, .bool b) :: l2)) = opsOf u (seq lin) := by
    intro u hut
    rw [h1]
    exact opsOf_insert rfl hut
  have hops_t : opsOf t (seq l1) = resOf t s.hist := by
    rw [← t1, h1, seq_append, opsOf_append, h8, List.append_nil]
  have hcons : ∀ (u : T) (l : List (Ent T)), opsOf u (seq ((m, t, op, resp) :: l)) =
      (if t = u then [(op, resp)] else []) ++ opsOf u (seq l) := fun u l => opsOf_cons u t (op, resp) (seq l)
  have hloc : ∀ u, Loc env P r0 s' R (l1 ++ (m, t, op, resp) :: (m, td, .del nm, .bool b) :: l2) u (s'.pc u) := by
    intro u
    rw [hp]
    by_cases hut : u = t
    · subst hut
      rw [Function.update_self]
      refine ⟨?_, by rw [hh]; exact t2⟩
      rw [seq_append, opsOf_append, hops_t, hcons, if_pos rfl, h8, hh, List.append_nil]
    · rw [Function.update_of_ne hut]
      have hl := h.loc u
      have e1 := hops u hut
      cases hq : s.pc u with
      | idle => rw [hq] at hl; simp only [Loc, e1, hh] at hl ⊢; exact hl
      | want op => rw [hq] at hl; simp only [Loc, e1, hh] at hl ⊢; exact hl
      | leave op r => rw [hq] at hl; simp only [Loc, e1, hh] at hl ⊢; exact hl
      | enab v i => rw [hq] at hl; simp only [Loc, e1, hh, hw] at hl ⊢; exact hl
      | «have» op' j =>
        rw [hq] at hl
        simp only [Loc, e1, hh] at hl ⊢
        refine ⟨hl.1, hl.2.1, hl.2.2.1, ?_⟩
        rcases hl.2.2.2 with ⟨a2, hl⟩ | ⟨l1', l2', m', td', nm', b', sd', s1', a2, g1, g2, g3, g4, g5, g6, g7, g8, g9, g10⟩
        · exact .inl ⟨a2, by rw [hr]; exact hl⟩
        · right
          obtain ⟨hj, hsd', hs1'⟩ := h.detached_norefR hP hu0 g1 g2 g4 g5 g6
          have g9' : m' ≤ s'.hist.length := by rw [hh]; exact g9
          have g10' : invOf u (s'.hist.take m') = invOf u s'.hist := by rw [hh]; exact g10
          rcases split_cases (g1.symm.trans h1) with ⟨rfl, hde, rfl⟩ | ⟨q, rfl, rfl⟩ | ⟨q, rfl, rfl⟩
          · cases hde
            obtain rfl := legal_det g2 h2
            rw [h4] at g4
            cases g4
            refine ⟨l1' ++ [(m, t, op, resp)], l2', m, td, nm, b, sd'.update k a', s1, if j = k then a' else a2, by simp, ?_, ?_,
              del_update h4 h5.1 a', g5, g6, ?_, g8, g9', g10'⟩
            · rw [seq_append]; exact h2.snoc t (use_step hsd h3 huse)
            · by_cases hjk : j = k
              · subst hjk; rw [if_pos rfl]; exact sees_update_self a' g3
              · rw [if_neg hjk]; exact sees_update_ne a' hjk g3
            · by_cases hjk : j = k
              · subst hjk; rw [if_pos rfl]; exact hself
              · rw [if_neg hjk, hother j hj hjk]; exact g7
          · rw [seq_append] at g6
            obtain ⟨z, z1, z2⟩ := legal_of_append g6
            have hz : z = sd := by
              refine legal_det ?_ h2
              rw [seq_append]
              exact legal_append g2 (.cons _ _ _ _ _ _ _ (del_spec g4) z1)
            subst hz
            have hjk : j ≠ k := by
              rintro rfl
              refine ((legal_keep z1 (fun e he => h.simple hP e ?_) hs1').2 j g5).1 _ h3.at
              rw [g1, seq_append]
              refine List.mem_append_right _ (List.mem_cons_of_mem _ ?_)
              show e ∈ seq (q ++ _)
              rw [seq_append]
              exact List.mem_append_left _ he
            refine ⟨l1', q ++ (m, t, op, resp) :: (m, td, .del nm, .bool b) :: l2, m', td', nm', b', sd', s1', a2, by simp, g2, g3, g4,
              g5, ?_, by rw [hother j hj hjk]; exact g7, ?_, g9', g10'⟩
            · rw [seq_append]; exact legal_append z1 hx
            · rw [← List.cons_append, seq_append, opsOf_append] at g8 ⊢
              rw [hcons, if_neg (Ne.symm hut)]
              exact g8
          · rw [seq_append] at g2
            obtain ⟨z, z1, z2⟩ := legal_of_append g2
            obtain rfl := legal_det z1 h2
            have z3 : Legal (RegSpec env) s1 (seq q) sd' := by
              cases z2 with
              | cons _ y _ _ _ _ _ y1 y2 =>
                have := del_spec_inv y1
                rw [h4] at this
                cases this
                exact y2
            have hjk : j ≠ k := by
              rintro rfl
              refine ((legal_keep z3 (fun e he => h.simple hP e ?_) hs1).2 j h5).1 _ g3.at
              rw [h1, seq_append]
              refine List.mem_append_right _ (List.mem_cons_of_mem _ ?_)
              show e ∈ seq (q ++ _)
              rw [seq_append]
              exact List.mem_append_left _ he
            refine ⟨l1 ++ (m, t, op, resp) :: (m, td, .del nm, .bool b) :: q, l2', m', td', nm', b', sd', s1', a2, by simp, ?_, g3, g4,
              g5, g6, by rw [hother j hj hjk]; exact g7, g8, g9', g10'⟩
            rw [seq_append]
            exact legal_append h2 (.cons _ _ _ _ _ _ _ (use_step hsd h3 huse)
              (.cons _ _ _ _ _ _ _ (del_spec (del_update h4 h5.1 a')) z3))
      | named => rw [hq] at hl; exact hl.elim
      | sweep => rw [hq] at hl; exact hl.elim
      | swept => rw [hq] at hl; exact hl.elim
  have hmode : Mode env r0 s' R (l1 ++ (m, t, op, resp) :: (m, td, .del nm, .bool b) :: l2) := by
    rcases h.mode with ⟨m1, m2⟩ | ⟨te, v, i, p1, p2, m', q, m1, m2, hp'⟩
    · exact .inl ⟨by rw [hw, m1], by rw [hr, m2]⟩
    · have hte : te ≠ t := by
        rintro rfl
        rw [hpc] at m2
        cases m2
      obtain ⟨x, hx1, hx2⟩ := hp'.del_before h1
      have hb := legal_between (hx1 ▸ hp'.before) h2 h4
      refine .inr ⟨te, v, i, l1 ++ (m, t, op, resp) :: (m, td, .del nm, .bool b) :: x, p2, m', q, by rw [hw, m1],
        by rw [hp, Function.update_of_ne hte, m2], by rw [hx2]; simp, ?_, by rw [hr]; exact hp'.after, by rw [hr]; exact hp'.now,
        by rw [hr]; exact hp'.dict, by rw [hr]; exact hp'.late, hp'.nodel, ?_⟩
      · rw [seq_append]
        exact legal_append h2 (.cons _ _ _ _ _ _ _ (use_step hsd h3 huse)
          (.cons _ _ _ _ _ _ _ (del_spec (del_update h4 h5.1 a')) hb))
      · intro u op' j hu
        rw [hp] at hu
        rw [hh]
        by_cases hut : u = t
        · subst hut
          rw [Function.update_self] at hu
          cases hu
        · rw [Function.update_of_ne hut] at hu
          exact hp'.held u op' j hu
  refine ⟨R, _, hlegal, ?_, ?_, hloc, hmode⟩
  · rw [hh]
    have hb := h.book
    rw [h1] at hb t1
    exact hb.insert resp t3 t1 t2 h8 h10
  · intro c hc
    rw [hr]
    rw [hs'] at hc
    obtain ⟨c0, hc0, rfl⟩ := List.mem_map.1 hc
    have := h.gone c0 hc0
    split
    · exact this
    · exact this

omit [DecidableEq T] in
theorem gone_set {s : CReg T} (hu : Uniq s.r) (h : ∀ c ∈ s.gone, NoRef c.ref s.r) (t : T) (k : Nat) (a : Aggregator)
    (ops : List Aggregator.AOp) (out : List AggData) : ∀ c ∈ (s.setAgg t k a ops out).gone, NoRef c.ref (s.setAgg t k a ops out).r := by
  intro c hc
  obtain ⟨c0, hc0, rfl⟩ := List.mem_map.1 hc
  have := (update_grows hu k a).noref _ (h c0 hc0)
  split
  · exact this
  · exact this

include hP hu0 in
/-- Thread `t` finishes its call on an aggregator that the running `enable` has not reached: it takes effect just before
that `enable`. -/
theorem CInv.insertLate {s s' : CReg T} {R : Registry} {lin : List (Ent T)} (h : CInv env P r0 s R lin) {t : T} {op : RegOp}
    {resp : Resp} {k : Nat} {a a' : Aggregator} {ops : List Aggregator.AOp} {out : List AggData} (hpc : s.pc t = .have op k)
    (hs : Sees s.r op k a) (huse : CReg.use env k a op = .ok (resp, a', ops, out))
    {te : T} {v : Bool} {i : Nat} {p1 p2 : List (Ent T)} {m : Nat} {q : Registry} (hwr : s.writer = some te) (hte : s.pc te = .enab v i)
    (hph : Phase env r0 s R lin te v i p1 p2 m q) (hk : Late s.r i k)
    (hs' : s' = (s.setAgg t k a' ops out).goto t (.leave op resp)) : ∃ R' lin', CInv env P r0 s' R' lin' := by
  have hu := h.uniq hP hu0
  have hr : s'.r = s.r.update k a' := by rw [hs']; rfl
  have hh : s'.hist = s.hist := by rw [hs']; rfl
  have hw : s'.writer = s.writer := by rw [hs']; rfl
  have hp : s'.pc = Function.update s.pc t (.leave op resp) := by rw [hs']; rfl
  have hlin := hph.lin
  have hother : ∀ j, NoRef j s.r → s'.aggOf j = s.aggOf j := by
    intro j hj
    rw [hs']
    refine aggOf_set_ne a' t ops out hj ?_
    rintro rfl
    exact hj.1 a hs.at
  have hlt := h.loc t
  rw [hpc] at hlt
  obtain ⟨t1, t2, t3, -⟩ := hlt
  obtain ⟨t4, t5⟩ := hph.held t op k hpc
  have hq : Uniq q := by
    refine (legal_keep hph.before (fun e he => h.simple hP e ?_) hu0).1
    rw [hlin, seq_append]
    exact List.mem_append_left _ he
  have hsq : Sees q op k a := hs.late hu hk hph.dict hph.late
  have huq := use_step hq hsq huse
  have hen : RegSpec env (q.update k a') (.enable v) .unit ((q.enable v).update k (a'.enable v)) := by
    rw [← enable_update]; rfl
  have hx : Legal (RegSpec env) q (seq ((m, t, op, resp) :: (m, te, .enable v, .unit) :: p2)) (R.update k (a'.enable v)) := by
    refine .cons _ _ _ _ _ _ _ huq (.cons _ _ _ _ _ _ _ hen ?_)
    exact hph.after [(k, a'.enable v)] (by intro x hx; rw [List.mem_singleton] at hx; subst hx; exact hk)
  have hlegal : Legal (RegSpec env) r0 (seq (p1 ++ (m, t, op, resp) :: (m, te, .enable v, .unit) :: p2)) (R.update k (a'.enable v)) := by
    rw [seq_append]; exact legal_append hph.before hx
  have hops_t : opsOf t (seq p1) = resOf t s.hist := by
    rw [← t1, hlin, seq_append, opsOf_append, t4, List.append_nil]
  have hcons : ∀ (u : T) (l : List (Ent T)), opsOf u (seq ((m, t, op, resp) :: l)) =
      (if t = u then [(op, resp)] else []) ++ opsOf u (seq l) := fun u l => opsOf_cons u t (op, resp) (seq l)
  have hloc : ∀ u, Loc env P r0 s' (R.update k (a'.enable v)) (p1 ++ (m, t, op, resp) :: (m, te, .enable v, .unit) :: p2) u (s'.pc u) := by
    intro u
    rw [hp]
    by_cases hut : u = t
    · subst hut
      rw [Function.update_self]
      refine ⟨?_, by rw [hh]; exact t2⟩
      rw [seq_append, opsOf_append, hops_t, hcons, if_pos rfl, t4, hh, List.append_nil]
    · rw [Function.update_of_ne hut]
      have hl := h.loc u
      have e1 : opsOf u (seq (p1 ++ (m, t, op, resp) :: (m, te, .enable v, .unit) :: p2)) = opsOf u (seq lin) := by
        rw [hlin]
        exact opsOf_insert rfl hut
      cases hq : s.pc u with
      | idle => rw [hq] at hl; simp only [Loc, e1, hh] at hl ⊢; exact hl
      | want op => rw [hq] at hl; simp only [Loc, e1, hh] at hl ⊢; exact hl
      | leave op r => rw [hq] at hl; simp only [Loc, e1, hh] at hl ⊢; exact hl
      | enab v i => rw [hq] at hl; simp only [Loc, e1, hh, hw] at hl ⊢; exact hl
      | «have» op' j =>
        rw [hq] at hl
        simp only [Loc, e1, hh] at hl ⊢
        refine ⟨hl.1, hl.2.1, hl.2.2.1, ?_⟩
        rcases hl.2.2.2 with ⟨a2, hl⟩ | ⟨l1, l2, md, td, nm, b, sd, s1, a2, g1, g2, g3, g4, g5, g6, g7, g8, g9, g10⟩
        · rw [hr]
          exact .inl ((samePlace_update s.r k a').sees hl)
        · right
          obtain ⟨hj, hsd, hs1⟩ := h.detached_norefR hP hu0 g1 g2 g4 g5 g6
          obtain ⟨x, hx1, hx2⟩ := hph.del_before g1
          have hb := legal_between (hx1 ▸ hph.before) g2 g4
          refine ⟨l1, x ++ (m, t, op, resp) :: (m, te, .enable v, .unit) :: p2, md, td, nm, b, sd, s1, a2, by rw [hx1]; simp, g2, g3, g4,
            g5, ?_, by rw [hother j hj]; exact g7, ?_, by rw [hh]; exact g9, by rw [hh]; exact g10⟩
          · rw [seq_append]; exact legal_append hb hx
          · rw [hx2, ← List.cons_append] at g8
            rw [← List.cons_append, opsOf_insert rfl hut]
            exact g8
      | named => rw [hq] at hl; exact hl.elim
      | sweep => rw [hq] at hl; exact hl.elim
      | swept => rw [hq] at hl; exact hl.elim
  have hne : te ≠ t := by
    rintro rfl
    rw [hpc] at hte
    cases hte
  refine ⟨_, _, hlegal, ?_, ?_, hloc, .inr ⟨te, v, i, p1 ++ [(m, t, op, resp)], p2, m, q.update k a', by rw [hw, hwr],
    by rw [hp, Function.update_of_ne hne, hte], by simp, ?_, ?_, ?_, ?_, ?_, hph.nodel, ?_⟩⟩
  · rw [hh]
    have hb := h.book
    rw [hlin] at hb t1
    exact hb.insert resp t3 t1 t2 t4 t5
  · rw [hs']
    exact gone_set hu h.gone t k a' ops out
  · rw [seq_append]; exact hph.before.snoc t huq
  · intro U hU
    rw [enable_update]
    refine hph.after ((k, a'.enable v) :: U) fun x hx => ?_
    rcases List.mem_cons.1 hx with rfl | hx
    · exact hk
    · have := hU x hx
      rw [hr] at this
      exact this.of_update
  · rw [hr, hph.now, enFrom_update_late hu hk]
  · rw [hr]; exact hph.dict
  · intro j hj
    rw [hr, update_get, update_get, hph.late j hj]
  · intro u op' j hu'
    rw [hp] at hu'
    rw [hh]
    by_cases hut : u = t
    · subst hut
      rw [Function.update_self] at hu'
      cases hu'
    · rw [Function.update_of_ne hut] at hu'
      exact hph.held u op' j hu'

include hP hu0 in
/-- A call that finishes without changing the registry. -/
theorem CInv.quiet {s s' : CReg T} {R : Registry} {lin : List (Ent T)} (h : CInv env P r0 s R lin) {t : T} {op : RegOp} {resp : Resp}
    (hpc : s.pc t = .want op) (hn : ∀ nm, op ≠ .del nm)
    (hstep : s.writer = none ∧ s.r.step env op = .ok (resp, s.r) ∨ ∀ r : Registry, r.step env op = .ok (resp, r))
    (hr : s'.r = s.r) (hg : s'.gone = s.gone) (hw : s'.writer = s.writer) (hh : s'.hist = s.hist)
    (hp : s'.pc = Function.update s.pc t (.leave op resp)) :
    ∃ R' lin', CInv env P r0 s' R' lin' := by
  have hR : R.step env op = .ok (resp, R) := by
    rcases hstep with ⟨h1, h2⟩ | hstep
    · rcases h.mode with ⟨-, rfl⟩ | ⟨te, v, i, p1, p2, m, q, m1, -⟩
      · exact h2
      · rw [h1] at m1; cases m1
    · exact hstep R
  have hagg : ∀ k, s'.aggOf k = s.aggOf k := by intro k; unfold CReg.aggOf; rw [hr, hg]
  refine ⟨R, _, h.append hP hu0 (.inl hpc) hR hh hp (.inl rfl) (by rw [hr, hg]; exact h.gone) (fun k a _ ha => by rw [hagg]; exact ha)
    (fun _ _ _ a _ hs => .inl ⟨a, by rw [hr]; exact hs⟩) ?_ ?_⟩
  · intro u v i _ hu
    have := h.loc u
    rw [hu] at this
    rw [hw]
    exact this.2.2
  · rcases h.mode with ⟨m1, m2⟩ | ⟨te, v, i, p1, p2, m, q, m1, m2, hph⟩
    · exact .inl ⟨by rw [hw, m1], by rw [hr, m2]⟩
    · have hne : te ≠ t := by
        rintro rfl
        rw [hpc] at m2
        cases m2
      refine .inr ⟨te, v, i, p1, _, m, q, by rw [hw, m1], by rw [hp, Function.update_of_ne hne, m2],
        hph.append hn hh hp (fun U _ => ?_) (fun k hk => by rwa [hr] at hk) (by rw [hr]; exact hph.now) (by rw [hr])
          (fun j _ => by rw [hr])⟩
      rcases hstep with ⟨h1, h2⟩ | hstep
      · rw [h1] at m1; cases m1
      · exact hstep _

omit [DecidableEq T] in
theorem freeR_iff {s : CReg T} : s.freeR = true ↔ s.writer = none := by
  unfold CReg.freeR
  exact Option.isNone_iff_eq_none

omit [DecidableEq T] in
theorem freeW_writer {s : CReg T} (h : s.freeW = true) : s.writer = none := by
  unfold CReg.freeW at h
  rw [Bool.and_eq_true] at h
  exact Option.isNone_iff_eq_none.1 h.1

theorem CInv.free {s : CReg T} {R : Registry} {lin : List (Ent T)} (h : CInv env P r0 s R lin) (hw : s.writer = none) : R = s.r := by
  rcases h.mode with ⟨-, h⟩ | ⟨te, v, i, p1, p2, m, q, m1, -⟩
  · exact h
  · rw [hw] at m1; cases m1

include hP hu0 in
/-- A thread looks its aggregator up. -/
theorem CInv.look {s s' : CReg T} {R : Registry} {lin : List (Ent T)} (h : CInv env P r0 s R lin) {t : T} {op : RegOp} {id : Nat}
    (hpc : s.pc t = .want op) (hop : op.target = some id) (hm : s.look t op id = some s') : ∃ R' lin', CInv env P r0 s' R' lin' := by
  have hn : ∀ nm, op ≠ .del nm := by
    rintro nm rfl
    cases hop
  unfold CReg.look at hm
  split at hm
  · rename_i hf
    split at hm
    · rename_i hg
      cases hm
      refine h.quiet hP hu0 hpc hn ?_ rfl rfl rfl rfl rfl
      rcases hf with rfl | hf
      · exact .inr fun r => miss_step (by simp [getAggregator]) hop
      · exact .inl ⟨freeR_iff.1 hf, miss_step hg hop⟩
    · rename_i c hg
      cases hm
      have hl := h.loc t
      rw [hpc] at hl
      have hw : s.writer = none := by
        rcases hf with rfl | hf
        · simp [getAggregator] at hg
        · exact freeR_iff.1 hf
      refine ⟨R, lin, h.shift t (.have op c.ref) rfl rfl h.gone (fun _ _ _ _ _ _ _ h => h) (fun _ _ a hs => ⟨a, hs⟩) ?_ ⟨hl.1, hl.2.1, hl.2.2,
        .inl ⟨c.agg, ?_⟩⟩ (.inl ⟨hw, h.free hw⟩)⟩
      · intro u v i _ hu
        have := h.loc u
        rw [hu] at this
        exact this.2.2
      · cases op <;> cases hop <;> exact ⟨id, rfl, hg⟩
    · cases hm
  · cases hm

include hP hu0 in
theorem CInv.step [Fintype T] (hx : (∀ op, P op → ∀ p c1 c2 ts x, op ≠ .call p c1 c2 ts x) ∨
      (∀ op, P op → (∀ nm, op ≠ .del nm) ∧ ∀ v, op ≠ .enable v))
    {s s' : CReg T} {R : Registry} {lin : List (Ent T)} (h : CInv env P r0 s R lin) (hs : CReg.Step env P s s') :
    ∃ R' lin', CInv env P r0 s' R' lin' := by
  have hu := h.uniq hP hu0
  have hwr : ∀ u v i, s.pc u = .enab v i → s.writer = some u := by
    intro u v i hu
    have := h.loc u
    rw [hu] at this
    exact this.2.2
  cases hs with
  | call t op hp hi =>
    have hl := h.loc t
    rw [hi] at hl
    refine ⟨R, lin, h.event (s' := s.call t op) t (.inv t op) (.want op) rfl rfl rfl rfl rfl (fun u hu => ⟨?_, ?_⟩)
      (by rw [hi]; exact fun _ _ h => by cases h) (fun _ _ h => by cases h) ⟨?_, ?_, hp⟩⟩
    · exact resOf_call u t s.hist op
    · exact (invOf_call u t s.hist op).trans (by rw [if_neg (Ne.symm hu), List.append_nil])
    · exact hl.1.trans (resOf_call t t s.hist op).symm
    · refine (invOf_call t t s.hist op).trans ?_
      rw [if_pos rfl, hl.2]
      show _ = (resOf t (s.hist ++ [_])).map Prod.fst ++ _
      rw [resOf_call]
  | move _ t hm =>
    have hl := h.loc t
    unfold CReg.move at hm
    split at hm
    case h_1 => cases hm
    case h_2 op hpc =>
      rw [hpc] at hl
      obtain ⟨t1, t2, t3⟩ := hl
      have hop := hP op t3
      have none_enab : s.writer = none → ∀ u v i, u ≠ t → s.pc u = .enab v i → False := by
        intro hw u v i _ hu
        have := hwr u v i hu
        rw [hw] at this
        cases this
      rcases hop with hop | ⟨v, rfl⟩
      · cases op <;> try exact hop.elim
        case create q nm now =>
          unfold CReg.start CReg.create at hm
          simp only at hm
          split at hm
          · rename_i hf
            split at hm
            · rename_i id r hc
              cases hm
              by_cases hw : s.writer = none
              · obtain ⟨hg, hsp⟩ := create_grows hu hc
                refine ⟨r, _, h.append hP hu0 (.inl hpc) (s' := CReg.goto _ t _) (R' := r) ?_ rfl rfl (.inl rfl) ?_ ?_ ?_ ?_ ?_⟩
                · rw [h.free hw]; simp only [Registry.step, hc, bind_ok']
                · exact fun c hc => hg.noref _ (h.gone c hc)
                · intro k a hk ha
                  rw [aggOf_noref hk.1] at ha
                  rw [aggOf_noref (hg.noref k hk).1]
                  exact ha
                · exact fun u op' k a _ hs => .inl (hsp.sees hs)
                · exact fun u v i hut hu => (none_enab hw u v i hut hu).elim
                · exact .inl ⟨hw, rfl⟩
              · have hnm : nm = [] := by
                  rcases hf with hf | hf
                  · exact hf
                  · exact absurd (freeW_writer hf) hw
                subst hnm
                have he : ∀ x : Registry, x.createAggregator env q [] now = .ok (badId, x) := by
                  intro x; simp [createAggregator]
                rw [he] at hc
                cases hc
                refine h.quiet hP hu0 hpc (fun nm h => by cases h) (.inr fun x => ?_) rfl rfl rfl rfl rfl
                simp only [Registry.step, he, bind_ok']
            · cases hm
          · cases hm
        case addId => exact h.look hP hu0 hpc rfl hm
        case pop => exact h.look hP hu0 hpc rfl hm
        case forcePop => exact h.look hP hu0 hpc rfl hm
        case pusherId => exact h.look hP hu0 hpc rfl hm
        case direct => exact h.look hP hu0 hpc rfl hm
        case getName id =>
          unfold CReg.start at hm
          simp only at hm
          split at hm
          · rename_i hf
            cases hm
            exact h.quiet hP hu0 hpc (fun nm h => by cases h) (.inl ⟨freeR_iff.1 hf, rfl⟩) rfl rfl rfl rfl rfl
          · cases hm
        case setInit v =>
          unfold CReg.start at hm
          simp only at hm
          split at hm
          · rename_i hf
            have hw := freeW_writer hf
            cases hm
            refine ⟨s.r.setInitializer v, _, h.append hP hu0 (.inl hpc) (s' := CReg.goto _ t _) ?_ rfl rfl (.inl rfl) h.gone
              (fun _ _ _ h => h) (fun _ _ _ a _ hs => .inl ⟨a, by cases ‹RegOp› <;> exact hs⟩)
              (fun u v i hut hu => (none_enab hw u v i hut hu).elim) (.inl ⟨hw, rfl⟩)⟩
            rw [h.free hw]; rfl
          · cases hm
        case call p c1 c2 ts x =>
          have hx : ∀ op, P op → (∀ nm, op ≠ .del nm) ∧ ∀ v, op ≠ .enable v := by
            rcases hx with hx | hx
            · exact absurd rfl (hx _ t3 p c1 c2 ts x)
            · exact hx
          have hw : s.writer = none := by
            rcases h.mode with ⟨m1, -⟩ | ⟨te, v, i, p1, p2, m, q, -, -, hp⟩
            · exact m1
            · exact absurd rfl ((hx _ (h.book.calls (m, te, .enable v, .unit) (by rw [hp.lin]; simp))).2 v)
          have live : s.alive p.ref = true → ∃ a, At s.r p.ref a := by
            intro ha
            unfold CReg.alive at ha
            rw [Bool.or_eq_true] at ha
            rcases ha with ha | ha
            · obtain ⟨a, ha⟩ := Option.isSome_iff_exists.1 ha
              exact ⟨a, find_at ha⟩
            · obtain ⟨u, hu⟩ := of_decide_eq_true ha
              have hlu := h.loc u
              cases hq : s.pc u <;> rw [hq] at hu hlu <;> try cases hu
              · rcases hlu.2.2.2 with ⟨a, hs⟩ | ⟨l1, l2, m, td, nm, b, sd, s1, a, h1, -⟩
                · exact ⟨a, hs.at⟩
                · exact absurd rfl ((hx _ (h.book.calls (m, td, .del nm, .bool b) (by rw [h1]; simp))).1 nm)
              · exact hlu.elim
          unfold CReg.start at hm
          simp only at hm
          split at hm
          · rename_i ha
            cases hm
            obtain ⟨a, ha⟩ := live ha
            exact ⟨R, lin, h.shift t (.have _ p.ref) rfl rfl h.gone (fun _ _ _ _ _ _ _ h => h) (fun _ _ a hs => ⟨a, hs⟩)
              (fun u v i hut hu => (none_enab hw u v i hut hu).elim) ⟨t1, t2, t3, .inl ⟨a, rfl, ha⟩⟩ (.inl ⟨hw, h.free hw⟩)⟩
          · rename_i ha
            cases hm
            refine h.quiet hP hu0 hpc (fun nm h => by cases h) (.inl ⟨hw, ?_⟩) rfl rfl rfl rfl rfl
            have : s.r.find p.ref = none := by
              cases hf : s.r.find p.ref with
              | none => rfl
              | some a => exact absurd (by unfold CReg.alive; rw [hf]; rfl) ha
            simp only [Registry.step, call, this, bind_ok']
        case del nm =>
          unfold CReg.start at hm
          simp only at hm
          split at hm
          · rename_i hf
            have hw := freeW_writer hf
            split at hm
            · rename_i b r hd
              cases hm
              have hg := del_grows hu hd
              have hdrop : ∀ c ∈ CReg.dropped s.r nm, NoRef c.ref r ∧ At s.r c.ref c.agg := by
                intro c hc
                unfold CReg.dropped at hc
                cases hq : s.r.getAggregator (s.r.dict.getId nm) with
                | error e => rw [hq] at hc; cases hc
                | ok o =>
                  cases o with
                  | none => rw [hq] at hc; cases hc
                  | some c' =>
                    rw [hq] at hc
                    obtain rfl : c = c' := by simpa [Except.toOption] using hc
                    have hsees : Sees s.r (.pop (s.r.dict.getId nm)) c.ref c.agg := ⟨_, rfl, hq⟩
                    refine ⟨?_, hsees.at⟩
                    rcases del_sees hu hd hsees with hs | ⟨-, hn⟩
                    · exfalso
                      obtain ⟨_, e, hg'⟩ := hs
                      cases e
                      obtain ⟨hb, pos, hp, hc'⟩ := (getAgg_iff _ _ _).1 hg'
                      rcases del_split hd with ⟨h1, -, -⟩ | ⟨pos', -, hp', -, -, rfl⟩
                      · exact hb h1
                      · have : pos = pos' := by
                          have e : (.ok pos : M Nat) = .ok pos' := by
                            rw [← hp, ← hp']; exact id2pos_step (freeId_step _ _) _
                          cases e; rfl
                        subst this
                        exact (set_none_get hc').1 rfl
                    · exact hn
              refine ⟨r, _, h.append hP hu0 (.inl hpc) (s' := CReg.goto _ t _) (R' := r) (by rw [h.free hw]; exact del_spec hd) rfl rfl
                (.inl rfl) ?_ ?_ ?_ (fun u v i hut hu => (none_enab hw u v i hut hu).elim) (.inl ⟨hw, rfl⟩)⟩
              · intro c hc
                rcases List.mem_append.1 hc with hc | hc
                · exact hg.noref _ (h.gone c hc)
                · exact (hdrop c hc).1
              · intro k a hk ha
                rw [aggOf_noref hk.1] at ha
                rw [aggOf_noref (hg.noref k hk).1]
                show ((s.gone ++ CReg.dropped s.r nm).find? _).map Cell.agg = some a
                rw [List.find?_append]
                cases hf : s.gone.find? fun c => c.ref = k with
                | none => rw [hf] at ha; cases ha
                | some c => rw [hf] at ha; exact ha
              · intro u op' k a _ hs
                rcases del_sees hu hd hs with hs' | ⟨e, hn⟩
                · exact .inl ⟨a, hs'⟩
                · refine .inr ⟨nm, b, rfl, rfl, h.free hw, rfl, hd, hn, ?_⟩
                  rw [aggOf_noref hn.1]
                  show ((s.gone ++ CReg.dropped s.r nm).find? _).map Cell.agg = some a
                  rw [List.find?_append]
                  have : (s.gone.find? fun c => c.ref = k) = none := by
                    refine List.find?_eq_none.2 fun c hc he => ?_
                    have : c.ref = k := by simpa using he
                    exact (h.gone c hc).1 a (by rw [this]; exact hs.at)
                  rw [this, e]
                  simp
            · cases hm
          · cases hm
      · unfold CReg.start at hm
        simp only at hm
        split at hm
        · rename_i hf
          have hw := freeW_writer hf
          cases hm
          have hR := h.free hw
          refine ⟨s.r.enable v, _, h.append hP hu0 (.inl hpc) (s' := CReg.goto _ t _) (R' := s.r.enable v) (by rw [hR]; rfl) rfl rfl
            (.inr ⟨v, rfl, rfl, rfl, rfl⟩) h.gone (fun _ _ _ h => h) (fun _ _ _ a _ hs => .inl ⟨a, by cases ‹RegOp› <;> exact hs⟩)
            (fun u v i hut hu => (none_enab hw u v i hut hu).elim)
            (.inr ⟨t, v, 0, lin, [], s.hist.length, s.r, rfl, Function.update_self .., rfl, hR ▸ h.legal, fun U _ => .nil _,
              (enFrom_zero s.r v).symm, rfl, fun _ _ => rfl, by simp, ?_⟩)⟩
          intro u op k hu
          have hut : u ≠ t := by
            rintro rfl
            have : Function.update s.pc u (.enab v 0) u = .have op k := hu
            rw [Function.update_self] at this
            cases this
          refine ⟨?_, ?_⟩
          · show opsOf u [(t, _)] = []
            rw [opsOf_cons, if_neg (Ne.symm hut)]; rfl
          · show invOf u (s.hist.take s.hist.length) = _
            rw [List.take_length]; rfl
        · cases hm
    case h_3 hpc => rw [hpc] at hl; exact hl.elim
    case h_4 op k hpc =>
      rw [hpc] at hl
      obtain ⟨t1, t2, t3, t4⟩ := hl
      split at hm
      · cases hm
      · rename_i a ha
        split at hm
        · rename_i resp a' ops out huse
          cases hm
          rcases t4 with ⟨a0, hsees⟩ | hd
          · have hat := hsees.at
            have : a0 = a := by
              unfold CReg.aggOf at ha
              rw [(hu.find_iff k a0).2 hat] at ha
              cases ha; rfl
            subst this
            have hagg : ∀ j b, NoRef j s.r → s.aggOf j = some b → ((s.setAgg t k a' ops out).goto t (.leave op resp)).aggOf j = some b := by
              intro j b hj hb
              refine (aggOf_set_ne a' t ops out hj ?_).trans hb
              rintro rfl
              exact hj.1 a0 hat
            rcases h.mode with ⟨m1, m2⟩ | ⟨te, v, i, p1, p2, m, q, m1, m2, hph⟩
            · refine ⟨s.r.update k a', _, h.append hP hu0 (.inr ⟨k, hpc⟩) (s' := CReg.goto _ t _) (R' := s.r.update k a')
                (by rw [m2]; exact use_step hu hsees huse) rfl rfl (.inl rfl) (gone_set hu h.gone t k a' ops out) hagg
                (fun u op' j b _ hs => .inl ((samePlace_update s.r k a').sees hs)) ?_ (.inl ⟨m1, rfl⟩)⟩
              intro u v i _ hu
              have := hwr u v i hu
              rw [m1] at this
              cases this
            · by_cases hk : Late s.r i k
              · exact h.insertLate hP hu0 hpc hsees huse m1 m2 hph hk rfl
              · have hne : te ≠ t := by
                  rintro rfl
                  rw [hpc] at m2
                  cases m2
                have hnd : ∀ nm, op ≠ .del nm := by
                  rintro nm rfl
                  cases huse
                have hstep : ∀ U : List (Nat × Aggregator), (∀ x ∈ U, Late s.r i x.1) →
                    RegSpec env (R.updates U) op resp ((R.update k a').updates U) := by
                  intro U hU
                  have hUk : ∀ x ∈ U, x.1 ≠ k := fun x hx he => hk (he ▸ hU x hx)
                  rw [← updates_comm R U hUk]
                  refine use_step (uniq_updates (h.uniqR hP hu0) U) (sees_updates U hUk ?_) huse
                  rw [hph.now]
                  exact hsees.enFrom v hk
                refine ⟨R.update k a', _, h.append hP hu0 (.inr ⟨k, hpc⟩) (s' := CReg.goto _ t _) (R' := R.update k a')
                  (hstep [] (by simp)) rfl rfl (.inl rfl) (gone_set hu h.gone t k a' ops out) hagg
                  (fun u op' j b _ hs => .inl ((samePlace_update s.r k a').sees hs)) (fun u v i _ hu => hwr u v i hu)
                  (.inr ⟨te, v, i, p1, _, m, q, m1, ?_, hph.append hnd rfl rfl hstep (fun j hj => Late.of_update hj) ?_ rfl ?_⟩)⟩
                · show Function.update s.pc t _ te = _
                  rw [Function.update_of_ne hne, m2]
                · rw [hph.now]
                  exact (enFrom_update_early hk v a').symm
                · intro j hj
                  show (s.r.update k a').agarr[j]? = _
                  rw [update_get]
                  cases hc : s.r.agarr[j]? with
                  | none => rfl
                  | some o =>
                    cases o with
                    | none => rfl
                    | some c =>
                      have : c.ref ≠ k := fun he => hk ⟨j, c.agg, hj, by rw [hc, ← he]⟩
                      simp [this]
          · exact h.insert hP hu0 hpc hd ha huse rfl
        · cases hm
    case h_5 hpc => rw [hpc] at hl; exact hl.elim
    case h_6 hpc => rw [hpc] at hl; exact hl.elim
    case h_7 v i hpc =>
      rw [hpc] at hl
      obtain ⟨t1, t2, t3⟩ := hl
      obtain ⟨p1, p2, m, q, hph⟩ : ∃ p1 p2 m q, Phase env r0 s R lin t v i p1 p2 m q := by
        rcases h.mode with ⟨m1, -⟩ | ⟨te, v', i', p1, p2, m, q, m1, m2, hph⟩
        · rw [t3] at m1; cases m1
        · rw [t3] at m1
          cases m1
          rw [hpc] at m2
          cases m2
          exact ⟨p1, p2, m, q, hph⟩
      have other : ∀ u v' i', u ≠ t → s.pc u = .enab v' i' → False := by
        intro u v' i' hut hu
        have := hwr u v' i' hu
        rw [t3] at this
        cases this
        exact hut rfl
      have held : ∀ (p : CPc) (s1 : CReg T), (∀ op k, p ≠ .have op k) → s1.hist = s.hist → s1.pc = Function.update s.pc t p → ∀ u op k,
          s1.pc u = .have op k → opsOf u (seq ((m, t, .enable v, .unit) :: p2)) = [] ∧ invOf u (s1.hist.take m) = invOf u s1.hist := by
        intro p s1 hp hh hpc' u op k hu
        rw [hpc'] at hu
        rw [hh]
        by_cases hut : u = t
        · subst hut
          rw [Function.update_self] at hu
          exact absurd hu (hp op k)
        · rw [Function.update_of_ne hut] at hu
          exact hph.held u op k hu
      split at hm
      · split at hm
        · rename_i hj
          cases hm
          refine ⟨R, lin, h.shift t (.enab v (i + 1)) rfl rfl h.gone (fun _ _ _ _ _ _ _ h => h) (fun _ _ a hs => ⟨a, hs⟩)
            (fun u v i hut hu => (other u v i hut hu).elim) ⟨t1, t2, t3⟩
            (.inr ⟨t, v, i + 1, p1, p2, m, q, t3, Function.update_self .., hph.lin, hph.before,
              fun U hU => hph.after U fun x hx => (hU x hx).le (Nat.le_succ i), hph.now.trans (enFrom_none hj).symm, hph.dict,
              fun j hij => hph.late j (by omega), hph.nodel, held _ _ (fun _ _ h => by cases h) rfl rfl⟩)⟩
        · rename_i c hj
          cases hm
          have hc : s.r.agarr[i]? = some (some c) := by
            cases hc : s.r.agarr[i]? with
            | none => rw [hc] at hj; cases hj
            | some o => rw [hc] at hj; exact congrArg some hj
          refine ⟨R, lin, h.shift t (.enab v (i + 1)) rfl rfl (gone_set hu h.gone t c.ref (c.agg.enable v) [.enable v] []) ?_
            (fun _ _ a hs => (samePlace_update s.r c.ref (c.agg.enable v)).sees hs)
            (fun u v i hut hu => (other u v i hut hu).elim) ⟨t1, t2, t3⟩
            (.inr ⟨t, v, i + 1, p1, p2, m, q, t3, Function.update_self .., hph.lin, hph.before,
              fun U hU => hph.after U fun x hx => (Late.of_update (hU x hx)).le (Nat.le_succ i), ?_, hph.dict, ?_, hph.nodel,
              held _ _ (fun _ _ h => by cases h) rfl rfl⟩)⟩
          · intro u op k a _ _ hd ha
            have hk := h.detached_noref hP hu0 hd
            refine (aggOf_set_ne (c.agg.enable v) t [.enable v] [] hk ?_).trans ha
            rintro rfl
            exact hk.1 c.agg ⟨i, hc⟩
          · exact hph.now.trans (enFrom_some hu hc).symm
          · intro j hij
            rw [hph.late j (by omega)]
            show _ = (s.r.update c.ref (c.agg.enable v)).agarr[j]?
            rw [update_get]
            cases hc' : s.r.agarr[j]? with
            | none => rfl
            | some o =>
              cases o with
              | none => rfl
              | some c' =>
                have : c'.ref ≠ c.ref := fun he => by
                  have := hu.inj j i c' c hc' hc he
                  omega
                simp [this]
      · rename_i hlen
        cases hm
        have hR : R = s.r := by rw [hph.now]; exact enFrom_length s.r v (by omega)
        exact ⟨R, lin, h.shift t (.leave (.enable v) .unit) rfl rfl h.gone (fun _ _ _ _ _ _ _ h => h) (fun _ _ a hs => ⟨a, hs⟩)
          (fun u v i hut hu => (other u v i hut hu).elim) ⟨t1, t2⟩ (.inl ⟨rfl, hR⟩)⟩
    case h_8 op resp hpc =>
      rw [hpc] at hl
      cases hm
      refine ⟨R, lin, h.event (s' := CReg.goto _ t _) t (.res t op resp) .idle rfl rfl rfl rfl rfl (fun u hu => ⟨?_, ?_⟩)
        (by rw [hpc]; exact fun _ _ h => by cases h) (fun _ _ h => by cases h) ⟨?_, ?_⟩⟩
      · exact (resOf_res u t s.hist op resp).trans (by rw [if_neg (Ne.symm hu), List.append_nil])
      · exact invOf_res u t s.hist op resp
      · refine hl.1.trans ?_
        show _ = resOf t (s.hist ++ [_])
        rw [resOf_res, if_pos rfl]
      · show invOf t (s.hist ++ [_]) = (resOf t (s.hist ++ [_])).map Prod.fst
        rw [invOf_res, resOf_res, if_pos rfl, hl.2]
        simp

include hP hu0 in
theorem lin_plain [Fintype T] (hx : (∀ op, P op → ∀ p c1 c2 ts x, op ≠ .call p c1 c2 ts x) ∨
      (∀ op, P op → (∀ nm, op ≠ .del nm) ∧ ∀ v, op ≠ .enable v))
    {s : CReg T} (h : Relation.ReflTransGen (CReg.Step env P) (CReg.init r0) s) : Linearizable (RegSpec env) r0 s.hist := by
  have : ∃ R lin, CInv env P r0 s R lin := by
    induction h with
    | refl =>
      refine ⟨r0, [], .nil _, ⟨.nil, by simp, by simp, fun n _ t => ?_⟩, by simp [CReg.init], fun t => ⟨rfl, rfl⟩, .inl ⟨rfl, rfl⟩⟩
      have : ((CReg.init r0 : CReg T).hist.take n) = [] := List.take_nil
      rw [this]
      exact ⟨List.prefix_refl _, List.prefix_refl _⟩
    | tail _ hs ih =>
      obtain ⟨R, lin, hi⟩ := ih
      exact hi.step hP hu0 hx hs
  obtain ⟨R, lin, h⟩ := this
  refine ⟨seq lin, ⟨_, h.legal⟩, fun h1 h2 he => ?_⟩
  obtain ⟨l2, hl⟩ := upto_split h.book.sorted h1.length
  refine ⟨seq (upto h1.length lin), seq l2, ?_, fun t => ?_⟩
  · conv_lhs => rw [hl]
    exact seq_append _ _
  · have := h.book.splits h1.length (by rw [he]; simp) t
    rw [he, List.take_left'  rfl] at this
    exact this

end

end Registry
end Wrtstat
