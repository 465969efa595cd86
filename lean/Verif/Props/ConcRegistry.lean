/-
C84: when calls on one registry by several threads look as if they were made one after the other.
-/
import Verif.Lemmas.ConcLin
import Verif.Props.Registry

namespace Wrtstat
namespace Registry

set_option autoImplicit false

open Relation

/-- The claim, for threads that make only calls in `P`. -/
def C84_FullClaim (P : RegOp → Prop) : Prop :=
  ∀ (T : Type) [Fintype T] [DecidableEq T] (env : Env) (opt : RegistryOpts) (s : CReg T),
    ReflTransGen (CReg.Step env P) (CReg.init (Registry.new opt)) s → Linearizable (RegSpec env) (Registry.new opt) s.hist

/-! ### Histories of two threads that are not linearizable -/

/-- Merges of `a :: as` with a list, given the merges of `as`. -/
def mergeCons {α : Type} (a : α) (as : List α) (f : List α → List (List (Bool × α))) : List α → List (List (Bool × α))
  | [] => [(a :: as).map fun a => (true, a)]
  | b :: bs => ((f (b :: bs)).map fun l => (true, a) :: l) ++ ((mergeCons a as f bs).map fun l => (false, b) :: l)

/-- All ways to merge the calls of two threads. -/
def merges {α : Type} : List α → List α → List (List (Bool × α))
  | [] => fun bs => [bs.map fun b => (false, b)]
  | a :: as => mergeCons a as (merges as)

theorem merges_false {α : Type} (b : α) (as bs : List α) (l : List (Bool × α)) (h : l ∈ merges as bs) :
    (false, b) :: l ∈ merges as (b :: bs) := by
  cases as with
  | nil => simp only [merges, List.mem_singleton] at h ⊢; rw [h]; rfl
  | cons a as => simp only [merges, mergeCons, List.mem_append, List.mem_map]; exact .inr ⟨l, h, rfl⟩

theorem merges_nil {α : Type} (as : List α) : merges as [] = [as.map fun a => (true, a)] := by
  cases as <;> rfl

theorem merges_true {α : Type} (a : α) (as bs : List α) (l : List (Bool × α)) (h : l ∈ merges as bs) :
    (true, a) :: l ∈ merges (a :: as) bs := by
  cases bs with
  | nil => rw [merges_nil, List.mem_singleton] at h ⊢; rw [h]; rfl
  | cons b bs => simp only [merges, mergeCons, List.mem_append, List.mem_map]; exact .inl ⟨l, h, rfl⟩

theorem mem_merges {Op Ret : Type} (l : List (Bool × Op × Ret)) : l ∈ merges (opsOf true l) (opsOf false l) := by
  induction l with
  | nil => simp [merges, opsOf]
  | cons e l ih =>
    obtain ⟨t, e⟩ := e
    cases t with
    | true =>
      rw [show opsOf true ((true, e) :: l) = e :: opsOf true l from rfl, show opsOf false ((true, e) :: l) = opsOf false l from rfl]
      exact merges_true e _ _ _ ih
    | false =>
      rw [show opsOf true ((false, e) :: l) = opsOf true l from rfl, show opsOf false ((false, e) :: l) = e :: opsOf false l from rfl]
      exact merges_false e _ _ _ ih

/-- Test a sequence of calls. -/
def legalB (env : Env) (r : Registry) : List (Bool × RegOp × Resp) → Bool
  | [] => true
  | (_, op, resp) :: l =>
    match r.step env op with
    | .ok (x, r') => decide (x = resp) && legalB env r' l
    | .error _ => false

theorem legalB_of_legal {env : Env} {r r' : Registry} {l : List (Bool × RegOp × Resp)} (h : Legal (RegSpec env) r l r') :
    legalB env r l = true := by
  induction h with
  | nil => rfl
  | cons s s1 s2 t op x l h _ ih =>
    unfold legalB
    rw [show s.step env op = .ok (x, s1) from h]
    simpa using ih

/-- All calls have returned and no merge of them has their results. -/
def noOrder (env : Env) (r : Registry) (h : List (HEv Bool RegOp Resp)) : Bool :=
  decide ((invOf true h).length = (resOf true h).length ∧ (invOf false h).length = (resOf false h).length) &&
    (merges (resOf true h) (resOf false h)).all fun l => !legalB env r l

theorem not_linearizable {env : Env} {r : Registry} {h : List (HEv Bool RegOp Resp)} (hn : noOrder env r h = true) :
    ¬ Linearizable (RegSpec env) r h := by
  rintro ⟨lin, ⟨s1, hl⟩, hs⟩
  obtain ⟨l1, l2, rfl, hb⟩ := hs h [] (by simp)
  obtain ⟨s2, hl, -⟩ := legal_of_append hl
  unfold noOrder at hn
  rw [Bool.and_eq_true, decide_eq_true_eq, List.all_eq_true] at hn
  obtain ⟨⟨n1, n2⟩, hn⟩ := hn
  have key : ∀ t, (invOf t h).length = (resOf t h).length → opsOf t l1 = resOf t h := by
    intro t ht
    have h1 := (hb t).1
    have h2 := (hb t).2.length_le
    rw [List.length_map] at h2
    exact (h1.eq_of_length_le (by omega)).symm
  have hm := mem_merges l1
  rw [key true n1, key false n2] at hm
  have := hn l1 hm
  rw [legalB_of_legal hl] at this
  cases this

namespace CReg

theorem play_reach {T : Type} [Fintype T] [DecidableEq T] {env : Env} {P : RegOp → Prop} (l : List (Turn T)) {s0 s s' : CReg T}
    (hP : ∀ t op, .call t op ∈ l → P op) (h0 : ReflTransGen (Step env P) s0 s) (h : play env s l = some s') :
    ReflTransGen (Step env P) s0 s' := by
  induction l generalizing s with
  | nil => cases h; exact h0
  | cons x l ih =>
    have hP' : ∀ t op, .call t op ∈ l → P op := fun t op hx => hP t op (List.mem_cons_of_mem _ hx)
    cases x with
    | call t op =>
      unfold play at h
      split at h
      · rename_i hp
        exact ih hP' (h0.tail (.call s t op (hP t op (by simp)) hp)) h
      · cases h
    | go t =>
      unfold play at h
      split at h
      · rename_i s1 hm
        exact ih hP' (h0.tail (.move s s1 t hm)) h
      · cases h

/-- A call made and carried out without interruption, in `n` steps. -/
def alone {T : Type} (t : T) (op : RegOp) (n : Nat) : List (Turn T) := .call t op :: List.replicate n (.go t)

end CReg

open CReg in
theorem C84_witness {P : RegOp → Prop} (env : Env) (opt : RegistryOpts) (l : List (Turn Bool))
    (hP : ∀ t op, .call t op ∈ l → P op)
    (h : (match play env (init (Registry.new opt)) l with
      | some s => noOrder env (Registry.new opt) s.hist
      | none => false) = true) : ¬ C84_FullClaim P := by
  intro hc
  split at h
  · rename_i s hs
    exact not_linearizable h (hc Bool env opt s (play_reach l hP .refl hs))
  · cases h

open CReg in
/-- `add(name, data)` creates the aggregator, visible to others, before it adds the data: another thread sees the name
and pops nothing, although the call succeeds. -/
theorem C84_add_refuted : ¬ C84_FullClaim (fun op => (∃ q n c1 c2 rd, op = .addData q n c1 c2 rd) ∨ (∃ id, op = .getName id) ∨
    ∃ id, op = .forcePop id) :=
  C84_witness exactEnv { limit := 3, levels := 2, step := 10, resolution := .seconds }
    ([.call true (.addData { clk := 1000 } ['a'] 0 0 { ts := 1003, count := 1, min := 5, max := 5, data := [5] }), .go true] ++
      alone false (.getName 1) 2 ++ alone false (.forcePop 1) 3 ++ [.go true, .go true, .go true])
    (by simp [alone]) (by decide +kernel)

open CReg in
/-- `pop_all` is not a snapshot: it misses an event and reports a later one. -/
theorem C84_pop_all_refuted : ¬ C84_FullClaim (fun op => (∃ q n t, op = .create q n t) ∨ (∃ f c, op = .popAll f c) ∨
    ∃ id c1 c2 t v n, op = .addId id c1 c2 t v n) :=
  C84_witness exactEnv { limit := 3, levels := 2, step := 10, resolution := .seconds }
    (alone false (.create { clk := 1000 } ['a'] 1003) 2 ++ alone false (.create { clk := 1000 } ['b'] 1003) 2 ++
      [.call true (.popAll true fun _ => 1003), .go true, .go true, .go true, .go true] ++
      alone false (.addId 1 0 0 1004 5 1) 3 ++ alone false (.addId 2 0 0 1004 6 1) 3 ++ [.go true, .go true, .go true, .go true])
    (by simp [alone]) (by decide +kernel)

open CReg in
/-- `enable(false)` disables one aggregator after the other: a pusher whose aggregator is already disabled is ignored, and
a later call of a pusher of another one is not. -/
theorem C84_enable_refuted : ¬ C84_FullClaim (fun op => (∃ q n t, op = .create q n t) ∨ (∃ v, op = .enable v) ∨
    (∃ p c1 c2 t x, op = .call p c1 c2 t x) ∨ ∃ id, op = .forcePop id) :=
  C84_witness exactEnv { limit := 3, levels := 2, step := 10, resolution := .seconds }
    (alone false (.create { clk := 1000 } ['a'] 1003) 2 ++ alone false (.create { clk := 1000 } ['b'] 1003) 2 ++
      [.call true (.enable false), .go true, .go true, .go true] ++
      alone false (.call { ref := 0, p := { token := true, handler := false } } 0 0 1004 (.one 5 1)) 3 ++
      alone false (.call { ref := 1, p := { token := true, handler := false } } 0 0 1004 (.one 6 1)) 3 ++
      [.go true, .go true, .go true] ++ alone false (.forcePop 1) 3 ++ alone false (.forcePop 2) 3)
    (by simp [alone]) (by decide +kernel)

open CReg in
/-- A pusher still delivers records after its name has been deleted, while another thread has a pointer to the aggregator. -/
theorem C84_del_refuted : ¬ C84_FullClaim (fun op => (∃ q n t, op = .create q n t) ∨ (∃ n, op = .del n) ∨
    (∃ p c1 c2 t x, op = .call p c1 c2 t x) ∨ ∃ id c1 c2 t v n, op = .addId id c1 c2 t v n) :=
  C84_witness exactEnv { limit := 3, levels := 2, step := 10, resolution := .seconds }
    (alone false (.create { clk := 1000 } ['a'] 1003) 2 ++
      alone false (.call { ref := 0, p := { token := true, handler := true } } 0 0 1004 (.one 7 1)) 3 ++
      [.call true (.addId 1 0 0 1004 5 1), .go true] ++ alone false (.del ['a']) 2 ++
      alone false (.call { ref := 0, p := { token := true, handler := true } } 0 0 1014 (.one 8 1)) 3 ++ [.go true, .go true])
    (by simp [alone]) (by decide +kernel)

theorem uniq_new (opt : RegistryOpts) : Uniq (Registry.new opt) :=
  ⟨fun i j c c' h => by simp [Registry.new] at h, fun i c h => by simp [Registry.new] at h⟩

/-- The calls that are one critical section, or looking an aggregator up and one critical section of it, are
linearizable together, and so are these together with `enable`, as long as there are no calls of pushers together with
`del` or `enable`.  Missing: what the refutations above exclude. -/
theorem C84_partial :
    C84_FullClaim (fun op => op.simple ∧ ∀ nm, op ≠ .del nm) ∧
    C84_FullClaim (fun op => (op.simple ∨ ∃ v, op = .enable v) ∧ ∀ p c1 c2 ts x, op ≠ .call p c1 c2 ts x) :=
  ⟨fun _ _ _ _ opt _ h => lin_plain (fun _ h => .inl h.1) (uniq_new opt)
      (.inr fun _ h => ⟨h.2, by rintro v rfl; exact h.1.elim⟩) h,
   fun _ _ _ _ opt _ h => lin_plain (fun _ h => h.1) (uniq_new opt) (.inl fun _ h => h.2) h⟩

/-- Thread `true` looks the aggregator up; the other one pops it, deletes the name, and finds nothing any more; then the
event is added to the removed aggregator, and the call returns true.  In the sequential order the event comes after the
pop and before the deletion. -/
def exConc : List (CReg.Turn Bool) :=
  CReg.alone false (.create { clk := 1000 } ['a'] 1003) 2 ++ [.call true (.addId 1 0 0 1004 5 1), .go true] ++
    CReg.alone false (.forcePop 1) 3 ++ CReg.alone false (.del ['a']) 2 ++ CReg.alone false (.forcePop 1) 2 ++ [.go true, .go true]

def exConcOpt : RegistryOpts := { limit := 3, levels := 2, step := 10, resolution := .seconds }

example : (match CReg.play exactEnv (CReg.init (Registry.new exConcOpt)) exConc with
    | some s => decide ((resOf true s.hist).map Prod.snd = [.bool true] ∧
        (resOf false s.hist).map Prod.snd = [.id 1, .record none, .bool false, .record none] ∧
        s.gone.map (fun c => c.agg.sep.reducer.totalCount) = [1])
    | none => false) = true := by decide +kernel

example : ∃ s, CReg.play exactEnv (CReg.init (Registry.new exConcOpt)) exConc = some s ∧
    Linearizable (RegSpec exactEnv) (Registry.new exConcOpt) s.hist := by
  have h : (CReg.play exactEnv (CReg.init (Registry.new exConcOpt)) exConc).isSome = true := by decide +kernel
  obtain ⟨s, hs⟩ := Option.isSome_iff_exists.1 h
  exact ⟨s, hs, C84_partial.2 Bool exactEnv exConcOpt s
    (CReg.play_reach exConc (by simp [exConc, CReg.alone, RegOp.simple]) .refl hs)⟩

/-- Thread `1` and thread `2` look their aggregators up, then thread `0` disables one after the other.  In between, thread
`1` adds to the first one, already disabled, and after that call has returned thread `2` adds to the second one, not
yet disabled.  In the sequential order the event of thread `2` comes first; an aggregator created later is disabled. -/
def exEnab : List (CReg.Turn (Fin 3)) :=
  CReg.alone 0 (.create { clk := 1000 } ['a'] 1003) 2 ++ CReg.alone 0 (.create { clk := 1000 } ['b'] 1003) 2 ++
    [.call 1 (.addId 1 0 0 1004 5 1), .go 1, .call 2 (.addId 2 0 0 1004 6 1), .go 2] ++
    [.call 0 (.enable false), .go 0, .go 0, .go 0] ++ [.go 1, .go 1] ++ [.go 2, .go 2] ++ [.go 0, .go 0, .go 0] ++
    CReg.alone 0 (.create { clk := 1000 } ['c'] 1003) 2

example : (match CReg.play exactEnv (CReg.init (Registry.new exConcOpt)) exEnab with
    | some s => decide ((resOf 1 s.hist).map Prod.snd = [.bool true] ∧ (resOf 2 s.hist).map Prod.snd = [.bool true] ∧
        s.r.agarr.map (fun o => o.map fun c => (c.agg.sep.reducer.totalCount, c.agg.enabled)) =
          [none, some (0, false), some (1, false), some (0, false)])
    | none => false) = true := by decide +kernel

example : ∃ s, CReg.play exactEnv (CReg.init (Registry.new exConcOpt)) exEnab = some s ∧
    Linearizable (RegSpec exactEnv) (Registry.new exConcOpt) s.hist := by
  have h : (CReg.play exactEnv (CReg.init (Registry.new exConcOpt)) exEnab).isSome = true := by decide +kernel
  obtain ⟨s, hs⟩ := Option.isSome_iff_exists.1 h
  refine ⟨s, hs, C84_partial.2 (Fin 3) exactEnv exConcOpt s (CReg.play_reach exEnab ?_ .refl hs)⟩
  intro t op h
  simp [exEnab, CReg.alone] at h
  rcases h with ⟨-, rfl⟩ | ⟨-, rfl⟩ | ⟨-, rfl⟩ | ⟨-, rfl⟩ | ⟨-, rfl⟩ | ⟨-, rfl⟩ <;> simp [RegOp.simple]

end Registry
end Wrtstat
