/-
Reducers that share a pool of buffers: C90.
-/
import Verif.Model.PoolReducer
import Verif.Props.Pool
import Verif.Lemmas.RegistryStep
import Verif.Model.Instances

namespace Wrtstat

set_option autoImplicit false

variable {σ : Type}

/-- An allocator that, from a store satisfying `Inv`, hands out empty buffers only and is never in trouble. -/
structure Alloc.Clean (al : Alloc σ) (Inv : σ → Prop) : Prop where
  create : ∀ s, Inv s → ∃ s', al.create s = .ok ([], s') ∧ Inv s'
  free : ∀ s d, Inv s → Inv (al.free s d)

/-- `x` ends as `y` does, with a good store. -/
def Same {α : Type} (Inv : σ → Prop) (x : M (α × σ)) (y : M α) : Prop :=
  match y with
  | .ok a => ∃ s, Inv s ∧ x = .ok (a, s)
  | .error e => x = .error e

theorem Same.ok {α : Type} {Inv : σ → Prop} {a : α} {s : σ} (h : Inv s) : Same Inv (.ok (a, s)) (.ok a) := ⟨s, h, rfl⟩

namespace Reducer

variable {al : Alloc σ} {Inv : σ → Prop} (hc : al.Clean Inv) (env : Env)

include hc

theorem addA_same (r : Reducer) (s : σ) (hs : Inv s) (v : Int) : ∃ s', Inv s' ∧ addA_ al env (r, s) v = .ok (add_ env r v, s') := by
  unfold addA_ add_
  simp only
  split
  · split
    · exact ⟨s, hs, rfl⟩
    · obtain ⟨s', e, hs'⟩ := hc.create s hs
      exact ⟨s', hs', by rw [e]; rfl⟩
  · exact ⟨s, hs, rfl⟩

theorem foldA_same (vs : List Int) : ∀ (r : Reducer) (s : σ), Inv s →
    ∃ s', Inv s' ∧ vs.foldlM (addA_ al env) (r, s) = .ok (vs.foldl (add_ env) r, s') := by
  induction vs with
  | nil => exact fun r s hs => ⟨s, hs, rfl⟩
  | cons v vs ih =>
    intro r s hs
    obtain ⟨s', hs', e⟩ := addA_same hc env r s hs v
    obtain ⟨s2, hs2, e2⟩ := ih (add_ env r v) s' hs'
    exact ⟨s2, hs2, by rw [List.foldlM_cons, e]; exact e2⟩

theorem addManyA_same (r : Reducer) (s : σ) (hs : Inv s) (vs : List Int) (count : Nat) :
    ∃ s', Inv s' ∧ addManyA al env (r, s) vs count = .ok (addMany env r vs count, s') := by
  obtain ⟨s', hs', e⟩ := foldA_same hc env vs { r with empty := false } s hs
  exact ⟨s', hs', by unfold addManyA; rw [e]; rfl⟩

theorem addA_ok (r : Reducer) (s : σ) (hs : Inv s) (a : AddArg) :
    ∃ s', Inv s' ∧ addA al env (r, s) a = .ok (add env r a, s') := by
  cases a with
  | one v count =>
    obtain ⟨s', hs', e⟩ := addA_same hc env { r with empty := false } s hs v
    exact ⟨s', hs', by unfold addA addOneA; simp only; rw [e]; rfl⟩
  | many vs count => exact addManyA_same hc env r s hs vs count
  | init vs =>
    obtain ⟨s', hs', e⟩ := foldA_same hc env vs r s hs
    exact ⟨s', hs', by unfold addA addInitA; simp only; rw [e]; rfl⟩
  | reduced rd =>
    obtain ⟨s', hs', e⟩ := addManyA_same hc env r s hs rd.data rd.count
    exact ⟨s', hs', by unfold addA addReducedA; simp only; rw [e]; rfl⟩

theorem frees_good (l : List Buf) : ∀ s, Inv s → Inv (l.foldl al.free s) := by
  induction l with
  | nil => exact fun s hs => hs
  | cons d l ih => exact fun s hs => ih _ (hc.free s d hs)

theorem reduceA_same (r : Reducer) (s : σ) (hs : Inv s) : Same Inv (reduceA al env (r, s)) (reduce env r) := by
  unfold reduceA reduce
  simp only
  split
  · exact .ok hs
  · generalize (if r.curMode = .sorting then { r with data := onBack sortInts r.data } else r) = q
    split
    · exact .ok hs
    · cases reduceLoop env.nth q.curMode q.data.length q.opt.limit 0 q.data.length q.data with
      | error e => rfl
      | ok data => exact .ok (frees_good hc _ s hs)

theorem detachA_same (r : Reducer) (s : σ) (hs : Inv s) :
    Same Inv ((fun x => ((x.1, x.2.1), x.2.2)) <$> detachA al env (r, s)) (detach env r) := by
  unfold detachA detach
  split
  · exact .ok hs
  · have h := reduceA_same hc env r s hs
    cases e : reduce env r with
    | error f =>
      rw [e] at h
      have h : reduceA al env (r, s) = .error f := h
      rw [h]; rfl
    | ok r' =>
      rw [e] at h
      obtain ⟨s', hs', e'⟩ := h
      rw [e', bind_ok', bind_ok']
      simp only
      cases castInt r'.average with
      | error f => rfl
      | ok a => exact .ok hs'

theorem callA_same (r : Reducer) (s : σ) (hs : Inv s) (op : ROp) :
    Same Inv ((fun x => ((x.1, x.2.1), x.2.2)) <$> callA al env (r, s) op) (call env r op) := by
  cases op with
  | add a =>
    obtain ⟨s', hs', e⟩ := addA_ok hc env r s hs a
    unfold callA call
    simp only
    rw [e]
    exact .ok hs'
  | reduce =>
    have h := reduceA_same hc env r s hs
    unfold callA call
    simp only
    cases e : reduce env r with
    | error f =>
      rw [e] at h
      have h : reduceA al env (r, s) = .error f := h
      rw [h]; rfl
    | ok r' =>
      rw [e] at h
      obtain ⟨s', hs', e'⟩ := h
      rw [e']
      exact .ok hs'
  | clear => exact .ok hs
  | detach => exact detachA_same hc env r s hs
  | look =>
    have h := detachA_same hc env r.clone s hs
    unfold callA call getReducedA getReduced
    simp only
    cases e : detach env r.clone with
    | error f =>
      rw [e] at h
      cases e' : detachA al env (r.clone, s) with
      | error f' =>
        rw [e'] at h
        have h : f' = f := by simpa [Same, Functor.map, Except.map] using h
        subst h; rfl
      | ok x => rw [e'] at h; simp [Same, Functor.map, Except.map] at h
    | ok y =>
      rw [e] at h
      obtain ⟨s', hs', h⟩ := h
      cases e' : detachA al env (r.clone, s) with
      | error f' => rw [e'] at h; simp [Functor.map, Except.map] at h
      | ok x =>
        rw [e'] at h
        have h : ((x.1, x.2.1), x.2.2) = (y, s') := by simpa [Functor.map, Except.map] using h
        obtain ⟨a, b, c⟩ := x
        obtain ⟨y1, y2⟩ := y
        simp only [Prod.mk.injEq] at h
        obtain ⟨⟨rfl, rfl⟩, rfl⟩ := h
        exact .ok hs'

end Reducer

section Share

variable {ι : Type} [DecidableEq ι]

/-- Any allocator that hands out empty buffers is as good as new vectors: operations on reducers that share it return the
same, leave the same reducers, and fail in the same cases in the same way. -/
theorem C90_alloc {al : Alloc σ} {Inv : σ → Prop} (hc : al.Clean Inv) (env : Env) (os : List (ShareOp ι)) :
    ∀ (x : ι → Reducer) (s : σ), Inv s →
      match ownRun env x os with
      | .ok (l, y) => ∃ s', Inv s' ∧ shareRun al env (x, s) os = .ok (l, y, s')
      | .error f => shareRun al env (x, s) os = .error f := by
  induction os with
  | nil => exact fun x s hs => ⟨s, hs, rfl⟩
  | cons o os ih =>
    intro x s hs
    have key : match ownStep env x o with
        | .ok (res, y) => ∃ s', Inv s' ∧ shareStep al env (x, s) o = .ok (res, y, s')
        | .error f => shareStep al env (x, s) o = .error f := by
      cases o with
      | make i opt => exact ⟨s, hs, rfl⟩
      | call i op =>
        have h := Reducer.callA_same hc env (x i) s hs op
        unfold ownStep shareStep
        simp only
        cases e : Reducer.call env (x i) op with
        | error f =>
          rw [e] at h
          cases e' : Reducer.callA al env (x i, s) op with
          | error f' =>
            rw [e'] at h
            have h : f' = f := by simpa [Same, Functor.map, Except.map] using h
            subst h; rfl
          | ok z => rw [e'] at h; simp [Same, Functor.map, Except.map] at h
        | ok y =>
          rw [e] at h
          obtain ⟨s', hs', h⟩ := h
          cases e' : Reducer.callA al env (x i, s) op with
          | error f' => rw [e'] at h; simp [Functor.map, Except.map] at h
          | ok z =>
            rw [e'] at h
            have h : ((z.1, z.2.1), z.2.2) = (y, s') := by simpa [Functor.map, Except.map] using h
            obtain ⟨a, b, c⟩ := z
            obtain ⟨y1, y2⟩ := y
            simp only [Prod.mk.injEq] at h
            obtain ⟨⟨rfl, rfl⟩, rfl⟩ := h
            exact ⟨c, hs', rfl⟩
    unfold ownRun shareRun
    cases e : ownStep env x o with
    | error f => rw [e] at key; simp only at key; rw [key]; rfl
    | ok z =>
      obtain ⟨res, y⟩ := z
      rw [e] at key
      obtain ⟨s', hs', key⟩ := key
      rw [key, bind_ok', bind_ok']
      simp only
      have := ih y s' hs'
      cases e2 : ownRun env y os with
      | error f => rw [e2] at this; simp only at this; rw [this]; rfl
      | ok z2 =>
        obtain ⟨l, y2⟩ := z2
        rw [e2] at this
        obtain ⟨s2, hs2, this⟩ := this
        rw [this]
        exact ⟨s2, hs2, rfl⟩

end Share

namespace Pool

/-- Between calls of the only thread: no more than `pool_size` buffers, all empty. -/
def Rest (n : Nat) (s : Pool Unit) : Prop :=
  s.ub = false ∧ s.pc () = .idle ∧ s.poolSize = n ∧ s.items.length ≤ n ∧ ∀ d ∈ s.items, d = []

theorem init_rest (m n : Nat) : Rest n (init m n) := ⟨rfl, rfl, rfl, Nat.zero_le _, by simp [init]⟩

theorem alloc_clean (n : Nat) : alloc.Clean (Rest n) where
  create := by
    rintro s ⟨h1, h2, h3, h4, h5⟩
    show ∃ s', create s = .ok ([], s') ∧ Rest n s'
    unfold create
    by_cases he : s.items = []
    · have e : s.createTest () = { s with out := s.out ++ [[]] } := by simp [createTest, empty, he, clear]
      rw [e]
      refine ⟨{ s with out := s.out ++ [[]] }, ?_, h1, h2, h3, h4, h5⟩
      simp [h1, h2, deref, bind_ok']
    · have e : s.createTest () = { s with pc := Function.update s.pc () .popping } := by
        simp [createTest, empty, he]
      obtain ⟨d, hd⟩ : ∃ d, s.items.getLast? = some d := by
        cases h : s.items.getLast? with
        | none => rw [List.getLast?_eq_none_iff] at h; exact absurd h he
        | some d => exact ⟨d, rfl⟩
      have hd0 := h5 d (List.mem_of_getLast? hd)
      subst hd0
      rw [e]
      refine ⟨{ s with items := s.items.dropLast, out := s.out ++ [[]], pc := Function.update (Function.update s.pc () .popping) () .idle },
        ?_, h1, by simp, h3, ?_, fun x hx => h5 x ((List.dropLast_sublist _).mem hx)⟩
      · simp [createPop, hd, h1, deref, bind_ok']
      · show s.items.dropLast.length ≤ n
        simp only [List.length_dropLast]; omega
  free := by
    rintro s d ⟨h1, h2, h3, h4, h5⟩
    show Rest n (free s d)
    unfold free freeTest
    by_cases hf : s.filled = true
    · rw [if_pos hf]
      simp only [h2]
      exact ⟨h1, h2, h3, h4, h5⟩
    · rw [if_neg hf]
      simp only [Function.update_self, freePush]
      have hlt : s.items.length ≠ n := by simpa [filled, h3] using hf
      refine ⟨h1, by simp, h3, by simp; omega, ?_⟩
      intro x hx
      simp only [List.mem_append, List.mem_singleton] at hx
      rcases hx with hx | hx
      · exact h5 x hx
      · exact hx

end Pool

section Share

variable {ι : Type} [DecidableEq ι]

/-- The pool is unobservable: whatever reducers sharing a pool of any sizes are made to do by one thread, they return what
they would with new vectors, and end as they would; the pool never holds more than `pool_size` buffers, nor one that is
not empty. -/
theorem C90_pool (env : Env) (itemSize poolSize : Nat) (x : ι → Reducer) (os : List (ShareOp ι)) :
    (∀ l y, ownRun env x os = .ok (l, y) → ∃ s, shareRun Pool.alloc env (x, Pool.init itemSize poolSize) os = .ok (l, y, s) ∧
      s.items.length ≤ poolSize ∧ ∀ d ∈ s.items, d = []) ∧
    (∀ f, ownRun env x os = .error f → shareRun Pool.alloc env (x, Pool.init itemSize poolSize) os = .error f) := by
  have h := C90_alloc (Pool.alloc_clean poolSize) env os x (Pool.init itemSize poolSize) (Pool.init_rest _ _)
  constructor
  · intro l y e
    rw [e] at h
    obtain ⟨s, hs, h⟩ := h
    exact ⟨s, h, hs.2.2.2⟩
  · intro f e
    rw [e] at h
    exact h

/-- So is the allocator without handlers. -/
theorem C90_fresh (env : Env) (x : ι → Reducer) (os : List (ShareOp ι)) :
    (fun z : List (Option AggData) × (ι → Reducer) × Unit => (z.1, z.2.1)) <$> shareRun Alloc.fresh env (x, ()) os = ownRun env x os := by
  have h := C90_alloc (al := Alloc.fresh) (Inv := fun _ => True) ⟨fun s _ => ⟨s, rfl, trivial⟩, fun _ _ _ => trivial⟩ env os x () trivial
  cases e : ownRun env x os with
  | error f => rw [e] at h; simp only at h; rw [h]; rfl
  | ok z =>
    obtain ⟨l, y⟩ := z
    rw [e] at h
    obtain ⟨s, -, h⟩ := h
    rw [h]; rfl

end Share

/-- A first reducer fills two rows and gives the second one to the pool; a second reducer takes it from there.  Then the
same with a pool that forgets to clear: the second reducer shows values of the first. -/
def exShare : List (ShareOp Bool) :=
  [.make true { limit := 2, levels := 2, mode := .sorting }, .make false { limit := 3, levels := 2, mode := .sorting },
    .call true (.add (.init [4, 3, 2, 1])), .call true .look, .call true .detach, .call false (.add (.one 7 1)),
    .call false .look, .call false (.add (.init [8, 9, 10])), .call false .detach]

def exShareOuts {σ : Type} (al : Alloc σ) (s : σ) : M (List (List Int) × σ) :=
  (fun z => (z.1.filterMap (Option.map fun d => d.data), z.2.2)) <$> shareRun al exactEnv (fun _ => .new {}, s) exShare

example : (fun z => (z.1, z.2.items, z.2.out, z.2.back)) <$> exShareOuts Pool.alloc (Pool.init 2 1) =
    .ok ([[3, 2], [3, 2], [7], [7, 8, 9]], [[]], [[], [], [], []], [[1, 2]]) := by decide +kernel

example : Prod.fst <$> exShareOuts Alloc.fresh () = .ok [[3, 2], [3, 2], [7], [7, 8, 9]] := by decide +kernel

example : Prod.fst <$> exShareOuts { Pool.alloc with free := fun s d => { s with items := s.items ++ [d] } } (Pool.init 2 1) =
    .ok [[3, 2], [3, 2], [1, 2, 7], [1, 2, 7]] := by decide +kernel

end Wrtstat
