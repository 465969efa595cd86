/-
C180: the moves of the older hash map.
-/
import Verif.Model.LegacyMove
import Verif.Props.LegacyHash

namespace Wrtstat
namespace Legacy

set_option autoImplicit false

open Multi (PushArg)

variable {I : Type} [DecidableEq I]

/-! ### Programs -/

/-- What a program does: build a map at a free address, push to the one at an address, move the one at `j` to `i`. -/
inductive POp (I : Type) where
  | make (i : I) (hash : Name → Nat) (opt : MultiOpts)
  | use (i : I) (p : PushArg × Bool)
  | move (i j : I)

/-- What handlers were given and what was answered by the pushes to what an address holds now. -/
abbrev PSeen (I : Type) := I → List (Name × AggData) × List (Name × Bool)

/-- A step of a program. -/
def pstep (env : Env) (zeroed : I → Bool) (s : HHeap I × PSeen I) : POp I → M (HHeap I × PSeen I)
  | .make i hash opt =>
    match s.1 i with
    | some _ => .error .ub
    | none => .ok (s.1.put i (HMap.new (zeroed i) hash opt), fun k => if k = i then ([], []) else s.2 k)
  | .use i p =>
    match s.1 i with
    | none => .error .ub
    | some h => do
      let o ← hexec env { m := h.m, delivered := (s.2 i).1, answers := (s.2 i).2 } p
      .ok (s.1.put i { h with m := o.m }, fun k => if k = i then (o.delivered, o.answers) else s.2 k)
  | .move i j => do
    let h ← s.1.move zeroed i j
    .ok (h, fun k => if k = j then ([], []) else if k = i then s.2 j else s.2 k)

/-- A program. -/
def prun (env : Env) (zeroed : I → Bool) (ops : List (POp I)) : M (HHeap I × PSeen I) :=
  ops.foldlM (pstep env zeroed) (fun _ => none, fun _ => ([], []))

/-- Where the contents at an address come from: the arguments of the constructor, and the pushes to them wherever they were. -/
abbrev POrigin := Option ((Name → Nat) × MultiOpts × List (PushArg × Bool))

/-- The origins after a step. -/
def porigin (g : I → POrigin) : POp I → I → POrigin
  | .make i hash opt => fun k => if k = i then some (hash, opt, []) else g k
  | .use i p => fun k => if k = i then (g i).map fun (h, o, l) => (h, o, l ++ [p]) else g k
  | .move i j => fun k => if k = j then none else if k = i then g j else g k

/-- The origins after a program. -/
def porigins (ops : List (POp I)) : I → POrigin := ops.foldl porigin fun _ => none

/-- The operation builds the object at `i`, or assigns to it. -/
def POp.to (i : I) : POp I → Bool
  | .make k _ _ => decide (k = i)
  | .use _ _ => false
  | .move k _ => decide (k = i)

/-- How often an object at `i` was built or assigned to.  Objects are not destroyed, so all but the first are assignments. -/
def times (ops : List (POp I)) (i : I) : Nat := (ops.filter (POp.to i)).length

/-! ### C180 -/

/-- The claim: an older hash map can be moved to another one. -/
def C180_FullClaim : Prop :=
  ∀ (env : Env) (zeroed : Bool → Bool) (ops : List (POp Bool)) (s : HHeap Bool × PSeen Bool), prun env zeroed ops = .ok s →
    (s.1 false).isSome = true → (s.1 true).isSome = true → ∃ s', pstep env zeroed s (.move true false) = .ok s'

/-- What holds in every state: the contents are those of an object never moved, and `_hash_size` is known exactly in zeroed storage and where
there was an assignment, and is 0 there. -/
structure PTold (env : Env) (zeroed : I → Bool) (ops : List (POp I)) (s : HHeap I × PSeen I) : Prop where
  live : ∀ i hash opt l, porigins ops i = some (hash, opt, l) → ∃ h, s.1 i = some h ∧
    hexecAll env { m := Multi.new hash opt } l = .ok { m := h.m, delivered := (s.2 i).1, answers := (s.2 i).2 }
  dead : ∀ i, porigins ops i = none → s.2 i = ([], []) ∧ ∀ h, s.1 i = some h → h.m.shards = []
  absent : ∀ i, s.1 i = none → times ops i = 0
  present : ∀ i h, s.1 i = some h → 1 ≤ times ops i ∧ h.hashSize = if zeroed i = true ∨ 2 ≤ times ops i then some 0 else none

omit [DecidableEq I] in
theorem hashPush_dead (env : Env) (m : Multi) (hd : m.shards = []) (p : PushArg) (handler : Bool) :
    hashPush env m p handler = .error (if m.opt.hashSize = 0 then .divByZero else .ub) := by
  simp only [hashPush, Multi.getPos]
  split <;> simp [Multi.shard, hd, bind, Except.bind]

theorem times_snoc (ops : List (POp I)) (op : POp I) (i : I) : times (ops ++ [op]) i = times ops i + if op.to i = true then 1 else 0 := by
  unfold times
  rw [List.filter_append, List.length_append, List.filter_cons]
  split <;> simp

theorem porigins_snoc (ops : List (POp I)) (op : POp I) : porigins (ops ++ [op]) = porigin (porigins ops) op := by
  simp [porigins, List.foldl_append]

/-- What a move does to the heap. -/
theorem move_spec {zeroed : I → Bool} {h h' : HHeap I} {i j : I} (e : h.move zeroed i j = .ok h') :
    ∃ src, h j = some src ∧ (h i = none ∨ src.hashSize ≠ none) ∧ (∃ d, h' j = some d ∧ d.m.shards = [] ∧ d.hashSize = src.hashSize) ∧
      (i ≠ j → ∃ d, h' i = some d ∧ d.m = src.m ∧ d.hashSize = if h i = none then blank (zeroed i) else src.hashSize) ∧
      ∀ k, k ≠ i → k ≠ j → h' k = h k := by
  unfold HHeap.move at e
  cases hj : h j with
  | none => rw [hj] at e; cases e
  | some src =>
    rw [hj] at e
    refine ⟨src, rfl, ?_⟩
    cases hi : h i with
    | none =>
      rw [hi] at e
      cases e
      refine ⟨.inl rfl, ⟨_, if_pos rfl, rfl, rfl⟩, fun hne => ⟨_, (if_neg hne).trans (if_pos rfl), rfl, ?_⟩, fun k h1 h2 => by simp only [HHeap.put, if_neg h1, if_neg h2]⟩
      simp [HMap.moveNew]
    | some tgt =>
      rw [hi] at e
      simp only at e
      split_ifs at e with hij
      · subst hij
        obtain ⟨m, h1, h2⟩ := bind_inv e
        cases h2
        unfold HMap.moveSelf at h1
        cases hn : src.hashSize with
        | none => rw [hn] at h1; cases h1
        | some n =>
          rw [hn] at h1
          cases h1
          exact ⟨.inr (by simp), ⟨_, if_pos rfl, rfl, rfl⟩, fun h => absurd rfl h, fun k h1 _ => by simp only [HHeap.put, if_neg h1]⟩
      · obtain ⟨⟨a, b⟩, h1, h2⟩ := bind_inv e
        cases h2
        unfold HMap.moveAssign at h1
        cases hn : src.hashSize with
        | none => rw [hn] at h1; cases h1
        | some n =>
          rw [hn] at h1
          cases h1
          exact ⟨.inr (by simp), ⟨_, if_pos rfl, rfl, rfl⟩,
            fun hne => ⟨_, (if_neg hne).trans (if_pos rfl), rfl, by simp⟩, fun k h1 h2 => by simp only [HHeap.put, if_neg h1, if_neg h2]⟩

theorem ptold_step {env : Env} {zeroed : I → Bool} {ops : List (POp I)} {s s' : HHeap I × PSeen I} (T : PTold env zeroed ops s) (op : POp I)
    (e : pstep env zeroed s op = .ok s') : PTold env zeroed (ops ++ [op]) s' := by
  have hO := porigins_snoc ops op
  cases op with
  | make i hash opt =>
    simp only [pstep] at e
    split at e
    · cases e
    rename_i hn
    cases e
    have h0 := T.absent i hn
    refine ⟨fun k hash' opt' l hg => ?_, fun k hg => ?_, fun k hk => ?_, fun k h hk => ?_⟩
    · rw [hO] at hg
      by_cases hki : k = i
      · subst hki
        simp only [porigin, if_true] at hg
        cases hg
        exact ⟨_, if_pos rfl, by simp [HMap.new, hexecAll, pure, Except.pure]⟩
      · simp only [porigin, if_neg hki] at hg
        simp only [HHeap.put, if_neg hki]
        exact T.live k _ _ _ hg
    · rw [hO] at hg
      by_cases hki : k = i
      · subst hki
        simp only [porigin, if_true] at hg
        cases hg
      · simp only [porigin, if_neg hki] at hg
        simp only [HHeap.put, if_neg hki]
        exact T.dead k hg
    · by_cases hki : k = i
      · subst hki
        simp [HHeap.put] at hk
      · simp only [HHeap.put, if_neg hki] at hk
        rw [times_snoc, T.absent k hk]
        simp [POp.to, Ne.symm hki]
    · by_cases hki : k = i
      · subst hki
        simp only [HHeap.put, if_true] at hk
        cases hk
        rw [times_snoc, h0]
        simp [POp.to, HMap.new, blank]
      · simp only [HHeap.put, if_neg hki] at hk
        rw [times_snoc]
        simpa [POp.to, Ne.symm hki] using T.present k h hk
  | use i p =>
    simp only [pstep] at e
    split at e
    · cases e
    rename_i h0 hs0
    obtain ⟨o, e1, e2⟩ := bind_inv e
    cases e2
    refine ⟨fun k hash' opt' l hg => ?_, fun k hg => ?_, fun k hk => ?_, fun k h hk => ?_⟩
    · rw [hO] at hg
      by_cases hki : k = i
      · subst hki
        simp only [porigin, if_true] at hg
        obtain ⟨⟨h1, o1, l1⟩, hg1, hg2⟩ := Option.map_eq_some_iff.1 hg
        cases hg2
        obtain ⟨h2, hh, hr⟩ := T.live k _ _ _ hg1
        rw [hs0] at hh
        cases hh
        refine ⟨_, if_pos rfl, ?_⟩
        simp only [hexecAll, List.foldlM_append, if_true] at hr ⊢
        rw [hr]
        simp [List.foldlM, bind, Except.bind, e1, pure, Except.pure]
      · simp only [porigin, if_neg hki] at hg
        simp only [HHeap.put, if_neg hki]
        exact T.live k _ _ _ hg
    · rw [hO] at hg
      by_cases hki : k = i
      · subst hki
        simp only [porigin, if_true] at hg
        rw [Option.map_eq_none_iff] at hg
        have hd := (T.dead k hg).2 h0 hs0
        unfold hexec at e1
        rw [hashPush_dead env _ hd] at e1
        cases e1
      · simp only [porigin, if_neg hki] at hg
        simp only [HHeap.put, if_neg hki]
        exact T.dead k hg
    · by_cases hki : k = i
      · subst hki
        simp [HHeap.put] at hk
      · simp only [HHeap.put, if_neg hki] at hk
        rw [times_snoc, T.absent k hk]
        simp [POp.to]
    · rw [times_snoc]
      by_cases hki : k = i
      · subst hki
        simp only [HHeap.put, if_true] at hk
        cases hk
        simpa [POp.to] using T.present k h0 hs0
      · simp only [HHeap.put, if_neg hki] at hk
        simpa [POp.to] using T.present k h hk
  | move i j =>
    simp only [pstep] at e
    obtain ⟨h', e1, e2⟩ := bind_inv e
    cases e2
    obtain ⟨src, hj, hor, ⟨d, d1, d2, d3⟩, hi, hrest⟩ := move_spec e1
    have hsrc := T.present j src hj
    refine ⟨fun k hash' opt' l hg => ?_, fun k hg => ?_, fun k hk => ?_, fun k h hk => ?_⟩
    · rw [hO] at hg
      by_cases hkj : k = j
      · subst hkj
        simp only [porigin, if_true] at hg
        cases hg
      by_cases hki : k = i
      · subst hki
        simp only [porigin, if_neg hkj, if_true] at hg
        obtain ⟨f, f1, f2, -⟩ := hi hkj
        obtain ⟨g, g1, g2⟩ := T.live j _ _ _ hg
        rw [hj] at g1
        cases g1
        refine ⟨f, f1, ?_⟩
        simp only [if_neg hkj, if_true, f2]
        exact g2
      · simp only [porigin, if_neg hkj, if_neg hki] at hg
        simp only [if_neg hkj, if_neg hki, hrest k hki hkj]
        exact T.live k _ _ _ hg
    · rw [hO] at hg
      by_cases hkj : k = j
      · subst hkj
        refine ⟨by simp, fun h hh => ?_⟩
        simp only [d1] at hh
        cases hh
        exact d2
      by_cases hki : k = i
      · subst hki
        simp only [porigin, if_neg hkj, if_true] at hg
        obtain ⟨f, f1, f2, -⟩ := hi hkj
        obtain ⟨g1, g2⟩ := T.dead j hg
        refine ⟨by simp only [if_neg hkj, if_true]; exact g1, fun h hh => ?_⟩
        simp only [f1] at hh
        cases hh
        rw [f2]
        exact g2 src hj
      · simp only [porigin, if_neg hkj, if_neg hki] at hg
        simp only [if_neg hkj, if_neg hki, hrest k hki hkj]
        exact T.dead k hg
    · by_cases hkj : k = j
      · subst hkj
        simp only [d1] at hk
        cases hk
      by_cases hki : k = i
      · subst hki
        obtain ⟨f, f1, -⟩ := hi hkj
        simp only [f1] at hk
        cases hk
      · simp only [hrest k hki hkj] at hk
        rw [times_snoc, T.absent k hk]
        simp [POp.to, Ne.symm hki]
    · rw [times_snoc]
      by_cases hki : k = i
      · subst hki
        by_cases hkj : k = j
        · subst hkj
          simp only [d1] at hk
          cases hk
          rcases hor with x | x
          · rw [hj] at x; cases x
          · have h2 : d.hashSize = some 0 := by
              rw [d3]
              have := hsrc.2
              split_ifs at this with hq
              · exact this
              · exact absurd this x
            have := hsrc.1
            refine ⟨by omega, ?_⟩
            rw [h2, if_pos]
            right
            simp [POp.to]
            omega
        · obtain ⟨f, f1, -, f3⟩ := hi hkj
          simp only [f1] at hk
          cases hk
          cases hsk : s.1 k with
          | none =>
            rw [T.absent k hsk]
            refine ⟨by simp [POp.to], ?_⟩
            rw [f3, if_pos hsk]
            simp [POp.to, blank]
          | some t0 =>
            have h1 := (T.present k t0 hsk).1
            refine ⟨by omega, ?_⟩
            rw [f3, if_neg (by rw [hsk]; simp), if_pos (by right; simp [POp.to]; omega)]
            rcases hor with x | x
            · rw [hsk] at x; cases x
            · have := hsrc.2
              split_ifs at this with hq
              · exact this
              · exact absurd this x
      · by_cases hkj : k = j
        · subst hkj
          simp only [d1] at hk
          cases hk
          rw [d3]
          simpa [POp.to, Ne.symm hki] using hsrc
        · simp only [hrest k hki hkj] at hk
          simpa [POp.to, Ne.symm hki] using T.present k h hk

theorem ptold_run {env : Env} {zeroed : I → Bool} {ops : List (POp I)} {s : HHeap I × PSeen I} (h : prun env zeroed ops = .ok s) :
    PTold env zeroed ops s := by
  induction ops using List.reverseRecOn generalizing s with
  | nil =>
    cases h
    exact ⟨fun _ _ _ _ h => (by cases h), fun _ _ => ⟨rfl, fun _ h => (by cases h)⟩, fun _ _ => rfl, fun _ _ h => (by cases h)⟩
  | append_singleton ops op ih =>
    unfold prun at h
    rw [List.foldlM_append] at h
    obtain ⟨s1, h1, h2⟩ := bind_inv h
    have h3 : pstep env zeroed s1 op = .ok s := by
      rw [List.foldlM_cons] at h2
      obtain ⟨s2, h3, h4⟩ := bind_inv h2
      cases h4
      exact h3
    exact ptold_step (ih h1) op h3

/-- The claim is refuted: two maps are built and one is assigned to the other, which copies a member that was never given a value. -/
theorem C180_refuted : ¬ C180_FullClaim := by
  intro h
  obtain ⟨s', hs'⟩ := h exactEnv (fun _ => false) [.make false (fun n => n.length) ExMulti.opt, .make true (fun n => n.length) ExMulti.opt] _ rfl rfl rfl
  cases hs'

/-- What remains: the member is 0 or indeterminate, and when it is which. -/
theorem C180_member_partial (env : Env) (zeroed : I → Bool) (ops : List (POp I)) (s : HHeap I × PSeen I) (h : prun env zeroed ops = .ok s)
    (i : I) (o : HMap) (ho : s.1 i = some o) :
    o.hashSize = if zeroed i = true ∨ 2 ≤ times ops i then some 0 else none :=
  ((ptold_run h).present i o ho).2

/-- What remains: a move is defined exactly if there is something to move and it is a construction, or the object moved from is in static or
thread storage, or was assigned to before. -/
theorem C180_exact_partial (env : Env) (zeroed : I → Bool) (ops : List (POp I)) (s : HHeap I × PSeen I) (h : prun env zeroed ops = .ok s) (i j : I) :
    (∃ s', pstep env zeroed s (.move i j) = .ok s') ↔ 1 ≤ times ops j ∧ (times ops i = 0 ∨ zeroed j = true ∨ 2 ≤ times ops j) := by
  have T := ptold_run h
  constructor
  · rintro ⟨s', e⟩
    obtain ⟨h', e1, -⟩ := bind_inv e
    obtain ⟨src, hj, hor, -⟩ := move_spec e1
    have hsrc := T.present j src hj
    refine ⟨hsrc.1, ?_⟩
    rcases hor with x | x
    · exact .inl (T.absent i x)
    · right
      by_contra hc
      exact x (by rw [hsrc.2, if_neg hc])
  · rintro ⟨h1, h2⟩
    cases hj : s.1 j with
    | none => rw [T.absent j hj] at h1; omega
    | some src =>
      have hsrc := T.present j src hj
      cases hi : s.1 i with
      | none =>
        simp only [pstep, HHeap.move, hj, hi, bind_ok']
        exact ⟨_, rfl⟩
      | some tgt =>
        have := (T.present i tgt hi).1
        have hn : src.hashSize = some 0 := by
          rw [hsrc.2, if_pos]
          rcases h2 with x | x
          · omega
          · exact x
        by_cases hij : i = j
        · simp only [pstep, HHeap.move, hj, hi, if_pos hij, HMap.moveSelf, hn, bind_ok']
          exact ⟨_, rfl⟩
        · simp only [pstep, HHeap.move, hj, hi, if_neg hij, HMap.moveAssign, hn, bind_ok']
          exact ⟨_, rfl⟩

/-- What remains: without objects in static or thread storage no program that is defined assigns at all. -/
theorem C180_never_partial (env : Env) (ops : List (POp I)) (s : HHeap I × PSeen I) (h : prun env (fun _ => false) ops = .ok s) (i : I) :
    times ops i ≤ 1 := by
  induction ops using List.reverseRecOn generalizing s i with
  | nil => exact Nat.zero_le _
  | append_singleton ops op ih =>
    unfold prun at h
    rw [List.foldlM_append] at h
    obtain ⟨s1, h1, h2⟩ := bind_inv h
    rw [List.foldlM_cons] at h2
    obtain ⟨s2, h3, -⟩ := bind_inv h2
    have T := ptold_run (show prun env (fun _ => false) ops = .ok s1 from h1)
    rw [times_snoc]
    have hi := ih s1 h1 i
    cases op with
    | make k hash opt =>
      by_cases hk : k = i
      · subst hk
        simp only [pstep] at h3
        split at h3
        · cases h3
        · rename_i hn
          rw [T.absent k hn]
          simp [POp.to]
      · simpa [POp.to, hk] using hi
    | use k p => simpa [POp.to] using hi
    | move k j =>
      by_cases hk : k = i
      · subst hk
        have := ((C180_exact_partial env _ ops s1 h1 k j).1 ⟨s2, h3⟩).2
        have hj := ih s1 h1 j
        rcases this with x | x | x
        · rw [x]; simp [POp.to]
        · cases x
        · omega
      · simpa [POp.to, hk] using hi

/-- What remains: in every program that is defined, the contents at an address are those of one map, built as they were and given the pushes
to them wherever they were, and so is what handlers were given and what was answered.  Where they were moved away nothing is left. -/
theorem C180_lineage_partial (env : Env) (zeroed : I → Bool) (ops : List (POp I)) (s : HHeap I × PSeen I) (h : prun env zeroed ops = .ok s) (i : I) :
    (∀ hash opt l, porigins ops i = some (hash, opt, l) → ∃ o, s.1 i = some o ∧
      hexecAll env { m := Multi.new hash opt } l = .ok { m := o.m, delivered := (s.2 i).1, answers := (s.2 i).2 }) ∧
    (porigins ops i = none → s.2 i = ([], []) ∧ ∀ o, s.1 i = some o → o.m.shards = []) :=
  ⟨(ptold_run h).live i, (ptold_run h).dead i⟩

/-- What remains: a push to a map moved from indexes an empty vector, or divides by zero when there are no shards. -/
theorem C180_moved_from_partial (env : Env) (zeroed : I → Bool) (s s' : HHeap I × PSeen I) (i j : I)
    (h : pstep env zeroed s (.move i j) = .ok s') (p : PushArg × Bool) : ∀ s'', pstep env zeroed s' (.use j p) ≠ .ok s'' := by
  intro s'' e
  obtain ⟨h', e1, e2⟩ := bind_inv h
  cases e2
  obtain ⟨src, -, -, ⟨d, d1, d2, -⟩, -⟩ := move_spec e1
  simp only [pstep, d1] at e
  obtain ⟨o, e1, -⟩ := bind_inv e
  unfold hexec at e1
  rw [hashPush_dead env _ d2] at e1
  cases e1

/-! ### A program -/

open ExMulti in
/-- A map is used, moved to a new one and used there.  An assignment back is undefined, unless the map moved from is static. -/
def exMoves (back : Bool) : List (POp Bool) :=
  [.make false (fun n => n.length) opt, .use false (arg na 1003 [5], true), .move true false, .use true (arg na 1004 [7], true)] ++
  (if back = true then [.move false true, .use false (arg na 1012 [9], true)] else [.use true (arg na 1012 [9], true)])

open ExMulti in
example :
    Passes (prun exactEnv (fun _ => false) (exMoves false)) (fun s =>
      decide ((s.2 true).1.map (fun p => (p.1, p.2.ts, p.2.data)) = [(na, 1000, [5, 7])] ∧ (s.2 true).2 = [(na, true), (na, true), (na, true)])) = true ∧
    Passes (prun exactEnv (fun _ => false) (exMoves true)) (fun _ => true) = false ∧
    Passes (prun exactEnv (fun i => !i) (exMoves true)) (fun _ => true) = false ∧
    Passes (prun exactEnv (fun i => i) (exMoves true)) (fun s =>
      decide ((s.2 false).1.map (fun p => (p.1, p.2.ts, p.2.data)) = [(na, 1000, [5, 7])] ∧ (s.1 true).map (fun h => h.m.shards) = some [])) = true := by
  decide +kernel

end Legacy
end Wrtstat
