/-
Property of the moves of a multi-aggregator: C108.
-/
import Verif.Model.MultiMove
import Verif.Props.Multi

namespace Wrtstat

set_option autoImplicit false

namespace Multi

variable {I : Type} [DecidableEq I]

/-! ### Runs of programs with several objects -/

/-- What a program does: build an object at a free address, use the object at an address, move the
object at `j` to `i`. -/
inductive HOp (I : Type) where
  | make (i : I) (hash : Name → Nat) (opt : MultiOpts)
  | use (i : I) (op : MOp)
  | move (i j : I)

/-- The objects, and for every one what was handed over and answered by the operations made on what it
holds now: a record that moves with the contents. -/
abbrev Seen (I : Type) := I → List PushReq × List (Name × Bool)

/-- A step of a program. -/
def hstep (env : Env) (s : Heap I × Seen I) : HOp I → M (Heap I × Seen I)
  | .make i hash opt =>
    match s.1 i with
    | some _ => .error .ub
    | none => .ok (s.1.put i (Multi.new hash opt), fun k => if k = i then ([], []) else s.2 k)
  | .use i op =>
    match s.1 i with
    | none => .error .ub
    | some m => do
      let o ← mexec env { m := m, delivered := (s.2 i).1, answers := (s.2 i).2 } op
      .ok (s.1.put i o.m, fun k => if k = i then (o.delivered, o.answers) else s.2 k)
  | .move i j => do
    let h ← s.1.move i j
    .ok (h, fun k => if k = j then ([], []) else if k = i then s.2 j else s.2 k)

/-- A program. -/
def hrun (env : Env) (ops : List (HOp I)) : M (Heap I × Seen I) :=
  ops.foldlM (hstep env) (fun _ => none, fun _ => ([], []))

/-- Where the contents at an address come from: the arguments of the constructor, and the operations
made on them wherever they were.  `none` after they were moved away. -/
abbrev Origin := Option ((Name → Nat) × MultiOpts × List MOp)

/-- The origins after a step. -/
def origin (g : I → Origin) : HOp I → I → Origin
  | .make i hash opt => fun k => if k = i then some (hash, opt, []) else g k
  | .use i op => fun k => if k = i then (g i).map fun (h, o, l) => (h, o, l ++ [op]) else g k
  | .move i j => fun k => if k = j then none else if k = i then g j else g k

/-- The origins after a program. -/
def origins (ops : List (HOp I)) : I → Origin := ops.foldl origin fun _ => none

/-! ### C108 -/

/-- The claim: an object that was moved from may be used as any other, and what was recorded is not
lost by a move. -/
def C108_FullClaim : Prop :=
  (∀ (env : Env) (m : Multi) (p : PushArg), 0 < m.opt.hashSize → m.shards.length = m.opt.hashSize →
    (∃ r, m.push env p.name p.v p.clk p.rand p.clk1 p.clk2 true = .ok r) →
    ∃ r, m.moveNew.2.push env p.name p.v p.clk p.rand p.clk1 p.clk2 true = .ok r) ∧
  (∀ (tgt src : Multi), tgt.size.2 + src.size.2 = (tgt.moveAssign src).1.size.2 + (tgt.moveAssign src).2.size.2)

namespace ExMultiMove

open ExMulti

/-- Two samples of a name wait in the first object, three in the second. -/
def held2 : Option Multi :=
  ((mexecAll exactEnv { m := Multi.new (fun n => n.length) ExMulti.opt } [.push (arg na 1003 [5, 2]) true]).toOption).map MObs.m
def held3 : Option Multi :=
  ((mexecAll exactEnv { m := Multi.new (fun n => n.length) ExMulti.opt } [.push (arg nb 1003 [5, 7, 9]) true]).toOption).map MObs.m

/-- A program: build, record, move, record at the new place, give out, build again at the old place by
assigning. -/
def prog : List (HOp Bool) :=
  [.make false (fun n => n.length) ExMulti.opt, .use false (.push (arg na 1003 [5]) true), .move true false,
   .use true (.push (arg na 1004 [7]) true), .use false (.pushout true true ord), .use true (.pushout true true ord),
   .use true (.push (arg nb 1014 [3]) true), .move false true, .use false (.pushout true true ord)]

end ExMultiMove

open ExMulti ExMultiMove in
example : Passes (hrun exactEnv prog) (fun s =>
    decide ((s.2 false).1.map (fun p => (p.1, p.2.ts, p.2.data)) = [(na, 1000, [5, 7]), (nb, 1010, [3])]) &&
    decide ((s.2 false).2 = [(na, true), (na, true), (nb, true)]) &&
    decide ((s.2 true).1 = []) && decide ((s.1 true).map (fun m => m.shards) = some [])) = true := by
  decide +kernel

open ExMulti ExMultiMove in
example : (held2.map fun m => (m.size, m.moveNew.1.size, m.moveNew.2.size)) = some ((1, 2), (1, 2), (0, 0)) ∧
    (held2.bind fun a => held3.map fun b => ((a.moveAssign b).1.size, (a.moveAssign b).2.size)) = some ((1, 3), (0, 0)) ∧
    (held3.map fun m => m.moveSelf.size) = some (0, 0) := by
  decide +kernel

/-- The claim is refuted: a push on an object moved from indexes an empty vector. -/
theorem C108_refuted : ¬ C108_FullClaim := by
  rintro ⟨h, -⟩
  obtain ⟨r, hr⟩ := h exactEnv (Multi.new (fun n => n.length) ExMulti.opt) (ExMulti.arg ExMulti.na 1003 [5]) (by decide)
    (by decide) (by
      have : Passes ((Multi.new (fun n => n.length) ExMulti.opt).push exactEnv ExMulti.na (ExMulti.red 1003 [5]) 0 0 0 0 true)
          (fun _ => true) = true := by decide +kernel
      exact (of_passes this).imp fun _ h => h.1)
  have : Passes ((Multi.new (fun n => n.length) ExMulti.opt).moveNew.2.push exactEnv ExMulti.na (ExMulti.red 1003 [5]) 0 0 0 0
      true) (fun _ => true) = false := by decide +kernel
  change push _ _ ExMulti.na (ExMulti.red 1003 [5]) 0 0 0 0 true = _ at hr
  rw [hr] at this
  cases this

/-- The other half is refuted as well: an assignment destroys the samples waiting in the target. -/
theorem C108_lost : ¬ ∀ (tgt src : Multi),
    tgt.size.2 + src.size.2 = (tgt.moveAssign src).1.size.2 + (tgt.moveAssign src).2.size.2 := by
  intro h
  have h1 : ∃ m, ExMultiMove.held2 = some m ∧ m.size.2 = 2 := by
    have : (ExMultiMove.held2.map fun m => m.size.2) = some 2 := by decide +kernel
    simpa [Option.map_eq_some_iff] using this
  obtain ⟨m, -, hm⟩ := h1
  have := h m (Multi.new (fun n => n.length) ExMulti.opt)
  rw [hm] at this
  have e : (Multi.new (fun n => n.length) ExMulti.opt).size.2 = 0 := by decide
  have e1 : (m.moveAssign (Multi.new (fun n => n.length) ExMulti.opt)).1.size.2 = 0 := by
    show (Multi.new (fun n => n.length) ExMulti.opt).size.2 = 0
    decide
  have e2 : (m.moveAssign (Multi.new (fun n => n.length) ExMulti.opt)).2.size.2 = 0 := rfl
  omega

/-- What remains: exactly what is lost by a move assignment is what waited in the target. -/
theorem C108_exact_partial (tgt src : Multi) :
    (tgt.moveAssign src).1.size = src.size ∧ (tgt.moveAssign src).2.size = (0, 0) ∧
    (tgt.size.2 + src.size.2 = (tgt.moveAssign src).1.size.2 + (tgt.moveAssign src).2.size.2 ↔ tgt.size.2 = 0) := by
  have e1 : (tgt.moveAssign src).1.size = src.size := rfl
  have e2 : (tgt.moveAssign src).2.size = (0, 0) := rfl
  refine ⟨e1, e2, ?_⟩
  rw [e1, e2]
  show _ = src.size.2 + 0 ↔ _
  omega

/-- An object without shards: every push and every `del` faults, the other operations do nothing. -/
theorem mexec_dead (env : Env) (o : MObs) (hd : o.m.shards = []) (op : MOp) :
    (∀ p handler, op = .push p handler → ∀ r, mexec env o op ≠ .ok r) ∧
    (∀ name, op = .del name → ∀ r, mexec env o op ≠ .ok r) ∧
    (∀ p ps handler, op = .multiPush (p :: ps) handler → ∀ r, mexec env o op ≠ .ok r) ∧
    (∀ handler, op = .multiPush [] handler → mexec env o op = .ok o) ∧
    (∀ force handler ord, op = .pushout force handler ord → mexec env o op = .ok o) := by
  have hp : ∀ (p : PushArg) (handler : Bool) r, o.m.push env p.name p.v p.clk p.rand p.clk1 p.clk2 handler ≠ .ok r := by
    intro p handler r h
    simp only [push, getPos] at h
    split at h
    · cases h
    · simp [shard, hd, bind, Except.bind] at h
  refine ⟨?_, ?_, ?_, ?_, ?_⟩
  · rintro p handler rfl r h
    simp only [mexec] at h
    cases hq : o.m.push env p.name p.v p.clk p.rand p.clk1 p.clk2 handler with
    | error e => rw [hq] at h; cases h
    | ok q => exact hp p handler q hq
  · rintro name rfl r h
    simp only [mexec, del, getPos] at h
    split at h
    · cases h
    · simp [shard, hd, bind, Except.bind] at h
  · rintro p ps handler rfl r h
    simp only [mexec, multiPush] at h
    cases hq : o.m.push env p.name p.v p.clk p.rand p.clk1 p.clk2 handler with
    | error e => rw [hq] at h; cases h
    | ok q => exact hp p handler q hq
  · rintro handler rfl
    simp [mexec, multiPush, bind, Except.bind]
  · rintro force handler ord rfl
    obtain ⟨⟨opt, hash, shards⟩, d, a⟩ := o
    simp only at hd
    subst hd
    simp [mexec, popAll, popShards, bind, Except.bind]

/-- What remains: an object moved from, however it was moved, answers every push and every `del` with
undefined behaviour (with a division by zero when there are no shards at all); giving out and counting
find nothing, and do no harm. -/
theorem C108_moved_from_partial (env : Env) (m : Multi) :
    (∀ (p : PushArg) (handler : Bool), m.movedFrom.push env p.name p.v p.clk p.rand p.clk1 p.clk2 handler =
      .error (if m.opt.hashSize = 0 then .divByZero else .ub)) ∧
    (∀ name, m.movedFrom.del name = .error (if m.opt.hashSize = 0 then .divByZero else .ub)) ∧
    (∀ force handler ord, m.movedFrom.popAll env force handler ord = .ok ([], m.movedFrom)) ∧
    m.movedFrom.size = (0, 0) ∧ m.moveNew.2 = m.movedFrom ∧ (∀ tgt : Multi, (tgt.moveAssign m).2 = m.movedFrom) ∧
    m.moveSelf = m.movedFrom := by
  refine ⟨?_, ?_, fun _ _ _ => rfl, rfl, rfl, fun _ => rfl, rfl⟩
  · intro p handler
    simp only [push, getPos, movedFrom]
    split <;> simp [shard, bind, Except.bind, *]
  · intro name
    simp only [del, getPos, movedFrom]
    split <;> simp [shard, bind, Except.bind, *]

/-- What the record of the contents at every address says. -/
def Told (env : Env) (g : I → Origin) (s : Heap I × Seen I) : Prop :=
  ∀ i,
    (∀ hash opt l, g i = some (hash, opt, l) → ∃ m, s.1 i = some m ∧
      mexecAll env { m := Multi.new hash opt } l = .ok { m := m, delivered := (s.2 i).1, answers := (s.2 i).2 }) ∧
    (g i = none → s.2 i = ([], []) ∧ ∀ m, s.1 i = some m → m.shards = [])

theorem told_step (env : Env) (g : I → Origin) (s s' : Heap I × Seen I) (op : HOp I) (ht : Told env g s)
    (h : hstep env s op = .ok s') : Told env (origin g op) s' := by
  cases op with
  | make i hash opt =>
    simp only [hstep] at h
    split at h
    · cases h
    · next hn =>
      injection h with h
      subst h
      intro k
      by_cases hk : k = i
      · subst hk
        simp only [origin, Heap.put, if_true]
        refine ⟨?_, fun h => (by cases h)⟩
        rintro hash' opt' l hg
        injection hg with hg
        injection hg with h1 hg
        injection hg with h2 h3
        subst h1 h2 h3
        exact ⟨_, rfl, rfl⟩
      · simp only [origin, Heap.put, if_neg hk]
        exact ht k
  | use i op =>
    simp only [hstep] at h
    split at h
    · cases h
    · next m hm =>
      cases ho : mexec env { m := m, delivered := (s.2 i).1, answers := (s.2 i).2 } op with
      | error e => rw [ho] at h; cases h
      | ok o =>
        rw [ho] at h
        injection h with h
        subst h
        intro k
        by_cases hk : k = i
        · subst hk
          simp only [origin, Heap.put, if_true]
          refine ⟨?_, ?_⟩
          · rintro hash' opt' l hg
            rw [Option.map_eq_some_iff] at hg
            obtain ⟨⟨h1, o1, l1⟩, hg1, hg2⟩ := hg
            injection hg2 with e1 e2
            injection e2 with e2 e3
            subst e1 e2 e3
            obtain ⟨m', hm', hr⟩ := (ht k).1 _ _ _ hg1
            rw [hm] at hm'
            injection hm' with hm'
            subst hm'
            refine ⟨_, rfl, ?_⟩
            simp only [mexecAll, List.foldlM_append] at hr ⊢
            rw [hr]
            simp [List.foldlM, bind, Except.bind, ho, pure, Except.pure]
          · intro hg
            rw [Option.map_eq_none_iff] at hg
            obtain ⟨hs, hd⟩ := (ht k).2 hg
            have hd := hd m hm
            have hq := mexec_dead env { m := m, delivered := (s.2 k).1, answers := (s.2 k).2 } hd op
            have hsame : o = { m := m, delivered := (s.2 k).1, answers := (s.2 k).2 } := by
              cases op with
              | push p handler => exact absurd ho (hq.1 p handler rfl o)
              | del name => exact absurd ho (hq.2.1 name rfl o)
              | multiPush ps handler =>
                cases ps with
                | nil => rw [hq.2.2.2.1 handler rfl] at ho; injection ho with ho; exact ho.symm
                | cons p ps => exact absurd ho (hq.2.2.1 p ps handler rfl o)
              | pushout force handler ord => rw [hq.2.2.2.2 force handler ord rfl] at ho; injection ho with ho; exact ho.symm
            subst hsame
            refine ⟨hs, ?_⟩
            rintro m' hm'
            injection hm' with hm'
            subst hm'
            exact hd
        · simp only [origin, Heap.put, if_neg hk]
          exact ht k
  | move i j =>
    simp only [hstep, Heap.move] at h
    cases hj : s.1 j with
    | none => rw [hj] at h; cases h
    | some src =>
      rw [hj] at h
      have key : ∃ h', s' = (h', fun k => if k = j then ([], []) else if k = i then s.2 j else s.2 k) ∧
          (∀ m, h' j = some m → m.shards = []) ∧ (i ≠ j → h' i = some src) ∧ ∀ k, k ≠ i → k ≠ j → h' k = s.1 k := by
        cases hi : s.1 i with
        | none =>
          simp only [hi] at h
          injection h with h
          subst h
          refine ⟨_, rfl, ?_, ?_, ?_⟩
          · intro m hm
            simp only [Heap.put, if_true] at hm
            injection hm with hm
            subst hm
            rfl
          · intro hne
            simp [Heap.put, hne, moveNew]
          · intro k h1 h2
            simp [Heap.put, h1, h2]
        | some tgt =>
          simp only [hi] at h
          by_cases hij : i = j
          · rw [if_pos hij] at h
            injection h with h
            subst h
            subst hij
            refine ⟨_, rfl, ?_, fun h => absurd rfl h, ?_⟩
            · intro m hm
              simp only [Heap.put, if_true] at hm
              injection hm with hm
              subst hm
              rfl
            · intro k h1 _
              simp [Heap.put, h1]
          · rw [if_neg hij] at h
            injection h with h
            subst h
            refine ⟨_, rfl, ?_, ?_, ?_⟩
            · intro m hm
              simp only [Heap.put, if_true] at hm
              injection hm with hm
              subst hm
              rfl
            · intro hne
              simp [Heap.put, hne, moveAssign]
            · intro k h1 h2
              simp [Heap.put, h1, h2]
      obtain ⟨h', rfl, hdead, hmoved, hrest⟩ := key
      intro k
      by_cases hkj : k = j
      · subst hkj
        simp only [origin, if_true]
        exact ⟨fun _ _ _ h => (by cases h), fun _ => ⟨by simp, hdead⟩⟩
      · by_cases hki : k = i
        · subst hki
          simp only [origin, if_neg hkj, if_true]
          refine ⟨?_, ?_⟩
          · rintro hash opt l hg
            obtain ⟨m, hm, hr⟩ := (ht j).1 _ _ _ hg
            rw [hj] at hm
            injection hm with hm
            subst hm
            exact ⟨src, hmoved hkj, hr⟩
          · intro hg
            obtain ⟨hs, hd⟩ := (ht j).2 hg
            refine ⟨hs, ?_⟩
            rintro m hm
            rw [hmoved hkj] at hm
            injection hm with hm
            subst hm
            exact hd _ hj
        · simp only [origin, if_neg hkj, if_neg hki, hrest k hki hkj]
          exact ht k

/-- What remains: in every program that builds, uses and moves any number of multi-aggregators without
fault, the contents at an address behave as those of an object that was never moved: they are what one
object, built as they were and given the operations made on them wherever they were, would hold, and
what was handed over and answered is what it would hand over and answer.  Where the contents were moved
away nothing is left. -/
theorem C108_lineage_partial (env : Env) (ops : List (HOp I)) (s : Heap I × Seen I) (h : hrun env ops = .ok s) (i : I) :
    (∀ hash opt l, origins ops i = some (hash, opt, l) → ∃ m, s.1 i = some m ∧
      mexecAll env { m := Multi.new hash opt } l = .ok { m := m, delivered := (s.2 i).1, answers := (s.2 i).2 }) ∧
    (origins ops i = none → s.2 i = ([], []) ∧ ∀ m, s.1 i = some m → m.shards = []) := by
  have gen : ∀ (ops : List (HOp I)) (g : I → Origin) (s s' : Heap I × Seen I), Told env g s →
      ops.foldlM (hstep env) s = .ok s' → Told env (ops.foldl origin g) s' := by
    intro ops
    induction ops with
    | nil =>
      rintro g s s' ht h
      injection h with h
      subst h
      exact ht
    | cons op ops ih =>
      rintro g s s' ht h
      rw [List.foldlM_cons] at h
      cases ho : hstep env s op with
      | error e => rw [ho] at h; cases h
      | ok s1 =>
        rw [ho] at h
        exact ih _ _ _ (told_step env g s s1 op ht ho) h
  refine gen ops _ _ _ ?_ h i
  intro k
  refine ⟨fun _ _ _ h => (by cases h), fun _ => ⟨rfl, ?_⟩⟩
  rintro m hm
  cases hm

end Multi
end Wrtstat
