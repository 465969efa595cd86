/-
C101: the sizes and capacities told by `size(data_size, capacity)`.
-/
import Verif.Model.Capacity
import Verif.Props.Accessors

namespace Wrtstat

set_option autoImplicit false

theorem addUp_eq {A : Type} (f : A → Nat) (l : List A) (n : Nat) : addUp f l n = n + (l.map f).sum := by
  unfold addUp
  induction l generalizing n with
  | nil => simp
  | cons a l ih => simp only [List.foldl_cons, ih, List.map_cons, List.sum_cons]; omega

/-- What is added to the second counter. -/
def Rooms.told (k : Rooms) (a : Aggregator) : Nat := (a.agList.map fun d => d.data.length).sum + k.sep.sum + k.red.sum

theorem Aggregator.sizes_eq (a : Aggregator) (k : Rooms) (data capacity : Option Nat) :
    a.sizes k data capacity = (a.agList.length, data.map (· + a.dataSize), capacity.map (· + k.told a)) := by
  cases data <;> cases capacity <;>
    simp [Aggregator.sizes, Separator.sizes, Reducer.capacity, Aggregator.size, Aggregator.dataSize, Rooms.told, addUp_eq] <;> omega

theorem AggMap.sizes_eq (m : AggMap) (k : Name → Rooms) (data capacity : Option Nat) :
    AggMap.sizes m k data capacity = (m.length, data.map (· + (m.map fun p => p.2.dataSize).sum),
      capacity.map (· + (m.map fun p => (k p.1).told p.2).sum)) := by
  unfold AggMap.sizes
  have : m.foldl (fun (x : Option Nat × Option Nat) p => (p.2.sizes (k p.1) x.1 x.2).2) (data, capacity) =
      (data.map (· + (m.map fun p => p.2.dataSize).sum), capacity.map (· + (m.map fun p => (k p.1).told p.2).sum)) := by
    induction m generalizing data capacity with
    | nil => cases data <;> cases capacity <;> simp
    | cons p m ih =>
      rw [List.foldl_cons, Aggregator.sizes_eq, ih]
      cases data <;> cases capacity <;> simp <;> omega
  rw [this]

theorem Multi.sizes_eq (m : Multi) (k : Name → Rooms) (data capacity : Option Nat) :
    m.sizes k data capacity = (m.size.1, data.map (· + m.size.2),
      capacity.map (· + (m.shards.map fun s => (s.map fun p => (k p.1).told p.2).sum).sum)) := by
  unfold Multi.sizes Multi.size
  generalize m.shards = l
  have key : ∀ (l : List AggMap) (c : Nat) (data capacity : Option Nat),
      l.foldl (fun (x : Nat × Option Nat × Option Nat) s =>
        let (n, data, capacity) := AggMap.sizes s k x.2.1 x.2.2
        (x.1 + n, data, capacity)) (c, data, capacity) =
      (c + (l.map List.length).sum, data.map (· + (l.map fun s => (s.map fun p => p.2.dataSize).sum).sum),
        capacity.map (· + (l.map fun s => (s.map fun p => (k p.1).told p.2).sum).sum)) := by
    intro l
    induction l with
    | nil => intro c data capacity; cases data <;> cases capacity <;> simp
    | cons s l ih =>
      intro c data capacity
      rw [List.foldl_cons]
      have e := AggMap.sizes_eq s k data capacity
      refine (congrArg (fun x : Nat × Option Nat × Option Nat => List.foldl _ (c + x.1, x.2.1, x.2.2) l) e).trans ?_
      refine (ih _ _ _).trans ?_
      cases data <;> cases capacity <;> simp <;> omega
  rw [key]
  simp

/-! ### C101 -/

/-- The number of samples held is added to the first counter, whatever is in it and whether there is a second; a counter
that is absent is left alone; and the number of records waiting is returned. -/
theorem C101_data (a : Aggregator) (k : Rooms) (data capacity : Option Nat) :
    (a.sizes k data capacity).1 = a.agList.length ∧ (a.sizes k data capacity).2.1 = data.map (· + a.dataSize) ∧
    (a.sizes k none capacity).2.1 = none ∧ (a.sizes k data none).2.2 = none := by
  simp [Aggregator.sizes_eq]

/-- The same of a multi-aggregator: all names of all shards, once each. -/
theorem C101_multi (m : Multi) (k : Name → Rooms) (data capacity : Option Nat) :
    (m.sizes k data capacity).1 = (m.shards.map List.length).sum ∧
    (m.sizes k data capacity).2.1 = data.map (· + (m.shards.map fun s => (s.map fun p => p.2.dataSize).sum).sum) := by
  rw [Multi.sizes_eq]
  exact ⟨rfl, rfl⟩

/-- A packer tells both: the samples of the requests held, and the room of their vectors. -/
theorem C101_packer (pk : Packer) (k : List Nat) (data capacity : Option Nat) :
    pk.sizes k data capacity = (pk.top.length, data.map (· + (pk.top.map fun t => t.req.ag.data.length).sum),
      capacity.map (· + k.sum)) := by
  cases data <;> cases capacity <;> simp [Packer.sizes, Packer.size, addUp_eq]

/-- The claim: after every history of a new aggregator, the second counter is told the room of all vectors held. -/
def C101_FullClaim : Prop :=
  ∀ (env : Env) (opt : AggregatorOpts) (a : Aggregator) (ops : List Aggregator.AOp) (o : Aggregator.AObs) (k : Rooms) (n : Nat),
    0 < opt.step → Aggregator.Fresh env opt a → (∀ op ∈ ops, op.clockOk) → Aggregator.execAll env { a := a } ops = .ok o →
    k.Fit o.a → (o.a.sizes k none (some n)).2.2 = some (n + k.total)

/-- One record of one sample waits, in a vector with room for two (a window of two samples thinned to one, say). -/
theorem C101_refuted : ¬ C101_FullClaim := by
  intro h
  have := h _ _ _ _ _ { ag := [2], sep := [], red := [4] } 0 (by decide) (exANew_fresh exactEnv) exAClk
    exARun (by
      refine ⟨?_, ?_, ?_⟩
      · have e : exAObs.a.agList.map (fun d => d.data.length) = [1] := by decide +kernel
        generalize exAObs.a.agList = l at e ⊢
        cases l with
        | nil => simp at e
        | cons d l =>
          simp only [List.map_cons, List.cons.injEq, List.map_eq_nil_iff] at e
          obtain ⟨e, rfl⟩ := e
          exact .cons (by omega) .nil
      · have e : exAObs.a.sep.sepList = [] := by decide +kernel
        rw [e]; exact .nil
      · have e : exAObs.a.sep.reducer.data = [[6]] := by decide +kernel
        rw [e]; exact .cons (by decide) .nil)
  revert this
  decide +kernel
theorem forall₂_sum {A : Type} {f : A → Nat} {l : List A} {k : List Nat} (h : List.Forall₂ (fun a c => f a ≤ c) l k) :
    (l.map f).sum ≤ k.sum ∧ ((l.map f).sum = k.sum ↔ List.Forall₂ (fun a c => f a = c) l k) := by
  induction h with
  | nil => simp
  | cons h1 _ ih =>
    simp only [List.map_cons, List.sum_cons, List.forall₂_cons]
    refine ⟨by omega, ?_⟩
    rw [← ih.2]
    omega

/-- What is told instead lies between the number of samples and the room, and is the room exactly if the vectors of the
records waiting in `_ag_list` are full. -/
theorem C101_exact_partial (a : Aggregator) (k : Rooms) (n : Nat) (h : k.Fit a) :
    ∃ c, (a.sizes k none (some n)).2.2 = some (n + c) ∧ a.dataSize ≤ c ∧ c ≤ k.total ∧
      (c = k.total ↔ List.Forall₂ (fun (d : AggData) c => d.data.length = c) a.agList k.ag) := by
  obtain ⟨h1, h2, h3⟩ := h
  have e1 := forall₂_sum (f := fun d : AggData => d.data.length) h1
  have e2 := forall₂_sum (f := fun d : AggData => d.data.length) h2
  have e3 := forall₂_sum (f := fun d : List Int => d.length) h3
  refine ⟨k.told a, by simp [Aggregator.sizes_eq], ?_, ?_, ?_⟩
  · have : a.sep.reducer.size = (a.sep.reducer.data.map fun d => d.length).sum := rfl
    simp only [Aggregator.dataSize, Rooms.told, this]
    omega
  · simp only [Rooms.told, Rooms.total]
    omega
  · rw [← e1.2]
    simp only [Rooms.told, Rooms.total]
    omega

/-- One sample waits and one is in the current window; the counters held 100 and 200 before. -/
example : exAObs.a.sizes { ag := [2], sep := [], red := [4] } (some 100) (some 200) = (1, some 102, some 205) := by
  decide +kernel

/-- A packer with two requests of two samples and one, with room for four and one. -/
example : Packer.sizes { opt := {}, handler := true, top := [⟨10, { ag := { data := [1, 2] } }, []⟩, ⟨11, { ag := { data := [3] } }, []⟩] }
    [4, 1] (some 1) (some 1) = (2, some 4, some 6) := by decide +kernel

end Wrtstat
