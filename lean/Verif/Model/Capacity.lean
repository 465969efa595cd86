/-
The two-argument `size` of separator, basic_aggregator, basic_multi_aggregator, multi_aggregator and basic_packer, which adds the
numbers of samples and the capacities of the buffers to two counters of the caller, either of which may be absent.

A vector has room for at least its elements, and how much more depends on its history: the rooms are given from outside
(`Rooms`), one for each vector, in the order of the vectors.
-/
import Verif.Model.Multi
import Verif.Model.Packer

namespace Wrtstat

set_option autoImplicit false

/-- The rooms of the vectors of an aggregator: of the records in `_ag_list`, of those in `_sep_list`, and of the rows of
the reducer. -/
structure Rooms where
  ag : List Nat
  sep : List Nat
  red : List Nat

/-- A room for each vector, and no vector has more elements than room. -/
def Rooms.Fit (k : Rooms) (a : Aggregator) : Prop :=
  List.Forall₂ (fun (d : AggData) c => d.data.length ≤ c) a.agList k.ag ∧
  List.Forall₂ (fun (d : AggData) c => d.data.length ≤ c) a.sep.sepList k.sep ∧
  List.Forall₂ (fun (d : List Int) c => d.length ≤ c) a.sep.reducer.data k.red

/-- The room of all vectors. -/
def Rooms.total (k : Rooms) : Nat := k.ag.sum + k.sep.sum + k.red.sum

/-- `for (i : l) *p += f(i)`. -/
def addUp {A : Type} (f : A → Nat) (l : List A) (n : Nat) : Nat := l.foldl (fun n i => n + f i) n

/-- `reducer::capacity` (reducer.cpp:83-92). -/
def Reducer.capacity (k : Rooms) : Nat := addUp id k.red 0

/-- `separator::size(data_size, capacity)` (separator.cpp:216-231). -/
def Separator.sizes (s : Separator) (k : Rooms) (data capacity : Option Nat) : Nat × Option Nat × Option Nat :=
  (s.size, data.map fun n => addUp (fun d => d.data.length) s.sepList n + s.reducer.size,
    capacity.map fun n => addUp id k.sep n + Reducer.capacity k)

/-- `basic_aggregator::size(data_size, capacity)` (basic_aggregator.cpp:167-181). -/
def Aggregator.sizes (a : Aggregator) (k : Rooms) (data capacity : Option Nat) : Nat × Option Nat × Option Nat :=
  let data := data.map (addUp (fun d => d.data.length) a.agList)
  let capacity := capacity.map (addUp (fun d => d.data.length) a.agList)
  let (_, data, capacity) := a.sep.sizes k data capacity
  (a.size, data, capacity)

/-- `basic_multi_aggregator::size` (basic_multi_aggregator.cpp:71-78); the order of the names is of no consequence.
`k`: the rooms of the aggregator of each name. -/
def AggMap.sizes (m : AggMap) (k : Name → Rooms) (data capacity : Option Nat) : Nat × Option Nat × Option Nat :=
  let (data, capacity) := m.foldl (fun (x : Option Nat × Option Nat) p => (p.2.sizes (k p.1) x.1 x.2).2) (data, capacity)
  (m.length, data, capacity)

/-- `multi_aggregator::size` (multi_aggregator.cpp:92-103). -/
def Multi.sizes (m : Multi) (k : Name → Rooms) (data capacity : Option Nat) : Nat × Option Nat × Option Nat :=
  m.shards.foldl (fun (x : Nat × Option Nat × Option Nat) s =>
    let (n, data, capacity) := s.sizes k x.2.1 x.2.2
    (x.1 + n, data, capacity)) (0, data, capacity)

/-- `basic_packer::size(data_size, capacity)` (basic_packer.cpp:181-203); no pointer in `_top` is null.  `k`: the rooms of the
vectors of the requests. -/
def Packer.sizes (pk : Packer) (k : List Nat) (data capacity : Option Nat) : Nat × Option Nat × Option Nat :=
  (pk.size, data.map (addUp (fun t => t.req.ag.data.length) pk.top), capacity.map (addUp id k))

end Wrtstat
