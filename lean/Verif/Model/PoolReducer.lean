/-
The reducer with its `_allocator` (wrtstat/system/allocator.hpp), and any number of reducers that share a pool, used by
one thread at a time.

`Model/Reducer.lean` takes every buffer to be a fresh empty vector.  Here the buffers come from the allocator, with
whatever contents they have, and go back to it with theirs.
-/
import Verif.Model.Reducer
import Verif.Model.Pool

namespace Wrtstat

set_option autoImplicit false

/-- What a reducer asks of an allocator over a store `σ` (allocator.hpp:21-33); the buffer that `free` may hand back is
dropped by the reducer (reducer.cpp:264-265). -/
structure Alloc (σ : Type) where
  create : σ → M (Buf × σ)
  free : σ → Buf → σ

/-- An allocator without handlers (allocator.hpp:21-33). -/
def Alloc.fresh : Alloc Unit :=
  { create := fun s => .ok ([], s)
    free := fun s _ => s }

namespace Pool

/-- `create()` by the only thread (pool.hpp:49-65): the buffer is the last one handed out. -/
def create (s : Pool Unit) : M (Buf × Pool Unit) :=
  let s := s.createTest ()
  let s := match s.pc () with
    | .popping => s.createPop ()
    | _ => s
  if s.ub then .error .ub else do
    let d ← deref s.out (s.out.length - 1)
    .ok (d, s)

/-- `free(d)` by the only thread (pool.hpp:67-88). -/
def free (s : Pool Unit) (d : Buf) : Pool Unit :=
  let s := s.freeTest () d
  match s.pc () with
  | .pushing d => s.freePush () d
  | _ => s

/-- `get_allocator()` (pool.hpp:25-31). -/
def alloc : Alloc (Pool Unit) := { create := create, free := free }

end Pool

namespace Reducer

variable {σ : Type}

/-- `reducer::add_` (reducer.cpp:270-296). -/
def addA_ (al : Alloc σ) (env : Env) (x : Reducer × σ) (v : Int) : M (Reducer × σ) :=
  let r := { x.1 with average := avgStep env x.1.average x.1.averageCount v
                      averageCount := x.1.averageCount + 1 }
  let r := r.minmax v
  if r.data = [] ∨ r.back.length = r.opt.limit then
    if r.data.length = r.opt.levels ∨ r.opt.limit = 0 then
      .ok ({ r with lossy := r.lossy + 1 }, x.2)
    else do
      let d := if r.curMode = .sorting then onBack sortInts r.data else r.data
      let (b, s) ← al.create x.2
      .ok ({ r with data := d ++ [b ++ [v]] }, s)
  else
    .ok ({ r with data := onBack (· ++ [v]) r.data }, x.2)

/-- `reducer::add(value_type, size_t)` (reducer.cpp:124-131). -/
def addOneA (al : Alloc σ) (env : Env) (x : Reducer × σ) (v : Int) (count : Nat) : M (Reducer × σ) := do
  let (r, s) ← addA_ al env ({ x.1 with empty := false }, x.2) v
  let r := { r with total := r.total + count }
  .ok (if count > 1 then { r with lossy := r.lossy + (count - 1) } else r, s)

/-- `reducer::add(const data_type&, size_t)` (reducer.cpp:133-142). -/
def addManyA (al : Alloc σ) (env : Env) (x : Reducer × σ) (vs : List Int) (count : Nat) : M (Reducer × σ) := do
  let (r, s) ← vs.foldlM (addA_ al env) ({ x.1 with empty := false }, x.2)
  let r := { r with total := r.total + count }
  .ok (if vs.length < count then { r with lossy := r.lossy + (count - vs.length) } else r, s)

/-- `reducer::add(std::initializer_list)` (reducer.cpp:149-155). -/
def addInitA (al : Alloc σ) (env : Env) (x : Reducer × σ) (vs : List Int) : M (Reducer × σ) := do
  let (r, s) ← vs.foldlM (addA_ al env) x
  .ok ({ r with empty := false, total := r.total + vs.length }, s)

/-- `reducer::add(const reduced_data&)` (reducer.cpp:157-166). -/
def addReducedA (al : Alloc σ) (env : Env) (x : Reducer × σ) (rd : ReducedData) : M (Reducer × σ) := do
  let (r, s) ← addManyA al env x rd.data rd.count
  let r := if rd.min ≠ 0 then r.minmax rd.min else r
  .ok (if rd.max ≠ 0 then r.minmax rd.max else r, s)

/-- Overload resolution of `reducer::add`. -/
def addA (al : Alloc σ) (env : Env) (x : Reducer × σ) : AddArg → M (Reducer × σ)
  | .one v count => addOneA al env x v count
  | .many vs count => addManyA al env x vs count
  | .init vs => addInitA al env x vs
  | .reduced rd => addReducedA al env x rd

/-- `reducer::reduce` (reducer.cpp:222-268): the rows but the first go back to the allocator, as they are. -/
def reduceA (al : Alloc σ) (env : Env) (x : Reducer × σ) : M (Reducer × σ) :=
  let r := x.1
  if r.data = [] then .ok x
  else
    let r := if r.curMode = .sorting then { r with data := onBack sortInts r.data } else r
    if r.data.length = 1 then .ok (r, x.2)
    else do
      let r := { r with lossy := r.lossyCount }
      let n := r.data.length
      let data ← reduceLoop env.nth r.curMode n r.opt.limit 0 n r.data
      let cur := if r.opt.mode = .adapt then
          (if r.opt.limit / n > magic then Mode.sorting else Mode.nth)
        else r.curMode
      .ok ({ r with data := data.take 1, curMode := cur }, (data.drop 1).foldl al.free x.2)

/-- `reducer::detach` (reducer.cpp:174-190); `clear` drops the remaining row without the allocator. -/
def detachA (al : Alloc σ) (env : Env) (x : Reducer × σ) : M (Option AggData × Reducer × σ) :=
  if x.1.empty then .ok (none, x)
  else do
    let (r, s) ← reduceA al env x
    let avg ← castInt r.average
    .ok (some { data := r.data.headD []
                avg := avg
                count := r.total
                lossy := r.lossy
                max := r.max
                min := r.min }, r.clear, s)

/-- `reducer::get_reduced` (reducer.cpp:168-172, 29-42): the rows of the clone are new vectors, and go to the allocator of
the original. -/
def getReducedA (al : Alloc σ) (env : Env) (x : Reducer × σ) : M (Option AggData × σ) := do
  let (res, _, s) ← detachA al env (x.1.clone, x.2)
  .ok (res, s)

/-- A call, with what it returns. -/
def callA (al : Alloc σ) (env : Env) (x : Reducer × σ) : ROp → M (Option AggData × Reducer × σ)
  | .add a => do let x ← addA al env x a; .ok (none, x)
  | .reduce => do let x ← reduceA al env x; .ok (none, x)
  | .clear => .ok (none, x.1.clear, x.2)
  | .detach => detachA al env x
  | .look => do let (res, s) ← getReducedA al env x; .ok (res, x.1, s)

/-- The same without an allocator. -/
def call (env : Env) (r : Reducer) : ROp → M (Option AggData × Reducer)
  | .add a => .ok (none, add env r a)
  | .reduce => do let r ← reduce env r; .ok (none, r)
  | .clear => .ok (none, r.clear)
  | .detach => detach env r
  | .look => do let res ← getReduced env r; .ok (res, r)

end Reducer

/-- What one thread does with reducers numbered by `ι`: construct one (the one it had is destroyed, and its rows with it)
or call one. -/
inductive ShareOp (ι : Type) where
  | make (i : ι) (opt : ReducerOpts)
  | call (i : ι) (op : Reducer.ROp)

section Share

variable {ι σ : Type} [DecidableEq ι]

/-- One operation on reducers that share the store. -/
def shareStep (al : Alloc σ) (env : Env) (x : (ι → Reducer) × σ) : ShareOp ι → M (Option AggData × (ι → Reducer) × σ)
  | .make i opt => .ok (none, Function.update x.1 i (.new opt), x.2)
  | .call i op => do
    let (res, r, s) ← Reducer.callA al env (x.1 i, x.2) op
    .ok (res, Function.update x.1 i r, s)

/-- Operations one after the other, with all they return. -/
def shareRun (al : Alloc σ) (env : Env) : (ι → Reducer) × σ → List (ShareOp ι) → M (List (Option AggData) × (ι → Reducer) × σ)
  | x, [] => .ok ([], x)
  | x, o :: os => do
    let (res, x) ← shareStep al env x o
    let (l, x) ← shareRun al env x os
    .ok (res :: l, x)

/-- One operation on reducers that share nothing. -/
def ownStep (env : Env) (x : ι → Reducer) : ShareOp ι → M (Option AggData × (ι → Reducer))
  | .make i opt => .ok (none, Function.update x i (.new opt))
  | .call i op => do
    let (res, r) ← Reducer.call env (x i) op
    .ok (res, Function.update x i r)

/-- Operations one after the other, with all they return. -/
def ownRun (env : Env) : (ι → Reducer) → List (ShareOp ι) → M (List (Option AggData) × (ι → Reducer))
  | x, [] => .ok ([], x)
  | x, o :: os => do
    let (res, x) ← ownStep env x o
    let (l, x) ← ownRun env x os
    .ok (res :: l, x)

end Share
end Wrtstat
