/-
Programs over measuring points: the operations of the four classes of points under common names, and
runs that record the calls of meter functions.
-/
import Verif.Model.Meters

namespace Wrtstat

/-- The member functions of a class of points, for meter functions in `F`.  `Arg` are the arguments of
the constructor apart from the function, `Upd` the setters. -/
structure PClass (F : Type) where
  St : Type
  Arg : Type
  Upd : Type
  new : Clock → Option F → Arg → St
  fn : St → Option F
  push : St → Clock → Int → List (Call F) × St
  pushNow : St → Clock → List (Call F) × St
  upd : St → Upd → St
  resetWith : St → Clock → Clock → Option F → Arg → List (Call F) × St
  clone : St → Clock → Arg → St
  /-- what moving from a point leaves behind -/
  moved : St → St

section classes
variable (F : Type)

/-- `time_point<D>`; the only setter is `reset()`. -/
def timeClass (unit : Int) : PClass F where
  St := TimePoint F
  Arg := Nat
  Upd := Unit
  new k f c := .new k f c
  fn := TimePoint.fn
  push := TimePoint.push unit
  pushNow := TimePoint.pushNow unit
  upd p _ := p.reset
  resetWith := TimePoint.resetWith unit
  clone := TimePoint.clone
  moved p := { p with fn := none }

/-- Setters of `size_point`. -/
inductive SizeUpd where
  | setSize (s : Int)
  | reset

/-- `size_point`. -/
def sizeClass : PClass F where
  St := SizePoint F
  Arg := Int
  Upd := SizeUpd
  new _ f s := .new f s
  fn := SizePoint.fn
  push p _ ts := p.push ts
  pushNow := SizePoint.pushNow
  upd p u := match u with
    | .setSize s => p.setSize s
    | .reset => p.reset
  resetWith p k _ f s := p.resetWith k f s
  clone p _ s := p.clone s
  moved p := { p with fn := none }

/-- Setters of `value_point`. -/
inductive ValueUpd where
  | setValue (v : Int)
  | setCount (c : Nat)
  | reset

/-- `value_point`. -/
def valueClass : PClass F where
  St := ValuePoint F
  Arg := Int × Nat
  Upd := ValueUpd
  new _ f a := .new f a.1 a.2
  fn := ValuePoint.fn
  push p _ ts := p.push ts
  pushNow := ValuePoint.pushNow
  upd p u := match u with
    | .setValue v => p.setValue v
    | .setCount c => p.setCount c
    | .reset => p.reset
  resetWith p k _ f a := p.resetWith k f a.1 a.2
  clone p _ a := p.clone a.1 a.2
  moved p := { p with fn := none }

/-- Setters of `composite_point`. -/
inductive CompositeUpd where
  | setRead (s : Int)
  | setWrite (s : Int)
  | setStart (t : Int)
  | reset

/-- Constructor arguments of `composite_point`. -/
structure CompositeArg where
  count : Nat
  readed : Int := 0
  writed : Int := 0
  shift : Int := 0

/-- `composite_point<D>`. -/
def compositeClass (unit : Int) : PClass F where
  St := CompositePoint F
  Arg := CompositeArg
  Upd := CompositeUpd
  new k f a := .new unit k f a.count a.readed a.writed a.shift
  fn := CompositePoint.fn
  push := CompositePoint.push unit
  pushNow := CompositePoint.pushNow unit
  upd p u := match u with
    | .setRead s => p.setRead s
    | .setWrite s => p.setWrite s
    | .setStart t => p.setStart t
    | .reset => p.reset
  resetWith p k k' f a := p.resetWith unit k k' f a.count a.readed a.writed a.shift
  clone p k a := p.clone unit k a.count a.readed a.writed a.shift
  moved p := { p with fn := none }

end classes

namespace PClass

variable {F : Type} (C : PClass F)

/-- Operations on one point between creation and destruction. -/
inductive Op where
  | push (k : Clock) (ts : Int)
  | pushNow (k : Clock)
  | upd (u : C.Upd)

/-- One operation: the calls made and the new state. -/
def step (p : C.St) : C.Op → List (Call F) × C.St
  | .push k ts => C.push p k ts
  | .pushNow k => C.pushNow p k
  | .upd u => ([], C.upd p u)

/-- The calls made by a sequence of operations followed by destruction. -/
def life (p : C.St) (kd : Clock) : List C.Op → List (Call F)
  | [] => (C.pushNow p kd).1
  | op :: ops => (C.step p op).1 ++ life (C.step p op).2 kd ops

/-- Programs over any number of points.  A point is named by its number in order of construction. -/
inductive POp where
  /-- `meter.create(...)` -/
  | create (k : Clock) (f : Option F) (a : C.Arg)
  /-- `push`, `push(ts)` or a setter -/
  | op (i : Nat) (o : C.Op)
  /-- `reset(fun, ...)` -/
  | resetWith (i : Nat) (k k' : Clock) (f : Option F) (a : C.Arg)
  /-- `clone` -/
  | clone (i : Nat) (k : Clock) (a : C.Arg)
  /-- move construction -/
  | move (i : Nat)
  /-- move assignment: point `i` is assigned from point `j` -/
  | assign (i j : Nat)
  /-- destruction -/
  | destroy (i : Nat) (k : Clock)

/-- What is observed of a run: the points (`none` once destroyed), the calls of meter functions, the
functions of the measurements started, and those overwritten by a move assignment. -/
structure Obs where
  pts : List (Option C.St) := []
  calls : List (Call F) := []
  started : List F := []
  overwritten : List F := []

/-- Execute one operation; an operation on a point that does not exist is not a program. -/
def exec (o : C.Obs) : C.POp → Option C.Obs
  | .create k f a => some { o with pts := o.pts ++ [some (C.new k f a)], started := o.started ++ f.toList }
  | .op i x => do
    let p ← o.pts[i]?.join
    some { o with pts := o.pts.set i (some (C.step p x).2), calls := o.calls ++ (C.step p x).1 }
  | .resetWith i k k' f a => do
    let p ← o.pts[i]?.join
    some { o with pts := o.pts.set i (some (C.resetWith p k k' f a).2)
                  calls := o.calls ++ (C.resetWith p k k' f a).1, started := o.started ++ f.toList }
  | .clone i k a => do
    let p ← o.pts[i]?.join
    some { o with pts := o.pts ++ [some (C.clone p k a)], started := o.started ++ (C.fn p).toList }
  | .move i => do
    let p ← o.pts[i]?.join
    some { o with pts := o.pts.set i (some (C.moved p)) ++ [some p] }
  | .assign i j => do
    let p ← o.pts[i]?.join
    let q ← o.pts[j]?.join
    if i = j then none
    else some { o with pts := (o.pts.set j (some (C.moved q))).set i (some q), overwritten := o.overwritten ++ (C.fn p).toList }
  | .destroy i k => do
    let p ← o.pts[i]?.join
    some { o with pts := o.pts.set i none, calls := o.calls ++ (C.pushNow p k).1 }

/-- Execute a program. -/
def execAll (o : C.Obs) (ops : List C.POp) : Option C.Obs := ops.foldlM C.exec o

/-- The functions of the measurements still running. -/
def pending (o : C.Obs) : List F := o.pts.flatMap fun p => (p.bind C.fn).toList

end PClass
end Wrtstat
