/-
Model of wrtstat/meters/multi_meter.hpp: `multi_point` and `multi_meter`.

A `multi_meter` is the list of its meters, a meter the function given to it (a meter keeps nothing else but
the resolution).  A `multi_point` is the list of its points.  `std::vector` destroys its elements in an order
the standard leaves open: here the first comes first, the claims do not depend on the order.  Every
destruction of a point is modelled, also of the moved-from ones.  The arguments of `create` and `clone` are
numbers, so that passing them on by `std::forward` in a loop copies them.
-/
import Verif.Spec.MeterSpec

set_option autoImplicit false

namespace Wrtstat
namespace PClass

variable {F : Type} (C : PClass F)

/-- The destructors of the elements of a vector; element `n` reads the clock `kd n`. -/
def destroyAll (kd : Nat → Clock) : List C.St → List (Call F)
  | [] => []
  | p :: ps => (C.pushNow p (kd 0)).1 ++ destroyAll (fun n => kd (n + 1)) ps

/-- `std::vector::push_back(std::move(p))` and, at the end of the statement or of the function, the
destruction of `p`.  If `grow`, the elements are moved to new storage and the old ones destroyed. -/
def vecPush (ps : List C.St) (p : C.St) (grow : Bool) (kd : Nat → Clock) : List (Call F) × List C.St :=
  ((if grow then C.destroyAll (fun n => kd (n + 1)) (ps.map C.moved) else []) ++ (C.pushNow (C.moved p) (kd 0)).1,
   ps ++ [p])

/-- `multi_point::push_back(point_type p)` (multi_meter.hpp:35-38): the argument is moved into the parameter
(and destroyed by the caller), the parameter into the vector. -/
def mpPush (ps : List C.St) (p : C.St) (grow : Bool) (ka : Clock) (kd : Nat → Clock) : List (Call F) × List C.St :=
  let (c, ps') := C.vecPush ps p grow kd
  (c ++ (C.pushNow (C.moved p) ka).1, ps')

/-- A loop that pushes back the points given by `mk` for each element of a list (multi_meter.hpp:64-67,
102-105, 114-117); room was reserved. -/
def mpLoop {A : Type} (mk : Nat → A → C.St) (ka : Nat → Clock) (kd : Nat → Nat → Clock) :
    Nat → List C.St → List A → List (Call F) × List C.St
  | _, ps, [] => ([], ps)
  | n, ps, x :: l =>
    let (c, ps) := C.mpPush ps (mk n x) false (ka n) (kd n)
    let (c', ps) := mpLoop mk ka kd (n + 1) ps l
    (c ++ c', ps)

/-- `multi_meter::create` and `create_shared` (multi_meter.hpp:97-119); `k n` is the clock read by the
constructor of point `n`. -/
def mmCreate (meters : List (Option F)) (k ka : Nat → Clock) (kd : Nat → Nat → Clock) (a : C.Arg) :
    List (Call F) × List C.St :=
  C.mpLoop (fun n f => C.new (k n) f a) ka kd 0 [] meters

/-- `multi_point::clone` (multi_meter.hpp:59-69). -/
def mpClone (ps : List C.St) (k ka : Nat → Clock) (kd : Nat → Nat → Clock) (a : C.Arg) : List (Call F) × List C.St :=
  C.mpLoop (fun n p => C.clone p (k n) a) ka kd 0 [] ps

/-- `reset`, `set_write_size`, `set_read_size` (multi_meter.hpp:40-56). -/
def mpUpd (ps : List C.St) (u : C.Upd) : List C.St := ps.map fun p => C.upd p u

/-- The implicit move assignment (multi_meter.hpp:22): the vector destroys its elements and takes those of the
other vector, which is left empty. -/
def mpAssign (ps qs : List C.St) (kd : Nat → Clock) : List (Call F) × List C.St × List C.St :=
  (C.destroyAll kd ps, qs, [])

/-- `~multi_point` (multi_meter.hpp:25-28). -/
def mpDestroy (ps : List C.St) (kd : Nat → Clock) : List (Call F) := C.destroyAll kd ps

/-- Programs over any number of `multi_point`s, named by their number in order of construction. -/
inductive MOp where
  /-- `multi_meter::create` -/
  | create (meters : List (Option F)) (k ka : Nat → Clock) (kd : Nat → Nat → Clock) (a : C.Arg)
  /-- the default constructor -/
  | empty
  /-- `push_back` of a new point -/
  | push (i : Nat) (k : Clock) (f : Option F) (a : C.Arg) (grow : Bool) (ka : Clock) (kd : Nat → Clock)
  /-- `reset`, `set_write_size`, `set_read_size` -/
  | upd (i : Nat) (u : C.Upd)
  /-- `clone` -/
  | clone (i : Nat) (k ka : Nat → Clock) (kd : Nat → Nat → Clock) (a : C.Arg)
  /-- move construction from `i` -/
  | move (i : Nat)
  /-- `i` is assigned from `j` -/
  | assign (i j : Nat) (kd : Nat → Clock)
  /-- destruction -/
  | destroy (i : Nat) (kd : Nat → Clock)

/-- What is observed of a run. -/
structure MObs where
  vars : List (Option (List C.St)) := []
  calls : List (Call F) := []
  started : List F := []

/-- Execute one operation; an operation on a `multi_point` that does not exist is not a program. -/
def mexec (o : C.MObs) : C.MOp → Option C.MObs
  | .create meters k ka kd a =>
    let (c, ps) := C.mmCreate meters k ka kd a
    some { o with vars := o.vars ++ [some ps], calls := o.calls ++ c, started := o.started ++ meters.flatMap Option.toList }
  | .empty => some { o with vars := o.vars ++ [some []] }
  | .push i k f a grow ka kd => do
    let ps ← o.vars[i]?.join
    let (c, ps) := C.mpPush ps (C.new k f a) grow ka kd
    some { o with vars := o.vars.set i (some ps), calls := o.calls ++ c, started := o.started ++ f.toList }
  | .upd i u => do
    let ps ← o.vars[i]?.join
    some { o with vars := o.vars.set i (some (C.mpUpd ps u)) }
  | .clone i k ka kd a => do
    let ps ← o.vars[i]?.join
    let (c, qs) := C.mpClone ps k ka kd a
    some { o with vars := o.vars ++ [some qs], calls := o.calls ++ c,
                  started := o.started ++ ps.flatMap fun p => (C.fn p).toList }
  | .move i => do
    let ps ← o.vars[i]?.join
    some { o with vars := o.vars.set i (some []) ++ [some ps] }
  | .assign i j kd => do
    let ps ← o.vars[i]?.join
    let qs ← o.vars[j]?.join
    if i = j then none
    else
      let (c, ps', qs') := C.mpAssign ps qs kd
      some { o with vars := (o.vars.set j (some qs')).set i (some ps'), calls := o.calls ++ c }
  | .destroy i kd => do
    let ps ← o.vars[i]?.join
    some { o with vars := o.vars.set i none, calls := o.calls ++ C.mpDestroy ps kd }

/-- Execute a program. -/
def mexecAll (o : C.MObs) (ops : List C.MOp) : Option C.MObs := ops.foldlM C.mexec o

/-- The functions of the measurements still running. -/
def mpending (o : C.MObs) : List F := o.vars.flatMap fun ps => (ps.getD []).flatMap fun p => (C.fn p).toList

end PClass
end Wrtstat
