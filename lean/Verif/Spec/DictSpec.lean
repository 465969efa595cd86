/-
Histories of a dictionary of ids.
-/
import Verif.Model.Registry

namespace Wrtstat
namespace Dict

set_option autoImplicit false

/-- A call that changes the dictionary; `pick` chooses the element of the set of free ids. -/
inductive Op where
  | create (pick : Nat) (name : Name)
  | free (id : Nat)
  | freeName (name : Name)
  | clear
deriving DecidableEq

/-- What a call returns. -/
inductive Ans where
  | id (i : Nat)
  | ok (b : Bool)
  | none
deriving DecidableEq

/-- One call. -/
def exec (d : Dict) : Op → Ans × Dict
  | .create pick name => let (i, d) := d.createId pick name; (.id i, d)
  | .free i => let (b, d) := d.freeId i; (.ok b, d)
  | .freeName name => let (b, d) := d.freeName name; (.ok b, d)
  | .clear => (.none, d.clear)

/-- A history: the calls with what they returned, and the dictionary. -/
def run : Dict → List Op → List (Op × Ans) × Dict
  | d, [] => ([], d)
  | d, op :: l =>
    let (a, d) := d.exec op
    let (t, d) := d.run l
    ((op, a) :: t, d)

/-- A dictionary as constructed (system/dict.hpp:15-19). -/
def new (initial step : Nat) : Dict := { counter := initial, step := step }

/-- Who holds which id, from the calls and what they returned: a name holds the id returned by `create_id` for it until that
id or the name is freed or the dictionary is cleared. -/
def heldStep (h : Name → Option Nat) : Op × Ans → Name → Option Nat
  | (.create _ name, .id i) => fun m => if m = name then some i else h m
  | (.free i, _) => fun m => if h m = some i then none else h m
  | (.freeName name, _) => fun m => if m = name then none else h m
  | (.clear, _) => fun _ => none
  | _ => h

def held (t : List (Op × Ans)) : Name → Option Nat := t.foldl heldStep fun _ => none

/-- The number of calls of `create_id`. -/
def creates (ops : List Op) : Nat := ops.countP fun op => match op with | .create .. => true | _ => false

end Dict
end Wrtstat
