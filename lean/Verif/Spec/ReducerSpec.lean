/-
Specification vocabulary for client histories of a reducer.
-/
import Verif.Model.Reducer
import Verif.Spec.Adds

namespace Wrtstat
namespace Reducer

/-- Effect of one operation on the list of calls not yet detached or cleared. -/
def pendStep (as : List AddArg) : ROp → List AddArg
  | .add a => as ++ [a]
  | .clear => []
  | .detach => []
  | _ => as

/-- Specification: the `add` calls issued since the reducer was last emptied. -/
def pending (ops : List ROp) : List AddArg := ops.foldl pendStep []

/-- The harvest has run into the end of the last, shorter chunk (of length `m`) at or before
position `i`; `n` is the number of chunks. -/
def Exhausted (n m i : Nat) : Prop := ∃ j, j ≤ i ∧ j % n = n - 1 ∧ m ≤ j

end Reducer
end Wrtstat
