/-
Concrete platforms, used in the examples that show the hypotheses of the theorems are met.
-/
import Verif.Lemmas.Reducer

namespace Wrtstat

/-- The `nth_element` that sorts the whole range. -/
def NthElement.sorting : NthElement where
  run l _ := sortInts l
  perm l _ := sortInts_perm l
  le_nth l _ i hi hk := by
    have := List.pairwise_iff_getElem.1 (sortInts_sorted l)
    exact this _ _ _ _ hi
  nth_le l k j hj hk := by
    rcases Nat.lt_or_eq_of_le hj with h | h
    · have := List.pairwise_iff_getElem.1 (sortInts_sorted l)
      exact this _ _ _ _ h
    · subst h; exact le_refl _

/-- Sorting `nth_element`, exact arithmetic. -/
def exactEnv : Env := { nth := .sorting, rnd := fun x => x }

end Wrtstat
