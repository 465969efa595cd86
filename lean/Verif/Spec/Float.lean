/-
Laws of round-to-nearest used to bound the computed average.
-/
import Verif.Model.Std

namespace Wrtstat

/-- Laws satisfied by IEEE-754 round-to-nearest-even (away from overflow). -/
structure FPLaws (rnd : Rat → Rat) : Prop where
  mono : ∀ x y, x ≤ y → rnd x ≤ rnd y
  idem : ∀ x, rnd (rnd x) = rnd x
  neg : ∀ x, rnd (-x) = -rnd x
  /-- integers up to 2^53 are exact -/
  ints : ∀ z : Int, |z| ≤ 2 ^ 53 → rnd z = z
  /-- half of a rounded non-negative number does not exceed the number -/
  half : ∀ x, 0 ≤ x → rnd (rnd x / 2) ≤ x

/-- Exact arithmetic satisfies the laws. -/
theorem FPLaws.id : FPLaws (fun x => x) :=
  ⟨fun _ _ h => h, fun _ => rfl, fun _ => rfl, fun _ _ => rfl, fun x h => by linarith⟩

end Wrtstat
