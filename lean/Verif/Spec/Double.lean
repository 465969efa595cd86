/-
IEEE 754 binary64: rounding to 53 significant bits, to nearest, ties to even.  The range of exponents is unbounded: the
values of the code stay far from overflow and underflow (see DESIGN.md).
-/
import Verif.Spec.Float
import Mathlib.Data.Int.Log
import Mathlib.Data.Rat.Floor

namespace Wrtstat

set_option autoImplicit false

/-- The nearest integer, of two the even one. -/
def nearestEven (q : Rat) : Int :=
  if q - ⌊q⌋ < 1 / 2 then ⌊q⌋
  else if 1 / 2 < q - ⌊q⌋ then ⌊q⌋ + 1
  else if ⌊q⌋ % 2 = 0 then ⌊q⌋ else ⌊q⌋ + 1

/-- The exponent of the last of the 53 bits. -/
def lastBit (x : Rat) : Int := Int.log 2 |x| - 52

/-- Rounding to `double`. -/
def double (x : Rat) : Rat := nearestEven (x / 2 ^ lastBit x) * 2 ^ lastBit x

end Wrtstat
