/-
Library-level vocabulary of the model: faults, 64-bit bounds, `std::sort`,
`std::nth_element`, floating point rounding.  Nothing here is project code.
-/
import Mathlib.Data.List.Sort
import Mathlib.Data.Rat.Floor

namespace Wrtstat

/-- Ways in which a C++ operation can fail to return normally. -/
inductive Fault where
  /-- integer division by zero (undefined behaviour, SIGFPE in practice) -/
  | divByZero
  /-- `std::out_of_range` thrown by `vector::at` -/
  | outOfRange
  /-- undefined behaviour: bad index, bad iterator range, overflowing conversion, `back()` of an
  empty container -/
  | ub
  /-- call of a null `std::function` -/
  | badFunctionCall
  /-- `abort()` called by the code itself -/
  | abort
  /-- the operation never returns -/
  | diverge
deriving DecidableEq, Repr

/-- Result of an operation that may fault. -/
abbrev M := Except Fault

instance {ε α : Type} [DecidableEq ε] [DecidableEq α] : DecidableEq (Except ε α)
  | .ok a, .ok b => if h : a = b then isTrue (by rw [h]) else isFalse (by simp [h])
  | .error a, .error b => if h : a = b then isTrue (by rw [h]) else isFalse (by simp [h])
  | .ok _, .error _ => isFalse (by simp)
  | .error _, .ok _ => isFalse (by simp)

/-- `std::numeric_limits<value_type>::max()`; `value_type` is `std::time_t`, 64 bits
(wrtstat/aggregator/api/types.hpp:10-11). -/
def I64max : Int := 2 ^ 63 - 1

/-- `std::numeric_limits<value_type>::min()`. -/
def I64min : Int := -(2 ^ 63)

/-- Values representable in `value_type`. -/
def InI64 (v : Int) : Prop := I64min ≤ v ∧ v ≤ I64max

instance (v : Int) : Decidable (InI64 v) := inferInstanceAs (Decidable (_ ∧ _))

/-- `std::sort` on a whole vector of integers: the sorted permutation. -/
def sortInts (l : List Int) : List Int := l.insertionSort (· ≤ ·)

/-- A conforming `std::nth_element` on integers: a function of the contents of the range and of
the relative position, returning a permutation of the range which is partitioned around that
position.  When the position is the end of the range nothing is promised but the permutation. -/
structure NthElement where
  run : List Int → Nat → List Int
  perm : ∀ l k, (run l k).Perm l
  le_nth : ∀ l k i (hi : i < k) (hk : k < (run l k).length),
    (run l k)[i]'(Nat.lt_trans hi hk) ≤ (run l k)[k]
  nth_le : ∀ l k j (hj : k ≤ j) (hk : j < (run l k).length),
    (run l k)[k]'(Nat.lt_of_le_of_lt hj hk) ≤ (run l k)[j]

/-- `std::nth_element(d.begin()+b, d.begin()+k, d.end())`; the iterators must be in range and in
order, otherwise the behaviour is undefined. -/
def nthRange (E : NthElement) (d : List Int) (b k : Nat) : M (List Int) :=
  if b ≤ k ∧ k ≤ d.length then .ok (d.take b ++ E.run (d.drop b) (k - b)) else .error .ub

/-- `vector::operator[]` or iterator dereference: out of range is undefined behaviour. -/
def deref {α : Type} (d : List α) (i : Nat) : M α :=
  match d[i]? with
  | some x => .ok x
  | none => .error .ub

/-- `vector::at`: out of range throws. -/
def vat {α : Type} (d : List α) (i : Nat) : M α :=
  match d[i]? with
  | some x => .ok x
  | none => .error .outOfRange

/-- `back() = f(back())` on a vector known to be non-empty (no-op on the empty list, a case the
code guards against at every use). -/
def onBack {α : Type} (f : α → α) : List α → List α
  | [] => []
  | [x] => [f x]
  | x :: y :: l => x :: onBack f (y :: l)

/-- Conversion of a `double` to `value_type`: truncation toward zero, undefined behaviour when
the truncated value does not fit. -/
def castInt (q : Rat) : M Int :=
  let t : Int := if 0 ≤ q then ⌊q⌋ else ⌈q⌉
  if InI64 t then .ok t else .error .ub

/-- What the platform leaves open: the `nth_element` algorithm and the rounding of `double`. -/
structure Env where
  nth : NthElement
  rnd : Rat → Rat

end Wrtstat
