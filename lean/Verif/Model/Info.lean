/-
Merging of published summaries: `reduced_info::operator+=` and `aggregated_info::operator+=`.

`size_type` arithmetic is modulo 2^64, the conversion `value_type(count)` is the two's complement one,
and a result of `value_type` arithmetic outside 64 bits is undefined behaviour.
-/
import Verif.Model.Types

namespace Wrtstat

set_option autoImplicit false

/-- The value of a `value_type` expression whose exact value is `v`; signed overflow is undefined. -/
def ckI64 (v : Int) : M Int := if InI64 v then .ok v else .error .ub

/-- `value_type(n)` for a `size_type` value `n < 2^64`. -/
def ofSize (n : Nat) : Int := if n < 2 ^ 63 then (n : Int) else (n : Int) - 2 ^ 64

/-- Addition of `size_type` values. -/
def addSize (a b : Nat) : Nat := (a + b) % 2 ^ 64

namespace ReducedInfo

/-- The new `avg` (reduced_info.hpp:31-34). -/
def mergeAvg (a b : ReducedInfo) : M Int :=
  if addSize a.count b.count ≠ 0 then do
    let x ← ckI64 (ofSize a.count * a.avg)
    let y ← ckI64 (ofSize b.count * b.avg)
    let s ← ckI64 (x + y)
    ckI64 (s.tdiv (ofSize (addSize a.count b.count)))
  else do
    let s ← ckI64 (a.avg + b.avg)
    ckI64 (s.tdiv 2)

/-- `operator+=` (reduced_info.hpp:23-41). -/
def merge (a b : ReducedInfo) : M ReducedInfo :=
  if a.ts = 0 then .ok b
  else do
    let avg ← mergeAvg a b
    .ok { ts := a.ts
          avg := avg
          count := addSize a.count b.count
          lossy := addSize a.lossy b.lossy
          min := Min.min a.min b.min
          max := Min.min a.max b.max }

end ReducedInfo

/-- `aggregated_info` (wrtstat/aggregator/api/aggregated_info.hpp:11-17). -/
structure AggInfo extends ReducedInfo, Perc
deriving DecidableEq, Repr

/-- `operator<` of `std::pair<value_type, value_type>`, negated and turned round. -/
def pairLe (p q : Int × Int) : Prop := p.1 < q.1 ∨ (p.1 = q.1 ∧ p.2 ≤ q.2)

instance : DecidableRel pairLe := fun _ _ => inferInstanceAs (Decidable (_ ∨ _))

/-- `std::sort` on an array of pairs. -/
def sortPairs (l : List (Int × Int)) : List (Int × Int) := l.insertionSort pairLe

namespace Perc

/-- The five entries of `arr1` for one operand with count `c` (aggregated_info.hpp:34-38, 40-44). -/
def weigh (p : Perc) (c : Int) : M (List (Int × Int)) := do
  let x50 ← ckI64 (p.perc50 * (c.tdiv 2 + 1))
  let x80 ← ckI64 (p.perc80 * (c.tdiv 3 + 1))
  let x95 ← ckI64 (p.perc95 * (c.tdiv 6 + 1))
  let x99 ← ckI64 (p.perc99 * (c.tdiv 10 + 1))
  let x100 ← ckI64 (p.perc100 * (c.tdiv 100 + 1))
  .ok [(x50, p.perc50), (x80, p.perc80), (x95, p.perc95), (x99, p.perc99), (x100, p.perc100)]

/-- The choice of five of the ten values (aggregated_info.hpp:46-59). -/
def choose (arr1 : List (Int × Int)) : M Perc := do
  let arr1 := sortPairs arr1
  let a0 ← deref arr1 3
  let a1 ← deref arr1 6
  let a2 ← deref arr1 7
  let a3 ← deref arr1 8
  let a4 ← deref arr1 9
  let arr2 := sortInts [a0.2, a1.2, a2.2, a3.2, a4.2]
  let perc50 ← deref arr2 0
  let perc80 ← deref arr2 1
  let perc95 ← deref arr2 2
  let perc99 ← deref arr2 3
  let perc100 ← deref arr2 4
  .ok { perc50, perc80, perc95, perc99, perc100 }

end Perc

namespace AggInfo

/-- `operator+=` (aggregated_info.hpp:19-62); `count1` is read after the counts have been added. -/
def merge (a v : AggInfo) : M AggInfo :=
  if a.ts = 0 then .ok v
  else do
    let r ← a.toReducedInfo.merge v.toReducedInfo
    let w1 ← a.toPerc.weigh (ofSize r.count)
    let w2 ← v.toPerc.weigh (ofSize v.count)
    let p ← Perc.choose (w1 ++ w2)
    .ok { toReducedInfo := r, toPerc := p }

end AggInfo

end Wrtstat
