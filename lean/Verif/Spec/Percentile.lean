/-
Specification vocabulary for percentiles and for the records an aggregator delivers.
-/
import Verif.Spec.Window

namespace Wrtstat

/-- `v` is the element of rank `k` (counted from 0) of the samples: it occurs, at most `k` samples
are smaller, and more than `k` are not larger. -/
def IsOrderStat (xs : List Int) (k : Nat) (v : Int) : Prop :=
  v ∈ xs ∧ xs.countP (fun x => decide (x < v)) ≤ k ∧ k < xs.countP (fun x => decide (x ≤ v))

/-- The percentiles of a non-empty list of samples.  `perc100` is only a sample not below the
others (see C20). -/
structure Percentiles (xs : List Int) (p : Perc) : Prop where
  p50 : IsOrderStat xs (xs.length * 50 / 100) p.perc50
  p80 : IsOrderStat xs (xs.length * 80 / 100) p.perc80
  p95 : IsOrderStat xs (xs.length * 95 / 100) p.perc95
  p99 : IsOrderStat xs (xs.length * 99 / 100) p.perc99
  p100 : p.perc100 ∈ xs ∧ p.perc99 ≤ p.perc100

/-- The number of samples that remain of `n` when no more than about `R` are to be delivered: all if there are not more than `R`; below
`2R` every `n/(n-R)`-th, beginning with the first, is removed; from `2R` on every `n/R`-th, beginning with the first, is kept. -/
def thinned (R n : Nat) : Nat :=
  if R = 0 ∨ n ≤ R then n
  else if n < 2 * R then n - (n + n / (n - R) - 1) / (n / (n - R))
  else (n + n / R - 1) / (n / R)

/-- `d` is what an aggregator with `outgoing_reduced_size = R` may deliver for the window record
`raw`: everything but samples and percentiles is the same, the percentiles are those of the samples
of `raw`, and the samples are thinned. -/
structure Delivered (R : Nat) (raw d : AggData) : Prop where
  ts : d.ts = raw.ts
  count : d.count = raw.count
  lossy : d.lossy = raw.lossy
  min : d.min = raw.min
  max : d.max = raw.max
  avg : d.avg = raw.avg
  /-- the samples delivered are among those of the window -/
  samples : ∀ x, d.data.count x ≤ raw.data.count x
  nonempty : raw.data ≠ [] → d.data ≠ []
  /-- without thinning nothing is lost -/
  full : R = 0 ∨ raw.data.length ≤ R → d.data.Perm raw.data
  size : d.data.length = thinned R raw.data.length
  perc : raw.data ≠ [] → Percentiles raw.data d.toPerc
  noperc : raw.data = [] → d.toPerc = raw.toPerc

end Wrtstat
