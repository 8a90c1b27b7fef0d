import Mathlib.Algebra.Order.Field.Basic
import Mathlib.Data.List.Basic

/-!
# Specifications for the distance statistics

Independent of the model: points, distances, distance values.
-/

namespace Pointpats.Spec

variable {K : Type} [Field K] [LinearOrder K]

/-- `num` equally spaced numbers from `start` to `stop` (only `start` if `num = 1`). -/
structure IsGrid (start stop : K) (num : ℕ) (s : List K) : Prop where
  length : s.length = num
  first : num ≠ 0 → s[0]? = some start
  value : ∀ i, i < num → 2 ≤ num → s[i]? = some (start + i * (stop - start) / ((num : K) - 1))

/-- `d` is the smallest distance from the location `x` to the events at other places than `i`. -/
def NearestExcept (dist : K × K → K × K → K) (events : List (K × K)) (i : ℕ) (x : K × K) (d : K) : Prop :=
  (∃ j q, events[j]? = some q ∧ j ≠ i ∧ d = dist x q) ∧ ∀ j q, events[j]? = some q → j ≠ i → d ≤ dist x q

/-- `d` is the distance from event `i` to the nearest other event. -/
def IsNearestOther (dist : K × K → K × K → K) (events : List (K × K)) (i : ℕ) (d : K) : Prop :=
  ∃ p, events[i]? = some p ∧ NearestExcept dist events i p d

/-- `d` is the distance from the location `x` to the nearest event. -/
def IsNearest (dist : K × K → K × K → K) (events : List (K × K)) (x : K × K) (d : K) : Prop :=
  (∃ q ∈ events, d = dist x q) ∧ ∀ q ∈ events, d ≤ dist x q

/-- `d` is the largest of the distances from an event to its nearest other event. -/
def IsLargestNearest (dist : K × K → K × K → K) (events : List (K × K)) (d : K) : Prop :=
  (∃ i, IsNearestOther dist events i d) ∧ ∀ i d', IsNearestOther dist events i d' → d' ≤ d

/-- How many of the data lie from the first support value on and below the `i`-th one (the last one included). -/
def countUpTo (s : List K) (i : ℕ) (data : List K) : ℕ :=
  (data.filter fun x => decide (s.getD 0 0 ≤ x ∧ (x < s.getD i 0 ∨ (i + 1 = s.length ∧ x = s.getD i 0)))).length

/-- How many of the data lie within the support. -/
def countWithin (s data : List K) : ℕ :=
  (data.filter fun x => decide (s.getD 0 0 ≤ x ∧ x ≤ s.getD (s.length - 1) 0)).length

/-- `v` is the cumulative share of the data that lie within the support, by support value. -/
structure IsShareCurve (data s v : List K) : Prop where
  length : v.length = s.length
  value : ∀ i, i < s.length → v[i]? = some ((countUpTo s i data : K) / (countWithin s data : K))

/-- `v` starts at 0, does not decrease, and ends at 1 (so it is within `[0, 1]`). -/
structure IsDistributionCurve (v : List K) : Prop where
  first : v[0]? = some 0
  monotone : v.Pairwise (· ≤ ·)
  last : v.getLast? = some 1

/-- The number of ordered pairs of events (at different places of the list) at distance below `r`. -/
def orderedPairsBelow (dist : K × K → K × K → K) (events : List (K × K)) (r : K) : ℕ :=
  ((List.range events.length).flatMap fun i => (List.range events.length).filter fun j =>
    decide (j ≠ i ∧ dist (events.getD i (0, 0)) (events.getD j (0, 0)) < r)).length

/-- The distances of the unordered pairs of events (at different places of the list). -/
def pairDistances (dist : K × K → K × K → K) : List (K × K) → List K
  | [] => []
  | p :: ps => ps.map (dist p) ++ pairDistances dist ps

/-- The matrix of all distances. -/
def distanceMatrix (dist : K × K → K × K → K) (events : List (K × K)) : List (List K) :=
  events.map fun p => events.map (dist p)

/-- A distance: symmetric, non-negative. -/
structure IsDistance (dist : K × K → K × K → K) : Prop where
  symm : ∀ p q, dist p q = dist q p
  nonneg : ∀ p q, 0 ≤ dist p q

end Pointpats.Spec
