import Verif.Model.Py
import Mathlib.Order.Defs.LinearOrder
import Mathlib.Data.List.Sort

/-!
# Specification of nearest-neighbour answers

A spatial index answers a query for the `m` nearest of `n` stored points with a row of
(distance, id) pairs. Several answers are correct when distances tie; the relation below holds of
exactly the correct ones, so a theorem about all rows satisfying it covers every way of breaking ties.
-/

namespace Pointpats.Spec

variable {D : Type} [LinearOrder D]

/-- `row` is a correct answer to "the `m` nearest among the stored points with ids in `ids`", where
`dist j` is the distance from the query location to stored point `j`: it has `m` entries, with different ids
of stored points, each with its true distance, in non-decreasing order of distance, and no stored point
left out is closer than one that is listed. -/
structure NearestRow (dist : ℕ → D) (ids : List ℕ) (m : ℕ) (row : List (D × ℕ)) : Prop where
  length : row.length = m
  stored : ∀ e ∈ row, e.2 ∈ ids
  nodup : (row.map Prod.snd).Nodup
  true_dist : ∀ e ∈ row, e.1 = dist e.2
  sorted : row.Pairwise fun a b => a.1 ≤ b.1
  nearest : ∀ j ∈ ids, j ∉ row.map Prod.snd → ∀ e ∈ row, e.1 ≤ dist j

/-- The `m` smallest distances to the stored points, in increasing order. -/
def smallest (dist : ℕ → D) (ids : List ℕ) (m : ℕ) : List D :=
  ((ids.map dist).mergeSort (fun a b => decide (a ≤ b))).take m

/-- All ids except `i`. -/
def others (n i : ℕ) : List ℕ := (List.range n).filter fun j => j ≠ i

/-- What SciPy's index over `n` points answers for the `m` nearest of them: all `n` if there are fewer than `m`, and then
entries with an infinite distance and the number `n`. -/
def PaddedRow {K : Type} [LinearOrder K] (dist : ℕ → K) (n m : ℕ) (row : List (XF K × ℕ)) : Prop :=
  ∃ core, NearestRow dist (List.range n) (min m n) core
    ∧ row = core.map (fun e => (XF.fin e.1, e.2)) ++ List.replicate (m - n) (XF.pinf, n)

end Pointpats.Spec
