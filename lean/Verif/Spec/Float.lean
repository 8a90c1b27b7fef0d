import Mathlib.Algebra.Order.Field.Basic
import Mathlib.Algebra.BigOperators.Group.List.Basic
import Mathlib.Algebra.Order.BigOperators.Group.List
import Mathlib.Tactic.Linarith
import Mathlib.Tactic.Ring
import Mathlib.Tactic.FieldSimp
import Mathlib.Data.Rat.Defs
import Mathlib.Algebra.Order.Ring.Rat
import Mathlib.Algebra.Field.Rat

/-!
# Exact means and variances, for comparison with the rounded ones
-/

namespace Pointpats.Spec

/-- The exact mean. -/
def mean (l : List ℚ) : ℚ := l.sum / l.length

/-- The exact (population) variance: the mean squared deviation from the mean. -/
def variance (l : List ℚ) : ℚ := mean (l.map fun x => (x - mean l) ^ 2)

theorem variance_nonneg (l : List ℚ) : 0 ≤ variance l := by
  unfold variance mean
  apply div_nonneg
  · apply List.sum_nonneg
    intro y hy
    obtain ⟨z, -, rfl⟩ := List.mem_map.1 hy
    exact sq_nonneg _
  · positivity

/-- The variance is the mean square minus the square of the mean. -/
theorem variance_eq (l : List ℚ) (h : l ≠ []) :
    variance l = mean (l.map fun x => x * x) - mean l ^ 2 := by
  have hn : (0 : ℚ) < l.length := by exact_mod_cast List.length_pos_iff.2 h
  have key : ∀ (m : ℚ) (k : List ℚ), (k.map fun x => (x - m) ^ 2).sum
      = (k.map fun x => x * x).sum - 2 * m * k.sum + k.length * m ^ 2 := by
    intro m k
    induction k with
    | nil => simp
    | cons x k ih => simp only [List.map_cons, List.sum_cons, List.length_cons, ih]; push_cast; ring
  unfold variance
  rw [mean, key, List.length_map]
  unfold mean
  rw [List.length_map]
  field_simp
  ring

end Pointpats.Spec
