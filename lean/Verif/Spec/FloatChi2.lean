import Mathlib.Algebra.Order.Field.Rat
import Mathlib.Algebra.Order.BigOperators.Group.List

/-!
# Specification: sums in floating point arithmetic
-/

namespace Pointpats.Spec

/-- What holds of a floating point sum whatever the order of the additions: every number goes through at most as many roundings
as there are numbers. -/
def IsFloatSum (sum : List ℚ → ℚ) : Prop :=
  ∀ l : List ℚ, |sum l - l.sum| ≤ ((1 + 1 / 2 ^ 53) ^ l.length - 1) * (l.map abs).sum

end Pointpats.Spec
