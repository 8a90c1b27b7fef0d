import Verif.Model.Py
import Mathlib.Data.List.Defs

/-!
# What the curve of L is, given the curve of K
-/

namespace Pointpats.Spec

/-- At every distance `d` of the support the first curve has a value `x`, not negative, and the second one the value
`root (x / pi)`, minus `d` if it is linearized. -/
structure IsLCurve {K : Type} [Field K] [LinearOrder K] (root : K → K) (pi : K) (linearized : Bool) (support : List K)
    (kCurve lCurve : List (XF K)) : Prop where
  lengths : kCurve.length = support.length ∧ lCurve.length = support.length
  values : ∀ (i : ℕ) (d : K), support[i]? = some d → ∃ x : K, 0 ≤ x ∧ kCurve[i]? = some (.fin x)
    ∧ lCurve[i]? = some (.fin (root (x / pi) - if linearized then d else 0))

end Pointpats.Spec
