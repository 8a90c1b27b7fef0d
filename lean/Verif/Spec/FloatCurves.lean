import Verif.Model.Py
import Mathlib.Algebra.Order.Field.Rat

/-!
# Specification: computed curves and exact curves
-/

namespace Pointpats.Spec

/-- The computed value is the exact one up to a relative error of `ε`; it is infinite or `nan` exactly if the exact one is. -/
def AgreesUpTo (ε : ℚ) : (computed exact : XF ℚ) → Prop
  | .fin y, .fin x => |y - x| ≤ ε * |x|
  | .nan, .nan => True
  | .pinf, .pinf => True
  | .ninf, .ninf => True
  | _, _ => False

/-- Both values are finite, the computed one is not negative, and one is zero exactly if the other is; or both are `nan`, or
both are infinite. -/
def SameKind : (computed exact : XF ℚ) → Prop
  | .fin y, .fin x => 0 ≤ y ∧ (y = 0 ↔ x = 0)
  | .nan, .nan => True
  | .pinf, .pinf => True
  | _, _ => False

end Pointpats.Spec
