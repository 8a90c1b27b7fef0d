import Verif.Model.Centrography

/-!
# The warning of `manhattan_median`
-/

namespace Pointpats.Centrography

variable {K : Type} [Field K] [LinearOrder K]

/-- centrography.py:510-516 `manhattan_median`: the value returned, and whether the call warned that the median "is not unique for
even point patterns". -/
def manhattanMedianCall (points : List (K × K)) : (K × K) × Bool :=
  (manhattanMedian points, decide (points.length % 2 = 0))

end Pointpats.Centrography
