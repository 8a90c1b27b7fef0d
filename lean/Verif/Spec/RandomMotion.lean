import Verif.Spec.Motion
import Verif.Model.Random

/-!
# The parameters of the samplers in other units
-/

namespace Pointpats.Spec

open Random

variable {K : Type} [Field K]

/-- Covariances are converted with the factor for areas. -/
def scaleCov (c : K) : CovArg K → CovArg K
  | .none => .none
  | .num v => .num (c * v)
  | .mat m => .mat ⟨c * m.a, c * m.b, c * m.c, c * m.d⟩
  | .mats l => .mats (l.map fun m => ⟨c * m.a, c * m.b, c * m.c, c * m.d⟩)
  | .badShape => .badShape
  | .other => .other

/-- Radii are lengths. -/
def scaleRadius (r : K) : RadiusArg K → RadiusArg K
  | .none => .none
  | .arr l => .arr (l.map (r * ·))
  | .num x => .num (r * x)
  | .otherIterable => .otherIterable

/-- The outcome of a sampler with every point moved: the same exception, or the moved points with the generator at the same
place. -/
def movedOutcome {α β : Type} (f : α → β) : Run α → Run β
  | none => none
  | some (.error e) => some (.error e)
  | some (.ok (x, pos)) => some (.ok (f x, pos))

end Pointpats.Spec
