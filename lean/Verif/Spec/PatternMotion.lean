import Verif.Spec.PointPattern
import Verif.Spec.Motion

/-!
# Specification: the attributes of a point pattern in other units, from another origin and after a rotation
-/

namespace Pointpats.Spec

open PointPattern

variable {K : Type} [Field K]

/-- A number of events per unit of area when areas become `c` times as large. Infinite and undefined numbers stay. -/
def perArea (c : K) : XF K → XF K
  | .fin x => .fin (x / c)
  | x => x

/-- The value of an attribute after lengths have been multiplied by `r` and the origin has become `(a, b)`: lengths are
multiplied by `r`, areas by its square, intensities are divided by its square, places are moved, numbers stay. -/
def converted (r a b : K) : Attr → Val K → Val K
  | .mbb, .box c => .box ⟨a + r * c.xmin, b + r * c.ymin, a + r * c.xmax, b + r * c.ymax⟩
  | .mbbArea, .num x => .num (r ^ 2 * x)
  | .hullArea, .num x => .num (r ^ 2 * x)
  | .lambdaMbb, .xnum x => .xnum (perArea (r ^ 2) x)
  | .lambdaHull, .xnum x => .xnum (perArea (r ^ 2) x)
  | .rot, .num x => .num (r * x)
  | .minNnd, .num x => .num (r * x)
  | .maxNnd, .num x => .num (r * x)
  | .meanNnd, .num x => .num (r * x)
  | .nnd, .vec l => .vec (l.map (r * ·))
  | .hull, .pts l => .pts (l.map (rescale r r a b))
  | _, v => v

/-- A rotation combined with a change of unit and a translation by `(a, b)`: `c` and `s` are the cosine and the sine of the
angle times the factor of the lengths. -/
def rotation (c s a b : K) (p : K × K) : K × K := (a + (c * p.1 - s * p.2), b + (s * p.1 + c * p.2))

/-- A reflection in the x axis followed by a `rotation`. -/
def reflection (c s a b : K) (p : K × K) : K × K := rotation c s a b (p.1, -p.2)

end Pointpats.Spec
