import Verif.Spec.Spacetime

/-!
# Specification: space-time events in other units
-/

namespace Pointpats.Spec

variable {K : Type} [Field K] [LinearOrder K]

/-- The map `f` of the plane multiplies all distances by `r`: a change of unit or origin, a rotation, a reflection or a
combination of these. -/
structure ScalesDistance (sdist : K × K → K × K → K) (r : K) (f : K × K → K × K) : Prop where
  pos : 0 < r
  dist : ∀ p q, sdist (f p) (f q) = r * sdist p q

/-- The same event with its place mapped by `f`, and its time counted in another unit (`e` new ones make an old one) and
from another origin (`c` is the old one). A negative `e` makes time run backwards. -/
def moveEvent (f : K × K → K × K) (e c : K) (x : Event K) : Event K := (f x.1, c + e * x.2)

end Pointpats.Spec
