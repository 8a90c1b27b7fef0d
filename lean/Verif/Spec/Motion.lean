import Verif.Model.QStatistic

/-!
# Specification: other units, another origin, another order
-/

namespace Pointpats.Spec

open Random

variable {K : Type} [Field K] [LinearOrder K]

/-- The same place in other units: `s` and `t` are the new units of the two axes, `(a, b)` is the old origin. -/
def rescale (s t a b : K) (p : K × K) : K × K := (a + s * p.1, b + t * p.2)

/-- The same window in other units. -/
structure RescaledWindow (s t a b : K) (w w' : Hull K) : Prop where
  lower : (w'.bbox.xmin, w'.bbox.ymin) = rescale s t a b (w.bbox.xmin, w.bbox.ymin)
  upper : (w'.bbox.xmax, w'.bbox.ymax) = rescale s t a b (w.bbox.xmax, w.bbox.ymax)
  inside : ∀ p, w'.contains (rescale s t a b p).1 (rescale s t a b p).2 = w.contains p.1 p.2
  area : w'.area = s * t * w.area

/-- The same grid of quadrats in other units: the numbers of columns and rows stay, lengths are converted. -/
def rescaleGrid (s t : K) : Quadrat.GridArg K → Quadrat.GridArg K
  | .rectangle nx ny w h => .rectangle nx ny (s * w) (t * h)
  | .hexagon lh => .hexagon (s * lh)
  | .other => .other

end Pointpats.Spec
