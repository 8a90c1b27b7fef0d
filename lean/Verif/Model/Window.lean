import Verif.Model.Geometry

/-!
# Model of `pointpats/window.py`

libpysal's `Polygon` is modelled by its list of outer rings and its list of holes.
-/

namespace Pointpats

variable {K : Type} [Field K] [LinearOrder K]

/-- A ring: the list of its vertices. -/
abbrev Ring' (K : Type) := List (K × K)

/-- libpysal `Polygon` / pointpats `Window`: outer rings and holes. A polygon without holes has
`holes = [[]]` in libpysal. -/
structure Poly (K : Type) where
  parts : List (Ring' K)
  holes : List (Ring' K)
  deriving DecidableEq, Repr

namespace Window

/-- window.py:20-23 `poly_from_bbox`. -/
def polyFromBBox (b : BBox K) : Poly K :=
  { parts := [[(b.xmin, b.ymin), (b.xmin, b.ymax), (b.xmax, b.ymax), (b.xmax, b.ymin),
               (b.xmin, b.ymin)]]
    holes := [[]] }

/-- window.py:26-29 `to_ccf`: returns the ring after the possible `append` (the caller's list is the
same object, so it has the same value afterwards). An empty list is an `IndexError`. -/
def toCcf (poly : Ring' K) : Py (Ring' K) :=
  match poly with
  | [] => .error .indexError
  | p :: ps => if (p :: ps).getLast (by simp) ≠ p then .ok (p :: ps ++ [p]) else .ok (p :: ps)

/-- window.py:72-76 `Window.__init__`. -/
def mk (parts holes : List (Ring' K)) : Poly K :=
  if holes ≠ [] then { parts, holes } else { parts, holes := [[]] }

/-- window.py:32-50 `as_window`. -/
def asWindow (p : Poly K) : Poly K :=
  if p.holes = [[]] then mk p.parts [] else mk p.parts p.holes

/-- window.py:78-79 `Window.filter_contained`; `contains` is libpysal's `contains_point`. -/
def filterContained (contains : K × K → Bool) (points : List (K × K)) : List (K × K) :=
  points.filter contains

/-- libpysal `Polygon.area` of one ring: the absolute shoelace sum
`1/2 * |Σ (x_{i+1} + x_i) * (y_{i+1} - y_i)|` over consecutive vertices of a closed ring. -/
def ringSum : Ring' K → K
  | [] => 0
  | [_] => 0
  | p :: q :: rest => (q.1 + p.1) * (q.2 - p.2) + ringSum (q :: rest)

/-- libpysal `Polygon.area`: the areas of the parts minus the areas of the holes. -/
def area (p : Poly K) : K :=
  (p.parts.map fun r => |ringSum r| / 2).sum - (p.holes.map fun r => |ringSum r| / 2).sum

end Window

end Pointpats
