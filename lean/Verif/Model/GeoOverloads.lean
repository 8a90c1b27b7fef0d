import Verif.Model.Centrography
import Verif.Model.Skyum

/-!
# Model of the GeoPandas overloads in `pointpats/centrography.py`

A GeoPandas object is the list of its geometries. The other overloads (`mean_center`, `weighted_mean_center`,
`manhattan_median`, `std_distance`, `dtot`, `euclidean_median`) only pass `getCoordinates` on to the functions of
`Model/Centrography.lean`. Exact arithmetic.
-/

namespace Pointpats.Geo

/-- A row of a GeoPandas geometry column: missing, a point (possibly empty), several points, or another geometry with its
vertices. -/
inductive Geom (K : Type)
  | missing
  | point (xy : Option (K × K))
  | multiPoint (l : List (K × K))
  | other (vertices : List (K × K))
  deriving DecidableEq, Repr

/-- The coordinates of one geometry. -/
def Geom.coords {K : Type} : Geom K → List (K × K)
  | .missing => []
  | .point xy => xy.toList
  | .multiPoint l => l
  | .other l => l

/-- `shapely.get_coordinates(points.geometry)`: the coordinates of all geometries in order; missing and empty geometries
have none. -/
def getCoordinates {K : Type} (rows : List (Geom K)) : List (K × K) := rows.flatMap Geom.coords

/-- centrography.py:118-120 `minimum_bounding_rectangle` of a GeoPandas object: Shapely's envelope, that is the box from the
bounds of all geometries; without coordinates it is an empty geometry. Simplification: for boxes without width or height
Shapely returns a segment or a point, here a box all the same. -/
def minimumBoundingRectangleGeo {K : Type} [Field K] [LinearOrder K] (rows : List (Geom K)) : Option (BBox K) :=
  match Geometry.bboxPts (getCoordinates rows) with
  | .ok b => some b
  | .error _ => none

/-- `shapely.Point(c).buffer(r, quad_segs=q)`: the ring of a regular polygon with `4 q` corners on the circle, clockwise from
the right, the first one repeated at the end. Simplification: the other arguments of `buffer` are not represented. -/
noncomputable def bufferRing (q : ℕ) (c : ℝ × ℝ) (r : ℝ) : List (ℝ × ℝ) :=
  (List.range (4 * q + 1)).map fun (k : ℕ) =>
    (c.1 + r * Real.cos (k * (Real.pi / (2 * q))), c.2 - r * Real.sin (k * (Real.pi / (2 * q))))

/-- `shapely.affinity`, origin `'center'`: the centre of the bounds. -/
noncomputable def originCenter (ring : List (ℝ × ℝ)) : ℝ × ℝ :=
  match Geometry.bboxPts ring with
  | .ok b => ((b.xmax + b.xmin) / 2, (b.ymax + b.ymin) / 2)
  | .error _ => (0, 0)

/-- `shapely.affinity.scale(geom, xfact, yfact)`. -/
noncomputable def scale (ring : List (ℝ × ℝ)) (xfact yfact : ℝ) : List (ℝ × ℝ) :=
  let o := originCenter ring
  let xoff := o.1 - o.1 * xfact
  let yoff := o.2 - o.2 * yfact
  ring.map fun p => (xfact * p.1 + xoff, yfact * p.2 + yoff)

/-- `shapely.affinity.rotate(geom, angle, use_radians=True)`. -/
noncomputable def rotate (ring : List (ℝ × ℝ)) (angle : ℝ) : List (ℝ × ℝ) :=
  let cosp := Real.cos angle
  let sinp := Real.sin angle
  let o := originCenter ring
  let xoff := o.1 - o.1 * cosp + o.2 * sinp
  let yoff := o.2 - o.1 * sinp - o.2 * cosp
  ring.map fun p => (cosp * p.1 - sinp * p.2 + xoff, sinp * p.1 + cosp * p.2 + yoff)

/-- centrography.py:761-764: the centre of the ellipse. -/
noncomputable def ellipseCentre (coords : List (ℝ × ℝ)) (weights : Option (List ℝ)) : Py (ℝ × ℝ) :=
  match weights with
  | none => .ok (Centrography.meanCenter coords)
  | some w => Centrography.weightedMeanCenter coords w

/-- centrography.py:745-770 `ellipse` of a GeoPandas object: the exterior ring of the polygon. `buffer` has 16 segments for a
quarter of the circle by default. -/
noncomputable def ellipseGeo (rows : List (Geom ℝ)) (weights : Option (List ℝ)) (method : String)
    (crimestatCorr degfreedCorr : Bool) : Py (List (ℝ × ℝ)) := do
  let coords := getCoordinates rows
  let (major, minor, rotation) ← Centrography.ellipse coords weights method crimestatCorr degfreedCorr
  let centre ← ellipseCentre coords weights
  let scaled := scale (bufferRing 16 centre 1) major minor
  return rotate scaled rotation

/-- centrography.py:1008-1012 `minimum_bounding_circle` of a GeoPandas object: the exterior ring of the polygon. `hull` are
the vertices SciPy returns for the coordinates and `quadSegs` is the argument `quad_segs` passed on to `buffer`. -/
noncomputable def minimumBoundingCircleGeo (hasNumba : Bool) (rounds : ℕ) (hull : List (ℝ × ℝ)) (quadSegs : ℕ) :
    Option (Py (List (ℝ × ℝ))) :=
  (Skyum.minimumBoundingCircle hasNumba rounds hull).map fun res =>
    res.map fun cr => bufferRing quadSegs cr.1 cr.2

end Pointpats.Geo
