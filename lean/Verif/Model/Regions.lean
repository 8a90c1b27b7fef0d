import Verif.Model.Random

/-!
# Model of the dispatch of `area`, `bbox`, `contains` and `centroid` (`pointpats/geometry.py`)

A study region can be given as an array with a bounding box, as a SciPy `ConvexHull` and as a shapely `Polygon`. What
SciPy and shapely compute of a region is modelled by its formula.
-/

namespace Pointpats.Geometry

variable {K : Type} [Field K] [LinearOrder K]

/-- A study region. A `ConvexHull` is given by its vertices in their order around the hull; a `Polygon` by the vertices
of its ring, without the repeated last one. Simplification: polygons are convex and have no holes. -/
inductive Region (K : Type)
  | bbox (b : BBox K)
  | convexHull (vertices : List (K × K))
  | polygon (ring : List (K × K))
  deriving DecidableEq, Repr

/-- The edges of a ring, from every vertex to the next one, and from the last to the first. -/
def edges (v : List (K × K)) : List ((K × K) × (K × K)) := v.zip (v.rotate 1)

/-- The cross product of the end points of an edge. -/
def cross (e : (K × K) × (K × K)) : K := e.1.1 * e.2.2 - e.2.1 * e.1.2

/-- Twice the signed area of the triangle of an edge and a point. -/
def side (e : (K × K) × (K × K)) (x y : K) : K :=
  (e.2.1 - e.1.1) * (y - e.1.2) - (e.2.2 - e.1.2) * (x - e.1.1)

/-- `ConvexHull.volume` and `shapely.area`. -/
def ringAreaAbs (v : List (K × K)) : K := |((edges v).map cross).sum / 2|

/-- geometry.py:36-65, 232-238 `area`. -/
def Region.area : Region K → K
  | .bbox b => areaBBox b
  | .convexHull v => ringAreaAbs v
  | .polygon v => ringAreaAbs v

/-- geometry.py:68-97, 209-215, 250-256 `bbox`. -/
def Region.bounds : Region K → Py (BBox K)
  | .bbox b => .ok b
  | .convexHull v => bboxPts v
  | .polygon v => bboxPts v

/-- geometry.py:103-146, 200-206, 241-247 `contains`. SciPy looks for a triangle of a triangulation of the hull that
contains the point, borders included; for shapely a point on the border is not contained. -/
def Region.contains (r : Region K) (x y : K) : Bool :=
  match r with
  | .bbox b => containsBBox b x y
  | .convexHull v => ((edges v).all fun e => decide (0 ≤ side e x y)) || ((edges v).all fun e => decide (side e x y ≤ 0))
  | .polygon v => ((edges v).all fun e => decide (0 < side e x y)) || ((edges v).all fun e => decide (side e x y < 0))

/-- `shapely.centroid` of a polygon that has an area. -/
def ringCentroid (v : List (K × K)) : K × K :=
  let a := 3 * ((edges v).map cross).sum
  (((edges v).map fun e => (e.1.1 + e.2.1) * cross e).sum / a, ((edges v).map fun e => (e.1.2 + e.2.2) * cross e).sum / a)

/-- geometry.py:149-185, 218-224, 259-265 `centroid`. -/
def Region.centroid : Region K → Py (K × K)
  | .bbox b => centroidArr (.vec [b.xmin, b.ymin, b.xmax, b.ymax])
  | .convexHull v => centroidArr (.pts v)
  | .polygon v => .ok (ringCentroid v)

/-- What the samplers use of a region with the given bounding box. -/
def Region.toHull (r : Region K) (b : BBox K) : Random.Hull K :=
  { bbox := b, contains := r.contains, area := r.area
    isArray := match r with
      | .bbox _ => true
      | _ => false }

end Pointpats.Geometry
