import Verif.Model.GeoOverloads
import Verif.Model.QStatistic
import Verif.Model.PointPattern

/-!
# Model of how arguments are turned into arrays, windows and generators

`pointpats/centrography.py` chooses an implementation by the type of the first argument (`functools.singledispatch`);
`pointpats/quadrat_statistics.py` converts its arguments in helper functions.
-/

namespace Pointpats.Inputs

open Geo Centrography

/-! ### `pointpats/centrography.py` -/

/-- The events handed to a centrographic measure: a NumPy array with two columns, another sequence of pairs (a list, a
data frame), or a GeoPandas object given by its rows. -/
inductive PointsArg (K : Type)
  | array (points : List (K × K))
  | sequence (points : List (K × K))
  | geo (rows : List (Geom K))
  deriving DecidableEq, Repr

/-- centrography.py:362-364, 376, 433-435, 450, 503-505, 521, 574-576, 590, 899-901, 915: `np.asarray(points)` and
`shapely.get_coordinates(points.geometry)`, the array the implementation for arrays gets. -/
def PointsArg.coordinates {K : Type} : PointsArg K → List (K × K)
  | .array l => l
  | .sequence l => l
  | .geo rows => getCoordinates rows

section Field

variable {K : Type} [Field K] [LinearOrder K]

omit [LinearOrder K] in
/-- centrography.py:312-377 `mean_center`; the type of the result, an array or a `shapely.Point`, is not represented. -/
def meanCenterOf (points : PointsArg K) : K × K := meanCenter points.coordinates

omit [LinearOrder K] in
/-- centrography.py:380-451 `weighted_mean_center`. -/
def weightedMeanCenterOf (points : PointsArg K) (weights : List K) : Py (K × K) :=
  weightedMeanCenter points.coordinates weights

/-- centrography.py:454-522 `manhattan_median`. -/
def manhattanMedianOf (points : PointsArg K) : K × K := manhattanMedian points.coordinates

end Field

/-- centrography.py:525-591 `std_distance`. -/
noncomputable def stdDistanceOf (points : PointsArg ℝ) : ℝ := stdDistance points.coordinates

/-- centrography.py:849-916 `euclidean_median`. -/
noncomputable def euclideanMedianOf (minimize : ((ℝ × ℝ) → ℝ) → ℝ × ℝ → ℝ × ℝ) (points : PointsArg ℝ) : ℝ × ℝ :=
  euclideanMedian minimize points.coordinates

/-- The location handed to `dtot`. -/
inductive CoordArg
  | array (c : ℝ × ℝ)
  | sequence (c : ℝ × ℝ)
  | point (c : ℝ × ℝ)

/-- The two numbers of a location. -/
def CoordArg.xy : CoordArg → ℝ × ℝ
  | .array c => c
  | .sequence c => c
  | .point c => c

/-- centrography.py:772-846 `dtot`. The implementation is chosen by the type of `coord` alone. For an array,
`points[:, 0]` is a `TypeError` for a list and a `KeyError` for a `GeoSeries`; for another sequence both arguments are
converted, and a `GeoSeries` becomes a one-dimensional array, with an `IndexError`; for a `shapely.Point`, arrays and lists
have no attribute `geometry`. Simplification: a data frame is a sequence, although `points[:, 0]` of it raises another
exception. -/
noncomputable def dtotOf (coord : CoordArg) (points : PointsArg ℝ) : Py ℝ :=
  match coord, points with
  | .array c, .array l => .ok (dtot c l)
  | .array _, .sequence _ => .error .typeError
  | .array _, .geo _ => .error .keyError
  | .sequence c, .array l => .ok (dtot c l)
  | .sequence c, .sequence l => .ok (dtot c l)
  | .sequence _, .geo _ => .error .indexError
  | .point c, .geo rows => .ok (dtot c (getCoordinates rows))
  | .point _, .array _ => .error .attributeError
  | .point _, .sequence _ => .error .attributeError

/-- `shapely.multipoints(points.geometry)`: one geometry of all points. Missing geometries are skipped; any other geometry
than a point is a `TypeError`. -/
def multipoints {K : Type} (rows : List (Geom K)) : Py (List (K × K)) :=
  if rows.any (fun g => match g with | .multiPoint _ => true | .other _ => true | _ => false) then .error .typeError
  else .ok (getCoordinates rows)

/-- centrography.py:294-296, 301-309 `hull`: the corners `points[h.vertices]` of an array, `scipy` being the `vertices`
SciPy's `ConvexHull` finds or its exception, and of a GeoPandas object the ring of `shapely.convex_hull`. -/
def hullOf {K : Type} [Zero K] (scipy : List (K × K) → Py (List ℕ)) (shapely : List (K × K) → List (K × K))
    (points : PointsArg K) : Py (List (K × K)) :=
  match points with
  | .array l => (scipy l).map fun vertices => vertices.map fun i => l.getD i (0, 0)
  | .sequence l => (scipy l).map fun vertices => vertices.map fun i => l.getD i (0, 0)
  | .geo rows => (multipoints rows).map shapely

/-- centrography.py:98-100, 105-120 `minimum_bounding_rectangle`; `none` is an empty geometry. -/
def minimumBoundingRectangleOf {K : Type} [Field K] [LinearOrder K] (points : PointsArg K) : Py (Option (BBox K)) :=
  match points with
  | .array l => (minimumBoundingRectangle l).map fun b => some ⟨b.1, b.2.1, b.2.2.1, b.2.2.2⟩
  | .sequence l => (minimumBoundingRectangle l).map fun b => some ⟨b.1, b.2.1, b.2.2.1, b.2.2.2⟩
  | .geo rows => .ok (minimumBoundingRectangleGeo rows)

/-- centrography.py:192-194, 212-233 `minimum_rotated_rectangle(points, return_angle=True)`: the corners and the angle;
`shapely` is the ring of `shapely.minimum_rotated_rectangle`. The array version returns the corners without the repeated
one in reverse order, the GeoPandas version the ring. -/
noncomputable def rotatedRectangleOf (shapely : List (ℝ × ℝ) → List (ℝ × ℝ)) (points : PointsArg ℝ) :
    Py (List (ℝ × ℝ) × ℝ) :=
  match points with
  | .array l => rotatedRectangle (shapely l)
  | .sequence l => rotatedRectangle (shapely l)
  | .geo rows =>
      match multipoints rows with
      | .error e => .error e
      | .ok l => (rotatedRectangle (shapely l)).map fun r => (shapely l, r.2)

/-- centrography.py:980-982, 987-1012 `minimum_bounding_circle(points)`: the circle, or for a GeoPandas object the ring of
its polygon with `quadSegs` segments for a quarter. `scipy` as in `hullOf`. -/
noncomputable def minimumBoundingCircleOf (hasNumba : Bool) (rounds : ℕ) (scipy : List (ℝ × ℝ) → Py (List ℕ)) (quadSegs : ℕ)
    (points : PointsArg ℝ) : Option (Py (((ℝ × ℝ) × ℝ) ⊕ List (ℝ × ℝ))) :=
  match points with
  | .array l => circleOfArray l Sum.inl
  | .sequence l => circleOfArray l Sum.inl
  | .geo rows => circleOfArray (getCoordinates rows) fun cr => Sum.inr (bufferRing quadSegs cr.1 cr.2)
where
  circleOfArray (l : List (ℝ × ℝ)) (f : (ℝ × ℝ) × ℝ → ((ℝ × ℝ) × ℝ) ⊕ List (ℝ × ℝ)) :
      Option (Py (((ℝ × ℝ) × ℝ) ⊕ List (ℝ × ℝ))) :=
    match scipy l with
    | .error e => some (.error e)
    | .ok vertices =>
        (Skyum.minimumBoundingCircle hasNumba rounds (vertices.map fun i => l.getD i (0, 0))).map fun res => res.map f

/-- centrography.py:664-666, 671-768 `ellipse`: the axes and the angle, or for a GeoPandas object the ring of the polygon. -/
noncomputable def ellipseOf (points : PointsArg ℝ) (weights : Option (List ℝ)) (method : String)
    (crimestatCorr degfreedCorr : Bool) : Py ((ℝ × ℝ × ℝ) ⊕ List (ℝ × ℝ)) :=
  match points with
  | .array l => (ellipse l weights method crimestatCorr degfreedCorr).map Sum.inl
  | .sequence l => (ellipse l weights method crimestatCorr degfreedCorr).map Sum.inl
  | .geo rows => (ellipseGeo rows weights method crimestatCorr degfreedCorr).map Sum.inr

/-! ### `pointpats/quadrat_statistics.py` -/

/-- The argument `pp` of `RectangleM`, `HexagonM` and `QStatistic`: an array, a GeoPandas object, or a `PointPattern`. -/
inductive QInput (K : Type)
  | array (rows : List (List K))
  | geo (rows : List (Geom K))
  | pattern (pp : PointPattern.Obj K)

/-- The rows of an array as pairs, if it has two columns. -/
def pairs {K : Type} : List (List K) → Option (List (K × K))
  | [] => some []
  | [x, y] :: rest => (pairs rest).map fun l => (x, y) :: l
  | _ :: _ => none

/-- A geometry that is missing (quadrat_statistics.py:52 `dropna`). An empty point is not missing. -/
def isMissing {K : Type} : Geom K → Bool
  | .missing => true
  | _ => false

/-- A geometry of type `Point` or `MultiPoint` (quadrat_statistics.py:53). -/
def isPoints {K : Type} : Geom K → Bool
  | .point _ => true
  | .multiPoint _ => true
  | _ => false

/-- quadrat_statistics.py:33-77 `_as_points_array`. -/
def asPoints {K : Type} : QInput K → Py (List (K × K))
  | .geo rows =>
      let rows := rows.filter fun g => !isMissing g
      if rows.all isPoints then
        let coords := getCoordinates rows
        if coords.length = 0 then .error .valueError else .ok coords
      else .error .typeError
  | .pattern pp => .ok pp.points
  | .array rows =>
      match pairs rows with
      | none => .error .valueError
      | some l => if l.length = 0 then .error .valueError else .ok l

section Quadrat

variable {K : Type} [Field K] [LinearOrder K] [IsStrictOrderedRing K] [FloorRing K]

open Quadrat Random

/-- quadrat_statistics.py:80-85 `_compute_mbb` and 88-91 `_ensure_window`: the window of a `QStatistic`; by default the box
around the events, as a shapely polygon: a point is contained if it lies inside. -/
def ensureWindow (window : Option (Hull K)) (points : List (K × K)) : Py (Hull K) := do
  let b ← Geometry.bboxPts points
  match window with
  | some w => return w
  | none =>
      return { bbox := b, area := (b.xmax - b.xmin) * (b.ymax - b.ymin), isArray := false
               contains := fun x y => decide (b.xmin < x ∧ x < b.xmax ∧ b.ymin < y ∧ y < b.ymax) }

/-- quadrat_statistics.py:176-208 `RectangleM(pp, count_column, count_row, rectangle_width, rectangle_height)`. -/
def rectangleOf (pp : QInput K) (cc cr : ℤ) (w h : K) : Py (RectangleM K) := do
  let points ← asPoints pp
  RectangleM.init points cc cr w h

/-- quadrat_statistics.py:311-336 `HexagonM(pp, lh)`. -/
def hexagonOf (cos30 : K) (pp : QInput K) (lh : K) : Py (HexagonM K) := do
  let points ← asPoints pp
  HexagonM.init cos30 points lh

/-- quadrat_statistics.py:607-685 `QStatistic(pp, …, window=window)` with the draws `u` of its generator. -/
def qStatisticOf (cos30 : K) (window : Option (Hull K)) (u : ℕ → K) (pp : QInput K) (grid : GridArg K)
    (realizations : ℤ) (fuel pos : ℕ) : Run (QStat K) :=
  match asPoints pp with
  | .error e => Run.fail e
  | .ok points =>
      match ensureWindow window points with
      | .error e => Run.fail e
      | .ok w => qStatistic cos30 w u points grid realizations fuel pos

/-! ### Generators -/

/-- What exists in the program besides the arguments: bit generators, with the numbers they give and their position,
legacy `RandomState` objects, with the 32 bit integers they give and their position, and the seeds the operating system
will hand out. A `Generator` is a view of its bit generator. -/
structure World (K : Type) where
  bits : ℕ → (ℕ → K) × ℕ
  legacy : ℕ → (ℕ → ℕ) × ℕ
  entropy : ℕ → ℕ

/-- The argument `rng`. Objects are given by their number in the `World`. A `SeedSequence` is given by the integer it was made
from; `other` is a value from which NumPy makes no seed, for example a string or a float. -/
inductive RngArg
  | none
  | int (n : ℤ)
  | generator (i : ℕ)
  | randomState (i : ℕ)
  | bitGenerator (i : ℕ)
  | seedSequence (seed : ℕ)
  | other
  deriving DecidableEq, Repr

/-- The generator a computation uses: a new one with a seed, or one that exists already. -/
inductive Source
  | seeded (seed : ℕ)
  | shared (i : ℕ)
  deriving DecidableEq, Repr

/-- quadrat_statistics.py:94-127 `_coerce_rng`. `default_rng` of a negative integer is a `ValueError`,
and of a value that is no seed a `TypeError`. Simplification: a `SeedSequence` made from several integers or spawned from
another is not represented. -/
def coerceRng (w : World K) : RngArg → Py (Source × World K)
  | .none => .ok (.seeded (w.entropy 0), { w with entropy := fun i => w.entropy (i + 1) })
  | .generator i => .ok (.shared i, w)
  | .randomState i =>
      let (draws, pos) := w.legacy i
      .ok (.seeded (draws pos), { w with legacy := Function.update w.legacy i (draws, pos + 1) })
  | .bitGenerator i => .ok (.shared i, w)
  | .int n => if n < 0 then .error .valueError else .ok (.seeded n.toNat, w)
  | .seedSequence seed => .ok (.seeded seed, w)
  | .other => .error .typeError

/-- A computation that draws from the generator: the result and the world after it. `defaultRng seed` are the numbers of a
new generator with that seed. -/
def withSource {α : Type} (defaultRng : ℕ → ℕ → K) (w : World K) (s : Source) (f : (ℕ → K) → ℕ → Run α) :
    Option (Py (α × World K)) :=
  match s with
  | .seeded seed => (f (defaultRng seed) 0).map fun r => r.map fun a => (a.1, w)
  | .shared i =>
      (f (w.bits i).1 (w.bits i).2).map fun r => r.map fun a =>
        (a.1, { w with bits := Function.update w.bits i ((w.bits i).1, a.2) })

/-- quadrat_statistics.py:607-685 `QStatistic(pp, …, window=window, rng=rng)`. The world after an exception is not
represented. -/
def qStatisticRng (cos30 : K) (defaultRng : ℕ → ℕ → K) (world : World K) (rng : RngArg) (window : Option (Hull K))
    (pp : QInput K) (grid : GridArg K) (realizations : ℤ) (fuel : ℕ) : Option (Py (QStat K × World K)) :=
  match asPoints pp with
  | .error e => some (.error e)
  | .ok points =>
      match ensureWindow window points with
      | .error e => some (.error e)
      | .ok w =>
          match coerceRng world rng with
          | .error e => some (.error e)
          | .ok (src, world) =>
              withSource defaultRng world src fun u pos => qStatistic cos30 w u points grid realizations fuel pos

end Quadrat

/-! ### The outline of the window -/

/-- A shapely geometry, as far as the outline of a window is concerned: polygons with their rings, collections with their
parts (`MultiPolygon`, `GeometryCollection`), anything else. -/
inductive Shape (K : Type)
  | polygon (exterior : List (K × K)) (interiors : List (List (K × K)))
  | collection (geoms : List (Shape K))
  | other

/-- quadrat_statistics.py:130-152 `_window_to_paths`. The branches for a `MultiPolygon` and for other collections do the
same. -/
def windowToPaths {K : Type} : Shape K → List (List (K × K))
  | .polygon e is => e :: is
  | .collection gs => go gs
  | .other => []
where
  go : List (Shape K) → List (List (K × K))
    | [] => []
    | g :: gs => windowToPaths g ++ go gs

/-- quadrat_statistics.py:159-161 `_draw_window`: the lines drawn, for a window that may be `None`. -/
def drawWindow {K : Type} (window : Option (Shape K)) : List (List (K × K)) :=
  match window with
  | none => []
  | some w => windowToPaths w

end Pointpats.Inputs
