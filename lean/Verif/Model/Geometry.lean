import Verif.Model.Py

/-!
# Model of `pointpats/geometry.py` (bounding boxes, dispatch tables, neighbour queries)
-/

namespace Pointpats

variable {K : Type} [Field K] [LinearOrder K]

/-- A bounding box array `[xmin, ymin, xmax, ymax]` (no order is enforced, as in NumPy). -/
structure BBox (K : Type) where
  xmin : K
  ymin : K
  xmax : K
  ymax : K
  deriving DecidableEq, Repr

namespace Geometry

/-- geometry.py:58-65 `area` of an ndarray: must have length 4, then `abs(width * height)`. -/
def areaArr : List K → Py K
  | [x0, y0, x1, y1] => .ok |(x1 - x0) * (y1 - y0)|
  | _ => .error .assertionError

/-- geometry.py:58-65 on a box. -/
def areaBBox (b : BBox K) : K := |(b.xmax - b.xmin) * (b.ymax - b.ymin)|

/-- geometry.py:113-123 `contains` for an ndarray box. -/
def containsBBox (b : BBox K) (x y : K) : Bool :=
  let in_x := decide (b.xmin ≤ x) && decide (x ≤ b.xmax)
  let in_y := decide (b.ymin ≤ y) && decide (y ≤ b.ymax)
  in_x && in_y

/-- An ndarray argument of `bbox` / `centroid`: a 1-d array or an `(n, 2)` array.
Simplification: other shapes are not represented. -/
inductive Arr (K : Type)
  | vec (l : List K)
  | pts (l : List (K × K))
  deriving DecidableEq, Repr

/-- geometry.py:80-88 `bbox` on `(n, 2)` arrays: column minima then column maxima; an empty array
is a `ValueError` of `min`. -/
def bboxPts : List (K × K) → Py (BBox K)
  | [] => .error .valueError
  | p :: ps => .ok
      { xmin := listMin p.1 (ps.map Prod.fst)
        ymin := listMin p.2 (ps.map Prod.snd)
        xmax := listMax p.1 (ps.map Prod.fst)
        ymax := listMax p.2 (ps.map Prod.snd) }

/-- geometry.py:80-88 `bbox` on ndarrays: a 1-d array of length 4 is returned as it is; other 1-d
arrays reduce to scalars that cannot be unpacked (`TypeError`), an empty one has no minimum. -/
def bboxArr : Arr K → Py (BBox K)
  | .vec [a, b, c, d] => .ok ⟨a, b, c, d⟩
  | .vec [] => .error .valueError
  | .vec _ => .error .typeError
  | .pts l => bboxPts l

/-- geometry.py:158-177 `centroid` of an ndarray: mean of the points, or the middle of a box; a 1-d
array that is not of length 4 is an `AssertionError`. Simplification: the mean of an empty array is
`nan` in NumPy; here it is an error. -/
def centroidArr : Arr K → Py (K × K)
  | .pts [] => .error .valueError
  | .pts l => .ok ((l.map Prod.fst).sum / (l.length : K), (l.map Prod.snd).sum / (l.length : K))
  | .vec [x0, y0, x1, y1] => .ok ((x0 + x1) / 2, (y0 + y1) / 2)
  | .vec _ => .error .assertionError

/-! ### `prepare_hull` -/

/-- The possible values of the argument `hull` of `prepare_hull`. The payload of a geometry is an
arbitrary token, so that "returned unchanged" can be stated. -/
inductive HullArg (K : Type)
  | none
  /-- an ndarray given by its shape and its data in row-major order -/
  | ndarray (shape : List ℕ) (data : List K)
  | str (s : String)
  | polygon (tok : ℕ)
  | multiPolygon (tok : ℕ)
  | otherShapely (tok : ℕ)
  | convexHull (tok : ℕ)
  /-- any other Python object -/
  | other
  deriving DecidableEq, Repr

/-- The hull that `prepare_hull` returns. -/
inductive HullRes (K : Type)
  /-- the bounding box of the coordinates -/
  | bboxOf (b : BBox K)
  /-- the argument itself -/
  | given (h : HullArg K)
  /-- `scipy.spatial.ConvexHull(coordinates)` -/
  | convexOf
  /-- `alpha_shape_auto(coordinates)` -/
  | alphaOf
  deriving DecidableEq, Repr

/-- geometry.py:370-418 `prepare_hull`. `len()` of a 0-d array is a `TypeError`. The last two cases
of HullRes are calls to external libraries and are left symbolic. -/
def prepareHull (coordinates : List (K × K)) (hull : HullArg K) : Py (HullRes K) :=
  match hull with
  | .ndarray shape data =>
      match shape with
      | [] => .error .typeError
      | n :: rest =>
          if n ≠ 4 then .error .assertionError
          else if rest ≠ [] then .error .assertionError
          else .ok (.given (.ndarray shape data))
  | .none => (bboxPts coordinates).map .bboxOf
  | .polygon t => .ok (.given (.polygon t))
  | .multiPolygon t => .ok (.given (.multiPolygon t))
  | .otherShapely t => .ok (.given (.otherShapely t))
  | .str s =>
      if s = "bbox" then (bboxPts coordinates).map .bboxOf
      else if "convex".toList.isPrefixOf s.toList then .ok .convexOf
      else if "alpha".toList.isPrefixOf s.toList || "α".toList.isPrefixOf s.toList then .ok .alphaOf
      else .error .valueError
  | .convexHull t => .ok (.given (.convexHull t))
  | .other => .error .valueError

/-! ### `build_best_tree` -/

/-- The `metric` argument: a name or a callable. -/
inductive Metric
  | name (s : String)
  | callable
  deriving DecidableEq, Repr

/-- The kind of index `build_best_tree` builds. -/
inductive TreeKind
  | scipyKDTree
  | sklearnKDTree (m : Metric)
  | sklearnBallTree (m : Metric)
  deriving DecidableEq, Repr

/-- geometry.py:272-333 `build_best_tree`. `kdMetrics` and `ballMetrics` are the names in
`KDTree.valid_metrics` / `BallTree.valid_metrics`, `hasSklearn` says whether scikit-learn can be
imported. The construction of the index itself and the performance warning are not modelled. -/
def buildBestTree (hasSklearn : Bool) (kdMetrics ballMetrics : List String) (metric : Metric) :
    Py TreeKind :=
  if hasSklearn then
    match metric with
    | .name s =>
        if s ∈ kdMetrics then .ok (.sklearnKDTree metric)
        else if s ∈ ballMetrics then .ok (.sklearnBallTree metric)
        else .error .keyError
    | .callable => .ok (.sklearnBallTree metric)
  else
    match metric with
    | .name s => if s = "l2" ∨ s = "euclidean" then .ok .scipyKDTree else .error .keyError
    | .callable => .error .keyError

/-! ### `k_neighbors` -/

/-- The entries of a list in row-major order, cut into `n` rows of length `k`. -/
def chunks {α : Type _} (k : ℕ) : ℕ → List α → List (List α)
  | 0, _ => []
  | n + 1, l => l.take k :: chunks k n (l.drop k)

/-- `a[mask].reshape(n, k)`: the selected entries in row-major order, cut into `n` rows of length
`k`; a wrong number of entries is a `ValueError`. -/
def reshape {α : Type _} (n k : ℕ) (l : List α) : Py (List (List α)) :=
  if l.length = n * k then .ok (chunks k n l)
  else .error .valueError

/-- geometry.py:361-366, one row: keep the entries whose id is not the row number; if that keeps all
of them, drop the last one. An entry is a (distance, id) pair. -/
def maskRow {D : Type _} (k i : ℕ) (row : List (D × ℕ)) : List (D × ℕ) :=
  let others := row.filter fun e => e.2 ≠ i
  if others.length = k + 1 then row.dropLast else others

/-- geometry.py:336-367 `k_neighbors`. `rows` is the answer of `tree.query(coordinates, k + 1)`, one
row of (distance, id) pairs per query location. An answer with another number of columns is an
`AssertionError`. -/
def kNeighbors {D : Type _} (k : ℕ) (rows : List (List (D × ℕ))) : Py (List (List (D × ℕ))) :=
  if rows.all fun r => r.length = k + 1 then
    reshape rows.length k (rows.zipIdx.map fun r => maskRow k r.2 r.1).flatten
  else .error .assertionError

end Geometry

end Pointpats
