import Verif.Model.Random

/-!
# Model of `pointpats/distance_statistics.py`

Exact arithmetic; `nan` and infinities of NumPy are explicit (`XF`). The spatial index, the distance of a metric and
the geometry of hulls that are not bounding boxes are parameters (`Lib`). Warnings are not modelled.
-/

namespace Pointpats.DistStats

open Geometry Random

variable {K : Type} [Field K] [LinearOrder K]

/-- The libraries: what `build_best_tree` knows, the answers of the index over the stored points for a metric (one row of
(distance, id) pairs per location), the distance of a metric, and what the samplers use of a hull that is not a bounding box. -/
structure Lib (K : Type) where
  hasSklearn : Bool
  kdMetrics : List String
  ballMetrics : List String
  query : Metric → (stored locations : List (K × K)) → ℕ → Py (List (List (K × ℕ)))
  pdist : Metric → K × K → K × K → K
  hull : HullRes K → Hull K

/-- What the samplers and `_area` use of a hull: a bounding box array, or a geometry of a library. -/
def Lib.hullOf (lib : Lib K) : HullRes K → Hull K
  | .bboxOf b => Hull.ofBBox b
  | .given (.ndarray [4] [x0, y0, x1, y1]) => Hull.ofBBox ⟨x0, y0, x1, y1⟩
  | h => lib.hull h

/-- The argument `metric`: a string or callable, or anything else. -/
inductive MetricArg
  | metric (m : Metric)
  | other
  deriving DecidableEq, Repr

/-- The argument `support`: absent, an integer, a tuple of length 1, 2, 3 (with an integer in the last place), a tuple of
another length, or a one-dimensional array. -/
inductive SupportArg (K : Type)
  | none
  | int (n : ℤ)
  | stop (stop : K)
  | startStop (start stop : K)
  | startStopNum (start stop : K) (num : ℤ)
  | tuple (l : List K)
  | array (l : List K)
  deriving DecidableEq, Repr

/-- The argument `distances`: absent, a one-dimensional array, or a two-dimensional array with `p` columns. -/
inductive DistArg (K : Type)
  | none
  | vec (l : List K)
  | mat (p : ℕ) (rows : List (List K))
  deriving DecidableEq, Repr

/-- `distances is None`. -/
def DistArg.isNone : DistArg K → Bool
  | .none => true
  | _ => false

omit [LinearOrder K] in
/-- `_build_best_tree(coordinates, metric)` followed by `_k_neighbors(tree, locations, k)` (geometry.py:272-367). -/
def treeKNeighbors (lib : Lib K) (m : Metric) (stored locations : List (K × K)) (k : ℕ) :
    Py (List (List (K × ℕ))) := do
  let _ ← buildBestTree lib.hasSklearn lib.kdMetrics lib.ballMetrics m
  let rows ← lib.query m stored locations (k + 1)
  kNeighbors k rows

omit [LinearOrder K] in
/-- `_build_best_tree(coordinates, metric)` followed by `tree.query(locations, k=1)`. -/
def treeNearest (lib : Lib K) (m : Metric) (stored locations : List (K × K)) : Py (List (List (K × ℕ))) := do
  let _ ← buildBestTree lib.hasSklearn lib.kdMetrics lib.ballMetrics m
  lib.query m stored locations 1

/-- The distances of an answer with one column, `.squeeze()`d. -/
def distancesOf (rows : List (List (K × ℕ))) : List K := rows.flatten.map Prod.fst

/-- What `_prepare` returns, apart from the coordinates and distances. `isArray` says whether the support is an array. -/
structure Prepared (K : Type) where
  support : List K
  isArray : Bool
  metric : Metric
  hull : HullRes K
  deriving DecidableEq, Repr

/-- `.max()` of an array. -/
def maxOf : List K → Py K
  | [] => .error .valueError
  | a :: l => .ok (listMax a l)

/-- distance_statistics.py:81-109: the support, from the argument. A tuple of another length than 1, 2, 3 stays a tuple. -/
def resolveSupport (lib : Lib K) (m : Metric) (coordinates : List (K × K)) (support : SupportArg K) :
    Py (List K × Bool) :=
  let steps (n : ℤ) : Py (List K × Bool) := do
    let rows ← treeKNeighbors lib m coordinates coordinates 1
    let max_dist ← maxOf (distancesOf rows)
    let s ← linspace 0 max_dist n
    return (s, true)
  match support with
  | .none => steps 20
  | .int n => steps n
  | .stop stop => (linspace 0 stop 20).map fun s => (s, true)
  | .startStop start stop => (linspace start stop 20).map fun s => (s, true)
  | .startStopNum start stop num => (linspace start stop num).map fun s => (s, true)
  | .tuple l => .ok (l, false)
  | .array l => .ok (l, true)

/-- distance_statistics.py:31-111 `_prepare` on an array of coordinates. -/
def prepare (lib : Lib K) (coordinates : List (K × K)) (support : SupportArg K) (hasDistances : Bool)
    (metric : MetricArg) (hull : HullArg K) (edge_correction : Bool) : Py (Prepared K) :=
  if edge_correction then .error .notImplementedError
  else do
    let hull ← prepareHull coordinates hull
    if !hasDistances && decide (metric = .metric (.name "precomputed")) then .error .valueError
    else match metric with
      | .other => .error .typeError
      | .metric m => do
          let m := if hasDistances then Metric.name "euclidean" else m
          let s ← resolveSupport lib m coordinates support
          return { support := s.1, isArray := s.2, metric := m, hull := hull }

/-! ### Histograms -/

/-- The bins are in non-decreasing order. -/
def monotoneBins : List K → Bool
  | a :: b :: l => decide (a ≤ b) && monotoneBins (b :: l)
  | _ => true

/-- `numpy.histogram`: for every bin edge but the last the number of data below it, for the last the number of data
not above it (`_search_sorted_inclusive`). -/
def cumCounts (data : List K) : List K → List ℕ
  | [] => []
  | [b] => [(data.filter fun x => decide (x ≤ b)).length]
  | b :: bs => (data.filter fun x => decide (x < b)).length :: cumCounts data bs

/-- `numpy.diff` of counts that do not decrease. -/
def diffs : List ℕ → List ℕ
  | a :: b :: l => (b - a) :: diffs (b :: l)
  | _ => []

/-- `numpy.histogram(data, bins=bins)[0]`: bins must increase monotonically. -/
def histogram (data bins : List K) : Py (List ℕ) :=
  if monotoneBins bins then .ok (diffs (cumCounts data bins)) else .error .valueError

/-- `numpy.cumsum`, from a start value. -/
def cumsum (start : ℕ) : List ℕ → List ℕ
  | [] => []
  | a :: l => (start + a) :: cumsum (start + a) l

/-- distance_statistics.py:197-200, 284-287: `numpy.cumsum(counts) / counts.sum()` after a leading zero. -/
def shares (data bins : List K) : Py (List K × List (XF K)) := do
  let counts ← histogram data bins
  let total := counts.sum
  return (bins, .fin 0 :: (cumsum 0 counts).map fun (c : ℕ) => XF.div (.fin (c : K)) (.fin (total : K)))

/-- `.min(axis=1)`: the minimum of every row; a matrix without columns has no minima. -/
def rowMins (rows : List (List K)) : Py (List K) :=
  rows.mapM fun r => match r with
    | [] => .error .valueError
    | a :: l => .ok (listMin a l)

/-- `.min(axis=0)`: the minimum of every column; a matrix without rows has no minima. -/
def colMins (p : ℕ) (rows : List (List K)) : Py (List K) :=
  match rows with
  | [] => .error .valueError
  | r :: rs => .ok ((List.range p).map fun j => listMin (r.getD j 0) (rs.map fun r => r.getD j 0))

/-! ### F, G, J, K, L -/

section Stats

variable [IsStrictOrderedRing K] [FloorRing K]

omit [LinearOrder K] [IsStrictOrderedRing K] [FloorRing K] in
/-- A computation without randomness. -/
def liftPy {α : Type} (x : Py α) (pos : ℕ) : Run α := some (x.map fun a => (a, pos))

omit [IsStrictOrderedRing K] [FloorRing K] in
/-- distance_statistics.py:155-195, without the random locations: the empty-space distances from given ones. -/
def fDistances (coordinates : List (K × K)) (distances : DistArg K) : Py (List K) :=
  match distances with
  | .none => .ok []
  | .vec l => .ok l
  | .mat p rows => if rows.length = coordinates.length then colMins p rows else .error .valueError

/-- distance_statistics.py:119-200 `f`. Without distances, 1000 random locations are drawn in the hull and the distance of
each to the nearest event is used. -/
def f (lib : Lib K) (u : ℕ → K) (coordinates : List (K × K)) (support : SupportArg K) (distances : DistArg K)
    (metric : MetricArg) (hull : HullArg K) (edge_correction : Bool) (fuel pos : ℕ) : Run (List K × List (XF K)) :=
  match prepare lib coordinates support (!distances.isNone) metric hull edge_correction with
  | .error e => Run.fail e
  | .ok p =>
      if distances.isNone then
        (poisson (lib.hullOf p.hull) u none (.tuple [1000, 1]) fuel pos).andThen fun randoms pos =>
          liftPy (do
            let rows ← treeNearest lib p.metric coordinates randoms.data
            shares (distancesOf rows) p.support) pos
      else liftPy (do
        let d ← fDistances coordinates distances
        shares d p.support) pos

omit [IsStrictOrderedRing K] [FloorRing K] in
/-- distance_statistics.py:236-282: the nearest neighbour distances. -/
def gDistances (lib : Lib K) (m : Metric) (coordinates : List (K × K)) (distances : DistArg K) : Py (List K) :=
  match distances with
  | .none => do
      let rows ← treeKNeighbors lib m coordinates coordinates 1
      return distancesOf rows
  | .vec l => if l.length = coordinates.length then .ok l else .error .valueError
  | .mat p rows =>
      if rows.length = p ∧ p = coordinates.length then rowMins rows else .error .valueError

omit [IsStrictOrderedRing K] [FloorRing K] in
/-- distance_statistics.py:203-287 `g`. -/
def g (lib : Lib K) (coordinates : List (K × K)) (support : SupportArg K) (distances : DistArg K) (metric : MetricArg)
    (edge_correction : Bool) : Py (List K × List (XF K)) := do
  let p ← prepare lib coordinates support (!distances.isNone) metric .none edge_correction
  let d ← gDistances lib p.metric coordinates distances
  shares d p.support

omit [IsStrictOrderedRing K] [FloorRing K] in
/-- distance_statistics.py:363-366: `(1 - gstats) / (1 - fstats)`, `nan` where both are one. -/
def hazard (gv fv : XF K) : XF K :=
  if XF.eq gv (.fin 1) && XF.eq fv (.fin 1) then .nan
  else XF.div (XF.sub (.fin 1) gv) (XF.sub (.fin 1) fv)

omit [Field K] [LinearOrder K] [IsStrictOrderedRing K] [FloorRing K] in
/-- distance_statistics.py:1070-1071, 1075-1076: `numpy.isinf(x) | numpy.isnan(x)`, and the index of the first such value
(0 if there is none). -/
def firstInvalid (values : List (XF K)) : ℕ :=
  if values.any (fun v => !v.isfinite) then values.findIdx (fun v => !v.isfinite) else 0

omit [Field K] [LinearOrder K] [IsStrictOrderedRing K] [FloorRing K] in
/-- distance_statistics.py:1069-1079 `_truncate` of two arrays. -/
def truncate2 (support : List K) (values : List (XF K)) : List K × List (XF K) :=
  if values.any (fun v => !v.isfinite) then
    (support.take (firstInvalid values), values.take (firstInvalid values))
  else (support, values)

omit [Field K] [LinearOrder K] [IsStrictOrderedRing K] [FloorRing K] in
/-- distance_statistics.py:333-336: the distances for `g`, from the optional pair of distances for `g` and `f`. -/
def gPart : Option (DistArg K × DistArg K) → DistArg K
  | some d => d.1
  | none => .none

omit [Field K] [LinearOrder K] [IsStrictOrderedRing K] [FloorRing K] in
/-- distance_statistics.py:333-336: the distances for `f`, from the optional pair of distances for `g` and `f`. -/
def fPart : Option (DistArg K × DistArg K) → DistArg K
  | some d => d.2
  | none => .none

omit [Field K] [LinearOrder K] [IsStrictOrderedRing K] [FloorRing K] in
/-- distance_statistics.py:354-357: `g` is interpolated to a given array of distances. -/
def alignG (allclose : List K → List K → Bool) (interp : List K → List (XF K) → List K → Py (List (XF K)))
    (support : SupportArg K) (gres : List K × List (XF K)) : Py (List K × List (XF K)) :=
  match support with
  | .array s => if allclose gres.1 s then .ok gres else (interp gres.1 gres.2 s).map fun y => (s, y)
  | _ => .ok gres

omit [Field K] [LinearOrder K] [IsStrictOrderedRing K] [FloorRing K] in
/-- distance_statistics.py:358-361: `f` is interpolated to the support of `g`. -/
def alignF (allclose : List K → List K → Bool) (interp : List K → List (XF K) → List K → Py (List (XF K)))
    (gres fres : List K × List (XF K)) : Py (List K × List (XF K)) :=
  if allclose gres.1 fres.1 then .ok fres
  else (interp fres.1 fres.2 gres.1).map fun y => (gres.1, y)

omit [IsStrictOrderedRing K] [FloorRing K] in
/-- distance_statistics.py:363-378: the end of `j`. The warning after a truncation needs a last distance. -/
def jEnd (truncate : Bool) (gres fres : List K × List (XF K)) : Py (List K × List (XF K)) :=
  let hazard_ratio := List.zipWith hazard gres.2 fres.2
  if truncate then
    let result := truncate2 gres.1 hazard_ratio
    if result.2.length ≠ hazard_ratio.length ∧ result.1 = [] then .error .indexError else .ok result
  else .ok (gres.1, hazard_ratio)

/-- distance_statistics.py:290-378 `j`. `allclose` is `numpy.allclose`, `interp x y` the function
`interpolate.interp1d(x, y, fill_value=1)`. `distances` is the optional pair of distances for `g` and `f`. -/
def j (lib : Lib K) (u : ℕ → K) (allclose : List K → List K → Bool)
    (interp : List K → List (XF K) → List K → Py (List (XF K))) (coordinates : List (K × K)) (support : SupportArg K)
    (distances : Option (DistArg K × DistArg K)) (metric : MetricArg) (hull : HullArg K) (edge_correction truncate : Bool)
    (fuel pos : ℕ) : Run (List K × List (XF K)) :=
  (f lib u coordinates support (fPart distances) metric hull edge_correction fuel pos).andThen fun fres pos =>
    liftPy (do
      let gres ← g lib coordinates support (gPart distances) metric edge_correction
      let gres ← alignG allclose interp support gres
      let fres ← alignF allclose interp gres fres
      jEnd truncate gres fres) pos

omit [Field K] [LinearOrder K] [IsStrictOrderedRing K] [FloorRing K] in
/-- `spatial.distance.pdist(coordinates, metric)`: the distances of the pairs `i < j`, row by row. -/
def pdist (d : K × K → K × K → K) : List (K × K) → List K
  | [] => []
  | p :: ps => ps.map (d p) ++ pdist d ps

omit [LinearOrder K] [IsStrictOrderedRing K] [FloorRing K] in
/-- `distances[numpy.triu_indices_from(distances, k=1)]`: the entries above the diagonal, row by row. -/
def triu (rows : List (List K)) : List K := (rows.zipIdx.map fun r => r.1.drop (r.2 + 1)).flatten

omit [IsStrictOrderedRing K] [FloorRing K] in
/-- distance_statistics.py:420-441: the distances of the pairs. -/
def kDistances (lib : Lib K) (m : Metric) (coordinates : List (K × K)) (distances : DistArg K) : Py (List K) :=
  let n := coordinates.length
  match distances with
  | .none => .ok (pdist (lib.pdist m) coordinates)
  | .vec l => if 2 * l.length = n * (n - 1) then .ok l else .error .valueError
  | .mat p rows => if rows.length = p ∧ p = n then .ok (triu rows) else .error .valueError

omit [IsStrictOrderedRing K] [FloorRing K] in
/-- distance_statistics.py:381-445 `k`. A tuple has no `reshape`. The hull is the bounding box of the coordinates. -/
def k (lib : Lib K) (coordinates : List (K × K)) (support : SupportArg K) (distances : DistArg K) (metric : MetricArg)
    (edge_correction : Bool) : Py (List K × List (XF K)) := do
  let p ← prepare lib coordinates support (!distances.isNone) metric .none edge_correction
  let upper_tri_distances ← kDistances lib p.metric coordinates distances
  if !p.isArray then .error .attributeError
  else
    let n := coordinates.length
    let intensity := XF.div (.fin (n : K)) (.fin (lib.hullOf p.hull).area)
    return (p.support, p.support.map fun d =>
      let n_pairs := (upper_tri_distances.filter fun x => decide (x < d)).length
      XF.div (.fin ((n_pairs : K) * 2 / (n : K))) intensity)

omit [LinearOrder K] [IsStrictOrderedRing K] [FloorRing K] in
/-- `numpy.sqrt(x / numpy.pi)` on finite numbers; `root` and `pi` are parameters. -/
def lTransform (root : K → K) (pi : K) : XF K → XF K
  | .fin x => .fin (root (x / pi))
  | v => v

omit [IsStrictOrderedRing K] [FloorRing K] in
/-- distance_statistics.py:448-504 `l`. -/
def l (lib : Lib K) (root : K → K) (pi : K) (coordinates : List (K × K)) (support : SupportArg K) (distances : DistArg K)
    (metric : MetricArg) (edge_correction linearized : Bool) : Py (List K × List (XF K)) := do
  let r ← k lib coordinates support distances metric edge_correction
  let lv := r.2.map (lTransform root pi)
  return (r.1, if linearized then List.zipWith (fun x d => XF.sub x (.fin d)) lv r.1 else lv)

/-! ### The tests -/

/-- The argument `distances` of a test. -/
inductive TestDist (K : Type)
  | none
  | single (d : DistArg K)
  | pair (g f : DistArg K)
  deriving DecidableEq, Repr

/-- The kind of test, with the keyword arguments that go to the statistic. -/
inductive Call
  | F | G | J | K | L (linearized : Bool)
  deriving DecidableEq, Repr

/-- A test result. -/
structure TestResult (K : Type) where
  support : List K
  statistic : List (XF K)
  pvalue : List (XF K)
  simulations : Option (List (List (XF K)))
  deriving DecidableEq, Repr

/-- The parameters of the statistics that are not varied: `allclose`, `interp1d`, `sqrt`, `pi`. -/
structure Num (K : Type) where
  allclose : List K → List K → Bool
  interp : List K → List (XF K) → List K → Py (List (XF K))
  root : K → K
  pi : K

/-- distance_statistics.py:528-534, 581-583, 1063: `stat_function(coordinates, distances=distances, **core_kwargs)`. -/
def callStat (lib : Lib K) (num : Num K) (call : Call) (u : ℕ → K) (coordinates : List (K × K)) (support : SupportArg K)
    (distances : TestDist K) (metric : MetricArg) (hull : HullArg K) (edge_correction : Bool) (fuel pos : ℕ) :
    Run (List K × List (XF K)) :=
  let single : Py (DistArg K) := match distances with
    | .none => .ok DistArg.none
    | .single d => .ok d
    | .pair _ _ => .error .attributeError
  match call with
  | .F => match single with
      | .error e => Run.fail e
      | .ok d => f lib u coordinates support d metric hull edge_correction fuel pos
  | .G => liftPy (do g lib coordinates support (← single) metric edge_correction) pos
  | .J => match distances with
      | .none => j lib u num.allclose num.interp coordinates support none metric hull edge_correction false fuel pos
      | .pair dg df =>
          j lib u num.allclose num.interp coordinates support (some (dg, df)) metric hull edge_correction false fuel pos
      | .single _ => Run.fail .valueError
  | .K => liftPy (do k lib coordinates support (← single) metric edge_correction) pos
  | .L linearized => liftPy (do l lib num.root num.pi coordinates support (← single) metric edge_correction linearized) pos

/-- The rows of a simulated pattern; a pattern of one point is not a two-dimensional array. -/
def simRows (call : Call) : Squeezed K → Py (List (K × K))
  | .rows l => .ok l
  | _ => match call with
      | .F => .error .valueError
      | .J => .error .valueError
      | _ => .error .typeError

/-- distance_statistics.py:1031-1066 `_run_one_ripley_simulation`. `hullArg` is the hull as it is handed on. -/
def oneSimulation (lib : Lib K) (num : Num K) (call : Call) (u : ℕ → K) (n : ℕ) (hull : HullRes K) (hullArg : HullArg K)
    (metric : MetricArg) (empty : List (K × K)) (support : List K) (edge_correction : Bool) (fuel : ℕ) :
    Run (List (XF K)) :=
  (poisson (lib.hullOf hull) u none (.int n) fuel 0).andThen fun random_i pos =>
    match simRows call random_i with
    | .error e => Run.fail e
    | .ok pts =>
        let distances : Py (TestDist K) := match call with
          | .F => match metric with
              | .metric m => (treeNearest lib m pts empty).map fun r => .single (.vec (distancesOf r))
              | .other => .error .typeError
          | .J => match metric with
              | .metric m => do
                  let e ← treeNearest lib m pts empty
                  let r ← treeKNeighbors lib m pts pts 1
                  return .pair (.vec (distancesOf r)) (.vec (distancesOf e))
              | .other => .error .typeError
          | _ => .ok .none
        match distances with
        | .error e => Run.fail e
        | .ok d =>
            (callStat lib num call u pts (.array support) d metric hullArg edge_correction fuel pos).andThen fun r pos =>
              Run.ret r.2 pos

omit [Field K] [LinearOrder K] [IsStrictOrderedRing K] [FloorRing K] in
/-- The hull as an argument of a second call: a box array, or the geometry itself. The string options are resolved by the
first `prepare_hull`; their results are left symbolic. -/
def rehull : HullRes K → HullArg K
  | .bboxOf b => .ndarray [4] [b.xmin, b.ymin, b.xmax, b.ymax]
  | .given h => h
  | .convexOf => .convexHull 0
  | .alphaOf => .otherShapely 0

omit [IsStrictOrderedRing K] [FloorRing K] in
/-- distance_statistics.py:617-625: the p-value at one support value from the observed and the simulated values there. -/
def columnP (observed : XF K) (column : List (XF K)) (n_simulations : ℤ) : K :=
  let pvalues_count := (column.filter fun s => XF.ge s observed).length
  let p := ((pvalues_count : K) + 1) / ((n_simulations : K) + 1)
  min p (1 - p)

omit [IsStrictOrderedRing K] [FloorRing K] in
/-- distance_statistics.py:614-625: the p-values; `nan` without simulations. -/
def pvalues (support : List K) (observed : List (XF K)) (sims : List (List (XF K))) (n_simulations : ℤ) : List (XF K) :=
  if sims = [] then support.map fun _ => .nan
  else observed.zipIdx.map fun o => .fin (columnP o.1 (sims.map fun s => s.getD o.2 .nan) n_simulations)

/-- distance_statistics.py:560-578: the distances for the observed statistic of the F and J tests, computed from the
empty-space points. -/
def testDistances (lib : Lib K) (call : Call) (m : Metric) (coordinates empty : List (K × K)) (distances : TestDist K) :
    Py (TestDist K) :=
  match distances with
  | .none => match call with
      | .F => (treeKNeighbors lib m coordinates empty 1).map fun r => .single (.vec (distancesOf r))
      | .J => do
          let e ← treeKNeighbors lib m coordinates empty 1
          let r ← treeKNeighbors lib m coordinates coordinates 1
          return .pair (.vec (distancesOf r)) (.vec (distancesOf e))
      | _ => .ok .none
  | d => .ok d

/-- distance_statistics.py:562-565: the empty-space points of the F and J tests. -/
def emptyLocations (call : Call) (u : ℕ → K) (coordinates : List (K × K)) (fuel : ℕ) : Run (List (K × K)) :=
  match call with
  | .F | .J => match bboxPts coordinates with
      | .error e => Run.fail e
      | .ok b => (poisson (Hull.ofBBox b) u none (.tuple [1000, 1]) fuel 0).andThen fun r pos => Run.ret r.data pos
  | _ => Run.ret [] 0

/-- distance_statistics.py:536-632 `_ripley_test`. `u` is the generator of the empty-space points, `gen i` the one of the
`i`-th simulation. The empty-space points are drawn in the bounding box of the coordinates (random.py:168-169). -/
def ripleyTest (lib : Lib K) (num : Num K) (call : Call) (u : ℕ → K) (gen : ℕ → ℕ → K) (coordinates : List (K × K))
    (support : SupportArg K) (distances : TestDist K) (metric : MetricArg) (hullArg : HullArg K)
    (edge_correction keep_simulations : Bool) (n_simulations : ℤ) (fuel : ℕ) : Run (TestResult K) :=
  match metric with
  | .other => Run.fail .typeError
  | .metric m =>
  match buildBestTree lib.hasSklearn lib.kdMetrics lib.ballMetrics m with
  | .error e => Run.fail e
  | .ok _ =>
  match prepareHull coordinates hullArg with
  | .error e => Run.fail e
  | .ok hull =>
  let hullArg := rehull hull
  (emptyLocations call u coordinates fuel).andThen fun empty pos =>
    match testDistances lib call m coordinates empty distances with
    | .error e => Run.fail e
    | .ok d =>
        (callStat lib num call u coordinates support d metric hullArg edge_correction fuel pos).andThen fun obs _ =>
          (replications (fun i _ => oneSimulation lib num call (gen i) coordinates.length hull hullArg metric empty obs.1
              edge_correction fuel) 0 n_simulations.toNat 0).andThen fun sims pos =>
            Run.ret { support := obs.1, statistic := obs.2, pvalue := pvalues obs.1 obs.2 sims n_simulations
                      simulations := if keep_simulations then some sims else none } pos

omit [Field K] [LinearOrder K] [IsStrictOrderedRing K] [FloorRing K] in
/-- distance_statistics.py:1069-1079 `_truncate(*result)`: the rows of the simulations are cut, not the columns. -/
def truncateResult (r : TestResult K) : TestResult K :=
  if r.statistic.any (fun v => !v.isfinite) then
    let i := firstInvalid r.statistic
    { support := r.support.take i, statistic := r.statistic.take i, pvalue := r.pvalue.take i
      simulations := r.simulations.map fun s => s.take i }
  else r

omit [Field K] [LinearOrder K] [IsStrictOrderedRing K] [FloorRing K] in
/-- distance_statistics.py:853-874, the end of `j_test`: `none` stands for Python's `None`. -/
def jTestEnd (truncate : Bool) (r : TestResult K) : Option (TestResult K) :=
  if truncate then
    let t := truncateResult r
    if t.statistic.length ≠ r.statistic.length then some t else none
  else some r

/-- distance_statistics.py:787-875 `j_test`. -/
def jTest (lib : Lib K) (num : Num K) (u : ℕ → K) (gen : ℕ → ℕ → K) (coordinates : List (K × K)) (support : SupportArg K)
    (distances : TestDist K) (metric : MetricArg) (hullArg : HullArg K) (edge_correction truncate keep_simulations : Bool)
    (n_simulations : ℤ) (fuel : ℕ) : Run (Option (TestResult K)) :=
  (ripleyTest lib num .J u gen coordinates support distances metric hullArg edge_correction keep_simulations n_simulations
    fuel).andThen fun r pos => Run.ret (jTestEnd truncate r) pos

/-- distance_statistics.py:635-709 `f_test`. -/
def fTest (lib : Lib K) (num : Num K) (u : ℕ → K) (gen : ℕ → ℕ → K) (coordinates : List (K × K)) (support : SupportArg K)
    (distances : TestDist K) (metric : MetricArg) (hullArg : HullArg K) (edge_correction keep_simulations : Bool)
    (n_simulations : ℤ) (fuel : ℕ) : Run (TestResult K) :=
  ripleyTest lib num .F u gen coordinates support distances metric hullArg edge_correction keep_simulations n_simulations
    fuel

/-- distance_statistics.py:712-784 `g_test`. -/
def gTest (lib : Lib K) (num : Num K) (u : ℕ → K) (gen : ℕ → ℕ → K) (coordinates : List (K × K)) (support : SupportArg K)
    (distances : TestDist K) (metric : MetricArg) (hullArg : HullArg K) (edge_correction keep_simulations : Bool)
    (n_simulations : ℤ) (fuel : ℕ) : Run (TestResult K) :=
  ripleyTest lib num .G u gen coordinates support distances metric hullArg edge_correction keep_simulations n_simulations
    fuel

/-- distance_statistics.py:878-950 `k_test`. -/
def kTest (lib : Lib K) (num : Num K) (u : ℕ → K) (gen : ℕ → ℕ → K) (coordinates : List (K × K)) (support : SupportArg K)
    (distances : TestDist K) (metric : MetricArg) (hullArg : HullArg K) (edge_correction keep_simulations : Bool)
    (n_simulations : ℤ) (fuel : ℕ) : Run (TestResult K) :=
  ripleyTest lib num .K u gen coordinates support distances metric hullArg edge_correction keep_simulations n_simulations
    fuel

/-- distance_statistics.py:953-1028 `l_test`. -/
def lTest (lib : Lib K) (num : Num K) (u : ℕ → K) (gen : ℕ → ℕ → K) (coordinates : List (K × K)) (support : SupportArg K)
    (distances : TestDist K) (metric : MetricArg) (hullArg : HullArg K) (edge_correction linearized keep_simulations : Bool)
    (n_simulations : ℤ) (fuel : ℕ) : Run (TestResult K) :=
  ripleyTest lib num (.L linearized) u gen coordinates support distances metric hullArg edge_correction keep_simulations n_simulations
    fuel

end Stats

end Pointpats.DistStats
