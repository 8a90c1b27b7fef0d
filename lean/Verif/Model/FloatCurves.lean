import Verif.Model.FloatStats
import Verif.Model.DistanceStats

/-!
# The distance functions in floating point arithmetic

`f`, `g`, `j` and `k` as in `Model/DistanceStats.lean`, with every sum, difference, product and quotient of floats
rounded. The support is given as an array (`flinspace` computes the others), and so no distance of it is rounded.
Counting compares floats and is exact, and integers below `2⁵³` are floats.
-/

namespace Pointpats.Float64

open Geometry DistStats

/-- NumPy's quotient of two `float64` that may be infinite or `nan`. -/
def xdiv : XF ℚ → XF ℚ → XF ℚ
  | .fin a, .fin b => fdivX a b
  | a, b => XF.div a b

/-- NumPy's difference of two `float64` that may be infinite or `nan`. -/
def xsub : XF ℚ → XF ℚ → XF ℚ
  | .fin a, .fin b => .fin (fsub a b)
  | a, b => XF.sub a b

/-- distance_statistics.py:197-200, 284-287, the end of `f` and of `g`: as in `shares`, with a rounded quotient. -/
def fshares (data bins : List ℚ) : Py (List ℚ × List (XF ℚ)) := do
  let counts ← histogram data bins
  let total := counts.sum
  return (bins, .fin 0 :: (cumsum 0 counts).map fun (c : ℕ) => fdivX (c : ℚ) (total : ℚ))

/-- distance_statistics.py:203-287 `g` for an array `support`. -/
def fg (lib : Lib ℚ) (coordinates : List (ℚ × ℚ)) (support : List ℚ) (distances : DistArg ℚ) (metric : MetricArg)
    (edge_correction : Bool) : Py (List ℚ × List (XF ℚ)) := do
  let p ← prepare lib coordinates (.array support) (!distances.isNone) metric .none edge_correction
  let d ← gDistances lib p.metric coordinates distances
  fshares d p.support

/-- distance_statistics.py:363-366: `(1 - gstats) / (1 - fstats)`, `nan` where both are one. -/
def fhazard (gv fv : XF ℚ) : XF ℚ :=
  if XF.eq gv (.fin 1) && XF.eq fv (.fin 1) then .nan
  else xdiv (xsub (.fin 1) gv) (xsub (.fin 1) fv)

/-- distance_statistics.py:363-378: the end of `j`, as in `jEnd`. -/
def fjEnd (truncate : Bool) (gres fres : List ℚ × List (XF ℚ)) : Py (List ℚ × List (XF ℚ)) :=
  let hazard_ratio := List.zipWith fhazard gres.2 fres.2
  if truncate then
    let result := truncate2 gres.1 hazard_ratio
    if result.2.length ≠ hazard_ratio.length ∧ result.1 = [] then .error .indexError else .ok result
  else .ok (gres.1, hazard_ratio)

/-- geometry.py:58-65 `area` of a bounding box. -/
def farea (b : BBox ℚ) : ℚ := |fmul (fsub b.xmax b.xmin) (fsub b.ymax b.ymin)|

/-- distance_statistics.py:381-445 `k` for an array `support`. The hull is the bounding box of the coordinates, so the other
case does not occur. -/
def fk (lib : Lib ℚ) (coordinates : List (ℚ × ℚ)) (support : List ℚ) (distances : DistArg ℚ) (metric : MetricArg)
    (edge_correction : Bool) : Py (List ℚ × List (XF ℚ)) := do
  let p ← prepare lib coordinates (.array support) (!distances.isNone) metric .none edge_correction
  let upper_tri_distances ← kDistances lib p.metric coordinates distances
  let area := match p.hull with
    | .bboxOf b => farea b
    | h => (lib.hullOf h).area
  let n := coordinates.length
  let intensity := fdivX (n : ℚ) area
  return (p.support, p.support.map fun d =>
    let n_pairs := (upper_tri_distances.filter fun x => decide (x < d)).length
    xdiv (.fin (fdiv ((n_pairs : ℚ) * 2) (n : ℚ))) intensity)

end Pointpats.Float64
