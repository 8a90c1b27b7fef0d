import Verif.Model.Geometry
import Mathlib.Analysis.SpecialFunctions.Complex.Arg
import Mathlib.Analysis.SpecialFunctions.Trigonometric.Arctan
import Mathlib.Analysis.SpecialFunctions.Sqrt
import Mathlib.Data.List.Sort

/-!
# Model of `pointpats/centrography.py`, except the bounding circle (see `Model/Skyum.lean`)

Simplifications common to the file: only the `ndarray` overloads are modelled (the GeoPandas overloads
extract the coordinates and call these), and the value `nan` that NumPy computes for means of empty arrays
and for divisions by a zero total weight is not represented: in these cases the formulas have no meaning
here. `Model/CentroFloat.lean` models the same functions with these values.
-/

namespace Pointpats.Centrography

section Field

variable {K : Type} [Field K] [LinearOrder K]

/-- centrography.py:105-115 `minimum_bounding_rectangle`. `zip(*points)` of an empty array cannot be
unpacked (`ValueError`). -/
def minimumBoundingRectangle (points : List (K × K)) : Py (K × K × K × K) :=
  match points with
  | [] => .error .valueError
  | p :: ps =>
      let min_x := listMin p.1 (ps.map Prod.fst)
      let min_y := listMin p.2 (ps.map Prod.snd)
      let max_x := listMax p.1 (ps.map Prod.fst)
      let max_y := listMax p.2 (ps.map Prod.snd)
      .ok (min_x, min_y, max_x, max_y)

omit [LinearOrder K] in
/-- centrography.py:367-369 `mean_center`: column means. -/
def meanCenter (points : List (K × K)) : K × K :=
  ((points.map Prod.fst).sum / (points.length : K), (points.map Prod.snd).sum / (points.length : K))

omit [LinearOrder K] in
/-- centrography.py:440-445 `weighted_mean_center`: the weights are normalised and multiplied with the
columns. Setting the shape fails with a `ValueError` if there are not as many weights as points. -/
def weightedMeanCenter (points : List (K × K)) (weights : List K) : Py (K × K) :=
  let w := weights.map fun x => x * 1 / weights.sum
  if w.length ≠ points.length then .error .valueError
  else .ok ((List.zipWith (fun a p => a * p.1) w points).sum,
            (List.zipWith (fun a p => a * p.2) w points).sum)

/-- `numpy.median` of a one-dimensional array: the middle element of the sorted array, or the mean of the
two middle ones. -/
def median (l : List K) : K :=
  let s := l.insertionSort (· ≤ ·)
  if l.length % 2 = 1 then s.getD (l.length / 2) 0
  else (s.getD (l.length / 2 - 1) 0 + s.getD (l.length / 2) 0) / 2

/-- centrography.py:510-516 `manhattan_median` (the warning for even numbers of points is not
modelled). -/
def manhattanMedian (points : List (K × K)) : K × K :=
  (median (points.map Prod.fst), median (points.map Prod.snd))

end Field

/-- centrography.py:581-585 `std_distance`. -/
noncomputable def stdDistance (points : List (ℝ × ℝ)) : ℝ :=
  let n : ℝ := points.length
  let m := meanCenter points
  Real.sqrt (((points.map fun p => p.1 * p.1).sum / n - m.1 * m.1)
    + ((points.map fun p => p.2 * p.2).sum / n - m.2 * m.2))

/-- centrography.py:834-839 `dtot`. -/
noncomputable def dtot (coord : ℝ × ℝ) (points : List (ℝ × ℝ)) : ℝ :=
  (points.map fun p =>
    let xd := p.1 - coord.1
    let yd := p.2 - coord.2
    Real.sqrt (xd * xd + yd * yd)).sum

/-- The `method` argument of `ellipse` after `method.lower()` and the check (centrography.py:679-681). -/
inductive EllipseMethod
  | crimestat
  | yuill
  deriving DecidableEq, Repr

/-- centrography.py:679-681: `method = method.lower()` and the check of its value. -/
def parseMethod (method : String) : Py EllipseMethod :=
  let m := method.toLower
  if m = "crimestat" then .ok .crimestat else if m = "yuill" then .ok .yuill else .error .valueError

/-- `numpy.average(x, weights=w)`: a zero total weight is a `ZeroDivisionError`. -/
noncomputable def average (x w : List ℝ) : Py ℝ :=
  if w.sum = 0 then .error .zeroDivisionError
  else .ok ((List.zipWith (· * ·) x w).sum / w.sum)

/-- centrography.py:721-733: the factor both axes are multiplied with, for at least three points. For
fewer points the code divides by zero or takes the root of a negative number; see `CentroFloat.correctX`. -/
noncomputable def ellipseCorrection (n : ℝ) (method : EllipseMethod) (crimestatCorr degfreedCorr : Bool)
    (s : ℝ) : ℝ :=
  match method with
  | .crimestat => s * ((Real.sqrt 2 * Real.sqrt n) / Real.sqrt (n - 2))
  | .yuill =>
      let s := if crimestatCorr then s * Real.sqrt 2 else s
      if degfreedCorr then s * (Real.sqrt n / Real.sqrt (n - 2)) else s

/-- centrography.py:671-742 `ellipse`: major axis, minor axis, angle. -/
noncomputable def ellipse (points : List (ℝ × ℝ)) (weights : Option (List ℝ)) (method : String)
    (crimestatCorr degfreedCorr : Bool) : Py (ℝ × ℝ × ℝ) := do
  let method ← parseMethod method
  let x := points.map Prod.fst
  let y := points.map Prod.snd
  let w ← match weights with
    | none => pure (List.replicate points.length (1 : ℝ))
    | some w => if w.length ≠ points.length then throw PyErr.valueError else pure w
  let sumw := w.sum
  let meanx ← average x w
  let meany ← average y w
  let xm := x.map fun a => a - meanx
  let ym := y.map fun a => a - meany
  let xyw := (List.zipWith (· * ·) (List.zipWith (· * ·) xm ym) w).sum
  let x2w := (List.zipWith (· * ·) (xm.map fun a => a ^ 2) w).sum
  let y2w := (List.zipWith (· * ·) (ym.map fun a => a ^ 2) w).sum
  let den := 2 * xyw
  let left := x2w - y2w
  let right := Real.sqrt (left ^ 2 + 4 * xyw ^ 2)
  let theta1 := if den = 0 then 0 else Real.arctan (-(left + right) / den)
  let theta2 := if den = 0 then Real.pi / 2 else Real.arctan (-(left - right) / den)
  let term (θ : ℝ) := (List.zipWith (· * ·) w (List.zipWith (fun a b => (b * Real.cos θ - a * Real.sin θ) ^ 2)
    xm ym)).sum
  let sx := Real.sqrt (term theta1 / sumw)
  let sy := Real.sqrt (term theta2 / sumw)
  let n : ℝ := points.length
  let sx := ellipseCorrection n method crimestatCorr degfreedCorr sx
  let sy := ellipseCorrection n method crimestatCorr degfreedCorr sy
  if sx < sy then return (sy, sx, theta1) else return (sx, sy, theta2)

/-- centrography.py:199-209 `_get_mrr_angle` from the first two corners: `math.atan2` is the argument of
the complex number `dx + i dy`, `math.degrees` multiplies by `180/π`, and `%` is the floor modulus. -/
noncomputable def getMrrAngle (p0 p1 : ℝ × ℝ) : ℝ :=
  let a := Complex.arg ⟨p1.1 - p0.1, p1.2 - p0.2⟩ * (180 / Real.pi)
  a - 90 * (⌊a / 90⌋ : ℤ)

/-- centrography.py:212-221 and 224-233 `minimum_rotated_rectangle(points, return_angle=True)`, from the
coordinates Shapely returns for its rectangle, whose last corner repeats the first. For events on one line
Shapely returns a segment or a point, and `out_points[1]` is an `IndexError`. The array overload also
returns the corners in reverse order. -/
noncomputable def rotatedRectangle (coords : List (ℝ × ℝ)) : Py (List (ℝ × ℝ) × ℝ) :=
  let out_points := coords.dropLast
  match out_points with
  | p0 :: p1 :: _ => .ok (out_points.reverse, getMrrAngle p0 p1)
  | _ => .error .indexError

/-- centrography.py:906-910 `euclidean_median`: SciPy's `minimize`, a parameter here, applied to `dtot` and
started at the mean centre. -/
noncomputable def euclideanMedian (minimize : ((ℝ × ℝ) → ℝ) → ℝ × ℝ → ℝ × ℝ) (points : List (ℝ × ℝ)) :
    ℝ × ℝ :=
  minimize (fun coord => dtot coord points) (meanCenter points)

end Pointpats.Centrography
