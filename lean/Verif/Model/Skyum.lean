import Verif.Model.Py
import Mathlib.Analysis.SpecialFunctions.Trigonometric.Inverse
import Mathlib.Data.List.Sort

/-!
# Model of `minimum_bounding_circle` (`pointpats/centrography.py`)

The vertices of the convex hull (SciPy) are the argument. Exact arithmetic; the points are different, so that no angle is
`nan`. The loops get the number of rounds they may run; `none` is a loop that is still running then.
-/

namespace Pointpats.Skyum

/-- A point of the plane. -/
abbrev Pt := ℝ × ℝ

/-- centrography.py:1104-1112 `_angle`. -/
noncomputable def angle (p q r : Pt) : ℝ :=
  let pq := (p.1 - q.1, p.2 - q.2)
  let rq := (r.1 - q.1, r.2 - q.2)
  let magnitudes := Real.sqrt (pq.1 ^ 2 + pq.2 ^ 2) * Real.sqrt (rq.1 ^ 2 + rq.2 ^ 2)
  |Real.arccos ((pq.1 * rq.1 + pq.2 * rq.2) / magnitudes)|

/-- centrography.py:1115-1123 `_prec`. -/
noncomputable def prec (p : Pt) (l : List Pt) : Pt :=
  let pos := l.idxOf p
  if pos = 0 then l.getLastD (0, 0) else l.getD (pos - 1) (0, 0)

/-- centrography.py:1126-1134 `_succ`. -/
noncomputable def succ (p : Pt) (l : List Pt) : Pt :=
  let pos := l.idxOf p
  if l.length ≤ pos + 1 then l.headD (0, 0) else l.getD (pos + 1) (0, 0)

/-- centrography.py:1137-1139 `_euclidean_distance`. -/
noncomputable def euclideanDistance (px py qx qy : ℝ) : ℝ := Real.sqrt ((px - qx) ^ 2 + (py - qy) ^ 2)

/-- centrography.py:1142-1175 `_circle`: radius and centre. -/
noncomputable def circle (p q r : Pt) : ℝ × ℝ × ℝ :=
  let px := p.1
  let py := p.2
  let qx := q.1
  let qy := q.2
  let rx := r.1
  let ry := r.2
  let a := |angle p q r|
  if |a - Real.pi| < 1 / 100000 then
    (euclideanDistance px py rx ry / 2, (px + rx) / 2, (py + ry) / 2)
  else if |a| < 1 / 100000 then
    (euclideanDistance px py qx qy / 2, (px + qx) / 2, (py + qy) / 2)
  else
    let d := 2 * (px * (qy - ry) + qx * (ry - py) + rx * (py - qy))
    let center_x := ((px ^ 2 + py ^ 2) * (qy - ry) + (qx ^ 2 + qy ^ 2) * (ry - py) + (rx ^ 2 + ry ^ 2) * (py - qy)) / d
    let center_y := ((px ^ 2 + py ^ 2) * (rx - qx) + (qx ^ 2 + qy ^ 2) * (px - rx) + (rx ^ 2 + ry ^ 2) * (qx - px)) / d
    (euclideanDistance center_x center_y px py, center_x, center_y)

/-- `numpy.lexsort((angles, radii))[-1]`: a stable sort of the indices by radius, then by angle; the last index. -/
noncomputable def lexsortLast (angles radii : List ℝ) : Option ℕ :=
  ((List.range radii.length).insertionSort fun i j =>
    radii.getD i 0 < radii.getD j 0 ∨ (radii.getD i 0 = radii.getD j 0 ∧ angles.getD i 0 ≤ angles.getD j 0)).getLast?

/-- What `_skyum_lists` returns. -/
structure Result where
  circle : ℝ × ℝ × ℝ
  points : List Pt
  removed : List (Pt × ℕ)
  candidate : Pt × Pt × Pt

/-- centrography.py:1015-1054 `_skyum_lists`, the loop from round `i` on. Without points `lexord[-1]` is an
`IndexError`. -/
noncomputable def skyumLists : (rounds : ℕ) → (i : ℕ) → List Pt → List (Pt × ℕ) → Option (Py Result)
  | 0, _, _, _ => none
  | rounds + 1, i, points, removed =>
      let angles := points.map fun p => angle (prec p points) p (succ p points)
      let circles := points.map fun p => circle (prec p points) p (succ p points)
      let radii := circles.map Prod.fst
      match lexsortLast angles radii with
      | none => some (.error .indexError)
      | some lexmax =>
          let p := points.getD lexmax (0, 0)
          let candidate := (prec p points, p, succ p points)
          if angles.getD lexmax 0 ≤ Real.pi / 2 then
            some (.ok { circle := circle candidate.1 candidate.2.1 candidate.2.2, points, removed, candidate })
          else skyumLists rounds (i + 1) (points.eraseIdx lexmax) (removed ++ [(p, i)])

/-- `argmax`: the first index of the largest entry. -/
noncomputable def argmax : List ℝ → Option ℕ
  | [] => none
  | a :: l => some ((a :: l).idxOf (listMax a l))

/-- centrography.py:1070-1094 `_skyum_iteration`: whether it is complete, the points, the index and the circle. `argmax` of
nothing is a `ValueError`. -/
noncomputable def skyumIteration (points : List Pt) : Py (Bool × List Pt × ℕ × (ℝ × ℝ × ℝ)) :=
  let n := points.length
  let at' := fun (i : ℕ) => points.getD (i % n) (0, 0)
  let angles := (List.range n).map fun i => angle (at' (i + (n - 1))) (at' i) (at' (i + 1))
  let circles := (List.range n).map fun i => circle (at' (i + (n - 1))) (at' i) (at' (i + 1))
  let radii := circles.map Prod.fst
  match argmax radii with
  | none => .error .valueError
  | some radius_argmax =>
      let radius_max := radii.getD radius_argmax 0
      match argmax (List.zipWith (fun a r => a * if r = radius_max then 1 else 0) angles radii) with
      | none => .error .valueError
      | some lexmax =>
          if angles.getD lexmax 0 ≤ Real.pi / 2 then .ok (true, points, lexmax, circles.getD lexmax (0, 0, 0))
          else .ok (false, points.eraseIdx lexmax, lexmax, circles.getD lexmax (0, 0, 0))

/-- centrography.py:1062-1067 `_skyum_numba`: the circle and the points. -/
noncomputable def skyumNumba : (rounds : ℕ) → List Pt → Option (Py ((ℝ × ℝ × ℝ) × List Pt))
  | 0, _ => none
  | rounds + 1, points =>
      match skyumIteration points with
      | .error e => some (.error e)
      | .ok (true, points, _, circle) => some (.ok (circle, points))
      | .ok (false, points, _, _) => skyumNumba rounds points

/-- libpysal's `is_clockwise`: twice the signed area, over the edges in order. -/
def edgeSum : List Pt → ℝ
  | a :: b :: l => (a.1 * b.2 - a.2 * b.1) + edgeSum (b :: l)
  | _ => 0

/-- libpysal's `is_clockwise`. -/
noncomputable def isClockwise (l : List Pt) : Bool :=
  if l.length < 3 then true else decide (edgeSum (l ++ l.take 1) < 0)

/-- centrography.py:987-1005 `minimum_bounding_circle` of an array with this convex hull; `hasNumba` is whether numba is
installed. -/
noncomputable def minimumBoundingCircle (hasNumba : Bool) (rounds : ℕ) (hull : List Pt) : Option (Py ((ℝ × ℝ) × ℝ)) :=
  let points := if isClockwise hull then hull else hull.reverse
  if isClockwise points = false then some (.error .exception)
  else if hasNumba then
    (skyumNumba rounds points).map fun r => r.map fun x => ((x.1.2.1, x.1.2.2), x.1.1)
  else
    (skyumLists rounds 0 points []).map fun r => r.map fun x => ((x.circle.2.1, x.circle.2.2), x.circle.1)

end Pointpats.Skyum
