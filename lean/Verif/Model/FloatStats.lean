import Verif.Model.Float64
import Verif.Model.Quadrat

/-!
# Some of the code in floating point arithmetic

The functions whose answers depend on rounding in a way a user can notice, with every operation rounded as
in `Model/Float64.lean`. Coordinates are floats (`IsFloat`), so reading them does not round. Comparisons,
`min` and `max` are exact.
-/

namespace Pointpats.Float64

open Quadrat

/-- NumPy's quotient of two `float64`, with a divisor that may be zero. -/
def fdivX (a b : ℚ) : XF ℚ := if b = 0 then XF.div (.fin a) (.fin 0) else .fin (fdiv a b)

/-! ### The rectangular grid -/

/-- quadrat_statistics.py:176-203 `RectangleM.__init__` as in `RectangleM.init`, with rounded differences and
quotients. `float(count)` is exact for counts up to `2⁵³`. -/
def rectInit (points : List (ℚ × ℚ)) (count_column count_row : ℤ) (rectangle_width rectangle_height : ℚ) :
    Py (RectangleM ℚ) := do
  let mbb ← computeMbb points
  let x_range := fsub mbb.xmax mbb.xmin
  let y_range := fsub mbb.ymax mbb.ymin
  if rectangle_width ≠ 0 ∧ rectangle_height ≠ 0 then
    let cc := ⌈fdiv x_range rectangle_width⌉
    let cr := ⌈fdiv y_range rectangle_height⌉
    return { points, mbb, count_column := cc, count_row := cr,
             rectangle_width := .fin rectangle_width,
             rectangle_height := .fin rectangle_height, num := cc * cr }
  else
    return { points, mbb, count_column, count_row,
             rectangle_width := fdivX x_range (fl count_column),
             rectangle_height := fdivX y_range (fl count_row),
             num := count_column * count_row }

/-- quadrat_statistics.py:214-222: the cell id of one point. The difference is rounded; NumPy's `//` computes
the floor of the exact quotient by way of `fmod` (for quotients below `2⁵¹`, larger ones are not modelled
faithfully). -/
def rectCellId (m : RectangleM ℚ) (p : ℚ × ℚ) : Py ℤ := do
  let index_x := XF.floorDiv (.fin (fsub p.1 m.mbb.xmin)) m.rectangle_width
  let index_y := XF.floorDiv (.fin (fsub p.2 m.mbb.ymin)) m.rectangle_height
  let iy ← (clampIndex index_y m.count_row).toInt
  let ix ← (clampIndex index_x m.count_column).toInt
  return iy * m.count_column + ix

/-- quadrat_statistics.py:205-225 `RectangleM.point_location_sta`. -/
def rectCounts (m : RectangleM ℚ) : Py Dict :=
  m.points.foldlM (fun d p => do
    let c ← rectCellId m p
    Dict.incr c d) m.zeroDict

/-- quadrat_statistics.py:227-232 `_rect_cell_bounds` (x0, y0, x1, y1). -/
def rectBounds (mbb : BBox ℚ) (w h : ℚ) (ix iy : ℤ) : ℚ × ℚ × ℚ × ℚ :=
  let x0 := fadd mbb.xmin (fmul (ix : ℚ) w)
  let y0 := fadd mbb.ymin (fmul (iy : ℚ) h)
  (x0, y0, fadd x0 w, fadd y0 h)

/-! ### Centres and spread -/

/-- NumPy's sum of a column of an `(n, 2)` array along `axis=0`: the rows are added one after the other. -/
def fsum (l : List ℚ) : ℚ := l.foldl fadd 0

/-- NumPy's mean of a column along `axis=0`. The number of rows is below `2⁵³`. -/
def fmean (l : List ℚ) : ℚ := fdiv (fsum l) (l.length : ℚ)

/-- centrography.py:369-371 `mean_center` for at least one point. -/
def meanCenter (points : List (ℚ × ℚ)) : ℚ × ℚ :=
  (fmean (points.map Prod.fst), fmean (points.map Prod.snd))

/-- centrography.py:581-585 `std_distance`: the number under the root, for one coordinate. -/
def fvar (l : List ℚ) : ℚ :=
  fsub (fdiv (fsum (l.map fun x => fmul x x)) (l.length : ℚ)) (fmul (fmean l) (fmean l))

/-- centrography.py:581-585 `std_distance`: the number under the root; `none` stands for the result `nan` of
`numpy.sqrt` for a negative number. -/
def stdRadicand (points : List (ℚ × ℚ)) : Option ℚ :=
  let r := fadd (fvar (points.map Prod.fst)) (fvar (points.map Prod.snd))
  if r < 0 then none else some r

/-! ### The angle of the rotated rectangle -/

/-- Python's `a % b` on floats for `b > 0`: C's `fmod`, which is exact and has the sign of `a`, and the rounded
sum with `b` if that is negative. -/
def fmod (a b : ℚ) : ℚ :=
  let r := a - b * (if 0 ≤ a then ⌊a / b⌋ else ⌈a / b⌉ : ℤ)
  if r < 0 then fadd r b else r

/-- centrography.py:199-209 `_get_mrr_angle`: the reduction of the angle in degrees. -/
def mrrAngle (degrees : ℚ) : ℚ := fmod degrees 90

/-! ### Supports and p-values -/

/-- `numpy.linspace(start, stop, num)` for `num ≥ 2`, as used at distance_statistics.py:81-109: the step is
rounded, its multiples are rounded, the start is added and the last value is replaced by `stop`. -/
def flinspace (start stop : ℚ) (num : ℕ) : List ℚ :=
  let step := fdiv (fsub stop start) ((num : ℚ) - 1)
  (List.range num).map fun (i : ℕ) =>
    if i + 1 = num then stop else fadd (fmul (i : ℚ) step) start

/-- spacetime.py:496-498, 627-629: the p-value `(count + 1) / (permutations + 1)`. -/
def fpvalue (count permutations : ℕ) : ℚ := fdiv ((count : ℚ) + 1) ((permutations : ℚ) + 1)

/-- distance_statistics.py:617-625: the folded p-value of one distance. -/
def ffolded (count n_simulations : ℕ) : ℚ :=
  let p := fdiv ((count : ℚ) + 1) ((n_simulations : ℚ) + 1)
  min p (fsub 1 p)

/-- spacetime.py:259-266 `knox`: whether two events at times `a` and `b` are close in time. -/
def timeClose (tau a b : ℚ) : Bool :=
  let d := fsub a b
  decide (fmul d d ≤ fmul tau tau)

/-- quadrat_statistics.py:655-658 and random.py:106: the size of every simulated pattern of `QStatistic`. The intensity
`n / area` is computed first and multiplied with the area again, and `int` cuts off the fraction. -/
def simulatedSize (n : ℕ) (area : ℚ) : ℤ := ⌊fmul (fdiv (n : ℚ) area) area⌋

end Pointpats.Float64
