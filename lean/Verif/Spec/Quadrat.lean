import Mathlib.Algebra.Order.Field.Basic
import Mathlib.Tactic.TypeStar
import Mathlib.Order.Bounds.Basic

/-!
# Specifications for quadrat counts

Independent of the model: only coordinates, cell sizes and indices.
-/

namespace Pointpats.Spec

variable {K : Type} [Field K] [LinearOrder K]

/-- The points have positive extent in both directions: two of them differ in `x` and two in `y`. -/
def PositiveExtent (points : List (K × K)) : Prop :=
  (∃ p ∈ points, ∃ q ∈ points, p.1 < q.1) ∧ (∃ p ∈ points, ∃ q ∈ points, p.2 < q.2)

/-- `p` lies in column `ix`, row `iy` of a grid of `cc` columns and `cr` rows of cells of width `W`
and height `H` whose lower left corner is `(x0, y0)`. Cells are closed on the left and at the bottom,
open on the right and at the top, except that the last column and the last row are closed. -/
def InRectCell (x0 y0 W H : K) (cc cr ix iy : ℤ) (p : K × K) : Prop :=
  (x0 + ix * W ≤ p.1 ∧ (p.1 < x0 + (ix + 1) * W ∨ (ix = cc - 1 ∧ p.1 = x0 + (ix + 1) * W)))
  ∧ (y0 + iy * H ≤ p.2 ∧ (p.2 < y0 + (iy + 1) * H ∨ (iy = cr - 1 ∧ p.2 = y0 + (iy + 1) * H)))

instance (x0 y0 W H : K) (cc cr ix iy : ℤ) : DecidablePred (InRectCell x0 y0 W H cc cr ix iy) :=
  fun _ => by unfold InRectCell; infer_instance

/-- `counts` are the numbers of points in the `cc` by `cr` equal rectangles, row by row from the lower left, into which the
smallest rectangle that contains the points is divided. -/
def DivisionCounts (points : List (K × K)) (cc cr : ℕ) (counts : List ℕ) : Prop :=
  ∃ x0 x1 y0 y1 : K, IsLeast {x | ∃ p ∈ points, p.1 = x} x0 ∧ IsGreatest {x | ∃ p ∈ points, p.1 = x} x1
    ∧ IsLeast {y | ∃ p ∈ points, p.2 = y} y0 ∧ IsGreatest {y | ∃ p ∈ points, p.2 = y} y1
    ∧ x0 < x1 ∧ y0 < y1 ∧ counts.length = cc * cr
    ∧ ∀ ix < cc, ∀ iy < cr, counts[ix + iy * cc]? =
        some (points.filter fun p => InRectCell x0 y0 ((x1 - x0) / cc) ((y1 - y0) / cr) cc cr ix iy p).length

/-- An event at distance `o` from the left edge of a grid of `n` columns of width `W` belongs to column `i`: it
lies in it, or beyond it if it is the last. -/
def InColumn (W : K) (n i : ℤ) (o : K) : Prop := i * W ≤ o ∧ (o < (i + 1) * W ∨ i = n - 1)

instance (W : K) (n i : ℤ) (o : K) : Decidable (InColumn W n i o) := by unfold InColumn; infer_instance

/-- The closed flat-topped hexagon with centre `c`, circumradius `h` and half height `sh`: the
intersection of the strip `|dy| ≤ sh` with the four half planes bounded by the slanted edges through
`(±h, 0)` and `(±h/2, ±sh)`. -/
def InHexagon (h sh : K) (c p : K × K) : Prop :=
  |p.2 - c.2| ≤ sh ∧ 2 * sh * |p.1 - c.1| + h * |p.2 - c.2| ≤ 2 * sh * h

/-- The grid of flat-topped hexagons with circumradius `h` and half height `sh` whose first centre is the lower left
corner `(x0, y0)` of a box has a centre at `(3/2) c h` to the right and `i sh` above the corner for all integers `c` and
`i` of the same parity. The point `p` is on the upper border `y = y1` of the box and on the upper side of such a
hexagon, whose left end counts and whose right end does not. -/
def OnTopSide (h sh x0 y0 y1 : K) (p : K × K) : Prop :=
  p.2 = y1 ∧ ∃ c i : ℤ, (c + i) % 2 = 0 ∧ y1 - y0 = (i + 1) * sh
    ∧ 3 / 2 * c * h - h / 2 ≤ p.1 - x0 ∧ p.1 - x0 < 3 / 2 * c * h + h / 2

/-- The point `p` is on the right border `x = x1` of the box and is the upper right corner of a hexagon of that grid,
except that in the first column the point must be on the upper border as well. -/
def OnRightCorner (h sh x0 x1 y0 y1 : K) (p : K × K) : Prop :=
  p.1 = x1 ∧ ∃ c i : ℤ, (c + i) % 2 = 0 ∧ p.2 - y0 = (i + 1) * sh ∧ x1 - x0 = 3 / 2 * c * h + h / 2
    ∧ (0 < c ∨ p.2 = y1)

end Pointpats.Spec
