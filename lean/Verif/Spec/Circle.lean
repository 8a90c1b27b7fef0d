import Mathlib.Data.Real.Basic
import Mathlib.Analysis.Convex.Hull

/-!
# Specification: enclosing circles and convex rings
-/

namespace Pointpats.Spec

/-- The squared distance of two points of the plane. -/
def planeSqDist (p q : ℝ × ℝ) : ℝ := (p.1 - q.1) ^ 2 + (p.2 - q.2) ^ 2

/-- The point `p` is in the closed disc around `c` with radius `r`. -/
def InDisc (c : ℝ × ℝ) (r : ℝ) (p : ℝ × ℝ) : Prop := 0 ≤ r ∧ planeSqDist c p ≤ r ^ 2

/-- The disc contains all points of `S`, and no disc that contains them has a smaller radius. -/
def IsSmallestDisc (c : ℝ × ℝ) (r : ℝ) (S : List (ℝ × ℝ)) : Prop :=
  (∀ p ∈ S, InDisc c r p) ∧ ∀ c' r', (∀ p ∈ S, InDisc c' r' p) → r ≤ r'

/-- Positive if `x`, `y`, `z` turn clockwise, negative if they turn counterclockwise, 0 if they are on a line. -/
def clockwiseTurn (x y z : ℝ × ℝ) : ℝ := (z.1 - x.1) * (y.2 - x.2) - (z.2 - x.2) * (y.1 - x.1)

/-- The sine of the angle at `y` between `x` and `z` is at least 1/100000. -/
def SpreadOut (x y z : ℝ × ℝ) : Prop :=
  0 < planeSqDist y x ∧ 0 < planeSqDist y z ∧ (1 / 100000) ^ 2 * (planeSqDist y x * planeSqDist y z) ≤ clockwiseTurn x y z ^ 2

/-- The vertices of a strictly convex polygon in clockwise order. -/
def ConvexClockwise (l : List (ℝ × ℝ)) : Prop :=
  ∀ i j k, i < j → j < k → k < l.length → 0 < clockwiseTurn (l.getD i (0, 0)) (l.getD j (0, 0)) (l.getD k (0, 0))

/-- What `scipy.spatial.ConvexHull` answers for the events: at least three vertices, which are events, of a strictly convex
polygon in counterclockwise order that contains all events. -/
structure IsHullOf (vertices events : List (ℝ × ℝ)) : Prop where
  three : 3 ≤ vertices.length
  sub : ∀ v ∈ vertices, v ∈ events
  ring : ∀ i j k, i < j → j < k → k < vertices.length →
    clockwiseTurn (vertices.getD i (0, 0)) (vertices.getD j (0, 0)) (vertices.getD k (0, 0)) < 0
  contains : ∀ e ∈ events, e ∈ convexHull ℝ {v | v ∈ vertices}

end Pointpats.Spec
