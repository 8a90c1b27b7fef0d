import Mathlib.Analysis.Convex.Hull
import Mathlib.Analysis.SpecialFunctions.Trigonometric.Basic

/-!
# Specification: ellipses and convex polygons
-/

namespace Pointpats.Spec

/-- The point of the ellipse at parameter `t`: centre `c`, half axes `major` in direction `angle` (counterclockwise from the
x axis) and `minor` perpendicular to it. -/
noncomputable def ellipsePoint (c : ℝ × ℝ) (major minor angle t : ℝ) : ℝ × ℝ :=
  (c.1 + major * Real.cos t * Real.cos angle - minor * Real.sin t * Real.sin angle,
   c.2 + major * Real.cos t * Real.sin angle + minor * Real.sin t * Real.cos angle)

/-- The location is in the (closed) convex polygon with these corners. -/
def InPolygon (ring : List (ℝ × ℝ)) (p : ℝ × ℝ) : Prop := p ∈ convexHull ℝ {v | v ∈ ring}

end Pointpats.Spec
