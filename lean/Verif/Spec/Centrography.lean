import Mathlib.Algebra.Order.Field.Basic
import Mathlib.Algebra.BigOperators.Group.List.Lemmas
import Mathlib.Analysis.SpecialFunctions.Trigonometric.Basic

/-!
# Specifications for centrographic measures

Independent of the model: distances, total distances, and the variance of a pattern in a direction.
-/

namespace Pointpats.Spec

section
variable {K : Type} [Field K] [LinearOrder K]

omit [LinearOrder K] in
/-- Squared Euclidean distance. -/
def sqDist (p q : K × K) : K := (p.1 - q.1) ^ 2 + (p.2 - q.2) ^ 2

/-- Manhattan distance. -/
def manhattan (p q : K × K) : K := |p.1 - q.1| + |p.2 - q.2|

omit [LinearOrder K] in
/-- Sum of squared distances of the points to `q`. -/
def sumSq (points : List (K × K)) (q : K × K) : K := (points.map fun p => sqDist p q).sum

omit [LinearOrder K] in
/-- Weighted sum of squared distances to `q`; points and weights come in pairs. -/
def wSumSq (wp : List (K × (K × K))) (q : K × K) : K := (wp.map fun a => a.1 * sqDist a.2 q).sum

/-- Sum of Manhattan distances of the points to `q`. -/
def sumManhattan (points : List (K × K)) (q : K × K) : K := (points.map fun p => manhattan p q).sum

end

/-- Weighted mean of numbers; weights and numbers come in pairs. -/
noncomputable def wMean (l : List (ℝ × ℝ)) : ℝ := (l.map fun a => a.1 * a.2).sum / (l.map Prod.fst).sum

/-- Weighted variance of numbers; weights and numbers come in pairs. -/
noncomputable def wVar (l : List (ℝ × ℝ)) : ℝ :=
  (l.map fun a => a.1 * (a.2 - wMean l) ^ 2).sum / (l.map Prod.fst).sum

/-- Weighted variance of a pattern in direction `φ` (counter-clockwise from the x axis): the variance of
the coordinates of the points along that direction. Weights and points come in pairs. -/
noncomputable def dirVar (wp : List (ℝ × (ℝ × ℝ))) (φ : ℝ) : ℝ :=
  wVar (wp.map fun a => (a.1, a.2.1 * Real.cos φ + a.2.2 * Real.sin φ))

/-- Euclidean distance. -/
noncomputable def eucl (p q : ℝ × ℝ) : ℝ := Real.sqrt (sqDist p q)

/-- Sum of the Euclidean distances of the points to `q`. -/
noncomputable def sumEucl (points : List (ℝ × ℝ)) (q : ℝ × ℝ) : ℝ := (points.map fun p => eucl p q).sum

/-- `m` is a Euclidean median (geometric median): no location has a smaller sum of distances. -/
def IsEuclideanMedian (points : List (ℝ × ℝ)) (m : ℝ × ℝ) : Prop :=
  ∀ q, sumEucl points m ≤ sumEucl points q

/-- Four corners of a (non-degenerate) rectangle in cyclic order. -/
def IsRectangle (a b c d : ℝ × ℝ) : Prop :=
  a ≠ b ∧ b ≠ c
  ∧ (b.1 - a.1) * (c.1 - b.1) + (b.2 - a.2) * (c.2 - b.2) = 0
  ∧ d.1 - a.1 = c.1 - b.1 ∧ d.2 - a.2 = c.2 - b.2

/-- What a correct standard deviational ellipse is, up to the scale factor `k` of both axes: the angle is
a direction of largest variance, the direction perpendicular to it one of smallest variance, and the axes
are `k` times the standard deviations in these two directions. -/
structure IsDeviationalEllipse (wp : List (ℝ × (ℝ × ℝ))) (k major minor angle : ℝ) : Prop where
  nonneg : 0 ≤ minor
  le : minor ≤ major
  major_eq : major = k * Real.sqrt (dirVar wp angle)
  minor_eq : minor = k * Real.sqrt (dirVar wp (angle + Real.pi / 2))
  largest : ∀ φ, dirVar wp φ ≤ dirVar wp angle
  smallest : ∀ φ, dirVar wp (angle + Real.pi / 2) ≤ dirVar wp φ

end Pointpats.Spec
