import Verif.Model.Geometry

/-!
# Specification vocabulary for boxes
-/

namespace Pointpats.Spec

variable {K : Type} [LinearOrder K]

/-- The closed axis-parallel box contains the location. -/
def InBox (b : BBox K) (p : K × K) : Prop :=
  b.xmin ≤ p.1 ∧ p.1 ≤ b.xmax ∧ b.ymin ≤ p.2 ∧ p.2 ≤ b.ymax

/-- `b` is the smallest closed box that contains all points: it contains them, and it is contained in
every box that does. -/
def IsSmallestBox (points : List (K × K)) (b : BBox K) : Prop :=
  (∀ p ∈ points, InBox b p)
    ∧ ∀ b' : BBox K, (∀ p ∈ points, InBox b' p) → ∀ q, InBox b q → InBox b' q

/-- The four corners of a box. -/
def corners (b : BBox K) : List (K × K) :=
  [(b.xmin, b.ymin), (b.xmin, b.ymax), (b.xmax, b.ymax), (b.xmax, b.ymin)]

/-- Which metrics a kind of spatial index can answer queries for: SciPy's index is Euclidean,
scikit-learn's indices support the names they list and ball trees also any callable. The index must
also have been built for that same metric. -/
def Supports (kdMetrics ballMetrics : List String) :
    Geometry.TreeKind → Geometry.Metric → Prop
  | .scipyKDTree, .name s => s = "l2" ∨ s = "euclidean"
  | .scipyKDTree, .callable => False
  | .sklearnKDTree m, m' => m = m' ∧ ∃ s ∈ kdMetrics, m' = .name s
  | .sklearnBallTree m, m' => m = m' ∧ (m' = .callable ∨ ∃ s ∈ ballMetrics, m' = .name s)

end Pointpats.Spec
