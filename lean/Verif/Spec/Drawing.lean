import Verif.Spec.Polygon
import Verif.Spec.Circle
import Mathlib.Topology.Instances.Real.Lemmas

/-!
# Specification: cells drawn on a map
-/

namespace Pointpats.Spec

/-- The closed ring goes once around a regular hexagon with centre `c` and side `a`: six different corners at distance `a`
from the centre, neighbouring corners at distance `a`. -/
def IsRegularHexagon (ring : List (ℝ × ℝ)) (c : ℝ × ℝ) (a : ℝ) : Prop :=
  ∃ v : ℕ → ℝ × ℝ, ring = (List.range 7).map v ∧ v 6 = v 0 ∧ ((List.range 6).map v).Nodup
    ∧ (∀ i < 7, planeSqDist c (v i) = a ^ 2) ∧ ∀ i < 6, planeSqDist (v i) (v (i + 1)) = a ^ 2

/-- The closed ring goes once around the rectangle with centre `c`, width `w` and height `h`. -/
def IsCellRectangle (ring : List (ℝ × ℝ)) (c : ℝ × ℝ) (w h : ℝ) : Prop :=
  ring = [(c.1 + w / 2, c.2 - h / 2), (c.1 + w / 2, c.2 + h / 2), (c.1 - w / 2, c.2 + h / 2), (c.1 - w / 2, c.2 - h / 2),
    (c.1 + w / 2, c.2 - h / 2)]

/-- The drawn polygons overlap at most along their borders. -/
def NoOverlap (rings : List (List (ℝ × ℝ))) : Prop :=
  rings.Pairwise fun a b => Disjoint (interior {p | InPolygon a p}) (interior {p | InPolygon b p})

/-- The drawn polygons cover the smallest box that contains the events. -/
def CoversBox (rings : List (List (ℝ × ℝ))) (points : List (ℝ × ℝ)) : Prop :=
  ∀ q : ℝ × ℝ, (∃ p ∈ points, p.1 ≤ q.1) → (∃ p ∈ points, q.1 ≤ p.1) → (∃ p ∈ points, p.2 ≤ q.2) →
    (∃ p ∈ points, q.2 ≤ p.2) → ∃ ring ∈ rings, InPolygon ring q

open Classical in
/-- The numbers written into the drawn cells (outline, place of the number, number) count the events: every event is counted in
one of the cells, one that contains it, and the number of a cell is the number of events counted in it. -/
def NumbersCount (cells : List (List (ℝ × ℝ) × (ℝ × ℝ) × ℕ)) (points : List (ℝ × ℝ)) : Prop :=
  ∃ cell : ℝ × ℝ → List (ℝ × ℝ), (∀ p ∈ points, cell p ∈ cells.map Prod.fst ∧ InPolygon (cell p) p)
    ∧ ∀ x ∈ cells, x.2.2 = (points.filter fun p => cell p = x.1).length

end Pointpats.Spec
