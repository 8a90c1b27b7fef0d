import Verif.Spec.Geo
import Verif.Model.Inputs

/-!
# Specification: what arguments stand for
-/

namespace Pointpats.Spec

open Geo Inputs

/-- The argument stands for these events. -/
inductive Represents {K : Type} : PointsArg K → List (K × K) → Prop
  | array (points) : Represents (.array points) points
  | sequence (points) : Represents (.sequence points) points
  | geo {rows points} : HoldsCoordinates rows points → Represents (.geo rows) points

/-- Every row has its own weight: it is the weight of all the points the row holds. A missing geometry and an empty point
hold none. -/
inductive RowWeights {K : Type} : List (Geom K) → List K → List (K × (K × K)) → Prop
  | nil : RowWeights [] [] []
  | missing {rows ws wp} (w : K) : RowWeights rows ws wp → RowWeights (.missing :: rows) (w :: ws) wp
  | empty {rows ws wp} (w : K) : RowWeights rows ws wp → RowWeights (.point none :: rows) (w :: ws) wp
  | point {rows ws wp} (w : K) (p : K × K) :
      RowWeights rows ws wp → RowWeights (.point (some p) :: rows) (w :: ws) ((w, p) :: wp)
  | multiPoint {rows ws wp} (w : K) (l : List (K × K)) :
      RowWeights rows ws wp → RowWeights (.multiPoint l :: rows) (w :: ws) (l.map (fun p => (w, p)) ++ wp)

/-- The argument `pp` of the quadrat methods stands for these events. A GeoPandas object has points or several points in
every row, or nothing. A `PointPattern` stands for its attribute `points`. -/
inductive QRepresents {K : Type} : QInput K → List (K × K) → Prop
  | array (points) : QRepresents (.array (points.map fun p => [p.1, p.2])) points
  | geo {rows points} : HoldsCoordinates rows points → (∀ l, Geom.other l ∉ rows) → QRepresents (.geo rows) points
  | pattern (pp : PointPattern.Obj K) : QRepresents (.pattern pp) pp.points

/-- The ring is part of the outline of the geometry. -/
inductive RingOf {K : Type} (r : List (K × K)) : Shape K → Prop
  | exterior (is) : RingOf r (.polygon r is)
  | interior {e is} : r ∈ is → RingOf r (.polygon e is)
  | part {g gs} : g ∈ gs → RingOf r g → RingOf r (.collection gs)

end Pointpats.Spec
