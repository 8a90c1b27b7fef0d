import Verif.Model.GeoOverloads

/-!
# Specification: the events of a GeoPandas object
-/

namespace Pointpats.Spec

open Geo

/-- The rows hold these coordinates, in this order: a missing geometry and an empty point hold none, a point its own, several
points or another geometry all of theirs. -/
inductive HoldsCoordinates {K : Type} : List (Geom K) → List (K × K) → Prop
  | nil : HoldsCoordinates [] []
  | missing {rows points} : HoldsCoordinates rows points → HoldsCoordinates (.missing :: rows) points
  | empty {rows points} : HoldsCoordinates rows points → HoldsCoordinates (.point none :: rows) points
  | point {rows points} (p : K × K) : HoldsCoordinates rows points → HoldsCoordinates (.point (some p) :: rows) (p :: points)
  | multiPoint {rows points} (l : List (K × K)) :
      HoldsCoordinates rows points → HoldsCoordinates (.multiPoint l :: rows) (l ++ points)
  | other {rows points} (l : List (K × K)) : HoldsCoordinates rows points → HoldsCoordinates (.other l :: rows) (l ++ points)

end Pointpats.Spec
