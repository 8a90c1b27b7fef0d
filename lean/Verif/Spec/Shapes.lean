import Verif.Model.GeoOverloads

/-!
# Specification: GeoPandas objects with at most one point in a row
-/

namespace Pointpats.Spec

open Geo

/-- Every row is missing or a point, possibly an empty one. -/
def SinglePoints {K : Type} (rows : List (Geom K)) : Prop := ∀ g ∈ rows, g = .missing ∨ ∃ xy, g = .point xy

end Pointpats.Spec
