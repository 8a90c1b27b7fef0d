import Verif.Model.Random
import Mathlib.MeasureTheory.Constructions.BorelSpace.Real
import Mathlib.MeasureTheory.MeasurableSpace.Constructions

/-!
# Specification: the events about the array a sampler returns
-/

namespace Pointpats.Spec

open Random MeasureTheory

/-- The events about a list: those about its length and its entries. -/
instance listSpace {α : Type} [MeasurableSpace α] [Inhabited α] : MeasurableSpace (List α) :=
  MeasurableSpace.comap (fun l => (l.length, fun i : ℕ => l.getD i default)) inferInstance

/-- The number of axes of an array that have been squeezed, its entries, and the length of the second axis. -/
def arrayCode : Squeezed ℝ → ℕ × (ℝ × ℝ) × List (ℝ × ℝ) × ℕ × List (List (ℝ × ℝ))
  | .point p => (0, p, [], 0, [])
  | .rows l => (1, default, l, 0, [])
  | .cube n l => (2, default, [], n, l)

/-- The events about an array: those about its form and its entries. -/
instance squeezedSpace : MeasurableSpace (Squeezed ℝ) := MeasurableSpace.comap arrayCode inferInstance

end Pointpats.Spec
