import Verif.Spec.Spacetime
import Verif.Spec.Level
import Mathlib.Data.Fintype.Perm
import Mathlib.MeasureTheory.Constructions.BorelSpace.Real
import Mathlib.MeasureTheory.Measure.MeasureSpace

/-!
# Specification: events without space-time interaction
-/

namespace Pointpats.Spec

open MeasureTheory

/-- The random events `X 0, …, X (n - 1)` show no space-time interaction: their joint distribution stays the same if the times are
given to the locations in any other order. -/
structure NoInteraction {Ω : Type} [MeasurableSpace Ω] (P : Measure Ω) {n : ℕ} (X : Fin n → Ω → Event ℝ) : Prop where
  measurable : ∀ i, Measurable (X i)
  exchangeable : ∀ σ : Equiv.Perm (Fin n),
    P.map (fun ω i => ((X i ω).1, (X (σ i) ω).2)) = P.map (fun ω i => X i ω)

/-- Whatever is known about the events, all sequences of `R` rearrangements have the same probability. -/
structure UniformShuffles {Ω : Type} [MeasurableSpace Ω] (P : Measure Ω) {n R : ℕ} (X : Fin n → Ω → Event ℝ)
    (q : Ω → Fin R → Equiv.Perm (Fin n)) : Prop where
  uniform : ∀ (a : Fin R → Equiv.Perm (Fin n)) (A : Set (Fin n → Event ℝ)), MeasurableSet A →
    P {ω | (fun i => X i ω) ∈ A ∧ q ω = a} = P {ω | (fun i => X i ω) ∈ A} / (Fintype.card (Fin R → Equiv.Perm (Fin n)) : ENNReal)

/-- The shuffles as the lists of positions that the tests take. -/
def shuffleLists {n R : ℕ} (a : Fin R → Equiv.Perm (Fin n)) : List (List ℕ) := List.ofFn fun k => permList (a k)

end Pointpats.Spec
