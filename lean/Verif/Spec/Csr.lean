import Verif.Spec.Chance
import Mathlib.MeasureTheory.Measure.Lebesgue.Basic
import Mathlib.Probability.Independence.Basic

/-!
# Specification: complete spatial randomness
-/

namespace Pointpats.Spec

open MeasureTheory ProbabilityTheory

/-- The events `X 0, …, X (n - 1)` on the probability space `(Ω, P)` are completely random in the region `W`: they are
independent, and each is uniformly distributed on `W`. -/
structure CompletelyRandom {Ω : Type} [MeasurableSpace Ω] (P : Measure Ω) {n : ℕ} (X : Fin n → Ω → ℝ × ℝ) (W : Set (ℝ × ℝ)) :
    Prop where
  measurable : ∀ i, Measurable (X i)
  independent : iIndepFun X P
  uniform : ∀ i (a : Set (ℝ × ℝ)), MeasurableSet a → P {ω | X i ω ∈ a} = volume (a ∩ W) / volume W

/-- The generators `gen 0, gen 1, …` are independent of each other, and the draws of each are independent with the distribution
`law`. -/
structure IndependentGenerators {Ω K : Type} [MeasurableSpace Ω] [MeasurableSpace K] (P : Measure Ω) (gen : ℕ → ℕ → Ω → K)
    (law : Measure K) : Prop where
  draws : ∀ j, IndependentDraws P (gen j) law
  independent : iIndepFun (fun j ω k => gen j k ω) P

end Pointpats.Spec
