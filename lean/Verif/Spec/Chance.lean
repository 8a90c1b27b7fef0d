import Verif.Spec.Random
import Mathlib.Probability.Independence.Basic

/-!
# Specification: independent random draws
-/

namespace Pointpats.Spec

open MeasureTheory ProbabilityTheory

/-- The draws `U 0, U 1, …` of a generator on the probability space `(Ω, P)` are independent, and each has the distribution
`law`. -/
structure IndependentDraws {Ω K : Type} [MeasurableSpace Ω] [MeasurableSpace K] (P : Measure Ω) (U : ℕ → Ω → K)
    (law : Measure K) : Prop where
  measurable : ∀ i, Measurable (U i)
  independent : iIndepFun U P
  distribution : ∀ i, P.map (U i) = law

end Pointpats.Spec
