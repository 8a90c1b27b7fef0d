import Verif.Model.Py
import Mathlib.Probability.Distributions.Poisson.Basic

/-!
# The Poisson distribution function
-/

namespace Pointpats.Spec

/-- The argument is the cumulative distribution function of the Poisson distributions: at a natural number and a mean it is the
probability of at most this number. -/
def IsPoissonCdf (cdf : ℝ → XF ℝ → XF ℝ) : Prop :=
  ∀ (k : ℕ) (mean : NNReal), cdf (k : ℝ) (.fin (mean : ℝ)) = .fin ((ProbabilityTheory.poissonMeasure mean).real {x | x ≤ k})

end Pointpats.Spec
