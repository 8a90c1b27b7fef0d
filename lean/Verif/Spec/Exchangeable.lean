import Mathlib.MeasureTheory.Measure.Typeclasses.Probability

/-!
# Specification: exchangeable random patterns

Monte Carlo tests compare an observed value with simulated ones. Under the null hypothesis the observed pattern and the
simulated patterns are exchangeable: renumbering them does not change their joint distribution.
-/

namespace Pointpats.Spec

open MeasureTheory

/-- The random objects `X 0, X 1, …` on the probability space `(Ω, μ)` are exchangeable. They have countably many values (a
computer has finitely many floating point numbers). -/
structure Exchangeable {Ω A : Type} [MeasurableSpace Ω] (μ : Measure Ω) {m : ℕ} (X : Fin m → Ω → A) : Prop where
  countable : ∀ j, (Set.range (X j)).Countable
  measurable : ∀ j a, MeasurableSet {ω | X j ω = a}
  renumber : ∀ (σ : Equiv.Perm (Fin m)) (x : Fin m → A), μ {ω | ∀ j, X (σ j) ω = x j} = μ {ω | ∀ j, X j ω = x j}

end Pointpats.Spec
