import Mathlib.Data.Nat.Choose.Basic
import Mathlib.Algebra.BigOperators.Group.Finset.Basic
import Mathlib.Algebra.Field.Defs

/-!
# The hypergeometric distribution function

Independent of the model.
-/

namespace Pointpats.Spec

/-- The argument is the cumulative distribution function of the hypergeometric distribution, with the parameters of SciPy: among `M`
things `n` are of the first type, `N` are drawn without replacement, and `x` of them are of the first type with the probability
`C(n, x) C(M - n, N - x) / C(M, N)`. -/
def IsHypergeomCdf {K : Type} [Field K] (cdf : ℤ → ℕ → ℕ → ℕ → K) : Prop :=
  ∀ (k : ℤ) (M n N : ℕ), n ≤ M → N ≤ M → cdf k M n N
    = ∑ x ∈ Finset.range (N + 1), if (x : ℤ) ≤ k then ((n.choose x : K) * ((M - n).choose (N - x) : K)) / (M.choose N : K) else 0

end Pointpats.Spec
