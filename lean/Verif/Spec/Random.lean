import Mathlib.Algebra.Order.Field.Basic
import Mathlib.Data.List.Basic

/-!
# Specifications for random patterns

Independent of the model.
-/

namespace Pointpats.Spec

/-- Rejection sampling: `l` are the first `n` accepted ones among the candidates `cand 0, cand 1, …`, in
order, and the first `m` candidates had to be looked at to find them. -/
def FirstAccepted {α : Type} (cand : ℕ → α) (accept : α → Bool) (n : ℕ) (l : List α) (m : ℕ) : Prop :=
  l = ((List.range m).map cand).filter accept ∧ l.length = n ∧ (m = 0 ∨ accept (cand (m - 1)) = true)

/-- The draws of a generator: numbers from 0 (included) to 1 (excluded). -/
def IsDraws {K : Type} [Field K] [LinearOrder K] (u : ℕ → K) : Prop := ∀ i, 0 ≤ u i ∧ u i < 1

/-- `x` truncated towards zero is `n`. -/
def IsTrunc {K : Type} [Field K] [LinearOrder K] (x : K) (n : ℤ) : Prop :=
  (0 ≤ x → (n : K) ≤ x ∧ x < n + 1) ∧ (x ≤ 0 → (n : K) - 1 < x ∧ x ≤ n)

/-- Squared distance at most `r²`. -/
def Within {K : Type} [Field K] [LinearOrder K] (r : K) (p q : K × K) : Prop :=
  (p.1 - q.1) ^ 2 + (p.2 - q.2) ^ 2 ≤ r ^ 2

/-- No two points at different places of the list are within distance `r`. -/
def NoClosePairs {K : Type} [Field K] [LinearOrder K] (r : K) (l : List (K × K)) : Prop :=
  l.Pairwise fun p q => ¬ Within r p q

/-- The numbers of the clusters differ by at most one. -/
def Balanced (sizes : List ℕ) : Prop := ∀ a ∈ sizes, ∀ b ∈ sizes, a ≤ b + 1

/-- `ρ` is half of the smallest distance between two points of `l` (at different places of the list), where
`dist` is the distance. -/
def IsHalfMinDist {K : Type} [Field K] [LinearOrder K] (dist : K × K → K × K → K) (l : List (K × K)) (ρ : K) : Prop :=
  (l.Pairwise fun p q => 2 * ρ ≤ dist p q)
  ∧ ∃ (i j : ℕ) (p q : K × K), i < j ∧ l[i]? = some p ∧ l[j]? = some q ∧ dist p q = 2 * ρ

/-- `[[a, b], [c, d]]` is the covariance matrix of a bivariate distribution with positive variances:
symmetric, with non-negative determinant. -/
def IsCovariance {K : Type} [Field K] [LinearOrder K] (a b c d : K) : Prop :=
  0 < a ∧ 0 < d ∧ b = c ∧ 0 ≤ a * d - b * c

/-- `[[a, b], [c, d]]` is a correlation matrix. -/
def IsCorrelation {K : Type} [Field K] [LinearOrder K] (a b c d : K) : Prop :=
  a = 1 ∧ d = 1 ∧ b = c ∧ -1 ≤ b ∧ b ≤ 1

/-- `[[p, q], [r, s]]` times its transpose is `[[a, b], [c, d]]`: a linear map with the first matrix turns
two independent standard normal numbers into a vector with the second as covariance matrix. -/
def IsFactor {K : Type} [Field K] (p q r s a b c d : K) : Prop :=
  p * p + q * q = a ∧ p * r + q * s = b ∧ r * p + s * q = c ∧ r * r + s * s = d

end Pointpats.Spec
