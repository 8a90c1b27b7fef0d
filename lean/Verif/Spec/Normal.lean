import Verif.Spec.Random
import Verif.Model.Random
import Mathlib.Probability.Distributions.Gaussian.Real

/-!
# The normal distribution in the plane
-/

namespace Pointpats.Spec

open Random MeasureTheory ProbabilityTheory

/-- `ν` is the normal distribution in the plane with this mean and the covariance matrix `[[a, b], [c, d]]`: every linear
combination of the two coordinates is normally distributed, with the mean and the variance it has to have. -/
def BivariateNormal (ν : Measure (ℝ × ℝ)) (mean : ℝ × ℝ) (a b c d : ℝ) : Prop :=
  ∀ s t : ℝ, ν.map (fun p => s * p.1 + t * p.2)
    = gaussianReal (s * mean.1 + t * mean.2) (s * s * a + s * t * (b + c) + t * t * d).toNNReal

/-- What is assumed of `rng.multivariate_normal((0, 0), m)`: if `m` is a correlation matrix, it turns two numbers into a pair by
a linear map, whose matrix times its transpose is `m`. -/
def Factorises (mvn : M2 ℝ → ℝ → ℝ → ℝ × ℝ) : Prop :=
  ∀ m : M2 ℝ, IsCorrelation m.a m.b m.c m.d →
    ∃ p q r s, IsFactor p q r s m.a m.b m.c m.d ∧ ∀ x y, mvn m x y = (p * x + q * y, r * x + s * y)

/-- The covariance matrices asked for, one for each replication: without the argument, the square of half the longer side of the
bounding box is the variance of both coordinates; a number is that variance; a matrix is used for all replications; of a stack
of matrices each is used for one. -/
def RequestedCov (h : Hull ℝ) : CovArg ℝ → List (M2 ℝ) → Prop
  | .none, covs => ∀ m ∈ covs, m = ⟨(max (h.bbox.xmax - h.bbox.xmin) (h.bbox.ymax - h.bbox.ymin) / 2) ^ 2, 0, 0,
      (max (h.bbox.xmax - h.bbox.xmin) (h.bbox.ymax - h.bbox.ymin) / 2) ^ 2⟩
  | .num c, covs => ∀ m ∈ covs, m = ⟨c, 0, 0, c⟩
  | .mat m, covs => ∀ m' ∈ covs, m' = m
  | .mats l, covs => covs = l
  | _, _ => False

/-- A replication: its covariance matrix, a distribution, and a set for every point. -/
structure NormalEvent where
  cov : M2 ℝ
  law : Measure (ℝ × ℝ)
  sets : List (Set (ℝ × ℝ))

end Pointpats.Spec
