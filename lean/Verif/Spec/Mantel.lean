import Verif.Spec.Pairs
import Verif.Spec.Spacetime
import Mathlib.Analysis.SpecialFunctions.Pow.Real

/-!
# Specification: the transformation of the Mantel test
-/

namespace Pointpats.Spec

/-- `b` to the power of `p` is a number: the base is positive, or zero and the exponent not negative, or negative and the exponent
an integer. -/
def PowerDefined (b p : ℝ) : Prop := 0 < b ∨ (b = 0 ∧ 0 ≤ p) ∨ (b < 0 ∧ ∃ z : ℤ, p = z)

/-- For every pair of events both transformed distances, `(d + con) ^ pow` in space and in time, are numbers. -/
def AllDefined (sdist : ℝ × ℝ → ℝ × ℝ → ℝ) (scon spow tcon tpow : ℝ) (E : List (Event ℝ)) : Prop :=
  ∀ q ∈ pairs E, PowerDefined (|q.2.2 - q.1.2| + tcon) tpow ∧ PowerDefined (sdist q.2.1 q.1.1 + scon) spow

/-- With positive constants everything is defined for distances that are not negative. -/
theorem PowerDefined.of_pos {b p : ℝ} (h : 0 < b) : PowerDefined b p := Or.inl h

theorem PowerDefined.one (b : ℝ) : PowerDefined b 1 := by
  rcases lt_trichotomy b 0 with h | h | h
  · exact Or.inr (Or.inr ⟨h, 1, by simp⟩)
  · exact Or.inr (Or.inl ⟨h, zero_le_one⟩)
  · exact Or.inl h

end Pointpats.Spec
