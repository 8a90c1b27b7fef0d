import Verif.Spec.Centrography

/-!
# Specification: rotations, reflections, translations and changes of unit
-/

namespace Pointpats.Spec

/-- A map of the plane that multiplies all distances by `r`: a combination of a rotation or reflection, a translation and a
change of unit. -/
structure IsSimilarity (r : ℝ) (f : ℝ × ℝ → ℝ × ℝ) : Prop where
  pos : 0 < r
  dist : ∀ p q, eucl (f p) (f q) = r * eucl p q
  onto : Function.Surjective f

/-- The rotation by the angle `ρ` (counter-clockwise) around the origin, a change of unit by the factor `r`, and then the
translation by `(a, b)`. -/
noncomputable def turn (r ρ a b : ℝ) (p : ℝ × ℝ) : ℝ × ℝ :=
  (a + r * (Real.cos ρ * p.1 - Real.sin ρ * p.2), b + r * (Real.sin ρ * p.1 + Real.cos ρ * p.2))

/-- The reflection in the x axis. -/
def mirror (p : ℝ × ℝ) : ℝ × ℝ := (p.1, -p.2)

end Pointpats.Spec
