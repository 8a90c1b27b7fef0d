import Verif.Spec.Random
import Verif.Spec.Spacetime

/-!
# Specification of the Strauss process
-/

namespace Pointpats.Spec

variable {K : Type} [Field K] [LinearOrder K]

instance (r : K) : DecidableRel (Within r) := fun _ _ => inferInstanceAs (Decidable (_ ≤ _))

/-- The density of the Strauss process with activity `beta`, interaction `gamma` and radius `r` at a pattern, up to a constant
factor, with respect to the Poisson process of intensity one: `beta` to the number of points times `gamma` to the number of
unordered pairs of points at most `r` apart. -/
def straussDensity (beta gamma r : K) (l : List (K × K)) : K := beta ^ l.length * gamma ^ closePairs (Within r) l

end Pointpats.Spec
