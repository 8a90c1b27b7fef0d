import Verif.Model.Random

/-!
# Specification: the use of random numbers
-/

namespace Pointpats.Spec

open Random

/-- `f u pos` is a computation that starts with the number `u pos` of the stream `u`, and tells where the next one has to
start. It uses the numbers of its part of the stream in order and nothing else: it never goes back, and on every other stream,
from whatever place, that continues with the same numbers it gives the same result and goes on by the same number of numbers. -/
def UsesInOrder {K α : Type} (f : (ℕ → K) → ℕ → Run α) : Prop :=
  ∀ u pos a pos', f u pos = some (.ok (a, pos')) →
    pos ≤ pos' ∧ ∀ u' start, (∀ i < pos' - pos, u' (start + i) = u (pos + i)) →
      f u' start = some (.ok (a, start + (pos' - pos)))

end Pointpats.Spec
