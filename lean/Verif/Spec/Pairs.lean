import Mathlib.Order.Defs.LinearOrder
import Mathlib.Data.List.Defs

/-!
# Specification of close pairs
-/

namespace Pointpats.Spec

/-- All pairs `(i, j)` with `i < j < n`. -/
def allPairs (n : ℕ) : List (ℕ × ℕ) :=
  (List.range n).flatMap fun j => (List.range j).map fun i => (i, j)

/-- `out` lists, in any order and each once, the pairs `i < j < n` satisfying `close`. -/
structure ListsPairs (n : ℕ) (close : ℕ → ℕ → Prop) (out : List (ℕ × ℕ)) : Prop where
  nodup : out.Nodup
  mem : ∀ i j, (i, j) ∈ out ↔ (i < j ∧ j < n ∧ close i j)

end Pointpats.Spec
