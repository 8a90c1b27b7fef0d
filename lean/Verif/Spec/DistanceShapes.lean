import Verif.Model.DistanceStats
import Mathlib.Data.Nat.Choose.Basic

/-!
# The documented shapes of precomputed distances (C135)
-/

namespace Pointpats.Spec

open DistStats

variable {K : Type}

/-- The distances are an array of `rows` × `columns` numbers, or with `columns = none` one of `rows` numbers. -/
def HasShape (distances : DistArg K) (rows : ℕ) : Option ℕ → Prop
  | none => ∃ numbers, distances = .vec numbers ∧ numbers.length = rows
  | some columns => ∃ m, distances = .mat columns m ∧ m.length = rows ∧ ∀ r ∈ m, r.length = columns

/-- What the documentation of `g` asks for: (n, n) or (n,). -/
def FitsG (n : ℕ) (distances : DistArg K) : Prop := HasShape distances n none ∨ HasShape distances n (some n)

/-- What the documentation of `f` asks for: (n, p) or (p,), for some p. -/
def FitsF (n : ℕ) (distances : DistArg K) : Prop :=
  (∃ p, HasShape distances p none) ∨ ∃ p, HasShape distances n (some p)

/-- What `k` and `l` use: the full matrix, or one number for every pair of events. -/
def FitsK (n : ℕ) (distances : DistArg K) : Prop := HasShape distances (n.choose 2) none ∨ HasShape distances n (some n)

/-- An array: every row of a matrix has as many entries as the matrix has columns. -/
def IsArray (distances : DistArg K) : Prop := ∃ rows columns, HasShape distances rows columns

end Pointpats.Spec
