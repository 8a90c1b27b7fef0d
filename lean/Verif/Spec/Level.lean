import Mathlib.Algebra.Field.Defs
import Mathlib.Data.Fintype.Card
import Mathlib.Data.Fintype.Pi
import Mathlib.Data.Fintype.Perm

/-!
# Specification of the level of a permutation test

A permutation test of `n` events with `R` shuffles uses `R + 1` random rearrangements: the one by which, under the null
hypothesis, the times were given to the locations, and those of the `R` shuffles.
-/

namespace Pointpats.Spec

/-- The probability of `P` when all elements of the finite set `Ω` are equally likely. -/
noncomputable def share (K : Type) [Field K] (Ω : Type) [Fintype Ω] (P : Ω → Prop) : K :=
  open Classical in
  ((Finset.univ.filter P).card : K) / (Fintype.card Ω : K)

/-- A rearrangement as the list of the positions the entries are taken from. -/
def permList {n : ℕ} (σ : Equiv.Perm (Fin n)) : List ℕ := List.ofFn fun i => ((σ i : Fin n) : ℕ)

/-- `R + 1` rearrangements of `n` things. -/
abbrev Rearrangements (n R : ℕ) : Type := Fin (R + 1) → Equiv.Perm (Fin n)

/-- The first rearrangement, by which the null hypothesis assigns the times. -/
def assignment {n R : ℕ} (ω : Rearrangements n R) : List ℕ := permList (ω 0)

/-- The other rearrangements, drawn by the test. -/
def shuffles {n R : ℕ} (ω : Rearrangements n R) : List (List ℕ) := List.ofFn fun i : Fin R => permList (ω i.succ)

end Pointpats.Spec
