import Mathlib.Algebra.Order.Field.Basic
import Mathlib.Data.List.Defs

/-!
# Specification of space-time events and pair counts
-/

namespace Pointpats.Spec

/-- All unordered pairs of entries of a list, each once (by position). -/
def pairs {α : Type} : List α → List (α × α)
  | [] => []
  | a :: l => l.map (fun b => (a, b)) ++ pairs l

/-- The number of unordered pairs of entries that satisfy `close`. -/
def closePairs {α : Type} (close : α → α → Prop) [DecidableRel close] (l : List α) : ℕ :=
  (pairs l).countP fun p => decide (close p.1 p.2)

/-- An event: its location and its time. -/
abbrev Event (K : Type) := (K × K) × K

/-- What is needed of the distance between locations: symmetric, zero from a point to itself, not negative.
The Euclidean distance is one. -/
structure IsSpaceDistance {K : Type} [Field K] [LinearOrder K] (d : K × K → K × K → K) : Prop where
  symm : ∀ a b, d a b = d b a
  self : ∀ a, d a a = 0
  nonneg : ∀ a b, 0 ≤ d a b

section

variable {K : Type} [Field K] [LinearOrder K]

/-- Two events are at most `delta` apart in space. -/
def NearSpace (sdist : K × K → K × K → K) (delta : K) (a b : Event K) : Prop := sdist a.1 b.1 ≤ delta

/-- Two events are at most `tau` apart in time. -/
def NearTime (tau : K) (a b : Event K) : Prop := |a.2 - b.2| ≤ tau

/-- Two events are close in space and in time. -/
def NearBoth (sdist : K × K → K × K → K) (delta tau : K) (a b : Event K) : Prop :=
  NearSpace sdist delta a b ∧ NearTime tau a b

instance (sdist : K × K → K × K → K) (delta : K) : DecidableRel (NearSpace sdist delta) :=
  fun a b => inferInstanceAs (Decidable (sdist a.1 b.1 ≤ delta))

instance (tau : K) : DecidableRel (NearTime tau) :=
  fun a b => inferInstanceAs (Decidable (|a.2 - b.2| ≤ tau))

instance (sdist : K × K → K × K → K) (delta tau : K) : DecidableRel (NearBoth sdist delta tau) :=
  fun a b => inferInstanceAs (Decidable (NearSpace sdist delta a b ∧ NearTime tau a b))

end

/-- `p` is a rearrangement of the numbers below `n`. -/
def IsShuffle (n : ℕ) (p : List ℕ) : Prop := p.Perm (List.range n)

instance (n : ℕ) (p : List ℕ) : Decidable (IsShuffle n p) := inferInstanceAs (Decidable (p.Perm _))

/-- The events after giving the times to the locations in another order: location `i` gets the time of
event `p[i]`. -/
def retime {K : Type} [Zero K] (p : List ℕ) (E : List (Event K)) : List (Event K) :=
  (E.map Prod.fst).zip (p.map fun (i : ℕ) => (E.map Prod.snd).getD i 0)

/-- `out` lists for every `i < n` the `k` nearest of the other numbers below `n`; ties may be broken in any
way. -/
structure NearestLists {D : Type} [LinearOrder D] (dist : ℕ → ℕ → D) (n k : ℕ) (out : List (List ℕ)) : Prop where
  length : out.length = n
  size : ∀ i < n, (out.getD i []).length = k
  nodup : ∀ i < n, (out.getD i []).Nodup
  other : ∀ i < n, ∀ j ∈ out.getD i [], j < n ∧ j ≠ i
  nearest : ∀ i < n, ∀ j ∈ out.getD i [], ∀ l < n, l ≠ i → l ∉ out.getD i [] → dist i j ≤ dist i l

/-- `out` lists for every `i < n` the numbers below `n` that are close to `i`, in any order (`i` itself is
listed if it is close to itself). -/
structure AnswersBall (n : ℕ) (close : ℕ → ℕ → Prop) (out : List (List ℕ)) : Prop where
  length : out.length = n
  mem : ∀ i < n, ∀ j, j ∈ out.getD i [] ↔ j < n ∧ close i j

end Pointpats.Spec
