import Verif.Spec.Pairs
import Mathlib.Data.List.Nodup
import Mathlib.Data.List.Count
import Mathlib.Algebra.Order.Group.Nat
import Mathlib.Algebra.BigOperators.Group.List.Basic
import Mathlib.Tactic.Ring

/-!
# Lemmas on lists of pairs
-/

namespace Pointpats.Spec

theorem mem_allPairs {n i j : ℕ} : (i, j) ∈ allPairs n ↔ i < j ∧ j < n := by
  simp only [allPairs, List.mem_flatMap, List.mem_range, List.mem_map, Prod.mk.injEq]
  constructor
  · rintro ⟨b, hb, a, ha, rfl, rfl⟩; exact ⟨ha, hb⟩
  · rintro ⟨h1, h2⟩; exact ⟨j, h2, i, h1, rfl, rfl⟩

theorem allPairs_succ (n : ℕ) : allPairs (n + 1) = allPairs n ++ (List.range n).map fun i => (i, n) := by
  simp [allPairs, List.range_succ, List.flatMap_append]

theorem nodup_allPairs (n : ℕ) : (allPairs n).Nodup := by
  induction n with
  | zero => simp [allPairs]
  | succ n ih =>
    rw [allPairs_succ]
    refine ih.append (List.nodup_range.map fun a b h => (Prod.mk.inj h).1) ?_
    rintro ⟨a, b⟩ h1 h2
    rw [mem_allPairs] at h1
    simp only [List.mem_map, List.mem_range, Prod.mk.injEq] at h2
    obtain ⟨c, -, -, rfl⟩ := h2
    omega

theorem two_mul_length_allPairs (n : ℕ) : 2 * (allPairs n).length = n * (n - 1) := by
  induction n with
  | zero => simp [allPairs]
  | succ n ih =>
    rw [allPairs_succ, List.length_append, mul_add, ih, List.length_map, List.length_range]
    cases n with
    | zero => rfl
    | succ n => simp only [Nat.add_sub_cancel]; ring

theorem length_allPairs (n : ℕ) : (allPairs n).length = n * (n - 1) / 2 := by
  have := two_mul_length_allPairs n
  omega

theorem ListsPairs.perm {n : ℕ} {close : ℕ → ℕ → Prop} [DecidableRel close] {out : List (ℕ × ℕ)}
    (h : ListsPairs n close out) :
    out.Perm ((allPairs n).filter fun p => decide (close p.1 p.2)) := by
  rw [List.perm_ext_iff_of_nodup h.nodup ((nodup_allPairs n).filter _)]
  rintro ⟨i, j⟩
  rw [h.mem, List.mem_filter, mem_allPairs]
  simp [and_assoc]

theorem listsPairs_filter (n : ℕ) (close : ℕ → ℕ → Prop) [DecidableRel close] :
    ListsPairs n close ((allPairs n).filter fun p => decide (close p.1 p.2)) := by
  refine ⟨(nodup_allPairs n).filter _, ?_⟩
  intro i j
  rw [List.mem_filter, mem_allPairs]
  simp [and_assoc]

theorem ListsPairs.length_le {n : ℕ} {close : ℕ → ℕ → Prop} {out : List (ℕ × ℕ)}
    (h : ListsPairs n close out) : out.length ≤ n * (n - 1) / 2 := by
  rw [← length_allPairs]
  apply List.Subperm.length_le
  apply List.subperm_of_subset h.nodup
  rintro ⟨i, j⟩ hp
  rw [h.mem] at hp
  exact mem_allPairs.2 ⟨hp.1, hp.2.1⟩

end Pointpats.Spec
