import Verif.Lemmas.DistanceStats
import Mathlib.Algebra.Order.Group.Abs
import Mathlib.Data.List.Sort

/-!
# A correct spatial index

Sorting all stored points by distance answers every query correctly, so the contract `Lib.Correct` can be met.
-/

namespace Pointpats.DistStats

open Spec Geometry Random

/-- Sort the stored points by distance and take the first `k`. -/
def sortRow {D : Type} [LinearOrder D] (dist : ℕ → D) (n k : ℕ) : List (D × ℕ) :=
  (((List.range n).map fun j => (dist j, j)).insertionSort fun a b => a.1 ≤ b.1).take k

theorem sortRow_nearest {D : Type} [LinearOrder D] (dist : ℕ → D) (n k : ℕ) (hk : k ≤ n) :
    NearestRow dist (List.range n) k (sortRow dist n k) := by
  set l : List (D × ℕ) := (List.range n).map fun j => (dist j, j) with hl
  set s := l.insertionSort fun a b => a.1 ≤ b.1 with hs
  have hperm : s.Perm l := List.perm_insertionSort _ l
  have hsorted : s.Pairwise fun a b => a.1 ≤ b.1 := by
    have : Std.Total (fun a b : D × ℕ => a.1 ≤ b.1) := ⟨fun a b => le_total _ _⟩
    have : IsTrans (D × ℕ) (fun a b : D × ℕ => a.1 ≤ b.1) := ⟨fun a b c h1 h2 => le_trans h1 h2⟩
    exact List.pairwise_insertionSort _ l
  have hmem : ∀ e ∈ s, e.2 ∈ List.range n ∧ e.1 = dist e.2 := by
    intro e he
    have := hperm.mem_iff.1 he
    rw [hl, List.mem_map] at this
    obtain ⟨j, hj, rfl⟩ := this
    exact ⟨hj, rfl⟩
  have hsub : (s.take k).Sublist s := List.take_sublist k s
  have hlen : s.length = n := by rw [hperm.length_eq, hl]; simp
  refine ⟨?_, ?_, ?_, ?_, ?_, ?_⟩
  · show (s.take k).length = k
    rw [List.length_take, hlen]; omega
  · intro e he
    exact (hmem e (hsub.subset he)).1
  · have h1 : (s.map Prod.snd).Nodup := by
      rw [(hperm.map Prod.snd).nodup_iff, hl, List.map_map]
      have : (Prod.snd ∘ fun j : ℕ => (dist j, j)) = id := rfl
      rw [this, List.map_id]
      exact List.nodup_range
    exact h1.sublist (hsub.map Prod.snd)
  · intro e he
    exact (hmem e (hsub.subset he)).2
  · exact hsorted.sublist hsub
  · intro j hj hnot e he
    have hjl : (dist j, j) ∈ s := hperm.mem_iff.2 (List.mem_map.2 ⟨j, hj, rfl⟩)
    rw [← List.take_append_drop k s] at hjl hsorted
    rcases List.mem_append.1 hjl with h | h
    · exact absurd (List.mem_map.2 ⟨_, h, rfl⟩) hnot
    · exact (List.pairwise_append.1 hsorted).2.2 e he _ h

/-- Libraries for the examples: SciPy's index only, every metric the Manhattan distance, every hull that is not a box the unit
square. -/
def sortLib : Lib ℚ where
  hasSklearn := false
  kdMetrics := []
  ballMetrics := []
  query := fun _ stored locations k =>
    if k ≤ stored.length then
      .ok (locations.map fun x => sortRow (fun j => |x.1 - (stored.getD j (0, 0)).1| + |x.2 - (stored.getD j (0, 0)).2|)
        stored.length k)
    else .error .valueError
  pdist := fun _ p q => |p.1 - q.1| + |p.2 - q.2|
  hull := fun _ => Hull.ofBBox ⟨0, 0, 1, 1⟩

theorem sortLib_correct : sortLib.Correct := by
  intro m stored locations k hk
  refine ⟨_, if_pos hk, by simp, ?_⟩
  intro i h x hx
  rw [List.getElem_map]
  have : locations[i]'(by simpa using h) = x := by
    rw [List.getElem?_eq_getElem (by simpa using h)] at hx
    injection hx
  rw [this]
  exact sortRow_nearest _ _ _ hk

theorem sortLib_isDistance (m : Metric) : IsDistance (sortLib.pdist m) := by
  refine ⟨fun p q => ?_, fun p q => add_nonneg (abs_nonneg _) (abs_nonneg _)⟩
  show |p.1 - q.1| + |p.2 - q.2| = |q.1 - p.1| + |q.2 - p.2|
  rw [abs_sub_comm p.1, abs_sub_comm p.2]

end Pointpats.DistStats
