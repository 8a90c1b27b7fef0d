import Verif.Spec.Neighbours
import Verif.Model.Geometry
import Mathlib.Tactic.Ring

/-!
# Lemmas on nearest-neighbour rows
-/

namespace Pointpats.Spec

variable {D : Type} [LinearOrder D]

theorem mergeSort_eq {l s : List D} (hp : s.Perm l) (hs : s.Pairwise (· ≤ ·)) :
    l.mergeSort (fun a b => decide (a ≤ b)) = s := by
  have h1 : (l.mergeSort (fun a b => decide (a ≤ b))).Pairwise (fun a b => decide (a ≤ b) = true) :=
    List.pairwise_mergeSort (fun a b c => by simpa using le_trans)
      (fun a b => by simpa using le_total a b) l
  have h2 : (l.mergeSort (fun a b => decide (a ≤ b))).Pairwise (· ≤ ·) :=
    h1.imp (by simp)
  exact ((List.mergeSort_perm l _).trans hp.symm).eq_of_pairwise
    (fun a b _ _ => le_antisymm) h2 hs

theorem mergeSort_perm_eq {l l' : List D} (hp : l.Perm l') :
    l.mergeSort (fun a b => decide (a ≤ b)) = l'.mergeSort (fun a b => decide (a ≤ b)) := by
  apply mergeSort_eq ((List.mergeSort_perm l' _).trans hp.symm)
  have h1 : (l'.mergeSort (fun a b => decide (a ≤ b))).Pairwise (fun a b => decide (a ≤ b) = true) :=
    List.pairwise_mergeSort (fun a b c => by simpa using le_trans)
      (fun a b => by simpa using le_total a b) l'
  exact h1.imp (by simp)

theorem mergeSort_sorted (l : List D) :
    (l.mergeSort (fun a b => decide (a ≤ b))).Pairwise (· ≤ ·) := by
  have h1 : (l.mergeSort (fun a b => decide (a ≤ b))).Pairwise (fun a b => decide (a ≤ b) = true) :=
    List.pairwise_mergeSort (fun a b c => by simpa using le_trans)
      (fun a b => by simpa using le_total a b) l
  exact h1.imp (by simp)

theorem smallest_perm {dist dist' : ℕ → D} {ids ids' : List ℕ} {m : ℕ}
    (h : (ids.map dist).Perm (ids'.map dist')) : smallest dist ids m = smallest dist' ids' m := by
  unfold smallest; rw [mergeSort_perm_eq h]

theorem NearestRow.distances {dist : ℕ → D} {ids : List ℕ} {m : ℕ} {row : List (D × ℕ)}
    (hids : ids.Nodup) (h : NearestRow dist ids m row) : row.map Prod.fst = smallest dist ids m := by
  classical
  have hsub : (row.map Prod.snd).Subperm ids :=
    List.subperm_of_subset h.nodup fun j hj => by
      obtain ⟨e, he, rfl⟩ := List.mem_map.1 hj
      exact h.stored e he
  obtain ⟨l0, hl0, hl1⟩ := hsub
  obtain ⟨rest, hrest0⟩ := hl1.exists_perm_append
  have hrest : ids.Perm (row.map Prod.snd ++ rest) := hrest0.trans (hl0.append_right rest)
  have hrest_mem : ∀ j ∈ rest, j ∈ ids ∧ j ∉ row.map Prod.snd := by
    intro j hj
    have hnd : (row.map Prod.snd ++ rest).Nodup := hrest.nodup_iff.1 hids
    refine ⟨hrest.symm.subset (by simp [hj]), fun hj' => ?_⟩
    exact (List.nodup_append.1 hnd).2.2 j hj' j hj rfl
  have hfst : row.map Prod.fst = (row.map Prod.snd).map dist := by
    rw [List.map_map]
    exact List.map_congr_left fun e he => h.true_dist e he
  have hkey : (ids.map dist).mergeSort (fun a b => decide (a ≤ b))
      = row.map Prod.fst ++ (rest.map dist).mergeSort (fun a b => decide (a ≤ b)) := by
    apply mergeSort_eq
    · refine ((List.mergeSort_perm _ _).append_left _).trans ?_
      rw [hfst, ← List.map_append]
      exact (hrest.map dist).symm
    · rw [List.pairwise_append]
      refine ⟨?_, mergeSort_sorted _, ?_⟩
      · rw [List.pairwise_map]; exact h.sorted
      · intro a ha b hb
        obtain ⟨e, he, rfl⟩ := List.mem_map.1 ha
        obtain ⟨j, hj, rfl⟩ := List.mem_map.1 ((List.mergeSort_perm _ _).subset hb)
        exact h.nearest j (hrest_mem j hj).1 (hrest_mem j hj).2 e he
  unfold smallest
  rw [hkey, List.take_append_of_le_length (by simp [h.length]), List.take_of_length_le (by simp [h.length])]

theorem nodup_others (n i : ℕ) : (others n i).Nodup := List.nodup_range.filter _

theorem mem_others {n i j : ℕ} : j ∈ others n i ↔ j < n ∧ j ≠ i := by
  simp [others]

theorem range_perm_cons_others {n i : ℕ} (hi : i < n) : (List.range n).Perm (i :: others n i) := by
  rw [List.perm_ext_iff_of_nodup List.nodup_range
    (List.nodup_cons.2 ⟨by simp [mem_others], nodup_others n i⟩)]
  intro a
  simp only [List.mem_range, List.mem_cons, mem_others]
  constructor
  · intro h; by_cases ha : a = i
    · exact Or.inl ha
    · exact Or.inr ⟨h, ha⟩
  · rintro (rfl | h)
    · exact hi
    · exact h.1

theorem length_others {n i : ℕ} (hi : i < n) : (others n i).length = n - 1 := by
  have := (range_perm_cons_others hi).length_eq
  simp at this; omega

theorem smallest_cons_min {dist : ℕ → D} {n i m : ℕ} (hi : i < n)
    (hmin : ∀ j, j < n → dist i ≤ dist j) :
    smallest dist (List.range n) (m + 1) = dist i :: smallest dist (others n i) m := by
  unfold smallest
  have : (List.map dist (List.range n)).mergeSort (fun a b => decide (a ≤ b))
      = dist i :: (List.map dist (others n i)).mergeSort (fun a b => decide (a ≤ b)) := by
    apply mergeSort_eq
    · refine ((List.mergeSort_perm _ _).cons _).trans ?_
      rw [← List.map_cons]
      exact ((range_perm_cons_others hi).map dist).symm
    · rw [List.pairwise_cons]
      refine ⟨fun b hb => ?_, mergeSort_sorted _⟩
      obtain ⟨j, hj, rfl⟩ := List.mem_map.1 ((List.mergeSort_perm _ _).subset hb)
      exact hmin j (mem_others.1 hj).1
  rw [this, List.take_succ_cons]

/-- Masking a correct row of `k + 1` neighbours gives a correct row of `k` other neighbours. -/
theorem maskRow_spec {dist : ℕ → D} {n k i : ℕ} {row : List (D × ℕ)}
    (h : NearestRow dist (List.range n) (k + 1) row) :
    NearestRow dist (others n i) k (Geometry.maskRow k i row) := by
  unfold Geometry.maskRow
  by_cases hi : i ∈ row.map Prod.snd
  · -- exactly one entry is removed
    have hlen : (row.filter fun e => e.2 ≠ i).length = k := by
      have hc : (row.map Prod.snd).count i = 1 := List.count_eq_one_of_mem h.nodup hi
      have h1 : row.countP (fun e => decide (e.2 = i)) = 1 := by
        rw [List.count, List.countP_map] at hc
        rw [← hc]
        apply List.countP_congr
        intro a _; simp
      have h2 := List.length_eq_countP_add_countP (fun e : D × ℕ => decide (e.2 = i)) (l := row)
      have h3 : row.countP (fun e => decide (e.2 ≠ i)) = k := by
        have := h.length
        have h4 : List.countP (fun a => decide ¬decide (a.2 = i) = true) row
            = row.countP (fun e => decide (e.2 ≠ i)) := by
          apply List.countP_congr; intro a _; simp
        omega
      rw [← List.countP_eq_length_filter]; exact h3
    have hne : ¬ (row.filter fun e => e.2 ≠ i).length = k + 1 := by omega
    simp only [hne, if_false]
    refine ⟨hlen, ?_, ?_, ?_, ?_, ?_⟩
    · intro e he
      have he' := List.mem_filter.1 he
      exact mem_others.2 ⟨List.mem_range.1 (h.stored e he'.1), by simpa using he'.2⟩
    · exact h.nodup.sublist (List.filter_sublist.map _)
    · intro e he; exact h.true_dist e (List.mem_filter.1 he).1
    · exact h.sorted.sublist List.filter_sublist
    · intro j hj hj' e he
      have hjo := mem_others.1 hj
      refine h.nearest j (List.mem_range.2 hjo.1) ?_ e (List.mem_filter.1 he).1
      intro hmem
      obtain ⟨e', he', rfl⟩ := List.mem_map.1 hmem
      exact hj' (List.mem_map.2 ⟨e', List.mem_filter.2 ⟨he', by simpa using hjo.2⟩, rfl⟩)
  · have hall : (row.filter fun e => e.2 ≠ i) = row := by
      apply List.filter_eq_self.2
      intro e he
      have : e.2 ≠ i := fun hh => hi (List.mem_map.2 ⟨e, he, hh⟩)
      simpa using this
    rw [hall]
    simp only [h.length, if_true]
    have hne : row ≠ [] := by
      intro hh; have := h.length; simp [hh] at this
    have hsub : row.dropLast.Sublist row := List.dropLast_sublist row
    refine ⟨by simp [h.length], ?_, ?_, ?_, ?_, ?_⟩
    · intro e he
      refine mem_others.2 ⟨List.mem_range.1 (h.stored e (hsub.subset he)), ?_⟩
      intro hh; exact hi (List.mem_map.2 ⟨e, hsub.subset he, hh⟩)
    · exact h.nodup.sublist (hsub.map _)
    · intro e he; exact h.true_dist e (hsub.subset he)
    · exact h.sorted.sublist hsub
    · intro j hj hj' e he
      have hjo := mem_others.1 hj
      by_cases hmem : j ∈ row.map Prod.snd
      · obtain ⟨e', he', rfl⟩ := List.mem_map.1 hmem
        have hsplit := List.dropLast_append_getLast hne
        have hlast : e' = row.getLast hne := by
          rw [← hsplit] at he'
          rcases List.mem_append.1 he' with h' | h'
          · exact absurd (List.mem_map.2 ⟨e', h', rfl⟩) hj'
          · simpa using h'
        have hs := h.sorted
        rw [← hsplit, List.pairwise_append] at hs
        have := hs.2.2 e he (row.getLast hne) (by simp)
        rw [hlast, ← h.true_dist _ (List.getLast_mem hne)]
        exact this
      · exact h.nearest j (List.mem_range.2 hjo.1) hmem e (hsub.subset he)

theorem reshape_flatten {α : Type _} (k : ℕ) (ls : List (List α)) (h : ∀ l ∈ ls, l.length = k) :
    Geometry.reshape ls.length k ls.flatten = .ok ls := by
  have hlen : ls.flatten.length = ls.length * k := by
    induction ls with
    | nil => simp
    | cons a l ih =>
      rw [List.flatten_cons, List.length_append, ih fun x hx => h x (by simp [hx]), h a (by simp),
        List.length_cons]; ring
  unfold Geometry.reshape
  rw [if_pos hlen]
  congr 1
  clear hlen
  induction ls with
  | nil => rfl
  | cons a l ih =>
    have ha := h a (by simp)
    rw [List.length_cons, Geometry.chunks, List.flatten_cons, List.take_left' ha, List.drop_left' ha,
      ih fun x hx => h x (by simp [hx])]

end Pointpats.Spec
