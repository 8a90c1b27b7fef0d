import Verif.Props.CircleUnits
import Mathlib.Data.List.Rotate

/-! # The corners of a convex hull, in order, are determined up to the first one -/

namespace Pointpats.Props

open Spec

theorem hull_nodup {l e : List (ℝ × ℝ)} (hh : IsHullOf l e) : l.Nodup := by
  have h3 := hh.three
  rw [List.nodup_iff_getElem?_ne_getElem?]
  intro i j hij hj heq
  have e : l.getD i (0, 0) = l.getD j (0, 0) := by simp only [List.getD_eq_getElem?_getD, heq]
  rcases Nat.lt_or_ge (j + 1) l.length with h | h
  · have := hh.ring i j (j + 1) hij (by omega) h
    rw [e] at this
    unfold clockwiseTurn at this
    linarith
  · rcases Nat.lt_or_ge (i + 1) j with h' | h'
    · have := hh.ring i (i + 1) j (by omega) h' hj
      rw [e] at this
      unfold clockwiseTurn at this
      linarith
    · have := hh.ring 0 i j (by omega) hij hj
      rw [e] at this
      unfold clockwiseTurn at this
      linarith

theorem hull_rotate {l e : List (ℝ × ℝ)} (hh : IsHullOf l e) (k : ℕ) (hk : k < l.length) : IsHullOf (l.rotate k) e where
  three := by rw [List.length_rotate]; exact hh.three
  sub v hv := hh.sub v (List.mem_rotate.1 hv)
  contains x hx := by
    have := hh.contains x hx
    simp only [List.mem_rotate]
    exact this
  ring i j m hij hjm hm := by
    rw [List.length_rotate] at hm
    have g : ∀ i < l.length, (l.rotate k).getD i (0, 0) = l.getD (if i + k < l.length then i + k else i + k - l.length) (0, 0) := by
      intro i hi
      have : (l.rotate k).getD i (0, 0) = l.getD ((i + k) % l.length) (0, 0) := by
        rw [List.getD_eq_getElem _ _ (by rw [List.length_rotate]; exact hi), List.getElem_rotate,
          List.getD_eq_getElem _ _ (Nat.mod_lt _ (by omega))]
      rw [this]
      congr 1
      split
      · next h => exact Nat.mod_eq_of_lt h
      · next h => rw [Nat.mod_eq_sub_mod (by omega), Nat.mod_eq_of_lt (by omega)]
    rw [g i (by omega), g j (by omega), g m hm]
    by_cases h1 : m + k < l.length
    · rw [if_pos (by omega), if_pos (by omega), if_pos h1]
      exact hh.ring _ _ _ (by omega) (by omega) h1
    · rw [if_neg h1]
      by_cases h2 : j + k < l.length
      · rw [if_pos (by omega), if_pos h2, ← turn_cycle]
        exact hh.ring _ _ _ (by omega) (by omega) h2
      · rw [if_neg h2]
        by_cases h3 : i + k < l.length
        · rw [if_pos h3, turn_cycle]
          exact hh.ring _ _ _ (by omega) (by omega) h3
        · rw [if_neg h3]
          exact hh.ring _ _ _ (by omega) (by omega) (by omega)

/-- Two answers for the same events list the same corners in the same cyclic order. -/
theorem hull_unique {l l' e e' : List (ℝ × ℝ)} (hh : IsHullOf l e) (hh' : IsHullOf l' e') (he : ∀ x, x ∈ e ↔ x ∈ e') :
    l ~r l' := by
  have hsub : ∀ {l l' e e' : List (ℝ × ℝ)}, IsHullOf l e → IsHullOf l' e' → (∀ x, x ∈ e ↔ x ∈ e') → ∀ x ∈ l, x ∈ l' := by
    intro l l' e e' hh hh' he x hx
    obtain ⟨y, hy, hyx⟩ := hull_vertex_mem id_isSimilarity hh' hh (fun x => by rw [List.map_id]; exact he x) hx
    exact hyx ▸ hy
  have hiff : ∀ x, x ∈ l ↔ x ∈ l' := fun x => ⟨hsub hh hh' he x, hsub hh' hh (fun x => (he x).symm) x⟩
  have h3 := hh.three
  have h0 : l[0]'(by omega) ∈ l' := (hiff _).1 (List.getElem_mem _)
  obtain ⟨k, hk, hkl⟩ := List.getElem_of_mem h0
  have hr := hull_rotate hh' k hk
  have hhead : ∀ {m e : List (ℝ × ℝ)}, IsHullOf m e → ∃ v t, m = v :: t ∧ t.Pairwise fun a b => clockwiseTurn v a b < 0 := by
    intro m e hm
    cases m with
    | nil => exact absurd hm.three (by simp)
    | cons v t =>
      refine ⟨v, t, rfl, ?_⟩
      rw [List.pairwise_iff_getElem]
      intro i j hi hj hij
      have := hm.ring 0 (i + 1) (j + 1) (by omega) (by omega) (by simpa using hj)
      simpa [hi, hj] using this
  obtain ⟨v, t, hl, hp⟩ := hhead hh
  obtain ⟨v', t', hl', hp'⟩ := hhead hr
  have hv : v = v' := by
    have e1 : l[0]'(by omega) = v := by simp only [hl, List.getElem_cons_zero]
    have e2 : (l'.rotate k)[0]'(by rw [List.length_rotate]; omega) = v' := by simp only [hl', List.getElem_cons_zero]
    rw [← e1, ← e2, List.getElem_rotate, ← hkl]
    congr 1
    rw [Nat.zero_add, Nat.mod_eq_of_lt hk]
  subst hv
  have hn : (v :: t).Nodup := hl ▸ hull_nodup hh
  have hn' : (v :: t').Nodup := hl' ▸ hull_nodup hr
  have hmem : ∀ x, x ∈ t ↔ x ∈ t' := by
    intro x
    have h1 : x ∈ v :: t ↔ x ∈ v :: t' := by
      rw [← hl, ← hl', List.mem_rotate]
      exact hiff x
    rw [List.mem_cons, List.mem_cons] at h1
    rw [List.nodup_cons] at hn hn'
    constructor
    · intro hx
      rcases h1.1 (Or.inr hx) with rfl | h
      · exact absurd hx hn.1
      · exact h
    · intro hx
      rcases h1.2 (Or.inr hx) with rfl | h
      · exact absurd hx hn'.1
      · exact h
  have hperm : t.Perm t' := (List.perm_ext_iff_of_nodup (List.nodup_cons.1 hn).2 (List.nodup_cons.1 hn').2).2 hmem
  have heq : t = t' := by
    refine List.Perm.eq_of_pairwise ?_ hp hp' hperm
    intro a b _ _ hab hba
    exfalso
    unfold clockwiseTurn at hab hba
    linarith
  refine List.IsRotated.symm ⟨k, ?_⟩
  rw [hl', ← heq, ← hl]

end Pointpats.Props
