import Verif.Spec.Level
import Verif.Spec.Spacetime
import Mathlib.Algebra.Order.Field.Basic
import Mathlib.Algebra.BigOperators.Group.Finset.Basic
import Mathlib.Algebra.Order.BigOperators.Group.Finset
import Mathlib.Data.Finset.Max
import Mathlib.Data.Fintype.Fin
import Mathlib.Algebra.BigOperators.Ring.Finset
import Mathlib.Data.List.FinRange
import Mathlib.Tactic.Ring
import Mathlib.Tactic.Linarith
import Mathlib.Tactic.Positivity

/-!
# Ranks of one among equals: the counting argument behind Monte Carlo p-values
-/

namespace Pointpats

open Spec Finset

/-- Among finitely many values at most `k` have at most `k` values at or above them. -/
theorem rank_card_le {ι L : Type} [Fintype ι] [DecidableEq ι] [LinearOrder L] (v : ι → L) (k : ℕ) :
    (univ.filter fun i => (univ.filter fun j => v i ≤ v j).card ≤ k).card ≤ k := by
  set S := univ.filter fun i => (univ.filter fun j => v i ≤ v j).card ≤ k with hS
  by_cases hne : S.Nonempty
  · obtain ⟨i, hi, hmin⟩ := S.exists_min_image v hne
    refine le_trans (card_le_card ?_) (mem_filter.1 hi).2
    intro j hj
    exact mem_filter.2 ⟨mem_univ _, hmin j hj⟩
  · rw [not_nonempty_iff_eq_empty] at hne
    rw [hne]
    simp

/-- Counting version: all tuples of length `R + 1` being equally likely, the first entry is among the `k` largest in at most
`k` of `R + 1` cases. -/
theorem rank_first_card {A L : Type} [Fintype A] [DecidableEq A] [LinearOrder L] (T : A → L) (R k : ℕ) :
    (R + 1) * (univ.filter fun ρ : Fin (R + 1) → A => (univ.filter fun j => T (ρ 0) ≤ T (ρ j)).card ≤ k).card
      ≤ k * Fintype.card (Fin (R + 1) → A) := by
  have sym : ∀ i : Fin (R + 1),
      (univ.filter fun ρ : Fin (R + 1) → A => (univ.filter fun j => T (ρ 0) ≤ T (ρ j)).card ≤ k).card
        = (univ.filter fun ρ : Fin (R + 1) → A => (univ.filter fun j => T (ρ i) ≤ T (ρ j)).card ≤ k).card := by
    intro i
    refine card_bij' (fun ρ _ => ρ ∘ Equiv.swap 0 i) (fun ρ _ => ρ ∘ Equiv.swap 0 i) ?_ ?_ ?_ ?_
    · intro ρ hρ
      simp only [mem_filter, mem_univ, true_and, Function.comp_apply, Equiv.swap_apply_right] at hρ ⊢
      refine le_trans (le_of_eq ?_) hρ
      refine card_bij' (fun j _ => Equiv.swap 0 i j) (fun j _ => Equiv.swap 0 i j) ?_ ?_ ?_ ?_ <;> simp
    · intro ρ hρ
      simp only [mem_filter, mem_univ, true_and, Function.comp_apply, Equiv.swap_apply_left] at hρ ⊢
      refine le_trans (le_of_eq ?_) hρ
      refine card_bij' (fun j _ => Equiv.swap 0 i j) (fun j _ => Equiv.swap 0 i j) ?_ ?_ ?_ ?_ <;> simp
    · intro ρ _; funext j; simp
    · intro ρ _; funext j; simp
  calc (R + 1) * (univ.filter fun ρ : Fin (R + 1) → A => (univ.filter fun j => T (ρ 0) ≤ T (ρ j)).card ≤ k).card
      = ∑ i : Fin (R + 1), (univ.filter fun ρ : Fin (R + 1) → A => (univ.filter fun j => T (ρ i) ≤ T (ρ j)).card ≤ k).card := by
        rw [← Finset.sum_congr rfl (fun i _ => sym i)]
        simp
    _ = ∑ ρ : Fin (R + 1) → A, (univ.filter fun i => (univ.filter fun j => T (ρ i) ≤ T (ρ j)).card ≤ k).card := by
        simp only [card_filter]
        rw [sum_comm]
    _ ≤ ∑ _ρ : Fin (R + 1) → A, k := sum_le_sum fun ρ _ => rank_card_le (fun i => T (ρ i)) k
    _ = k * Fintype.card (Fin (R + 1) → A) := by
        rw [sum_const, Nat.nsmul_eq_mul, Nat.mul_comm]
        rfl

section Share

variable {K : Type} [Field K] [LinearOrder K] [IsStrictOrderedRing K]

omit [LinearOrder K] [IsStrictOrderedRing K] in
theorem share_eq {Ω : Type} [Fintype Ω] (P : Ω → Prop) [DecidablePred P] :
    share K Ω P = ((univ.filter P).card : K) / (Fintype.card Ω : K) := by
  unfold share
  congr!

omit [LinearOrder K] [IsStrictOrderedRing K] in
/-- A bijection of the outcomes does not change the probability. -/
theorem share_equiv {Ω Ω' : Type} [Fintype Ω] [Fintype Ω'] (e : Ω ≃ Ω') (P : Ω' → Prop) :
    share K Ω (fun ω => P (e ω)) = share K Ω' P := by
  classical
  unfold share
  rw [Fintype.card_congr e]
  congr 2
  refine card_bij' (fun ω _ => e ω) (fun ω _ => e.symm ω) ?_ ?_ ?_ ?_ <;> simp

theorem share_mono {Ω : Type} [Fintype Ω] {P Q : Ω → Prop} (h : ∀ ω, P ω → Q ω) : share K Ω P ≤ share K Ω Q := by
  classical
  unfold share
  refine div_le_div_of_nonneg_right ?_ (Nat.cast_nonneg _)
  refine Nat.cast_le.2 (card_le_card ?_)
  intro ω hω
  simp only [mem_filter, mem_univ, true_and] at hω ⊢
  exact h ω hω

/-- The level of the pseudo p-value of the first of `R + 1` equally likely values. -/
theorem rank_share {A L : Type} [Fintype A] [Nonempty A] [LinearOrder L] (T : A → L) (R : ℕ) (α : K) (hα : 0 ≤ α) :
    share K (Fin (R + 1) → A) (fun ρ =>
      (((List.ofFn fun i : Fin R => T (ρ i.succ)).countP (fun x => decide (T (ρ 0) ≤ x)) : ℕ) + 1 : K) / ((R : K) + 1) ≤ α)
      ≤ α := by
  classical
  have hR : (0 : K) < (R : K) + 1 := by positivity
  -- the count of the list and the rank
  have hcount : ∀ ρ : Fin (R + 1) → A,
      (univ.filter fun j => T (ρ 0) ≤ T (ρ j)).card
        = (List.ofFn fun i : Fin R => T (ρ i.succ)).countP (fun x => decide (T (ρ 0) ≤ x)) + 1 := by
    intro ρ
    rw [Fin.card_filter_univ_succ, if_pos (le_refl _)]
    congr 1
    rw [List.ofFn_eq_map, List.countP_map, List.countP_eq_length_filter]
    rw [← List.toFinset_card_of_nodup ((List.nodup_finRange R).filter _)]
    congr 1
    ext i
    simp [Function.comp_apply]
  by_cases hcase : ∃ ρ : Fin (R + 1) → A, (((List.ofFn fun i : Fin R => T (ρ i.succ)).countP
      (fun x => decide (T (ρ 0) ≤ x)) : ℕ) + 1 : K) / ((R : K) + 1) ≤ α
  · -- the largest rank below `α (R + 1)`
    set S := (univ.filter fun ρ : Fin (R + 1) → A => (((List.ofFn fun i : Fin R => T (ρ i.succ)).countP
      (fun x => decide (T (ρ 0) ≤ x)) : ℕ) + 1 : K) / ((R : K) + 1) ≤ α) with hSdef
    have hS : S.Nonempty := by
      obtain ⟨ρ, h⟩ := hcase
      exact ⟨ρ, mem_filter.2 ⟨mem_univ _, h⟩⟩
    obtain ⟨ρ0, h0, hmax⟩ := S.exists_max_image (fun ρ => (univ.filter fun j => T (ρ 0) ≤ T (ρ j)).card) hS
    set k := (univ.filter fun j => T (ρ0 0) ≤ T (ρ0 j)).card with hk
    have hkα : (k : K) ≤ α * ((R : K) + 1) := by
      have := (mem_filter.1 h0).2
      rw [div_le_iff₀ hR] at this
      rw [hk, hcount]
      push_cast
      exact this
    have hsub : S.card ≤ (univ.filter fun ρ : Fin (R + 1) → A => (univ.filter fun j => T (ρ 0) ≤ T (ρ j)).card ≤ k).card := by
      refine card_le_card ?_
      intro ρ hρ
      exact mem_filter.2 ⟨mem_univ _, hmax ρ hρ⟩
    have hcard := le_trans (Nat.mul_le_mul_left (R + 1) hsub) (rank_first_card T R k)
    have hN : (0 : K) < (Fintype.card (Fin (R + 1) → A) : K) := Nat.cast_pos.2 Fintype.card_pos
    rw [share_eq, ← hSdef, div_le_iff₀ hN]
    have hcard' : ((R : K) + 1) * (S.card : K) ≤ (k : K) * (Fintype.card (Fin (R + 1) → A) : K) := by
      exact_mod_cast hcard
    have h3 : ((R : K) + 1) * (S.card : K) ≤ ((R : K) + 1) * (α * (Fintype.card (Fin (R + 1) → A) : K)) := by
      refine le_trans hcard' ?_
      calc (k : K) * (Fintype.card (Fin (R + 1) → A) : K)
          ≤ α * ((R : K) + 1) * (Fintype.card (Fin (R + 1) → A) : K) := mul_le_mul_of_nonneg_right hkα hN.le
        _ = _ := by ring
    exact le_of_mul_le_mul_left h3 hR
  · push Not at hcase
    have : share K (Fin (R + 1) → A) (fun ρ =>
      (((List.ofFn fun i : Fin R => T (ρ i.succ)).countP (fun x => decide (T (ρ 0) ≤ x)) : ℕ) + 1 : K) / ((R : K) + 1) ≤ α)
        = 0 := by
      rw [share_eq, filter_eq_empty_iff.2, card_empty, Nat.cast_zero, zero_div]
      intro ρ _ h
      exact absurd h (not_le.2 (hcase ρ))
    rw [this]
    exact hα

end Share

/-! ### Rearrangements -/

theorem isShuffle_permList {n : ℕ} (σ : Equiv.Perm (Fin n)) : IsShuffle n (permList σ) := by
  unfold IsShuffle permList
  have h1 : (List.range n) = (List.finRange n).map Fin.val := (List.map_coe_finRange_eq_range).symm
  rw [h1, List.ofFn_eq_map]
  have h2 : (List.finRange n).map (fun i => ((σ i : Fin n) : ℕ)) = ((List.finRange n).map σ).map Fin.val := by
    rw [List.map_map]; rfl
  rw [h2]
  exact (Equiv.Perm.map_finRange_perm σ).map _

/-- Independent shuffles applied to an assignment: the tuple of resulting assignments is again arbitrary. -/
def independentEquiv (n R : ℕ) : Rearrangements n R ≃ Rearrangements n R where
  toFun ω := Fin.cons (ω 0) fun i => ω 0 * ω i.succ
  invFun ρ := Fin.cons (ρ 0) fun i => (ρ 0)⁻¹ * ρ i.succ
  left_inv ω := by
    funext j
    refine Fin.cases ?_ (fun i => ?_) j <;> simp
  right_inv ρ := by
    funext j
    refine Fin.cases ?_ (fun i => ?_) j <;> simp

@[simp] theorem independentEquiv_zero (n R : ℕ) (ω : Rearrangements n R) : independentEquiv n R ω 0 = ω 0 := rfl
@[simp] theorem independentEquiv_succ (n R : ℕ) (ω : Rearrangements n R) (i : Fin R) :
    independentEquiv n R ω i.succ = ω 0 * ω i.succ := rfl

end Pointpats
