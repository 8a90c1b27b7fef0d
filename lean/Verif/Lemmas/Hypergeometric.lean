import Verif.Spec.Hypergeometric
import Verif.Lemmas.Level
import Mathlib.Logic.Equiv.Fintype
import Mathlib.Data.Finset.Powerset
import Mathlib.Algebra.BigOperators.Field

/-!
# The number of marked things at given places after a random rearrangement
-/

set_option linter.unusedSectionVars false

namespace Pointpats.Hypergeometric

open Spec Finset

section Count

variable {α : Type} [Fintype α] [DecidableEq α]

/-- All sets of the same size are equally often the image of a set under the rearrangements. -/
private theorem card_fibre (S s s' : Finset α) (h : s.card = s'.card) :
    (univ.filter fun g : Equiv.Perm α => S.map g.toEmbedding = s).card
      = (univ.filter fun g : Equiv.Perm α => S.map g.toEmbedding = s').card := by
  obtain ⟨t, ht⟩ : ∃ t : Equiv.Perm α, s.map t.toEmbedding = s' := by
    let e : {x // x ∈ s} ≃ {x // x ∈ s'} := Finset.equivOfCardEq h
    refine ⟨e.extendSubtype, ?_⟩
    apply Finset.eq_of_subset_of_card_le
    · intro x hx
      obtain ⟨y, hy, rfl⟩ := Finset.mem_map.1 hx
      exact e.extendSubtype_mem y hy
    · rw [card_map, h]
  have ht' : s'.map (t⁻¹ : Equiv.Perm α).toEmbedding = s := by
    rw [← ht, Finset.map_map]
    convert Finset.map_refl using 2
    ext x
    simp
  refine card_bij' (fun g _ => t * g) (fun g _ => t⁻¹ * g) ?_ ?_ (by simp) (by simp)
  · intro g hg
    simp only [mem_filter, mem_univ, true_and] at hg ⊢
    rw [← ht, ← hg, Finset.map_map]
    rfl
  · intro g hg
    simp only [mem_filter, mem_univ, true_and] at hg ⊢
    rw [← ht', ← hg, Finset.map_map]
    rfl

private theorem card_image (S : Finset α) (Q : Finset α → Prop) [DecidablePred Q] :
    (univ.filter fun g : Equiv.Perm α => Q (S.map g.toEmbedding)).card
      = ((powersetCard S.card univ).filter Q).card * (univ.filter fun g : Equiv.Perm α => S.map g.toEmbedding = S).card := by
  rw [card_eq_sum_card_fiberwise (f := fun g : Equiv.Perm α => S.map g.toEmbedding) (t := (powersetCard S.card univ).filter Q),
    Finset.sum_const_nat (m := (univ.filter fun g : Equiv.Perm α => S.map g.toEmbedding = S).card)]
  · intro s hs
    rw [mem_filter, mem_powersetCard] at hs
    rw [← card_fibre S s S hs.1.2, filter_filter]
    congr 1
    ext g
    simp only [mem_filter, mem_univ, true_and]
    constructor
    · exact fun h => h.2
    · exact fun h => ⟨h ▸ hs.2, h⟩
  · intro g hg
    simp only [coe_filter, mem_univ, true_and, Set.mem_ofPred_eq] at hg
    simp [mem_powersetCard, hg]

private theorem card_sets (T : Finset α) (N x : ℕ) (hx : x ≤ N) :
    ((powersetCard N univ).filter fun s : Finset α => (s ∩ T).card = x).card
      = T.card.choose x * (Fintype.card α - T.card).choose (N - x) := by
  rw [← card_compl, ← card_powersetCard, ← card_powersetCard, ← card_product]
  refine card_bij' (fun s _ => (s ∩ T, s ∩ Tᶜ)) (fun p _ => p.1 ∪ p.2) ?_ ?_ ?_ ?_
  · intro s hs
    rw [mem_filter, mem_powersetCard] at hs
    obtain ⟨⟨-, h1⟩, h2⟩ := hs
    have := card_inter_add_card_sdiff s T
    rw [mem_product, mem_powersetCard, mem_powersetCard]
    refine ⟨⟨inter_subset_right, h2⟩, inter_subset_right, ?_⟩
    rw [← sdiff_eq_inter_compl]
    simp only
    omega
  · intro p hp
    rw [mem_product, mem_powersetCard, mem_powersetCard] at hp
    obtain ⟨⟨h1, h2⟩, h3, h4⟩ := hp
    have hd : Disjoint p.1 p.2 := disjoint_of_subset_left h1 (disjoint_of_subset_right h3 disjoint_compl_right)
    rw [mem_filter, mem_powersetCard]
    refine ⟨⟨subset_univ _, by rw [card_union_of_disjoint hd]; omega⟩, ?_⟩
    rw [union_inter_distrib_right, inter_eq_left.2 h1, disjoint_iff_inter_eq_empty.1 (disjoint_of_subset_left h3 disjoint_compl_left),
      union_empty, h2]
  · intro s hs
    rw [← inter_union_distrib_left, union_compl, inter_univ]
  · intro p hp
    rw [mem_product, mem_powersetCard, mem_powersetCard] at hp
    obtain ⟨⟨h1, h2⟩, h3, h4⟩ := hp
    refine Prod.ext ?_ ?_
    · simp only
      rw [union_inter_distrib_right, inter_eq_left.2 h1, disjoint_iff_inter_eq_empty.1 (disjoint_of_subset_left h3 disjoint_compl_left),
        union_empty]
    · simp only
      rw [union_inter_distrib_right, inter_eq_left.2 h3, disjoint_iff_inter_eq_empty.1 (disjoint_of_subset_left h1 disjoint_compl_right),
        empty_union]

variable {K : Type} [Field K] [LinearOrder K] [IsStrictOrderedRing K]

/-- The number of the things at the places `S` that are in `T`, after a random rearrangement, has the hypergeometric distribution. -/
theorem share_count (cdf : ℤ → ℕ → ℕ → ℕ → K) (hc : IsHypergeomCdf cdf) (S T : Finset α) (k : ℤ) :
    share K (Equiv.Perm α) (fun g => ((S.filter fun j => g j ∈ T).card : ℤ) ≤ k) = cdf k (Fintype.card α) T.card S.card := by
  classical
  have hcount : ∀ g : Equiv.Perm α, (S.filter fun j => g j ∈ T).card = (S.map g.toEmbedding ∩ T).card := by
    intro g
    rw [← card_map g.toEmbedding]
    congr 1
    ext x
    simp only [mem_map, mem_filter, mem_inter]
    constructor
    · rintro ⟨a, ⟨h1, h2⟩, rfl⟩; exact ⟨⟨a, h1, rfl⟩, h2⟩
    · rintro ⟨⟨a, h1, rfl⟩, h2⟩; exact ⟨a, ⟨h1, h2⟩, rfl⟩
  have hle : S.card ≤ Fintype.card α := card_le_univ _
  have hp : 0 < (univ.filter fun g : Equiv.Perm α => S.map g.toEmbedding = S).card :=
    card_pos.2 ⟨1, by simp [show ((1 : Equiv.Perm α).toEmbedding) = Function.Embedding.refl α from rfl]⟩
  have hall : Fintype.card (Equiv.Perm α)
      = (Fintype.card α).choose S.card * (univ.filter fun g : Equiv.Perm α => S.map g.toEmbedding = S).card := by
    have := card_image S (fun _ => True)
    rw [filter_true, filter_true, card_powersetCard, card_univ, card_univ] at this
    exact this
  rw [hc _ _ _ _ (card_le_univ _) hle, share_eq, hall]
  simp only [hcount]
  rw [card_image S (fun s => ((s ∩ T).card : ℤ) ≤ k)]
  have hsum : ((powersetCard S.card univ).filter fun s : Finset α => ((s ∩ T).card : ℤ) ≤ k).card
      = ∑ x ∈ range (S.card + 1), if (x : ℤ) ≤ k then T.card.choose x * (Fintype.card α - T.card).choose (S.card - x) else 0 := by
    rw [card_eq_sum_card_fiberwise (f := fun s => (s ∩ T).card) (t := range (S.card + 1))]
    · refine Finset.sum_congr rfl fun x hx => ?_
      rw [mem_range] at hx
      rw [filter_filter]
      split_ifs with hk
      · rw [← card_sets T S.card x (by omega)]
        congr 1
        ext s
        simp only [mem_filter]
        constructor
        · rintro ⟨h1, -, h2⟩; exact ⟨h1, h2⟩
        · rintro ⟨h1, h2⟩; exact ⟨h1, h2 ▸ hk, h2⟩
      · rw [card_eq_zero, filter_eq_empty_iff]
        rintro s - ⟨h1, h2⟩
        exact hk (h2 ▸ h1)
    · intro s hs
      rw [mem_coe, mem_filter, mem_powersetCard] at hs
      rw [mem_coe, mem_range]
      change (s ∩ T).card < S.card + 1
      have := card_le_card (inter_subset_left (s₁ := s) (s₂ := T))
      omega
  rw [hsum]
  push_cast
  rw [mul_div_mul_right _ _ (by exact_mod_cast hp.ne'), sum_div]
  refine Finset.sum_congr rfl fun x _ => ?_
  split_ifs <;> simp

end Count

end Pointpats.Hypergeometric
