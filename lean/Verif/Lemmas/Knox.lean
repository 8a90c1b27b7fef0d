import Verif.Model.Knox
import Verif.Lemmas.Spacetime
import Verif.Spec.Neighbours
import Verif.Lemmas.Neighbours
import Mathlib.Logic.Equiv.Basic

/-!
# Lemmas on neighbourhoods and permutations of events
-/

set_option linter.unusedSectionVars false

namespace Pointpats.Spacetime

open Spec

/-- The other numbers below `n` related to `i`. -/
def nbr (n : ℕ) (R : ℕ → ℕ → Prop) [DecidableRel R] (i : ℕ) : Finset ℕ :=
  (Finset.range n).filter fun j => j ≠ i ∧ R i j

theorem mem_nbr {n : ℕ} {R : ℕ → ℕ → Prop} [DecidableRel R] {i j : ℕ} : j ∈ nbr n R i ↔ j < n ∧ j ≠ i ∧ R i j := by
  simp [nbr]

theorem neighbourSets_eq {n : ℕ} {R : ℕ → ℕ → Prop} [DecidableRel R] {ball : List (List ℕ)}
    (h : AnswersBall n R ball) : neighbourSets ball = (List.range n).map (nbr n R) := by
  rw [neighbourSets, h.length]
  refine List.map_congr_left ?_
  intro i hi
  ext j
  rw [Finset.mem_erase, List.mem_toFinset, h.mem i (List.mem_range.1 hi), mem_nbr]
  tauto

theorem getD_map_range {α : Type} (f : ℕ → α) {n i : ℕ} (hi : i < n) (d : α) :
    ((List.range n).map f).getD i d = f i := by
  simp [List.getD_eq_getElem?_getD, hi]

theorem zipWith_inter (n : ℕ) (R S : ℕ → ℕ → Prop) [DecidableRel R] [DecidableRel S] :
    List.zipWith (· ∩ ·) ((List.range n).map (nbr n R)) ((List.range n).map (nbr n S))
      = (List.range n).map (nbr n fun i j => R i j ∧ S i j) := by
  have : ∀ l : List ℕ, List.zipWith (· ∩ ·) (l.map (nbr n R)) (l.map (nbr n S))
      = l.map (nbr n fun i j => R i j ∧ S i j) := by
    intro l
    induction l with
    | nil => rfl
    | cons a l ih =>
      simp only [List.map_cons, List.zipWith_cons_cons, ih]
      congr 1
      ext j
      simp only [Finset.mem_inter, mem_nbr]
      tauto
  exact this _

theorem card_nbr (n : ℕ) (R : ℕ → ℕ → Prop) [DecidableRel R] (i : ℕ) :
    (nbr n R i).card = ((others n i).filter fun j => decide (R i j)).length := by
  rw [← List.toFinset_card_of_nodup ((nodup_others n i).filter _)]
  congr 1
  ext j
  simp only [mem_nbr, List.mem_toFinset, List.mem_filter, mem_others, decide_eq_true_eq]
  tauto

theorem card_nbr_countP (n : ℕ) (R : ℕ → ℕ → Prop) [DecidableRel R] (i : ℕ) :
    (nbr n R i).card = (List.range n).countP fun j => decide (j ≠ i ∧ R i j) := by
  rw [List.countP_eq_length_filter, ← List.toFinset_card_of_nodup (List.nodup_range.filter _)]
  congr 1
  ext j
  simp [mem_nbr]

theorem closePairs_range (n : ℕ) (R : ℕ → ℕ → Prop) [DecidableRel R] :
    closePairs R (List.range n) = (allPairs n).countP fun p => decide (R p.1 p.2) := by
  rw [closePairs_index R _ 0, List.length_range]
  refine List.countP_congr ?_
  rintro ⟨i, j⟩ h
  obtain ⟨h1, h2⟩ := mem_allPairs.1 h
  have hi : i < n := by omega
  simp [List.getD_eq_getElem?_getD, hi, h2]

/-- Summing the sizes of the neighbourhoods counts every pair twice. -/
theorem sum_card_nbr (n : ℕ) (R : ℕ → ℕ → Prop) [DecidableRel R]
    (hR : ∀ i < n, ∀ j < n, R i j ↔ R j i) :
    (((List.range n).map (nbr n R)).map Finset.card).sum
      = 2 * (allPairs n).countP fun p => decide (R p.1 p.2) := by
  let S : ℕ → ℕ → Prop := fun i j => j ≠ i ∧ i < n ∧ j < n ∧ R i j
  have : DecidableRel S := fun i j => inferInstanceAs (Decidable (_ ∧ _ ∧ _ ∧ _))
  have hS : ∀ i j, S i j ↔ S j i := by
    intro i j
    simp only [S]
    constructor
    · rintro ⟨a, b, c, d⟩; exact ⟨a.symm, c, b, (hR i b j c).1 d⟩
    · rintro ⟨a, b, c, d⟩; exact ⟨a.symm, c, b, (hR i c j b).2 d⟩
  have h := sum_countP_eq S hS (List.range n)
  have h0 : ((List.range n).countP fun a => decide (S a a)) = 0 := by
    rw [List.countP_eq_zero]
    intro a _
    simp [S]
  rw [h0, add_zero, closePairs_range] at h
  have e1 : (((List.range n).map (nbr n R)).map Finset.card)
      = (List.range n).map fun i => (List.range n).countP fun j => decide (S i j) := by
    rw [List.map_map]
    refine List.map_congr_left ?_
    intro i hi
    rw [Function.comp_apply, card_nbr_countP]
    refine List.countP_congr ?_
    intro j hj
    simp only [decide_eq_true_eq, S]
    have h1 := List.mem_range.1 hi
    have h2 := List.mem_range.1 hj
    tauto
  rw [e1, h]
  congr 1
  refine List.countP_congr ?_
  rintro ⟨i, j⟩ hp
  obtain ⟨h1, h2⟩ := mem_allPairs.1 hp
  simp only [decide_eq_true_eq, S]
  have : j ≠ i := by omega
  have : i < n := by omega
  tauto

theorem mem_stPairs {n : ℕ} {R : ℕ → ℕ → Prop} [DecidableRel R] (hR : ∀ i < n, ∀ j < n, R i j ↔ R j i) {i j : ℕ} :
    (i, j) ∈ stPairs ((List.range n).map (nbr n R)) ↔ i < j ∧ j < n ∧ R i j := by
  simp only [stPairs, List.length_map, List.length_range, Finset.mem_biUnion, Finset.mem_range, Finset.mem_image,
    Prod.mk.injEq]
  constructor
  · rintro ⟨a, ha, b, hb, h1, h2⟩
    rw [getD_map_range _ ha, mem_nbr] at hb
    obtain ⟨hb1, hb2, hb3⟩ := hb
    rcases Nat.lt_or_ge a b with hab | hab
    · rw [min_eq_left hab.le] at h1
      rw [max_eq_right hab.le] at h2
      subst h1; subst h2
      exact ⟨hab, hb1, hb3⟩
    · rw [min_eq_right hab] at h1
      rw [max_eq_left hab] at h2
      subst h1; subst h2
      exact ⟨by omega, ha, (hR _ ha _ hb1).1 hb3⟩
  · rintro ⟨h1, h2, h3⟩
    refine ⟨i, by omega, j, ?_, min_eq_left h1.le, max_eq_right h1.le⟩
    rw [getD_map_range _ (by omega), mem_nbr]
    exact ⟨h2, by omega, h3⟩

/-! ### Permutations -/

theorem IsShuffle.getD_lt {n : ℕ} {p : List ℕ} (h : IsShuffle n p) {i : ℕ} (hi : i < n) : p.getD i 0 < n := by
  have hl : p.length = n := h.length
  have : p.getD i 0 ∈ p := by simp [List.getD_eq_getElem?_getD, hl, hi]
  exact Spec.IsShuffle.mem h |>.1 this

theorem IsShuffle.getD_inj {n : ℕ} {p : List ℕ} (h : IsShuffle n p) {i j : ℕ} (hi : i < n) (hj : j < n)
    (he : p.getD i 0 = p.getD j 0) : i = j := by
  have hl : p.length = n := Spec.IsShuffle.length h
  have hi' : i < p.length := by omega
  have hj' : j < p.length := by omega
  simp only [List.getD_eq_getElem?_getD, List.getElem?_eq_getElem hi', List.getElem?_eq_getElem hj',
    Option.getD_some] at he
  exact (Spec.IsShuffle.nodup h).getElem_inj_iff.1 he

/-- The permuted neighbourhoods are the neighbourhoods of the relabelled relation. -/
theorem filter_nbr {n : ℕ} {R S : ℕ → ℕ → Prop} [DecidableRel R] [DecidableRel S] {p : List ℕ}
    (h : IsShuffle n p) {i : ℕ} (hi : i < n) :
    (((nbr n R i).filter fun j => p.getD j 0 ∈ nbr n S (p.getD i 0)))
      = nbr n (fun i j => R i j ∧ S (p.getD i 0) (p.getD j 0)) i := by
  ext j
  simp only [Finset.mem_filter, mem_nbr]
  constructor
  · rintro ⟨⟨a, b, c⟩, d, e, f⟩; exact ⟨a, b, c, f⟩
  · rintro ⟨a, b, c, d⟩
    refine ⟨⟨a, b, c⟩, IsShuffle.getD_lt h a, ?_, d⟩
    intro he
    exact b (IsShuffle.getD_inj h a hi he)

/-- Keeping the focal event is exchanging two labels in the permutation. -/
theorem focalPermutation_eq {n : ℕ} {rids : List ℕ} (h : IsShuffle n rids) {i : ℕ} (hi : i < n) :
    focalPermutation rids i = rids.map fun v => Equiv.swap i (rids.getD i 0) v := by
  have hl : rids.length = n := Spec.IsShuffle.length h
  have hi' : i < rids.length := by omega
  have hgi : rids.getD i 0 = rids[i] := by simp [List.getD_eq_getElem?_getD, hi']
  apply List.ext_getElem
  · simp [focalPermutation]
  · intro k h1 h2
    have hk : k < rids.length := by simpa using h2
    simp only [focalPermutation, List.getElem_set, List.getElem_map, hgi]
    by_cases hik : i = k
    · subst hik
      rw [if_pos rfl, Equiv.swap_apply_right]
    · rw [if_neg hik]
      by_cases hv : rids[k] = i
      · rw [if_pos hv, hv, Equiv.swap_apply_left]
      · rw [if_neg hv, Equiv.swap_apply_of_ne_of_ne hv]
        intro he
        exact hik ((Spec.IsShuffle.nodup h).getElem_inj_iff.1 he).symm

theorem focalPermutation_shuffle {n : ℕ} {rids : List ℕ} (h : IsShuffle n rids) {i : ℕ} (hi : i < n) :
    IsShuffle n (focalPermutation rids i) := by
  rw [focalPermutation_eq h hi]
  have hri := IsShuffle.getD_lt h hi
  refine (List.perm_ext_iff_of_nodup ((Spec.IsShuffle.nodup h).map (Equiv.injective _)) List.nodup_range).2 ?_
  intro v
  rw [List.mem_map, List.mem_range]
  have hs : ∀ w < n, Equiv.swap i (rids.getD i 0) w < n := by
    intro w hw
    rw [Equiv.swap_apply_def]
    split_ifs <;> omega
  constructor
  · rintro ⟨w, hw, rfl⟩
    exact hs w ((Spec.IsShuffle.mem h).1 hw)
  · intro hv
    exact ⟨Equiv.swap i (rids.getD i 0) v, (Spec.IsShuffle.mem h).2 (hs v hv), by simp⟩

theorem focalPermutation_self {n : ℕ} {rids : List ℕ} (h : IsShuffle n rids) {i : ℕ} (hi : i < n) :
    (focalPermutation rids i).getD i 0 = i := by
  have hl : rids.length = n := Spec.IsShuffle.length h
  have hi' : i < rids.length := by omega
  simp [focalPermutation, List.getD_eq_getElem?_getD, hi']

/-! ### Local counts -/

theorem localCounts_aux (order : List (ℕ × ℕ)) : ∀ (l : List ℕ) (k : ℕ), k < l.length →
    (order.foldl (fun l p => (l.modify p.1 (· + 1)).modify p.2 (· + 1)) l).getD k 0
      = l.getD k 0 + (order.countP fun p => decide (p.1 = k)) + (order.countP fun p => decide (p.2 = k)) := by
  induction order with
  | nil => intro l k _; simp
  | cons p ps ih =>
    intro l k hk
    rw [List.foldl_cons, ih _ k (by simpa using hk), List.countP_cons, List.countP_cons]
    have : ((l.modify p.1 (· + 1)).modify p.2 (· + 1)).getD k 0
        = l.getD k 0 + (if p.1 = k then 1 else 0) + (if p.2 = k then 1 else 0) := by
      simp only [List.getD_eq_getElem?_getD, List.getElem?_modify, List.getElem?_eq_getElem hk]
      by_cases h1 : p.1 = k <;> by_cases h2 : p.2 = k <;> simp [h1, h2]
    rw [this]
    simp only [decide_eq_true_eq]
    omega

theorem length_localCounts (n : ℕ) (order : List (ℕ × ℕ)) : (localCounts n order).length = n := by
  have : ∀ l : List ℕ, (order.foldl (fun l p => (l.modify p.1 (· + 1)).modify p.2 (· + 1)) l).length = l.length := by
    induction order with
    | nil => intro l; rfl
    | cons p ps ih => intro l; rw [List.foldl_cons, ih]; simp
  rw [localCounts, this]
  simp

theorem localCounts_eq {n : ℕ} {R : ℕ → ℕ → Prop} [DecidableRel R] (hR : ∀ i < n, ∀ j < n, R i j ↔ R j i)
    {order : List (ℕ × ℕ)} (ho : ListsPairs n R order) {k : ℕ} (hk : k < n) :
    (localCounts n order).getD k 0 = (nbr n R k).card := by
  rw [localCounts, localCounts_aux _ _ _ (by simpa using hk)]
  have e0 : (List.replicate n 0).getD k 0 = 0 := by simp [List.getD_eq_getElem?_getD, hk]
  rw [e0, zero_add]
  have c1 : (order.countP fun p => decide (p.1 = k)) = ((nbr n R k).filter fun j => k < j).card := by
    rw [List.countP_eq_length_filter, ← List.length_map (f := Prod.snd),
      ← List.toFinset_card_of_nodup]
    · congr 1
      ext j
      simp only [List.mem_toFinset, List.mem_map, List.mem_filter, decide_eq_true_eq, Finset.mem_filter, mem_nbr]
      constructor
      · rintro ⟨⟨a, b⟩, ⟨hm, rfl⟩, rfl⟩
        obtain ⟨h1, h2, h3⟩ := (ho.mem a b).1 hm
        exact ⟨⟨h2, Nat.ne_of_gt h1, h3⟩, h1⟩
      · rintro ⟨⟨h1, h2, h3⟩, h4⟩
        exact ⟨(k, j), ⟨(ho.mem k j).2 ⟨h4, h1, h3⟩, rfl⟩, rfl⟩
    · refine List.Nodup.map_on ?_ (ho.nodup.filter _)
      rintro ⟨a, b⟩ ha ⟨c, d⟩ hc hbd
      simp only [List.mem_filter, decide_eq_true_eq] at ha hc
      simp only at hbd
      rw [ha.2, hc.2, hbd]
  have c2 : (order.countP fun p => decide (p.2 = k)) = ((nbr n R k).filter fun j => ¬ k < j).card := by
    rw [List.countP_eq_length_filter, ← List.length_map (f := Prod.fst),
      ← List.toFinset_card_of_nodup]
    · congr 1
      ext j
      simp only [List.mem_toFinset, List.mem_map, List.mem_filter, decide_eq_true_eq, Finset.mem_filter, mem_nbr]
      constructor
      · rintro ⟨⟨a, b⟩, ⟨hm, rfl⟩, rfl⟩
        obtain ⟨h1, h2, h3⟩ := (ho.mem a b).1 hm
        have ha : a < n := by omega
        exact ⟨⟨ha, Nat.ne_of_lt h1, (hR a ha b h2).1 h3⟩, by simpa using h1.le⟩
      · rintro ⟨⟨h1, h2, h3⟩, h4⟩
        exact ⟨(j, k), ⟨(ho.mem j k).2 ⟨by omega, hk, (hR j h1 k hk).2 h3⟩, rfl⟩, rfl⟩
    · refine List.Nodup.map_on ?_ (ho.nodup.filter _)
      rintro ⟨a, b⟩ ha ⟨c, d⟩ hc hbd
      simp only [List.mem_filter, decide_eq_true_eq] at ha hc
      simp only at hbd
      rw [ha.2, hc.2, hbd]
  rw [c1, c2, Finset.card_filter_add_card_filter_not]

end Pointpats.Spacetime
