import Verif.Props.LocalLevel

/-!
# C164: the expected table of the Knox test
-/

set_option linter.unusedSectionVars false

namespace Pointpats.Props

open Spec Spacetime

variable {K : Type} [Field K] [LinearOrder K] [IsStrictOrderedRing K]

/-! ### Means over all rearrangements -/

private theorem two_transitive {n : ℕ} {i j i' j' : Fin n} (h : i ≠ j) (h' : i' ≠ j') :
    ∃ τ : Equiv.Perm (Fin n), τ i = i' ∧ τ j = j' := by
  refine ⟨Equiv.swap (Equiv.swap i i' j) j' * Equiv.swap i i', ?_, ?_⟩
  · rw [Equiv.Perm.mul_apply, Equiv.swap_apply_left]
    refine Equiv.swap_apply_of_ne_of_ne (fun he => h ?_) h'
    have := congrArg (Equiv.swap i i') he
    simpa using this
  · rw [Equiv.Perm.mul_apply, Equiv.swap_apply_left]

/-- The sum over all rearrangements of the products. -/
theorem sum_rearranged_products {n : ℕ} (s t : Fin n → Fin n → K) (hs : ∀ i, s i i = 0) (ht : ∀ i, t i i = 0) :
    (∑ σ : Equiv.Perm (Fin n), ∑ i, ∑ j, s i j * t (σ i) (σ j)) * ((n : K) * ((n : K) - 1))
      = (Fintype.card (Equiv.Perm (Fin n)) : K) * ((∑ i, ∑ j, s i j) * ∑ i, ∑ j, t i j) := by
  let F : Fin n → Fin n → K := fun i j => ∑ σ : Equiv.Perm (Fin n), t (σ i) (σ j)
  have hF0 : ∀ i, F i i = 0 := fun i => Finset.sum_eq_zero fun σ _ => ht _
  have hFeq : ∀ i j i' j' : Fin n, i ≠ j → i' ≠ j' → F i j = F i' j' := by
    intro i j i' j' h h'
    obtain ⟨τ, h1, h2⟩ := two_transitive h h'
    change ∑ σ : Equiv.Perm (Fin n), t (σ i) (σ j) = ∑ σ : Equiv.Perm (Fin n), t (σ i') (σ j')
    rw [← h1, ← h2]
    exact (Equiv.sum_comp (Equiv.mulRight τ) (fun σ : Equiv.Perm (Fin n) => t (σ i) (σ j))).symm
  have hlhs : (∑ σ : Equiv.Perm (Fin n), ∑ i, ∑ j, s i j * t (σ i) (σ j)) = ∑ i, ∑ j, s i j * F i j := by
    rw [Finset.sum_comm]
    refine Finset.sum_congr rfl fun i _ => ?_
    rw [Finset.sum_comm]
    refine Finset.sum_congr rfl fun j _ => ?_
    rw [Finset.mul_sum]
  have htot : ∑ i, ∑ j, F i j = (Fintype.card (Equiv.Perm (Fin n)) : K) * ∑ i, ∑ j, t i j := by
    have h1 : ∑ i, ∑ j, F i j = ∑ σ : Equiv.Perm (Fin n), ∑ i, ∑ j, t (σ i) (σ j) := by
      symm
      rw [Finset.sum_comm]
      refine Finset.sum_congr rfl fun i _ => ?_
      rw [Finset.sum_comm]
    rw [h1, Finset.sum_congr rfl (g := fun _ => ∑ i, ∑ j, t i j), Finset.sum_const, Finset.card_univ, nsmul_eq_mul]
    intro σ _
    rw [← Equiv.sum_comp σ (fun i => ∑ j, t i j)]
    refine Finset.sum_congr rfl fun i _ => ?_
    rw [← Equiv.sum_comp σ (fun j => t (σ i) j)]
  by_cases hne : ∃ i j : Fin n, i ≠ j
  · obtain ⟨i0, j0, h0⟩ := hne
    have hFc : ∀ i j, F i j = if i = j then 0 else F i0 j0 := by
      intro i j
      split_ifs with h
      · rw [h, hF0]
      · exact hFeq _ _ _ _ h h0
    have hsF : ∀ i j, s i j * F i j = s i j * F i0 j0 := by
      intro i j
      rw [hFc]
      split_ifs with h
      · rw [h, hs, zero_mul, zero_mul]
      · rfl
    have hc : ∑ i, ∑ j, F i j = (n : K) * ((n : K) - 1) * F i0 j0 := by
      have : ∀ i, ∑ j, F i j = ((n : K) - 1) * F i0 j0 := by
        intro i
        have : ∀ j, F i j = F i0 j0 - if i = j then F i0 j0 else 0 := by
          intro j
          rw [hFc]
          split_ifs <;> simp
        simp only [this]
        rw [Finset.sum_sub_distrib, Finset.sum_const, Finset.card_univ, Fintype.card_fin, nsmul_eq_mul, Finset.sum_ite_eq,
          if_pos (Finset.mem_univ _)]
        ring
      simp only [this]
      rw [Finset.sum_const, Finset.card_univ, Fintype.card_fin, nsmul_eq_mul]
      ring
    rw [hlhs]
    simp only [hsF]
    simp only [← Finset.sum_mul]
    rw [htot] at hc
    linear_combination (∑ i, ∑ j, s i j) * -hc
  · push Not at hne
    have hz : ∀ i j, s i j = 0 := fun i j => by rw [hne i j, hs]
    simp [hz]

section

variable (sdist : K × K → K × K → K) (delta tau : K) (E : List (Event K))

private theorem closePairs_sum {close : Event K → Event K → Prop} [DecidableRel close] (hs : ∀ a b, close a b ↔ close b a)
    (E : List (Event K)) {n : ℕ} (hn : E.length = n) :
    (closePairs close E : K) = (∑ i : Fin n, ∑ j : Fin n, if j ≠ i ∧ close (ev E i) (ev E j) then (1 : K) else 0) / 2 := by
  subst hn
  rw [← halfTotal_eq hs, halfTotal, List.map_map]
  congr 1
  rw [← List.map_coe_finRange_eq_range, List.map_map, ← List.ofFn_eq_map, List.sum_ofFn]
  push_cast
  refine Finset.sum_congr rfl fun i _ => ?_
  rw [Finset.sum_boole, Function.comp_apply, Function.comp_apply]
  congr 1
  rw [← Finset.card_map Fin.valEmbedding]
  congr 1
  ext j
  simp only [mem_nbr, Finset.mem_map, Finset.mem_filter, Finset.mem_univ, true_and, Fin.valEmbedding_apply]
  constructor
  · rintro ⟨a, b, c⟩
    exact ⟨⟨j, a⟩, ⟨fun h => b (congrArg Fin.val h), c⟩, rfl⟩
  · rintro ⟨a, ⟨b, c⟩, rfl⟩
    exact ⟨a.2, fun h => b (Fin.ext h), c⟩

/-- The mean number of pairs close in space and time over all rearrangements. -/
private theorem mean_both {sdist : K × K → K × K → K} (hd : IsSpaceDistance sdist) (hn : 2 ≤ E.length) :
    (∑ σ : Equiv.Perm (Fin E.length), (closePairs (NearBoth sdist delta tau) (retime (permList σ) E) : K))
        / (Fintype.card (Equiv.Perm (Fin E.length)) : K)
      = (closePairs (NearSpace sdist delta) E : K) * (closePairs (NearTime tau) E : K)
        / ((E.length : K) * ((E.length : K) - 1) / 2) := by
  let s : Fin E.length → Fin E.length → K := fun i j => if j ≠ i ∧ NearSpace sdist delta (ev E i) (ev E j) then 1 else 0
  let t : Fin E.length → Fin E.length → K := fun i j => if j ≠ i ∧ NearTime tau (ev E i) (ev E j) then 1 else 0
  have hS : (closePairs (NearSpace sdist delta) E : K) = (∑ i, ∑ j, s i j) / 2 := closePairs_sum (nearSpace_symm hd delta) E rfl
  have hT : (closePairs (NearTime tau) E : K) = (∑ i, ∑ j, t i j) / 2 := closePairs_sum (nearTime_symm tau) E rfl
  have hB : ∀ σ : Equiv.Perm (Fin E.length), (closePairs (NearBoth sdist delta tau) (retime (permList σ) E) : K)
      = (∑ i, ∑ j, s i j * t (σ i) (σ j)) / 2 := by
    intro σ
    have hsh : IsShuffle E.length (permList σ) := isShuffle_permList σ
    have hg : ∀ j : Fin E.length, (permList σ).getD j 0 = (σ j : ℕ) := fun j => by simp [permList, List.getD_eq_getElem?_getD]
    rw [closePairs_sum (nearBoth_symm hd delta tau) _ (length_retime hsh)]
    congr 1
    refine Finset.sum_congr rfl fun i _ => Finset.sum_congr rfl fun j _ => ?_
    simp only [s, t, retime_ev hsh i.2, retime_ev hsh j.2, hg, ← ite_and, ite_mul, one_mul, zero_mul]
    refine if_congr ?_ rfl rfl
    constructor
    · rintro ⟨h1, h2⟩
      exact ⟨⟨h1, h2.1⟩, fun h => h1 (σ.injective h), h2.2⟩
    · rintro ⟨⟨h1, h2⟩, -, h3⟩
      exact ⟨h1, h2, h3⟩
  have key := sum_rearranged_products s t (fun i => by simp [s]) (fun i => by simp [t])
  have hn2 : (2 : K) ≤ (E.length : K) := by exact_mod_cast hn
  have h1 : (E.length : K) ≠ 0 := by linarith
  have h2 : (E.length : K) - 1 ≠ 0 := by linarith
  have h3 : (Fintype.card (Equiv.Perm (Fin E.length)) : K) ≠ 0 := by exact_mod_cast Fintype.card_ne_zero
  simp only [hB]
  rw [← Finset.sum_div, hS, hT]
  rw [div_div, div_eq_div_iff (by positivity) (by positivity)]
  linear_combination key / 2

private theorem retime_answersSpace {sball : List (List ℕ)} (hs : AnswersSpace sdist delta E sball) (σ : Equiv.Perm (Fin E.length)) :
    AnswersSpace sdist delta (retime (permList σ) E) sball := by
  have hsh : IsShuffle E.length (permList σ) := isShuffle_permList σ
  have hl := length_retime (E := E) hsh
  refine ⟨hs.length.trans hl.symm, fun i hi j => ?_⟩
  rw [hl] at hi ⊢
  rw [hs.mem i hi j]
  refine and_congr_right fun hj => ?_
  rw [retime_ev hsh hi, retime_ev hsh hj]
  rfl

private theorem retime_space {sdist : K × K → K × K → K} (hd : IsSpaceDistance sdist) (σ : Equiv.Perm (Fin E.length)) :
    (closePairs (NearSpace sdist delta) (retime (permList σ) E) : K) = closePairs (NearSpace sdist delta) E := by
  have hsh : IsShuffle E.length (permList σ) := isShuffle_permList σ
  rw [closePairs_sum (nearSpace_symm hd delta) _ (length_retime hsh), closePairs_sum (nearSpace_symm hd delta) E rfl]
  congr 1
  refine Finset.sum_congr rfl fun i _ => Finset.sum_congr rfl fun j _ => ?_
  rw [retime_ev hsh i.2, retime_ev hsh j.2]
  rfl

private theorem retime_time (σ : Equiv.Perm (Fin E.length)) :
    (closePairs (NearTime tau) (retime (permList σ) E) : K) = closePairs (NearTime tau) E := by
  have hsh : IsShuffle E.length (permList σ) := isShuffle_permList σ
  have hg : ∀ j : Fin E.length, (permList σ).getD j 0 = (σ j : ℕ) := fun j => by simp [permList, List.getD_eq_getElem?_getD]
  rw [closePairs_sum (nearTime_symm tau) _ (length_retime hsh), closePairs_sum (nearTime_symm tau) E rfl]
  congr 1
  rw [← Equiv.sum_comp σ (fun i => ∑ j : Fin E.length, if j ≠ i ∧ NearTime tau (ev E i) (ev E j) then (1 : K) else 0)]
  refine Finset.sum_congr rfl fun i _ => ?_
  rw [← Equiv.sum_comp σ (fun j : Fin E.length => if j ≠ σ i ∧ NearTime tau (ev E (σ i)) (ev E j) then (1 : K) else 0)]
  refine Finset.sum_congr rfl fun j _ => ?_
  rw [retime_ev hsh i.2, retime_ev hsh j.2, hg, hg]
  refine if_congr ?_ rfl rfl
  rw [σ.injective.ne_iff]
  rfl

end

/-- **C164.** With at least two events, every cell of the expected table of the Knox test is the mean of that cell of the observed
table over all ways to give the times to the locations. -/
theorem C164_expected_is_mean (cdf : K → XF K → XF K) {sdist : K × K → K × K → K} (hd : IsSpaceDistance sdist) (delta tau : K)
    (E : List (Event K)) (hn : 2 ≤ E.length) (sball tball : List (List ℕ)) (hs : AnswersSpace sdist delta E sball)
    (ht : AnswersTime tau E tball) (perms : List (List ℕ)) (hperm : ∀ p ∈ perms, IsShuffle E.length p)
    (tballs : Equiv.Perm (Fin E.length) → List (List ℕ)) (hts : ∀ σ, AnswersTime tau (retime (permList σ) E) (tballs σ)) :
    ∃ (r : KnoxResults K) (a b c d : Equiv.Perm (Fin E.length) → K), knoxGlobal cdf sball tball perms = .ok r
      ∧ (∀ σ, ∃ r', knoxGlobal cdf sball (tballs σ) [] = .ok r' ∧ r'.observed = (a σ, b σ, c σ, d σ))
      ∧ r.expected = (.fin ((∑ σ, a σ) / (Fintype.card (Equiv.Perm (Fin E.length)) : K)),
          .fin ((∑ σ, b σ) / (Fintype.card (Equiv.Perm (Fin E.length)) : K)),
          .fin ((∑ σ, c σ) / (Fintype.card (Equiv.Perm (Fin E.length)) : K)),
          .fin ((∑ σ, d σ) / (Fintype.card (Equiv.Perm (Fin E.length)) : K))) := by
  obtain ⟨r, a0, b0, c0, d0, hr, hexp, ha, hab, hac, habcd, -⟩ := C73_expected_table cdf hd delta tau E hn sball tball hs ht perms hperm
  have hσ : ∀ σ : Equiv.Perm (Fin E.length), ∃ r', knoxGlobal cdf sball (tballs σ) [] = .ok r'
      ∧ r'.observed = ((closePairs (NearBoth sdist delta tau) (retime (permList σ) E) : K),
        (closePairs (NearSpace sdist delta) E : K) - closePairs (NearBoth sdist delta tau) (retime (permList σ) E),
        (closePairs (NearTime tau) E : K) - closePairs (NearBoth sdist delta tau) (retime (permList σ) E),
        (E.length : K) * ((E.length : K) - 1) / 2 - closePairs (NearBoth sdist delta tau) (retime (permList σ) E)
          - ((closePairs (NearSpace sdist delta) E : K) - closePairs (NearBoth sdist delta tau) (retime (permList σ) E))
          - ((closePairs (NearTime tau) E : K) - closePairs (NearBoth sdist delta tau) (retime (permList σ) E))) := by
    intro σ
    obtain ⟨r', hr', h1, h2, h3, h4, h5, -⟩ := knoxGlobal_eq cdf hd delta tau (retime (permList σ) E)
      (retime_answersSpace sdist delta E hs σ) (hts σ) [] (by simp)
    refine ⟨r', hr', ?_⟩
    rw [h5, h1, h2, h3, h4, retime_space delta E hd σ, retime_time tau E σ, length_retime (isShuffle_permList σ)]
  refine ⟨r, _, _, _, _, hr, hσ, ?_⟩
  have hm := mean_both delta tau E hd hn
  rw [← ha] at hm
  have h3 : (Fintype.card (Equiv.Perm (Fin E.length)) : K) ≠ 0 := by exact_mod_cast Fintype.card_ne_zero
  have hconst : ∀ x : K, (∑ _σ : Equiv.Perm (Fin E.length), x) / (Fintype.card (Equiv.Perm (Fin E.length)) : K) = x := by
    intro x
    rw [Finset.sum_const, Finset.card_univ, nsmul_eq_mul, mul_div_cancel_left₀ _ h3]
  rw [hexp]
  simp only [Finset.sum_sub_distrib, sub_div, hm, hconst]
  simp only [Prod.mk.injEq, XF.fin.injEq, true_and]
  refine ⟨?_, ?_, ?_⟩
  · linear_combination hab
  · linear_combination hac
  · linear_combination habcd - hab - hac

/-! ### `modified_knox` -/

private theorem sum_single {n : ℕ} (s g : Fin n → K) :
    (∑ σ : Equiv.Perm (Fin n), ∑ i, s i * g (σ i)) * (n : K)
      = (Fintype.card (Equiv.Perm (Fin n)) : K) * ((∑ i, s i) * ∑ i, g i) := by
  let F : Fin n → K := fun i => ∑ σ : Equiv.Perm (Fin n), g (σ i)
  have hFeq : ∀ i i' : Fin n, F i = F i' := by
    intro i i'
    change ∑ σ : Equiv.Perm (Fin n), g (σ i) = ∑ σ : Equiv.Perm (Fin n), g (σ i')
    have h := Equiv.sum_comp (Equiv.mulRight (Equiv.swap i i')) (fun σ : Equiv.Perm (Fin n) => g (σ i))
    rw [← h]
    simp
  have hlhs : (∑ σ : Equiv.Perm (Fin n), ∑ i, s i * g (σ i)) = ∑ i, s i * F i := by
    rw [Finset.sum_comm]
    refine Finset.sum_congr rfl fun i _ => ?_
    rw [Finset.mul_sum]
  have htot : ∑ i, F i = (Fintype.card (Equiv.Perm (Fin n)) : K) * ∑ i, g i := by
    rw [Finset.sum_comm, Finset.sum_congr rfl (g := fun _ => ∑ i, g i), Finset.sum_const, Finset.card_univ, nsmul_eq_mul]
    intro σ _
    exact Equiv.sum_comp σ g
  rcases isEmpty_or_nonempty (Fin n) with h0 | ⟨⟨i0⟩⟩
  · simp
  · simp only [fun i => hFeq i i0, Finset.sum_const, Finset.card_univ, Fintype.card_fin, nsmul_eq_mul] at htot
    rw [hlhs]
    simp only [fun i => hFeq i i0]
    rw [← Finset.sum_mul]
    linear_combination (∑ i, s i) * htot

private theorem neighbourCount_sum (close : Event K → Event K → Prop) [DecidableRel close] (E : List (Event K)) {n : ℕ}
    (hn : E.length = n) (i : Fin n) :
    (neighbourCount close E ((0, 0), 0) i : K) = ∑ j : Fin n, if j ≠ i ∧ close (ev E i) (ev E j) then (1 : K) else 0 := by
  subst hn
  rw [← card_nbr_ev, Finset.sum_boole]
  congr 1
  rw [← Finset.card_map Fin.valEmbedding]
  congr 1
  ext j
  simp only [mem_nbr, Finset.mem_map, Finset.mem_filter, Finset.mem_univ, true_and, Fin.valEmbedding_apply]
  constructor
  · rintro ⟨a, b, c⟩
    exact ⟨⟨j, a⟩, ⟨fun h => b (congrArg Fin.val h), c⟩, rfl⟩
  · rintro ⟨a, ⟨b, c⟩, rfl⟩
    exact ⟨a.2, fun h => b (Fin.ext h), c⟩

/-- **C164, centred.** With at least two events the mean of the statistic of `modified_knox` over all ways to give the times to the
locations is zero. -/
theorem C164_modified_knox_centred {sdist : K × K → K × K → K} (hd : IsSpaceDistance sdist) (E : List (Event K)) (hn : 2 ≤ E.length)
    (delta tau : K) (hdelta : 0 ≤ delta) (htau : 0 ≤ tau) :
    ∃ m : Equiv.Perm (Fin E.length) → K,
      (∀ σ, (modifiedKnox sdist (E.map Prod.fst) (shuffle 0 (permList σ) (E.map Prod.snd)) delta tau []).1 = .fin (m σ))
      ∧ (∑ σ, m σ) / (Fintype.card (Equiv.Perm (Fin E.length)) : K) = 0 := by
  let s : Fin E.length → K := fun i => (neighbourCount (NearSpace sdist delta) E ((0, 0), 0) i : K)
  let t : Fin E.length → K := fun i => (neighbourCount (NearTime tau) E ((0, 0), 0) i : K)
  have hval : ∀ σ : Equiv.Perm (Fin E.length),
      (modifiedKnox sdist (E.map Prod.fst) (shuffle 0 (permList σ) (E.map Prod.snd)) delta tau []).1
        = .fin ((closePairs (NearBoth sdist delta tau) (retime (permList σ) E) : K)
          - (∑ i, s i * t (σ i)) / ((E.length : K) - 1) / 2) := by
    intro σ
    have hsh : IsShuffle E.length (permList σ) := isShuffle_permList σ
    have hl := length_retime (E := E) hsh
    have hg : ∀ j : Fin E.length, (permList σ).getD j 0 = (σ j : ℕ) := fun j => by simp [permList, List.getD_eq_getElem?_getD]
    have e1 : (retime (permList σ) E).map Prod.fst = E.map Prod.fst := by
      rw [retime_eq, List.map_fst_zip (by simp [shuffle, length_permList])]
    have e2 : (retime (permList σ) E).map Prod.snd = shuffle 0 (permList σ) (E.map Prod.snd) := by
      rw [retime_eq, List.map_snd_zip (by simp [shuffle, length_permList])]
    rw [← e1, ← e2, C72_modified_knox_formula hd _ (by rw [hl]; exact hn) delta tau hdelta htau, hl]
    congr 4
    rw [← List.map_coe_finRange_eq_range, List.map_map, ← List.ofFn_eq_map, List.sum_ofFn]
    push_cast
    refine Finset.sum_congr rfl fun i _ => ?_
    rw [Function.comp_apply]
    push_cast
    congr 1
    · rw [neighbourCount_sum _ _ hl]
      change _ = (neighbourCount (NearSpace sdist delta) E ((0, 0), 0) i : K)
      rw [neighbourCount_sum _ E rfl]
      refine Finset.sum_congr rfl fun j _ => ?_
      rw [retime_ev hsh i.2, retime_ev hsh j.2]
      rfl
    · rw [neighbourCount_sum _ _ hl]
      change _ = (neighbourCount (NearTime tau) E ((0, 0), 0) (σ i) : K)
      rw [neighbourCount_sum _ E rfl,
        ← Equiv.sum_comp σ (fun j => if j ≠ σ i ∧ NearTime tau (ev E (σ i)) (ev E j) then (1 : K) else 0)]
      refine Finset.sum_congr rfl fun j _ => ?_
      rw [retime_ev hsh i.2, retime_ev hsh j.2, hg, hg]
      refine if_congr ?_ rfl rfl
      rw [σ.injective.ne_iff]
      rfl
  refine ⟨_, hval, ?_⟩
  have hm := mean_both delta tau E hd hn
  have hS : (closePairs (NearSpace sdist delta) E : K) = (∑ i, s i) / 2 := by
    rw [closePairs_sum (nearSpace_symm hd delta) E rfl]
    simp only [s, neighbourCount_sum _ E rfl]
  have hT : (closePairs (NearTime tau) E : K) = (∑ i, t i) / 2 := by
    rw [closePairs_sum (nearTime_symm tau) E rfl]
    simp only [t, neighbourCount_sum _ E rfl]
  have key := sum_single s t
  have hn2 : (2 : K) ≤ (E.length : K) := by exact_mod_cast hn
  have h1 : (E.length : K) ≠ 0 := by linarith
  have h2 : (E.length : K) - 1 ≠ 0 := by linarith
  have h3 : (Fintype.card (Equiv.Perm (Fin E.length)) : K) ≠ 0 := by exact_mod_cast Fintype.card_ne_zero
  rw [Finset.sum_sub_distrib, sub_div, hm, ← Finset.sum_div, ← Finset.sum_div, hS, hT, sub_eq_zero, eq_comm, div_div, div_div,
    div_eq_div_iff (by positivity) (by positivity)]
  linear_combination ((E.length : K) - 1) / 2 * key

/-- Non-vacuity: the index answers that the theorem asks for exist for all events and thresholds. -/
example (n : ℕ) (close : ℕ → ℕ → Prop) [DecidableRel close] :
    AnswersBall n close ((List.range n).map fun i => (List.range n).filter fun j => decide (close i j)) := by
  refine ⟨by simp, ?_⟩
  intro i hi j
  simp [List.getD_eq_getElem?_getD, hi]

/-- The four example events: two pairs close in space, three in time, one in both, of six pairs; one is expected. -/
example : ∃ r : KnoxResults ℚ, knoxGlobal (fun _ _ => XF.fin (1/2)) [[0, 1], [1, 0, 2], [2, 1], [3]]
    [[0, 1, 3], [3, 1, 0], [2], [0, 1, 3]] [] = .ok r ∧ r.observed = (1, 1, 2, 2) ∧ r.expected = (.fin 1, .fin 1, .fin 2, .fin 2) := by
  refine ⟨_, rfl, ?_, ?_⟩ <;> decide +kernel

end Pointpats.Props
