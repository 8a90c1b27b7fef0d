import Verif.Spec.NoInteraction
import Verif.Props.Level
import Mathlib.MeasureTheory.Integral.Bochner.Set

/-!
# From the level given the events to the level over random events
-/

namespace Pointpats.Population

open Spec Spacetime MeasureTheory Props

/-- The events `z` with the times in another order. -/
def rearrange {n : ℕ} (σ : Equiv.Perm (Fin n)) (z : Fin n → Event ℝ) : Fin n → Event ℝ := fun i => ((z i).1, (z (σ i)).2)

theorem rearrange_measurable {n : ℕ} (σ : Equiv.Perm (Fin n)) : Measurable (rearrange σ) :=
  measurable_pi_lambda _ fun i => (measurable_fst.comp (measurable_pi_apply i)).prodMk (measurable_snd.comp (measurable_pi_apply (σ i)))

theorem ofFn_rearrange {n : ℕ} (σ : Equiv.Perm (Fin n)) (z : Fin n → Event ℝ) :
    List.ofFn (rearrange σ z) = retime (permList σ) (List.ofFn z) := by
  apply List.ext_getElem
  · simp [retime, permList]
  · intro i h1 h2
    simp [retime, permList, rearrange, List.getD_eq_getElem?_getD]

theorem shuffleLists_tail {n R : ℕ} (ω : Rearrangements n R) : shuffleLists (Fin.tail ω) = shuffles ω := rfl

/-- If every point is in at most `c` of the sets, their measures add up to at most `c`. -/
theorem sum_measure_le {Z ι : Type} [MeasurableSpace Z] [Fintype ι] (ν : Measure Z) [IsProbabilityMeasure ν] (S : ι → Set Z)
    (hS : ∀ i, MeasurableSet (S i)) (c : ℝ) (h : ∀ z, open Classical in ((Finset.univ.filter fun i => z ∈ S i).card : ℝ) ≤ c) :
    ∑ i, ν.real (S i) ≤ c := by
  classical
  have e : ∑ i, ν.real (S i) = ∫ z, ∑ i, (S i).indicator (1 : Z → ℝ) z ∂ν := by
    have hi : ∀ i ∈ (Finset.univ : Finset ι), Integrable ((S i).indicator (1 : Z → ℝ)) ν := fun i _ => (integrable_const (1 : ℝ)).indicator (hS i)
    rw [integral_finsetSum _ hi]
    exact Finset.sum_congr rfl fun i _ => (integral_indicator_one (hS i)).symm
  rw [e]
  have : ∫ z, ∑ i, (S i).indicator (1 : Z → ℝ) z ∂ν ≤ ∫ _, c ∂ν := by
    refine integral_mono (integrable_finsetSum _ fun i _ => (integrable_const (1 : ℝ)).indicator (hS i)) (integrable_const c) fun z => ?_
    refine le_trans (le_of_eq ?_) (h z)
    simp [Set.indicator_apply]
  simpa using this

/-- If, given any events, a random rearrangement of the times and random shuffles lead to `B` with probability at most `α`, then
random events without interaction and random shuffles do. -/
theorem population_level {Ω : Type} [MeasurableSpace Ω] (P : Measure Ω) [IsProbabilityMeasure P] {n R : ℕ} {X : Fin n → Ω → Event ℝ}
    (hX : NoInteraction P X) {q : Ω → Fin R → Equiv.Perm (Fin n)} (hq : UniformShuffles P X q)
    (B : List (Event ℝ) → List (List ℕ) → Prop)
    (hB : ∀ a : Fin R → Equiv.Perm (Fin n), MeasurableSet {z : Fin n → Event ℝ | B (List.ofFn z) (shuffleLists a)}) (α : ℝ)
    (hlevel : ∀ E : List (Event ℝ), E.length = n → share ℝ (Rearrangements n R) (fun ω => B (retime (assignment ω) E) (shuffles ω)) ≤ α) :
    P.real {ω | B (List.ofFn fun i => X i ω) (shuffleLists (q ω))} ≤ α := by
  classical
  set ν := P.map (fun ω i => X i ω) with hν
  have hXm : Measurable fun ω i => X i ω := measurable_pi_lambda _ hX.measurable
  have hνp : IsProbabilityMeasure ν := Measure.isProbabilityMeasure_map hXm.aemeasurable
  set N : ℝ := ((Fintype.card (Fin R → Equiv.Perm (Fin n)) : ℕ) : ℝ) with hN
  set M : ℝ := ((Fintype.card (Equiv.Perm (Fin n)) : ℕ) : ℝ) with hM
  have hN0 : 0 < N := by rw [hN]; exact_mod_cast Fintype.card_pos
  have hM0 : 0 < M := by rw [hM]; exact_mod_cast Fintype.card_pos
  -- the sets
  let A : (Fin R → Equiv.Perm (Fin n)) → Set (Fin n → Event ℝ) := fun a => {z | B (List.ofFn z) (shuffleLists a)}
  have h1 : P.real {ω | B (List.ofFn fun i => X i ω) (shuffleLists (q ω))} ≤ ∑ a, ν.real (A a) / N := by
    have hsub : {ω | B (List.ofFn fun i => X i ω) (shuffleLists (q ω))} ⊆ ⋃ a ∈ Finset.univ, {ω | (fun i => X i ω) ∈ A a ∧ q ω = a} := by
      intro ω hω
      simp only [Finset.mem_univ, Set.iUnion_true, Set.mem_iUnion]
      exact ⟨q ω, hω, rfl⟩
    refine le_trans (measureReal_mono hsub (measure_ne_top _ _)) (le_trans (measureReal_biUnion_finset_le _ _) (le_of_eq ?_))
    refine Finset.sum_congr rfl fun a _ => ?_
    rw [Measure.real, hq.uniform a (A a) (hB a), ENNReal.toReal_div, ENNReal.toReal_natCast, hν, map_measureReal_apply hXm (hB a)]
    rfl
  refine le_trans h1 ?_
  rw [← Finset.sum_div, div_le_iff₀ hN0]
  have h2 : ∀ a (σ : Equiv.Perm (Fin n)), ν.real (A a) = ν.real (rearrange σ ⁻¹' A a) := by
    intro a σ
    have : ν.map (rearrange σ) = ν := by
      rw [hν, Measure.map_map (rearrange_measurable σ) hXm]
      exact hX.exchangeable σ
    rw [← map_measureReal_apply (rearrange_measurable σ) (hB a), this]
  have h3 : M * ∑ a, ν.real (A a) = ∑ ω : Rearrangements n R, ν.real (rearrange (ω 0) ⁻¹' A (Fin.tail ω)) := by
    rw [← (Fin.consEquiv fun _ : Fin (R + 1) => Equiv.Perm (Fin n)).sum_comp, Fintype.sum_prod_type]
    refine Eq.symm (Eq.trans (Finset.sum_congr rfl fun σ _ => Finset.sum_congr rfl fun a _ =>
      (show _ = ν.real (A a) from (h2 a σ).symm)) ?_)
    rw [Finset.sum_const, Finset.card_univ, nsmul_eq_mul]
  have hcard : (Fintype.card (Rearrangements n R) : ℝ) = M * N := by
    rw [hM, hN, ← Nat.cast_mul, ← Fintype.card_prod]
    congr 1
    exact (Fintype.card_congr (Fin.consEquiv fun _ : Fin (R + 1) => Equiv.Perm (Fin n))).symm
  have h4 := sum_measure_le ν (fun ω : Rearrangements n R => rearrange (ω 0) ⁻¹' A (Fin.tail ω))
    (fun ω => rearrange_measurable _ (hB _)) (α * (M * N)) (by
      intro z
      have := hlevel (List.ofFn z) List.length_ofFn
      unfold share at this
      rw [hcard, div_le_iff₀ (by positivity)] at this
      refine le_trans (le_of_eq ?_) this
      congr 3
      funext ω
      simp only [Set.mem_preimage, A, Set.mem_ofPred_eq, shuffleLists_tail, assignment, ofFn_rearrange])
  rw [← h3] at h4
  have : M * ∑ a, ν.real (A a) ≤ M * (α * N) := by linarith
  exact le_of_mul_le_mul_left this hM0

end Pointpats.Population
