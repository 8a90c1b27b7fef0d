import Verif.Lemmas.Csr
import Verif.Spec.Box
import Verif.Spec.DistanceStats
import Mathlib.MeasureTheory.Measure.Lebesgue.VolumeOfBalls

/-!
# How many pairs of completely random events are close
-/

set_option linter.unusedSectionVars false

namespace Pointpats.PairLaw

open Spec MeasureTheory ProbabilityTheory Csr Real

/-- The Euclidean distance in the plane. -/
noncomputable def planeDist (p q : ℝ × ℝ) : ℝ := Real.sqrt ((p.1 - q.1) ^ 2 + (p.2 - q.2) ^ 2)

theorem planeDist_measurable : Measurable fun p : (ℝ × ℝ) × (ℝ × ℝ) => planeDist p.1 p.2 := by
  unfold planeDist
  fun_prop

theorem volume_disc (c : ℝ × ℝ) {r : ℝ} (hr : 0 ≤ r) : volume {q : ℝ × ℝ | planeDist c q < r} = ENNReal.ofReal (π * r ^ 2) := by
  have hmeas : MeasurableSet {q : ℝ × ℝ | planeDist c q < r} :=
    measurableSet_lt (planeDist_measurable.comp (measurable_const.prodMk measurable_id)) measurable_const
  rw [← Complex.volume_preserving_equiv_real_prod.measure_preimage hmeas.nullMeasurableSet]
  have : Complex.measurableEquivRealProd ⁻¹' {q : ℝ × ℝ | planeDist c q < r} = Metric.ball (⟨c.1, c.2⟩ : ℂ) r := by
    ext z
    rw [Metric.mem_ball, dist_comm, Complex.dist_eq_re_im]
    rfl
  rw [this, Complex.volume_ball, mul_comm, ENNReal.ofReal_mul pi_pos.le, ENNReal.ofReal_pow hr, ← NNReal.coe_real_pi,
    ENNReal.ofReal_coe_nnreal]

variable {Ω : Type} [MeasurableSpace Ω] {P : Measure Ω} [IsProbabilityMeasure P]

/-- Two completely random events are closer than `d` with probability at most the area of a disc over the area of the region. -/
theorem close_le {n : ℕ} {X : Fin n → Ω → ℝ × ℝ} {W : Set (ℝ × ℝ)} (hX : CompletelyRandom P X W) {A : ℝ} (hA : 0 < A)
    (hvol : volume W = ENNReal.ofReal A) {d : ℝ} (hd : 0 ≤ d) {i j : Fin n} (hij : i ≠ j) :
    P.real {ω | planeDist (X i ω) (X j ω) < d} ≤ π * d ^ 2 / A := by
  have hlaw : ∀ i, P.map (X i) = uniformLaw W := by
    intro i
    ext a ha
    rw [Measure.map_apply (hX.measurable i) ha, uniformLaw_apply W ha, ← hX.uniform i a ha]
    rfl
  have hind : IndepFun (X i) (X j) P := hX.independent.indepFun hij
  have hprod := (indepFun_iff_map_prod_eq_prod_map_map (hX.measurable i).aemeasurable (hX.measurable j).aemeasurable).1 hind
  rw [hlaw, hlaw] at hprod
  have hprob : IsProbabilityMeasure (uniformLaw W) := by
    rw [← hlaw i]
    exact Measure.isProbabilityMeasure_map (hX.measurable i).aemeasurable
  have hS : MeasurableSet {p : (ℝ × ℝ) × (ℝ × ℝ) | planeDist p.1 p.2 < d} := measurableSet_lt planeDist_measurable measurable_const
  have h1 : P {ω | planeDist (X i ω) (X j ω) < d} = ((uniformLaw W).prod (uniformLaw W)) {p | planeDist p.1 p.2 < d} := by
    rw [← hprod, Measure.map_apply ((hX.measurable i).prodMk (hX.measurable j)) hS]
    rfl
  have h2 : P {ω | planeDist (X i ω) (X j ω) < d} ≤ ENNReal.ofReal (π * d ^ 2 / A) := by
    rw [h1, Measure.prod_apply hS]
    calc ∫⁻ p, uniformLaw W (Prod.mk p ⁻¹' {p | planeDist p.1 p.2 < d}) ∂uniformLaw W
        ≤ ∫⁻ _, ENNReal.ofReal (π * d ^ 2 / A) ∂uniformLaw W := by
          refine lintegral_mono fun p => ?_
          rw [uniformLaw_apply W (measurable_prodMk_left hS), hvol, ENNReal.ofReal_div_of_pos hA, ← volume_disc p hd]
          exact ENNReal.div_le_div_right (measure_mono Set.inter_subset_left) _
      _ = _ := by rw [lintegral_const, measure_univ, mul_one]
  rw [Measure.real]
  exact ENNReal.toReal_le_of_le_ofReal (by positivity) h2

/-- The number of close ordered pairs, as a sum. -/
theorem orderedPairsBelow_ofFn (dist : ℝ × ℝ → ℝ × ℝ → ℝ) {n : ℕ} (x : Fin n → ℝ × ℝ) (r : ℝ) :
    (orderedPairsBelow dist (List.ofFn x) r : ℝ)
      = ∑ i : Fin n, ∑ j ∈ Finset.univ.filter (fun j => j ≠ i), if dist (x i) (x j) < r then (1 : ℝ) else 0 := by
  have h0 : ∀ i : Fin n, (List.ofFn x).getD i (0, 0) = x i := by
    intro i
    rw [List.getD_eq_getElem _ _ (by rw [List.length_ofFn]; exact i.2), List.getElem_ofFn]
  have h1 : orderedPairsBelow dist (List.ofFn x) r
      = ∑ i ∈ Finset.range n, ((Finset.range n).filter fun j =>
          j ≠ i ∧ dist ((List.ofFn x).getD i (0, 0)) ((List.ofFn x).getD j (0, 0)) < r).card := by
    unfold orderedPairsBelow
    rw [List.length_flatMap, List.length_ofFn]
    rfl
  rw [h1, Finset.sum_range, Nat.cast_sum]
  refine Finset.sum_congr rfl fun i _ => ?_
  rw [Finset.card_filter, Finset.sum_range, Nat.cast_sum, Finset.sum_filter]
  refine Finset.sum_congr rfl fun j _ => ?_
  rw [h0, h0]
  by_cases hji : j = i
  · simp [hji]
  · have : (j : ℕ) ≠ i := fun h => hji (Fin.ext h)
    simp [hji, this]

/-- The mean number of close ordered pairs. -/
theorem mean_pairs_le {n : ℕ} {X : Fin n → Ω → ℝ × ℝ} {W : Set (ℝ × ℝ)} (hX : CompletelyRandom P X W) {A : ℝ} (hA : 0 < A)
    (hvol : volume W = ENNReal.ofReal A) {d : ℝ} (hd : 0 ≤ d) (hn : 0 < n) :
    Integrable (fun ω => (orderedPairsBelow planeDist (List.ofFn fun i => X i ω) d : ℝ)) P
    ∧ ∫ ω, (orderedPairsBelow planeDist (List.ofFn fun i => X i ω) d : ℝ) ∂P ≤ n * (n - 1) * (π * d ^ 2 / A) := by
  simp only [orderedPairsBelow_ofFn]
  have hS : ∀ i j : Fin n, MeasurableSet {ω | planeDist (X i ω) (X j ω) < d} := fun i j =>
    measurableSet_lt (planeDist_measurable.comp ((hX.measurable i).prodMk (hX.measurable j))) measurable_const
  have hfun : ∀ i j : Fin n, (fun ω => if planeDist (X i ω) (X j ω) < d then (1 : ℝ) else 0)
      = Set.indicator {ω | planeDist (X i ω) (X j ω) < d} 1 := by
    intro i j
    ext ω
    simp [Set.indicator_apply]
  have hint : ∀ i j : Fin n, Integrable (fun ω => if planeDist (X i ω) (X j ω) < d then (1 : ℝ) else 0) P := by
    intro i j
    rw [hfun]
    exact (integrable_const (1 : ℝ)).indicator (hS i j)
  have hval : ∀ i j : Fin n, ∫ ω, (if planeDist (X i ω) (X j ω) < d then (1 : ℝ) else 0) ∂P = P.real {ω | planeDist (X i ω) (X j ω) < d} := by
    intro i j
    rw [hfun, integral_indicator_one (hS i j)]
  refine ⟨integrable_finsetSum _ fun i _ => integrable_finsetSum _ fun j _ => hint i j, ?_⟩
  rw [integral_finsetSum _ fun i _ => integrable_finsetSum _ fun j _ => hint i j]
  have hrow : ∀ i : Fin n, ∫ ω, ∑ j ∈ Finset.univ.filter (fun j => j ≠ i), (if planeDist (X i ω) (X j ω) < d then (1 : ℝ) else 0) ∂P
      ≤ ((n : ℝ) - 1) * (π * d ^ 2 / A) := by
    intro i
    rw [integral_finsetSum _ fun j _ => hint i j]
    refine (Finset.sum_le_card_nsmul _ _ (π * d ^ 2 / A) fun j hj => ?_).trans_eq ?_
    · rw [hval]
      exact close_le hX hA hvol hd (fun h => (Finset.mem_filter.1 hj).2 h.symm)
    · rw [Finset.filter_ne', Finset.card_erase_of_mem (Finset.mem_univ _), Finset.card_univ, Fintype.card_fin, nsmul_eq_mul,
        Nat.cast_sub hn, Nat.cast_one]
  refine (Finset.sum_le_card_nsmul _ _ _ fun i _ => hrow i).trans_eq ?_
  rw [Finset.card_univ, Fintype.card_fin, nsmul_eq_mul]
  ring

end Pointpats.PairLaw
