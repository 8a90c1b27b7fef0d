import Verif.Props.SimulatedMean
import Verif.Props.Spread
import Mathlib.Probability.Moments.Variance
import Mathlib.Algebra.Order.Chebyshev

/-!
# The mean centre and the standard distance of completely random events (C192)
-/

set_option linter.unusedSectionVars false

namespace Pointpats.Props

open Spec Centrography Csr MeasureTheory ProbabilityTheory

/-- The mean squared distance of the points of a set from their mean position, with respect to area. -/
noncomputable def regionSpread (W : Set (ℝ × ℝ)) : ℝ :=
  (∫ z in W, ((z.1 - (meanPosition W).1) ^ 2 + (z.2 - (meanPosition W).2) ^ 2)) / (volume W).toReal

section Random

variable {Ω : Type} [MeasurableSpace Ω] {P : Measure Ω} [IsProbabilityMeasure P] {W : Set (ℝ × ℝ)} {n : ℕ} {X : Fin n → Ω → ℝ × ℝ}

private theorem law_of_random (hX : CompletelyRandom P X W) (i : Fin n) : P.map (X i) = uniformLaw W := by
  ext a ha
  rw [Measure.map_apply (hX.measurable i) ha, uniformLaw_apply W ha]
  exact hX.uniform i a ha

private theorem random_integrable (hX : CompletelyRandom P X W) (hW : Bornology.IsBounded W) (h0 : volume W ≠ 0) (f : ℝ × ℝ → ℝ)
    (hf : Continuous f) (i : Fin n) : Integrable (fun ω => f (X i ω)) P := by
  have h1 : Integrable f (uniformLaw W) := by
    refine Integrable.smul_measure ?_ (ENNReal.inv_ne_top.2 h0)
    exact (hf.continuousOn.integrableOn_compact hW.isCompact_closure).mono_set subset_closure
  rw [← law_of_random hX i] at h1
  exact h1.comp_measurable (hX.measurable i)

private theorem random_expectation (hX : CompletelyRandom P X W) (f : ℝ × ℝ → ℝ) (hf : Continuous f) (i : Fin n) :
    ∫ ω, f (X i ω) ∂P = (∫ z in W, f z) / (volume W).toReal := by
  have : ∫ z, f z ∂(uniformLaw W) = (∫ z in W, f z) / (volume W).toReal := by
    rw [uniformLaw, integral_smul_measure, ENNReal.toReal_inv, smul_eq_mul, div_eq_inv_mul]
  rw [← this, ← law_of_random hX i, integral_map (hX.measurable i).aemeasurable hf.aestronglyMeasurable]

/-- The first two moments of the sum of one coordinate. -/
private theorem coordinate_moments (hX : CompletelyRandom P X W) (hW : Bornology.IsBounded W) (h0 : volume W ≠ 0) (hn : 0 < n)
    (f : ℝ × ℝ → ℝ) (hf : Continuous f) (μ v : ℝ) (hμ : μ = (∫ z in W, f z) / (volume W).toReal)
    (hv : v = (∫ z in W, (f z - μ) ^ 2) / (volume W).toReal) :
    Integrable (fun ω => (∑ i, f (X i ω)) / (n : ℝ)) P ∧ ∫ ω, (∑ i, f (X i ω)) / (n : ℝ) ∂P = μ
    ∧ Integrable (fun ω => ((∑ i, f (X i ω)) / (n : ℝ) - μ) ^ 2) P ∧ ∫ ω, ((∑ i, f (X i ω)) / (n : ℝ) - μ) ^ 2 ∂P = v / n
    ∧ Integrable (fun ω => (∑ i, f (X i ω) ^ 2) / (n : ℝ) - ((∑ i, f (X i ω)) / (n : ℝ)) ^ 2) P
    ∧ ∫ ω, ((∑ i, f (X i ω) ^ 2) / (n : ℝ) - ((∑ i, f (X i ω)) / (n : ℝ)) ^ 2) ∂P = (1 - 1 / n) * v := by
  have hn' : (0 : ℝ) < n := by exact_mod_cast hn
  have i1 : ∀ i, Integrable (fun ω => f (X i ω)) P := random_integrable hX hW h0 f hf
  have i2 : ∀ i, Integrable (fun ω => f (X i ω) ^ 2) P := random_integrable hX hW h0 (fun z => f z ^ 2) (hf.pow 2)
  have hm : ∀ i, Measurable fun ω => f (X i ω) := fun i => hf.measurable.comp (hX.measurable i)
  have hL : ∀ i, MemLp (fun ω => f (X i ω)) 2 P := fun i => (memLp_two_iff_integrable_sq (hm i).aestronglyMeasurable).2 (i2 i)
  have e1 : ∀ i, ∫ ω, f (X i ω) ∂P = μ := fun i => by rw [hμ]; exact random_expectation hX f hf i
  have hvar : ∀ i, Var[fun ω => f (X i ω); P] = v := by
    intro i
    rw [variance_eq_integral (hm i).aemeasurable, e1 i, hv]
    exact random_expectation hX (fun z => (f z - μ) ^ 2) ((hf.sub continuous_const).pow 2) i
  have e2 : ∀ i, ∫ ω, f (X i ω) ^ 2 ∂P = v + μ ^ 2 := by
    intro i
    have := variance_eq_sub (hL i)
    rw [hvar i, e1 i] at this
    have h : ∫ ω, f (X i ω) ^ 2 ∂P = ∫ ω, ((fun ω => f (X i ω)) ^ 2) ω ∂P := rfl
    rw [h]; linarith
  have hsumvar : Var[∑ i, fun ω => f (X i ω); P] = n * v := by
    rw [IndepFun.variance_sum (fun i _ => hL i)]
    · rw [Finset.sum_congr rfl fun i _ => hvar i]; simp
    · intro i _ j _ hij
      exact (hX.independent.indepFun hij).comp hf.measurable hf.measurable
  have hS : (∑ i, fun ω => f (X i ω)) = fun ω => ∑ i, f (X i ω) := by
    funext ω; simp
  have hSm : Measurable fun ω => ∑ i, f (X i ω) := by
    exact Finset.measurable_sum (f := fun i ω => f (X i ω)) Finset.univ fun i _ => hm i
  have hSL : MemLp (fun ω => ∑ i, f (X i ω)) 2 P := by
    rw [← hS]; exact memLp_finsetSum' _ fun i _ => hL i
  rw [hS] at hsumvar
  have hSint : Integrable (fun ω => ∑ i, f (X i ω)) P := integrable_finsetSum _ fun i _ => i1 i
  have hSexp : ∫ ω, ∑ i, f (X i ω) ∂P = n * μ := by
    rw [integral_finsetSum _ fun i _ => i1 i, Finset.sum_congr rfl fun i _ => e1 i]; simp
  have hS2 : Integrable (fun ω => (∑ i, f (X i ω)) ^ 2) P := hSL.integrable_sq
  have hS2exp : ∫ ω, (∑ i, f (X i ω)) ^ 2 ∂P = n * v + (n * μ) ^ 2 := by
    have := variance_eq_sub hSL
    rw [hsumvar, hSexp] at this
    have h : ∫ ω, (∑ i, f (X i ω)) ^ 2 ∂P = ∫ ω, ((fun ω => ∑ i, f (X i ω)) ^ 2) ω ∂P := rfl
    rw [h]; linarith
  have hQ : Integrable (fun ω => (∑ i, f (X i ω) ^ 2)) P := integrable_finsetSum _ fun i _ => i2 i
  have hQexp : ∫ ω, ∑ i, f (X i ω) ^ 2 ∂P = n * (v + μ ^ 2) := by
    rw [integral_finsetSum _ fun i _ => i2 i, Finset.sum_congr rfl fun i _ => e2 i, Finset.sum_const, Finset.card_univ, Fintype.card_fin,
      nsmul_eq_mul]
  have hdev : ∀ ω, ((∑ i, f (X i ω)) / (n : ℝ) - μ) ^ 2 = (∑ i, f (X i ω) - n * μ) ^ 2 * (1 / (n : ℝ) ^ 2) := by
    intro ω; field_simp
  have hdevint : Integrable (fun ω => (∑ i, f (X i ω) - n * μ) ^ 2) P := (hSL.sub (memLp_const _)).integrable_sq
  have hq2 : ∀ ω, (∑ i, f (X i ω) ^ 2) / (n : ℝ) - ((∑ i, f (X i ω)) / (n : ℝ)) ^ 2
      = (∑ i, f (X i ω) ^ 2) * (1 / (n : ℝ)) - (∑ i, f (X i ω)) ^ 2 * (1 / (n : ℝ) ^ 2) := by
    intro ω; field_simp
  refine ⟨hSint.div_const _, ?_, ?_, ?_, ?_, ?_⟩
  · rw [integral_div, hSexp]; field_simp
  · simp_rw [hdev]; exact hdevint.mul_const _
  · simp_rw [hdev]
    have := variance_eq_integral hSm.aemeasurable (μ := P)
    rw [hsumvar, hSexp] at this
    rw [integral_mul_const, ← this]
    field_simp
  · simp_rw [hq2]; exact (hQ.mul_const _).sub (hS2.mul_const _)
  · simp_rw [hq2]
    rw [integral_sub (hQ.mul_const _) (hS2.mul_const _), integral_mul_const, integral_mul_const, hQexp, hS2exp]
    field_simp
    ring

theorem spread_split (hW : Bornology.IsBounded W) :
    regionSpread W = (∫ z in W, (z.1 - (meanPosition W).1) ^ 2) / (volume W).toReal
      + (∫ z in W, (z.2 - (meanPosition W).2) ^ 2) / (volume W).toReal := by
  have hi : ∀ g : ℝ × ℝ → ℝ, Continuous g → IntegrableOn g W volume := fun g hg =>
    (hg.continuousOn.integrableOn_compact hW.isCompact_closure).mono_set subset_closure
  unfold regionSpread
  rw [← add_div, integral_add (hi _ (by fun_prop)) (hi _ (by fun_prop))]

/-- **C192, the mean centre.** For `n` events that are completely random in a bounded region the expectation of `mean_center` is the mean
position of the region, and its mean squared distance from there is the spread of the region divided by `n`. -/
theorem C192_mean_center (hX : CompletelyRandom P X W) (hW : Bornology.IsBounded W) (h0 : volume W ≠ 0) (hn : 0 < n) :
    (∫ ω, (meanCenter (List.ofFn fun i => X i ω)).1 ∂P, ∫ ω, (meanCenter (List.ofFn fun i => X i ω)).2 ∂P) = meanPosition W
    ∧ ∫ ω, (((meanCenter (List.ofFn fun i => X i ω)).1 - (meanPosition W).1) ^ 2
        + ((meanCenter (List.ofFn fun i => X i ω)).2 - (meanPosition W).2) ^ 2) ∂P = regionSpread W / n
    ∧ Integrable (fun ω => (meanCenter (List.ofFn fun i => X i ω)).1) P ∧ Integrable (fun ω => (meanCenter (List.ofFn fun i => X i ω)).2) P
    ∧ Integrable (fun ω => ((meanCenter (List.ofFn fun i => X i ω)).1 - (meanPosition W).1) ^ 2
        + ((meanCenter (List.ofFn fun i => X i ω)).2 - (meanPosition W).2) ^ 2) P := by
  have hm : ∀ ω, meanCenter (List.ofFn fun i => X i ω) = ((∑ i, (X i ω).1) / (n : ℝ), (∑ i, (X i ω).2) / (n : ℝ)) := by
    intro ω
    unfold meanCenter
    rw [List.map_ofFn, List.map_ofFn, List.sum_ofFn, List.sum_ofFn, List.length_ofFn]
    rfl
  obtain ⟨a1, a2, a3, a4, -, -⟩ := coordinate_moments hX hW h0 hn Prod.fst continuous_fst _ _ rfl rfl
  obtain ⟨b1, b2, b3, b4, -, -⟩ := coordinate_moments hX hW h0 hn Prod.snd continuous_snd _ _ rfl rfl
  simp_rw [hm]
  refine ⟨Prod.ext a2 b2, ?_, a1, b1, a3.add b3⟩
  have := integral_add a3 b3
  rw [a4, b4] at this
  rw [spread_split hW, add_div]
  exact this

/-- **C192, proved part.** The expectation of the square of `std_distance` of `n` events that are completely random in a bounded region is
the spread of the region times `1 - 1 / n`. -/
theorem C192_std_distance_partial (hX : CompletelyRandom P X W) (hW : Bornology.IsBounded W) (h0 : volume W ≠ 0) (hn : 0 < n) :
    Integrable (fun ω => stdDistance (List.ofFn fun i => X i ω) ^ 2) P
    ∧ ∫ ω, stdDistance (List.ofFn fun i => X i ω) ^ 2 ∂P = (1 - 1 / n) * regionSpread W := by
  obtain ⟨-, -, -, -, a5, a6⟩ := coordinate_moments hX hW h0 hn Prod.fst continuous_fst _ _ rfl rfl
  obtain ⟨-, -, -, -, b5, b6⟩ := coordinate_moments hX hW h0 hn Prod.snd continuous_snd _ _ rfl rfl
  have hn' : (0 : ℝ) < n := by exact_mod_cast hn
  have hnonneg : ∀ y : Fin n → ℝ, 0 ≤ (∑ i, y i ^ 2) / (n : ℝ) - ((∑ i, y i) / (n : ℝ)) ^ 2 := by
    intro y
    have := sq_sum_le_card_mul_sum_sq (s := Finset.univ) (f := y)
    rw [Finset.card_univ, Fintype.card_fin] at this
    rw [div_pow, sub_nonneg, div_le_div_iff₀ (by positivity) hn']
    nlinarith
  have hs : ∀ ω, stdDistance (List.ofFn fun i => X i ω) ^ 2
      = ((∑ i, (X i ω).1 ^ 2) / (n : ℝ) - ((∑ i, (X i ω).1) / (n : ℝ)) ^ 2)
        + ((∑ i, (X i ω).2 ^ 2) / (n : ℝ) - ((∑ i, (X i ω).2) / (n : ℝ)) ^ 2) := by
    intro ω
    have e : stdDistance (List.ofFn fun i => X i ω)
        = Real.sqrt (((∑ i, (X i ω).1 ^ 2) / (n : ℝ) - ((∑ i, (X i ω).1) / (n : ℝ)) ^ 2)
        + ((∑ i, (X i ω).2 ^ 2) / (n : ℝ) - ((∑ i, (X i ω).2) / (n : ℝ)) ^ 2)) := by
      unfold stdDistance meanCenter
      simp only [List.map_ofFn, List.sum_ofFn, List.length_ofFn, Function.comp, pow_two]
    rw [e, Real.sq_sqrt (add_nonneg (hnonneg _) (hnonneg _))]
  have hab := a5.add b5
  simp_rw [hs]
  refine ⟨hab, ?_⟩
  have := integral_add a5 b5
  rw [a6, b6] at this
  rw [spread_split hW, mul_add]
  exact this

/-- **C192 is false for `std_distance`.** Its square is on average smaller than the spread of the region, for every number of events
and every region. -/
theorem C192_std_distance_refuted (hX : CompletelyRandom P X W) (hW : Bornology.IsBounded W) (h0 : volume W ≠ 0) (hn : 0 < n) :
    ∫ ω, stdDistance (List.ofFn fun i => X i ω) ^ 2 ∂P < regionSpread W := by
  rw [(C192_std_distance_partial hX hW h0 hn).2]
  have hn' : (0 : ℝ) < n := by exact_mod_cast hn
  have hfin : volume W ≠ ⊤ := ne_top_of_le_ne_top hW.isCompact_closure.measure_lt_top.ne (measure_mono subset_closure)
  have hpos : 0 < regionSpread W := by
    unfold regionSpread
    refine div_pos ?_ (ENNReal.toReal_pos h0 hfin)
    have hnn : ∀ z : ℝ × ℝ, 0 ≤ (z.1 - (meanPosition W).1) ^ 2 + (z.2 - (meanPosition W).2) ^ 2 := fun z => by positivity
    have hint : IntegrableOn (fun z : ℝ × ℝ => (z.1 - (meanPosition W).1) ^ 2 + (z.2 - (meanPosition W).2) ^ 2) W volume :=
      ((Continuous.continuousOn (by fun_prop)).integrableOn_compact hW.isCompact_closure).mono_set subset_closure
    refine lt_of_le_of_ne (integral_nonneg hnn) fun hz => h0 ?_
    have := (integral_eq_zero_iff_of_nonneg hnn hint).1 hz.symm
    have hsing : (volume.restrict W) {meanPosition W}ᶜ = 0 := by
      refine measure_mono_null ?_ this
      intro z hz' hz0
      apply hz'
      simp only [Set.mem_ofPred_eq, Pi.zero_apply] at hz0
      have h1 : z.1 - (meanPosition W).1 = 0 := pow_eq_zero_iff (two_ne_zero) |>.1 (le_antisymm (by nlinarith [sq_nonneg (z.2 - (meanPosition W).2)]) (sq_nonneg _))
      have h2 : z.2 - (meanPosition W).2 = 0 := pow_eq_zero_iff (two_ne_zero) |>.1 (le_antisymm (by nlinarith [sq_nonneg (z.1 - (meanPosition W).1)]) (sq_nonneg _))
      exact Prod.ext (by linarith) (by linarith)
    rw [Measure.restrict_apply (MeasurableSet.singleton _).compl] at hsing
    refine measure_mono_null (t := ({meanPosition W}ᶜ ∩ W) ∪ {meanPosition W}) ?_ (measure_union_null hsing (measure_singleton _))
    intro z hz'
    by_cases hc : z = meanPosition W
    · exact Or.inr hc
    · exact Or.inl ⟨hc, hz'⟩
  have : 0 < 1 / (n : ℝ) := by positivity
  nlinarith

/-- **C192, the ellipse.** The expectation of the sum of the squared semi-axes of the standard deviational ellipse of `n ≥ 3` events that
are completely random in a bounded region, for every method and correction. -/
theorem C192_ellipse (hX : CompletelyRandom P X W) (hW : Bornology.IsBounded W) (h0 : volume W ≠ 0) (hn : 3 ≤ n) (method : String)
    (m : EllipseMethod) (hm : parseMethod method = .ok m) (crimestatCorr degfreedCorr : Bool) :
    ∃ axes : Ω → ℝ × ℝ × ℝ, (∀ ω, ellipse (List.ofFn fun i => X i ω) none method crimestatCorr degfreedCorr = .ok (axes ω))
      ∧ ∫ ω, ((axes ω).1 ^ 2 + (axes ω).2.1 ^ 2) ∂P
        = ellipseFactor n m crimestatCorr degfreedCorr ^ 2 * ((1 - 1 / n) * regionSpread W) := by
  have h := fun ω => C172_spread (List.ofFn fun i => X i ω) (by simpa using hn) method m hm crimestatCorr degfreedCorr
  choose major minor angle h1 h2 using h
  refine ⟨fun ω => (major ω, minor ω, angle ω), h1, ?_⟩
  simp only [h2, List.length_ofFn]
  rw [integral_const_mul, (C192_std_distance_partial hX hW h0 (by omega)).2]

end Random

/-- The hypotheses are met: there are completely random events in the unit square. -/
example (n : ℕ) : ∃ (Ω : Type) (_ : MeasurableSpace Ω) (P : Measure Ω) (_ : IsProbabilityMeasure P) (X : Fin n → Ω → ℝ × ℝ),
    CompletelyRandom P X (Set.Icc (0 : ℝ × ℝ) 1) ∧ Bornology.IsBounded (Set.Icc (0 : ℝ × ℝ) 1) ∧ volume (Set.Icc (0 : ℝ × ℝ) 1) ≠ 0 := by
  have hv : volume (Set.Icc (0 : ℝ × ℝ) 1) = 1 := by
    have : Set.Icc (0 : ℝ × ℝ) 1 = Set.Icc (0 : ℝ) 1 ×ˢ Set.Icc (0 : ℝ) 1 := by
      rw [Set.Icc_prod_Icc]; rfl
    rw [this, Measure.volume_eq_prod, Measure.prod_prod, Real.volume_Icc]
    simp
  have hu := uniformLaw_prob (W := Set.Icc (0 : ℝ × ℝ) 1) (by rw [hv]; simp) (by rw [hv]; simp)
  refine ⟨Fin n → ℝ × ℝ, inferInstance, Measure.pi fun _ => uniformLaw (Set.Icc (0 : ℝ × ℝ) 1), inferInstance, fun i ω => ω i,
    ⟨fun i => measurable_pi_apply i, iIndepFun_pi (X := fun _ x => x) fun _ => aemeasurable_id, ?_⟩, isCompact_Icc.isBounded,
    by rw [hv]; simp⟩
  intro i a ha
  have := (measurePreserving_eval (fun _ : Fin n => uniformLaw (Set.Icc (0 : ℝ × ℝ) 1)) i).measure_preimage ha.nullMeasurableSet
  rw [← uniformLaw_apply _ ha, ← this]
  rfl

end Pointpats.Props
