import Verif.Props.SpreadOfRandomEvents

/-!
# With more points the mean centre of simulated points comes near the centroid (C194)
-/

set_option linter.unusedSectionVars false

namespace Pointpats.Props

open Random Spec Geometry Centrography Csr MeasureTheory ProbabilityTheory

private theorem coordinate_spread {W : Set (ℝ × ℝ)} (h0 : volume W ≠ 0) (hfin : volume W ≠ ⊤) (hmeas : MeasurableSet W) (f : ℝ × ℝ → ℝ)
    (hf : Continuous f) (lo hi : ℝ) (hbound : ∀ z ∈ W, f z ∈ Set.Icc lo hi) (μ : ℝ) (hμ : μ = (∫ z in W, f z) / (volume W).toReal) :
    (∫ z in W, (f z - μ) ^ 2) / (volume W).toReal ≤ ((hi - lo) / 2) ^ 2 := by
  have := uniformLaw_prob h0 hfin
  have hint : ∀ g : ℝ × ℝ → ℝ, ∫ z, g z ∂(uniformLaw W) = (∫ z in W, g z) / (volume W).toReal := fun g => by
    rw [uniformLaw, integral_smul_measure, ENNReal.toReal_inv, smul_eq_mul, div_eq_inv_mul]
  have hae : ∀ᵐ z ∂(uniformLaw W), f z ∈ Set.Icc lo hi := by
    refine Measure.ae_smul_measure ?_ _
    exact (ae_restrict_iff' hmeas).2 (.of_forall hbound)
  have h := variance_le_sq_of_bounded hae hf.measurable.aemeasurable
  rw [variance_eq_integral hf.measurable.aemeasurable, hint, hint, ← hμ] at h
  exact h

/-- The spread of a set in a box. -/
theorem regionSpread_le {W : Set (ℝ × ℝ)} (h0 : volume W ≠ 0) (hmeas : MeasurableSet W) (b : BBox ℝ) (hbox : ∀ p ∈ W, InBox b p) :
    regionSpread W ≤ ((b.xmax - b.xmin) ^ 2 + (b.ymax - b.ymin) ^ 2) / 4 := by
  have hcompact : IsCompact (Set.Icc b.xmin b.xmax ×ˢ Set.Icc b.ymin b.ymax) := isCompact_Icc.prod isCompact_Icc
  have hsub : W ⊆ Set.Icc b.xmin b.xmax ×ˢ Set.Icc b.ymin b.ymax := by
    intro p hp
    obtain ⟨h1, h2, h3, h4⟩ := hbox p hp
    exact ⟨⟨h1, h2⟩, ⟨h3, h4⟩⟩
  have hfin : volume W ≠ ⊤ := ne_top_of_le_ne_top hcompact.measure_lt_top.ne (measure_mono hsub)
  rw [spread_split (hcompact.isBounded.subset hsub)]
  have h1 := coordinate_spread h0 hfin hmeas Prod.fst continuous_fst b.xmin b.xmax (fun z hz => (hsub hz).1) _ rfl
  have h2 := coordinate_spread h0 hfin hmeas Prod.snd continuous_snd b.ymin b.ymax (fun z hz => (hsub hz).2) _ rfl
  have h3 : (meanPosition W).1 = (∫ z in W, z.1) / (volume W).toReal := rfl
  have h4 : (meanPosition W).2 = (∫ z in W, z.2) / (volume W).toReal := rfl
  rw [h3, h4]
  linarith [h1, h2, div_pow (b.xmax - b.xmin) 2 2, div_pow (b.ymax - b.ymin) 2 2]

/-- **C194.** Let `poisson` draw points from a bounding box, a `ConvexHull` or a convex polygon with bounding box `b`, with independent
draws that are uniform on `[0, 1)`. Apart from an event whose probability is at most the squared diagonal of `b` divided by `4 N ε²`,
where `N` is the number of points, it returns, and `mean_center` of the points is less than `ε` away from the mean position of the points
of the region, which for boxes and polygons is `centroid(region)`. -/
theorem C194_consistent {Ω : Type} [MeasurableSpace Ω] (P : Measure Ω) [IsProbabilityMeasure P] (U : ℕ → Ω → ℝ)
    (hU : IndependentDraws P U ((volume : Measure ℝ).restrict (Set.Ico 0 1))) (region : Region ℝ)
    (hregion : (∃ v points, region = .convexHull v ∧ IsHullOf v points) ∨ (∃ ring corners, region = .polygon ring ∧ IsHullOf ring corners)
      ∨ ∃ box : BBox ℝ, region = .bbox box ∧ box.xmin < box.xmax ∧ box.ymin < box.ymax)
    (b : BBox ℝ) (hb : region.bounds = .ok b) (intensity : Option ℝ) (size : SizeArg) (n s : ℕ) (i : XF ℝ)
    (hp : parseSizeAndIntensity (region.toHull b) intensity size = .ok (n, s, i)) (hn : 0 < n) (hs : 0 < s) (pos : ℕ) (ε : ℝ) (hε : 0 < ε) :
    ∃ c : ℝ × ℝ, c = meanPosition (pointsOf region) ∧ ((∀ v, region ≠ .convexHull v) → region.centroid = .ok c) ∧
    P {ω | ¬ ∃ r pos', Returns (fun fuel => poisson (region.toHull b) (fun i => U i ω) intensity size fuel pos) (.ok (r, pos'))
        ∧ ((meanCenter r.data).1 - c.1) ^ 2 + ((meanCenter r.data).2 - c.2) ^ 2 < ε ^ 2}
      ≤ ENNReal.ofReal (((b.xmax - b.xmin) ^ 2 + (b.ymax - b.ymin) ^ 2) / (4 * ((s * n : ℕ) : ℝ) * ε ^ 2)) := by
  obtain ⟨hmeas, hbox, harea, hcent⟩ := region_facts region hregion b hb
  refine ⟨_, rfl, hcent, ?_⟩
  obtain ⟨X, hX, hret⟩ := C191_completely_random P U hU region hregion b hb intensity size n s i hp pos
  have hcompact : IsCompact (Set.Icc b.xmin b.xmax ×ˢ Set.Icc b.ymin b.ymax) := isCompact_Icc.prod isCompact_Icc
  have hsub : pointsOf region ⊆ Set.Icc b.xmin b.xmax ×ˢ Set.Icc b.ymin b.ymax := by
    intro p hp
    obtain ⟨h1, h2, h3, h4⟩ := hbox p hp
    exact ⟨⟨h1, h2⟩, ⟨h3, h4⟩⟩
  have hN : 0 < s * n := Nat.mul_pos hs hn
  have hN' : (0 : ℝ) < ((s * n : ℕ) : ℝ) := by exact_mod_cast hN
  obtain ⟨-, hmean, -, -, hint⟩ := C192_mean_center hX (hcompact.isBounded.subset hsub) harea hN
  have hspread := regionSpread_le harea hmeas b fun p hp => hbox p hp
  have hmarkov := mul_meas_ge_le_integral_of_nonneg (μ := P) (.of_forall fun ω => by positivity) hint (ε ^ 2)
  rw [hmean] at hmarkov
  have hreal : P.real {ω | ε ^ 2 ≤ ((meanCenter (List.ofFn fun i => X i ω)).1 - (meanPosition (pointsOf region)).1) ^ 2
        + ((meanCenter (List.ofFn fun i => X i ω)).2 - (meanPosition (pointsOf region)).2) ^ 2}
      ≤ ((b.xmax - b.xmin) ^ 2 + (b.ymax - b.ymin) ^ 2) / (4 * ((s * n : ℕ) : ℝ) * ε ^ 2) := by
    rw [le_div_iff₀ (by positivity)]
    rw [le_div_iff₀ hN'] at hmarkov
    linarith
  refine le_trans ?_ (ENNReal.ofReal_le_ofReal hreal)
  rw [ofReal_measureReal]
  refine measure_mono_ae ?_
  filter_upwards [hret] with ω hω hbad
  obtain ⟨r, pos', hr, hd⟩ := hω
  by_contra hlt
  refine hbad ⟨r, pos', hr, ?_⟩
  rw [hd]
  exact lt_of_not_ge hlt

/-- **C194, the limit.** For every distance `ε` and probability `δ` there is a number of points from which on `poisson` returns and
`mean_center` of the points is less than `ε` away from the mean position of the region, apart from an event of probability at most `δ`. -/
theorem C194_limit {Ω : Type} [MeasurableSpace Ω] (P : Measure Ω) [IsProbabilityMeasure P] (U : ℕ → Ω → ℝ)
    (hU : IndependentDraws P U ((volume : Measure ℝ).restrict (Set.Ico 0 1))) (region : Region ℝ)
    (hregion : (∃ v points, region = .convexHull v ∧ IsHullOf v points) ∨ (∃ ring corners, region = .polygon ring ∧ IsHullOf ring corners)
      ∨ ∃ box : BBox ℝ, region = .bbox box ∧ box.xmin < box.xmax ∧ box.ymin < box.ymax)
    (b : BBox ℝ) (hb : region.bounds = .ok b) (ε δ : ℝ) (hε : 0 < ε) (hδ : 0 < δ) :
    ∃ N : ℕ, ∀ (intensity : Option ℝ) (size : SizeArg) (n s : ℕ) (i : XF ℝ),
      parseSizeAndIntensity (region.toHull b) intensity size = .ok (n, s, i) → N ≤ s * n → ∀ pos,
      P {ω | ¬ ∃ r pos', Returns (fun fuel => poisson (region.toHull b) (fun i => U i ω) intensity size fuel pos) (.ok (r, pos'))
        ∧ ((meanCenter r.data).1 - (meanPosition (pointsOf region)).1) ^ 2
          + ((meanCenter r.data).2 - (meanPosition (pointsOf region)).2) ^ 2 < ε ^ 2} ≤ ENNReal.ofReal δ := by
  obtain ⟨N, hN⟩ := exists_nat_ge (((b.xmax - b.xmin) ^ 2 + (b.ymax - b.ymin) ^ 2) / (4 * ε ^ 2 * δ))
  refine ⟨N + 1, fun intensity size n s i hp hle pos => ?_⟩
  have hpos : 0 < s * n := by omega
  obtain ⟨c, rfl, -, h⟩ := C194_consistent P U hU region hregion b hb intensity size n s i hp (Nat.pos_of_mul_pos_left hpos)
    (Nat.pos_of_mul_pos_right hpos) pos ε hε
  refine h.trans (ENNReal.ofReal_le_ofReal ?_)
  have hpos' : (0 : ℝ) < ((s * n : ℕ) : ℝ) := by exact_mod_cast hpos
  have hle' : (N : ℝ) ≤ ((s * n : ℕ) : ℝ) := by exact_mod_cast (by omega : N ≤ s * n)
  rw [div_le_iff₀ (by positivity)] at hN ⊢
  have : (N : ℝ) * (4 * ε ^ 2 * δ) ≤ ((s * n : ℕ) : ℝ) * (4 * ε ^ 2 * δ) := mul_le_mul_of_nonneg_right hle' (by positivity)
  linarith

/-- The hypotheses are met by any number of points in a rectangle: with 400 points in the unit square the bound at distance `1 / 4` is
one in fifty. -/
example (n : ℕ) : ∃ (P : Measure (ℕ → ℝ)) (_ : IsProbabilityMeasure P), IndependentDraws P (fun i ω => ω i) ((volume : Measure ℝ).restrict (Set.Ico 0 1))
    ∧ (Region.bbox ⟨(0 : ℝ), 0, 1, 1⟩).bounds = .ok ⟨0, 0, 1, 1⟩
    ∧ (∃ i, parseSizeAndIntensity ((Region.bbox ⟨(0 : ℝ), 0, 1, 1⟩).toHull ⟨0, 0, 1, 1⟩) none (.int n) = .ok (n, (1 : ℕ), i))
    ∧ (((1 : ℝ) - 0) ^ 2 + (1 - 0) ^ 2) / (4 * ((1 * 400 : ℕ) : ℝ) * (1 / 4) ^ 2) = 1 / 50 := by
  obtain ⟨P, hP, hU⟩ := uniformDraws_exist
  have ha : (Region.bbox ⟨(0 : ℝ), 0, 1, 1⟩).area = 1 := by norm_num [Region.area, areaBBox]
  refine ⟨P, hP, hU, rfl, ⟨.fin n, ?_⟩, by norm_num⟩
  simp [parseSizeAndIntensity, divArea, Region.toHull, ha, XF.div]

end Pointpats.Props
