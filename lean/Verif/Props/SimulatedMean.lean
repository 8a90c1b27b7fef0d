import Verif.Props.CentreOfMass
import Verif.Lemmas.Csr

/-!
# The mean centre of simulated points estimates the centroid (C191)
-/

set_option linter.unusedSectionVars false

namespace Pointpats.Props

open Random Spec Geometry Centrography Csr MeasureTheory ProbabilityTheory MeasurableRun MeasurableCounts

private theorem integral_uniform (W : Set (ℝ × ℝ)) (f : ℝ × ℝ → ℝ) : ∫ z, f z ∂(uniformLaw W) = (∫ z in W, f z) / (volume W).toReal := by
  rw [uniformLaw, integral_smul_measure, ENNReal.toReal_inv, smul_eq_mul, div_eq_inv_mul]

private theorem data_length {h : Hull ℝ} {u : ℕ → ℝ} {intensity : Option ℝ} {size : SizeArg} {n s : ℕ} {i : XF ℝ}
    (hp : parseSizeAndIntensity h intensity size = .ok (n, s, i)) {pos pos' : ℕ} {r : Squeezed ℝ}
    (hr : Returns (fun fuel => poisson h u intensity size fuel pos) (.ok (r, pos'))) : r.data.length = s * n := by
  obtain ⟨fuel, hr⟩ := hr
  obtain ⟨-, -, reps, g1, rfl⟩ := (poisson_ok h _ intensity size n s i hp fuel pos _ _).1 hr
  obtain ⟨g2, g3⟩ := poissonReps_lengths _ _ _ _ _ _ _ _ g1
  rw [squeeze_data _ _ _ g2 fun rep hrep => (g3 rep hrep).1, List.length_flatten,
    List.map_congr_left (g := fun _ => n) fun rep hrep => (g3 rep hrep).1]
  simp [g2]

private theorem mean_of_draws {Ω : Type} [MeasurableSpace Ω] (P : Measure Ω) [IsProbabilityMeasure P] (U : ℕ → Ω → ℝ)
    (hU : IndependentDraws P U ((volume : Measure ℝ).restrict (Set.Ico 0 1)))
    (h : Hull ℝ) (W : Set (ℝ × ℝ)) (hhull : ∀ x y, h.contains x y = true ↔ (x, y) ∈ W) (hmeas : MeasurableSet W)
    (hbox : ∀ p ∈ W, h.bbox.xmin ≤ p.1 ∧ p.1 ≤ h.bbox.xmax ∧ h.bbox.ymin ≤ p.2 ∧ p.2 ≤ h.bbox.ymax)
    (harea : volume W ≠ 0)
    (intensity : Option ℝ) (size : SizeArg) (n s : ℕ) (i : XF ℝ)
    (hp : parseSizeAndIntensity h intensity size = .ok (n, s, i)) (hn : 0 < n) (hs : 0 < s) (pos : ℕ) :
    ∃ M : Ω → ℝ × ℝ, Measurable M
      ∧ (∀ᵐ ω ∂P, ∃ r pos', Returns (fun fuel => poisson h (fun i => U i ω) intensity size fuel pos) (.ok (r, pos'))
          ∧ meanCenter r.data = M ω)
      ∧ Integrable M P ∧ (∫ ω, (M ω).1 ∂P, ∫ ω, (M ω).2 ∂P) = meanPosition W := by
  have hset : {p : ℝ × ℝ | h.contains p.1 p.2 = true} = W := by
    ext p; exact hhull p.1 p.2
  have hh : MeasurableHull h := by
    unfold MeasurableHull
    rw [hset]; exact hmeas
  have hcompact : IsCompact (Set.Icc h.bbox.xmin h.bbox.xmax ×ˢ Set.Icc h.bbox.ymin h.bbox.ymax) := isCompact_Icc.prod isCompact_Icc
  have hsub : W ⊆ Set.Icc h.bbox.xmin h.bbox.xmax ×ˢ Set.Icc h.bbox.ymin h.bbox.ymax := by
    intro p hp
    obtain ⟨h1, h2, h3, h4⟩ := hbox p hp
    exact ⟨⟨h1, h2⟩, ⟨h3, h4⟩⟩
  have hfin : volume W ≠ ⊤ := ne_top_of_le_ne_top hcompact.measure_lt_top.ne (measure_mono hsub)
  have hprob := uniformLaw_prob harea hfin
  have hUm : Measurable fun ω i => U i ω := measurable_pi_lambda _ hU.measurable
  set X : ℕ → Ω → ℝ × ℝ := fun k ω => (drawn h intensity size pos fun i => U i ω).getD k default with hX
  have hXm : ∀ k, Measurable (X k) := fun k => (measurable_getD k).comp ((drawn_measurable hh intensity size pos).comp hUm)
  have hlaw : ∀ k : Fin (s * n), P.map (X k) = uniformLaw W := by
    intro k
    ext a ha
    rw [Measure.map_apply (hXm k) ha]
    have key := drawn_law hU hhull hmeas hbox harea hp pos (fun j => if j = k then a else Set.univ) (by
      intro j
      by_cases hj : j = k
      · simpa [hj] using ha
      · simp [hj])
    have e : {ω | ∀ j : Fin (s * n), (drawn h intensity size pos fun i => U i ω).getD j default ∈ (if j = k then a else Set.univ)}
        = X k ⁻¹' a := by
      ext ω
      simp only [Set.mem_ofPred_eq, Set.mem_preimage, hX]
      constructor
      · intro hj; simpa using hj k
      · intro hk j
        by_cases hj : j = k
        · subst hj; simpa using hk
        · simp [hj]
    rw [e] at key
    rw [key, Finset.prod_eq_single k]
    · simp
    · intro j _ hj
      simp [hj]
    · simp
  have hint : ∀ (f : ℝ × ℝ → ℝ), Continuous f → ∀ k : Fin (s * n), Integrable (fun ω => f (X k ω)) P := by
    intro f hf k
    have h1 : Integrable f (uniformLaw W) := by
      refine Integrable.smul_measure ?_ (ENNReal.inv_ne_top.2 harea)
      exact (hf.continuousOn.integrableOn_compact hcompact).mono_set hsub
    rw [← hlaw k] at h1
    exact h1.comp_measurable (hXm k)
  have hexp : ∀ (f : ℝ × ℝ → ℝ), Continuous f → ∀ k : Fin (s * n), ∫ ω, f (X k ω) ∂P = (∫ z in W, f z) / (volume W).toReal := by
    intro f hf k
    rw [← integral_uniform, ← hlaw k, integral_map (hXm k).aemeasurable hf.aestronglyMeasurable]
  have hpos : (0 : ℝ) < ((s * n : ℕ) : ℝ) := by exact_mod_cast Nat.mul_pos hs hn
  have hmean : ∀ (f : ℝ × ℝ → ℝ), Continuous f →
      ∫ ω, (∑ k : Fin (s * n), f (X k ω)) / ((s * n : ℕ) : ℝ) ∂P = (∫ z in W, f z) / (volume W).toReal := by
    intro f hf
    rw [integral_div, integral_finsetSum _ fun k _ => hint f hf k, Finset.sum_congr rfl fun k _ => hexp f hf k, Finset.sum_const,
      Finset.card_univ, Fintype.card_fin, nsmul_eq_mul, mul_div_cancel_left₀ _ hpos.ne']
  have hmint : ∀ (f : ℝ × ℝ → ℝ), Continuous f → Integrable (fun ω => (∑ k : Fin (s * n), f (X k ω)) / ((s * n : ℕ) : ℝ)) P :=
    fun f hf => (integrable_finsetSum _ fun k _ => hint f hf k).div_const _
  have hmm : ∀ (f : ℝ × ℝ → ℝ), Continuous f → Measurable fun ω => (∑ k : Fin (s * n), f (X k ω)) / ((s * n : ℕ) : ℝ) :=
    fun f hf => (Finset.measurable_sum (f := fun (k : Fin (s * n)) ω => f (X k ω)) Finset.univ fun k _ =>
      hf.measurable.comp (hXm k)).div_const _
  refine ⟨fun ω => ((∑ k : Fin (s * n), (X k ω).1) / ((s * n : ℕ) : ℝ), (∑ k : Fin (s * n), (X k ω).2) / ((s * n : ℕ) : ℝ)),
    (hmm _ continuous_fst).prodMk (hmm _ continuous_snd), ?_, (hmint _ continuous_fst).prodMk (hmint _ continuous_snd), ?_⟩
  · have h2 := C108_poisson_returns P U hU h W hhull hmeas hbox harea intensity size n s i hp pos
    have hae : ∀ᵐ ω ∂P, ω ∈ {ω | ∃ r pos', Returns (fun fuel => poisson h (fun i => U i ω) intensity size fuel pos) (.ok (r, pos'))} := by
      refine (mem_ae_iff_prob_eq_one ?_).2 h2
      have := hUm (returns_measurable hh intensity size pos (B := Set.univ) .univ)
      simp only [Set.mem_univ, and_true] at this
      exact this
    filter_upwards [hae] with ω hω
    obtain ⟨r, pos', hr⟩ := hω
    refine ⟨r, pos', hr, ?_⟩
    have hlen := data_length hp hr
    have hd : r.data = List.ofFn fun k : Fin (s * n) => X k ω := by
      refine List.ext_getElem (by simp [hlen]) fun j h1 h2 => ?_
      simp only [List.getElem_ofFn, hX, drawn_eq hh hr, List.getD_eq_getElem _ _ h1]
    unfold meanCenter
    rw [hlen, hd, List.map_ofFn, List.map_ofFn, List.sum_ofFn, List.sum_ofFn]
    rfl
  · unfold meanPosition
    rw [hmean _ continuous_fst, hmean _ continuous_snd]

theorem region_facts (region : Region ℝ)
    (hregion : (∃ v points, region = .convexHull v ∧ IsHullOf v points) ∨ (∃ ring corners, region = .polygon ring ∧ IsHullOf ring corners)
      ∨ ∃ box : BBox ℝ, region = .bbox box ∧ box.xmin < box.xmax ∧ box.ymin < box.ymax)
    (b : BBox ℝ) (hb : region.bounds = .ok b) : MeasurableSet (pointsOf region)
      ∧ (∀ p ∈ pointsOf region, b.xmin ≤ p.1 ∧ p.1 ≤ b.xmax ∧ b.ymin ≤ p.2 ∧ p.2 ≤ b.ymax) ∧ volume (pointsOf region) ≠ 0
      ∧ ((∀ v, region ≠ .convexHull v) → region.centroid = .ok (meanPosition (pointsOf region))) := by
  rcases hregion with ⟨v, points, rfl, h⟩ | ⟨ring, corners, rfl, h⟩ | ⟨box, rfl, hx, hy⟩
  · obtain ⟨h1, h2, b', hb', hbox⟩ := C187_hull v points h
    rw [hb] at hb'
    injection hb' with hb'
    subst hb'
    have hpos := (C185_geometry v points (hullRing_of_isHullOf h)).choose_spec.2.1
    refine ⟨?_, ?_, ?_, fun hv => absurd rfl (hv v)⟩
    · rw [h1]; exact ((List.finite_toSet points).isCompact_convexHull ℝ).isClosed.measurableSet
    · rw [h1]
      intro p hp
      have : InBox b p := convexHull_min (t := {p | InBox b p}) hbox.1 (convex_inBox b) hp
      obtain ⟨e1, e2, e3, e4⟩ := this
      exact ⟨by assumption, by assumption, by assumption, by assumption⟩
    · intro h0
      rw [h0] at h2
      simp only [ENNReal.toReal_zero] at h2
      exact hpos.ne' h2
  · obtain ⟨h1, h2, -, b', hb', hbox⟩ := C187_polygon ring corners h
    rw [hb] at hb'
    injection hb' with hb'
    subst hb'
    have hpos := (C185_geometry ring corners (hullRing_of_isHullOf h)).choose_spec.2.1
    refine ⟨?_, ?_, ?_, fun _ => (C190_mean_partial.1 ring corners h).1⟩
    · rw [h1]; exact isOpen_interior.measurableSet
    · rw [h1]
      intro p hp
      have : InBox b p := convexHull_min (t := {p | InBox b p}) hbox.1 (convex_inBox b) (interior_subset hp)
      obtain ⟨e1, e2, e3, e4⟩ := this
      exact ⟨by assumption, by assumption, by assumption, by assumption⟩
    · intro h0
      rw [h0] at h2
      simp only [ENNReal.toReal_zero] at h2
      exact hpos.ne' h2
  · obtain ⟨h1, h2, hb'⟩ := C187_box box hx.le hy.le
    rw [hb] at hb'
    injection hb' with hb'
    subst hb'
    refine ⟨?_, ?_, ?_, fun _ => C190_mean_partial.2 b hx hy⟩
    · rw [h1]
      have : {p : ℝ × ℝ | InBox b p} = Set.Icc b.xmin b.xmax ×ˢ Set.Icc b.ymin b.ymax := by
        ext p
        simp only [Set.mem_ofPred_eq, InBox, Set.mem_prod, Set.mem_Icc]
        tauto
      rw [this]
      exact measurableSet_Icc.prod measurableSet_Icc
    · rw [h1]
      rintro p ⟨e1, e2, e3, e4⟩
      exact ⟨by assumption, by assumption, by assumption, by assumption⟩
    · intro h0
      rw [h0, (C114_rectangle_partial b hx hy).1 (.bbox b) (by simp) |>.1] at h2
      simp only [ENNReal.toReal_zero] at h2
      exact (mul_pos (sub_pos.2 hx) (sub_pos.2 hy)).ne' h2

/-- **C191.** Let `poisson` draw at least one point from a bounding box, a `ConvexHull` or a convex polygon, with independent draws that
are uniform on `[0, 1)`. It returns with probability one, and the expectation of `mean_center` of the points is the mean position of the
points of the region. For boxes and polygons that is `centroid(region)`. -/
theorem C191_expectation {Ω : Type} [MeasurableSpace Ω] (P : Measure Ω) [IsProbabilityMeasure P] (U : ℕ → Ω → ℝ)
    (hU : IndependentDraws P U ((volume : Measure ℝ).restrict (Set.Ico 0 1))) (region : Region ℝ)
    (hregion : (∃ v points, region = .convexHull v ∧ IsHullOf v points) ∨ (∃ ring corners, region = .polygon ring ∧ IsHullOf ring corners)
      ∨ ∃ box : BBox ℝ, region = .bbox box ∧ box.xmin < box.xmax ∧ box.ymin < box.ymax)
    (b : BBox ℝ) (hb : region.bounds = .ok b) (intensity : Option ℝ) (size : SizeArg) (n s : ℕ) (i : XF ℝ)
    (hp : parseSizeAndIntensity (region.toHull b) intensity size = .ok (n, s, i)) (hn : 0 < n) (hs : 0 < s) (pos : ℕ) :
    ∃ M : Ω → ℝ × ℝ, Measurable M
      ∧ (∀ᵐ ω ∂P, ∃ r pos', Returns (fun fuel => poisson (region.toHull b) (fun i => U i ω) intensity size fuel pos) (.ok (r, pos'))
          ∧ meanCenter r.data = M ω)
      ∧ Integrable M P ∧ (∫ ω, (M ω).1 ∂P, ∫ ω, (M ω).2 ∂P) = meanPosition (pointsOf region)
      ∧ ((∀ v, region ≠ .convexHull v) → region.centroid = .ok (∫ ω, (M ω).1 ∂P, ∫ ω, (M ω).2 ∂P)) := by
  obtain ⟨h1, h2, h3, h4⟩ := region_facts region hregion b hb
  obtain ⟨M, m1, m2, m3, m4⟩ := mean_of_draws P U hU (region.toHull b) (pointsOf region) (fun _ _ => Iff.rfl) h1 h2 h3 intensity size n s i
    hp hn hs pos
  exact ⟨M, m1, m2, m3, m4, fun hv => by rw [m4]; exact h4 hv⟩

/-- **C191, complete randomness.** The points that `poisson` draws from a bounding box, a `ConvexHull` or a convex polygon are completely
random events in the region: independent and uniform. -/
theorem C191_completely_random {Ω : Type} [MeasurableSpace Ω] (P : Measure Ω) [IsProbabilityMeasure P] (U : ℕ → Ω → ℝ)
    (hU : IndependentDraws P U ((volume : Measure ℝ).restrict (Set.Ico 0 1))) (region : Region ℝ)
    (hregion : (∃ v points, region = .convexHull v ∧ IsHullOf v points) ∨ (∃ ring corners, region = .polygon ring ∧ IsHullOf ring corners)
      ∨ ∃ box : BBox ℝ, region = .bbox box ∧ box.xmin < box.xmax ∧ box.ymin < box.ymax)
    (b : BBox ℝ) (hb : region.bounds = .ok b) (intensity : Option ℝ) (size : SizeArg) (n s : ℕ) (i : XF ℝ)
    (hp : parseSizeAndIntensity (region.toHull b) intensity size = .ok (n, s, i)) (pos : ℕ) :
    ∃ X : Fin (s * n) → Ω → ℝ × ℝ, CompletelyRandom P X (pointsOf region)
      ∧ ∀ᵐ ω ∂P, ∃ r pos', Returns (fun fuel => poisson (region.toHull b) (fun i => U i ω) intensity size fuel pos) (.ok (r, pos'))
          ∧ r.data = List.ofFn fun k => X k ω := by
  obtain ⟨hmeas, hbox, harea, -⟩ := region_facts region hregion b hb
  have hhull : ∀ x y, (region.toHull b).contains x y = true ↔ (x, y) ∈ pointsOf region := fun _ _ => Iff.rfl
  have hh : MeasurableHull (region.toHull b) := hmeas
  have hcompact : IsCompact (Set.Icc b.xmin b.xmax ×ˢ Set.Icc b.ymin b.ymax) := isCompact_Icc.prod isCompact_Icc
  have hsub : pointsOf region ⊆ Set.Icc b.xmin b.xmax ×ˢ Set.Icc b.ymin b.ymax := by
    intro p hp
    obtain ⟨h1, h2, h3, h4⟩ := hbox p hp
    exact ⟨⟨h1, h2⟩, ⟨h3, h4⟩⟩
  have hfin : volume (pointsOf region) ≠ ⊤ := ne_top_of_le_ne_top hcompact.measure_lt_top.ne (measure_mono hsub)
  have hprob := uniformLaw_prob harea hfin
  have hUm : Measurable fun ω i => U i ω := measurable_pi_lambda _ hU.measurable
  set X : Fin (s * n) → Ω → ℝ × ℝ := fun k ω => (drawn (region.toHull b) intensity size pos fun i => U i ω).getD k default with hX
  have hXm : ∀ k, Measurable (X k) := fun k => (measurable_getD k.1).comp ((drawn_measurable hh intensity size pos).comp hUm)
  have hjoint : (Measure.pi fun _ : Fin (s * n) => uniformLaw (pointsOf region)) = P.map fun ω k => X k ω := by
    refine Measure.pi_eq fun A hA => ?_
    rw [Measure.map_apply (measurable_pi_lambda _ hXm) (MeasurableSet.univ_pi hA), ← drawn_law hU hhull hmeas hbox harea hp pos A hA]
    congr 1
    ext ω
    simp [Set.mem_pi]
  have hlaw : ∀ k, P.map (X k) = uniformLaw (pointsOf region) := by
    intro k
    have h1 := (measurePreserving_eval (fun _ : Fin (s * n) => uniformLaw (pointsOf region)) k).map_eq
    rw [hjoint, Measure.map_map (measurable_pi_apply k) (measurable_pi_lambda _ hXm)] at h1
    exact h1
  refine ⟨X, ⟨hXm, ?_, ?_⟩, ?_⟩
  · rw [iIndepFun_iff_map_fun_eq_pi_map fun k => (hXm k).aemeasurable, ← hjoint]
    congr 1
    funext k
    exact (hlaw k).symm
  · intro k a ha
    rw [← uniformLaw_apply _ ha, ← hlaw k, Measure.map_apply (hXm k) ha]
    rfl
  · have h2 := C108_poisson_returns P U hU (region.toHull b) _ hhull hmeas hbox harea intensity size n s i hp pos
    have hae : ∀ᵐ ω ∂P, ω ∈ {ω | ∃ r pos', Returns (fun fuel => poisson (region.toHull b) (fun i => U i ω) intensity size fuel pos)
        (.ok (r, pos'))} := by
      refine (mem_ae_iff_prob_eq_one ?_).2 h2
      have := hUm (returns_measurable hh intensity size pos (B := Set.univ) .univ)
      simp only [Set.mem_univ, and_true] at this
      exact this
    filter_upwards [hae] with ω hω
    obtain ⟨r, pos', hr⟩ := hω
    refine ⟨r, pos', hr, ?_⟩
    have hlen := data_length hp hr
    refine List.ext_getElem (by simp [hlen]) fun j h1 h2 => ?_
    simp only [List.getElem_ofFn, hX, drawn_eq hh hr, List.getD_eq_getElem _ _ h1]

/-- The hypotheses are met by three points in the trapezium of `C190_hull_refuted`. -/
example : ∃ (P : Measure (ℕ → ℝ)) (_ : IsProbabilityMeasure P) (b : BBox ℝ),
    IndependentDraws P (fun i ω => ω i) ((volume : Measure ℝ).restrict (Set.Ico 0 1)) ∧
    (Region.polygon [((0 : ℝ), (0 : ℝ)), (4, 0), (2, 2), (0, 2)]).bounds = .ok b ∧
    ∃ i, parseSizeAndIntensity ((Region.polygon [((0 : ℝ), (0 : ℝ)), (4, 0), (2, 2), (0, 2)]).toHull b) none (.int 3)
      = .ok ((3 : ℕ), (1 : ℕ), i) := by
  obtain ⟨P, hP, hU⟩ := uniformDraws_exist
  refine ⟨P, hP, _, hU, rfl, .fin (3 / 6), ?_⟩
  have ha : (Region.polygon [((0 : ℝ), (0 : ℝ)), (4, 0), (2, 2), (0, 2)]).area = 6 := by
    norm_num [Region.area, ringAreaAbs, edges, cross]
  simp [parseSizeAndIntensity, divArea, Region.toHull, ha, XF.div]

end Pointpats.Props
