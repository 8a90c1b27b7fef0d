import Verif.Props.SimulatedWindow
import Verif.Lemmas.PairLaw

/-!
# How far a simulated point is from the others (C197)
-/

set_option linter.unusedSectionVars false

namespace Pointpats.Props

open Random Spec Geometry Csr MeasureTheory ProbabilityTheory PairLaw

section Isolated

variable {Ω : Type} [MeasurableSpace Ω] {P : Measure Ω} [IsProbabilityMeasure P] {W : Set (ℝ × ℝ)}

private theorem isolated_ge {m : ℕ} {X : Fin (m + 1) → Ω → ℝ × ℝ} (hX : CompletelyRandom P X W) {A : ℝ} (hA : 0 < A)
    (hvol : volume W = ENNReal.ofReal A) {d : ℝ} (hd : 0 ≤ d) (hle : Real.pi * d ^ 2 ≤ A) (i : Fin (m + 1)) :
    MeasurableSet {ω | ∀ j, j ≠ i → d ≤ planeDist (X i ω) (X j ω)}
    ∧ (1 - Real.pi * d ^ 2 / A) ^ m ≤ P.real {ω | ∀ j, j ≠ i → d ≤ planeDist (X i ω) (X j ω)} := by
  have hlaw : ∀ i, P.map (X i) = uniformLaw W := by
    intro i
    ext a ha
    rw [Measure.map_apply (hX.measurable i) ha, uniformLaw_apply W ha, ← hX.uniform i a ha]
    rfl
  have hprob : IsProbabilityMeasure (uniformLaw W) := by
    rw [← hlaw i]
    exact Measure.isProbabilityMeasure_map (hX.measurable i).aemeasurable
  have hXm : Measurable fun ω j => X j ω := measurable_pi_lambda _ hX.measurable
  have hjoint : P.map (fun ω j => X j ω) = Measure.pi fun _ : Fin (m + 1) => uniformLaw W := by
    rw [(iIndepFun_iff_map_fun_eq_pi_map fun k => (hX.measurable k).aemeasurable).1 hX.independent]
    congr 1
    funext k
    exact hlaw k
  set S : Set ((ℝ × ℝ) × (Fin m → ℝ × ℝ)) := {q | ∀ j, d ≤ planeDist q.1 (q.2 j)} with hS
  have hSm : MeasurableSet S := by
    have : S = ⋂ j, {q : (ℝ × ℝ) × (Fin m → ℝ × ℝ) | d ≤ planeDist q.1 (q.2 j)} := by
      ext q; simp [hS]
    rw [this]
    refine MeasurableSet.iInter fun j => measurableSet_le measurable_const ?_
    exact planeDist_measurable.comp (measurable_fst.prodMk ((measurable_pi_apply j).comp measurable_snd))
  have hpre := measurePreserving_piFinSuccAbove (fun _ : Fin (m + 1) => uniformLaw W) i
  have hev : {ω | ∀ j, j ≠ i → d ≤ planeDist (X i ω) (X j ω)}
      = (fun ω j => X j ω) ⁻¹' ((MeasurableEquiv.piFinSuccAbove (fun _ : Fin (m + 1) => ℝ × ℝ) i) ⁻¹' S) := by
    ext ω
    simp only [Set.mem_ofPred_eq, Set.mem_preimage, hS, MeasurableEquiv.piFinSuccAbove_apply]
    constructor
    · intro h j
      exact h _ (Fin.succAbove_ne i j)
    · intro h j hj
      obtain ⟨k, rfl⟩ := Fin.exists_succAbove_eq hj
      exact h k
  have hmeas : MeasurableSet {ω | ∀ j, j ≠ i → d ≤ planeDist (X i ω) (X j ω)} := by
    rw [hev]
    exact hXm (hpre.measurable hSm)
  refine ⟨hmeas, ?_⟩
  have hP : P {ω | ∀ j, j ≠ i → d ≤ planeDist (X i ω) (X j ω)}
      = ((uniformLaw W).prod (Measure.pi fun _ : Fin m => uniformLaw W)) S := by
    rw [hev, ← Measure.map_apply hXm (hpre.measurable hSm), hjoint, hpre.measure_preimage hSm.nullMeasurableSet]
  have hone : ∀ x, ENNReal.ofReal (1 - Real.pi * d ^ 2 / A) ≤ uniformLaw W {q | d ≤ planeDist x q} := by
    intro x
    have hm : MeasurableSet {q | planeDist x q < d} :=
      measurableSet_lt (planeDist_measurable.comp (measurable_const.prodMk measurable_id)) measurable_const
    have hc : {q | d ≤ planeDist x q} = {q | planeDist x q < d}ᶜ := by
      ext q; simp
    have hu : uniformLaw W {q | planeDist x q < d} ≤ ENNReal.ofReal (Real.pi * d ^ 2 / A) := by
      rw [uniformLaw_apply W hm, hvol, ENNReal.ofReal_div_of_pos hA, ← volume_disc x hd]
      exact ENNReal.div_le_div_right (measure_mono Set.inter_subset_left) _
    rw [hc, prob_compl_eq_one_sub hm, ENNReal.ofReal_sub _ (by positivity), ENNReal.ofReal_one]
    exact tsub_le_tsub_left hu 1
  have hnn : 0 ≤ 1 - Real.pi * d ^ 2 / A := by rw [sub_nonneg, div_le_one hA]; exact hle
  have hbig : ENNReal.ofReal ((1 - Real.pi * d ^ 2 / A) ^ m) ≤ P {ω | ∀ j, j ≠ i → d ≤ planeDist (X i ω) (X j ω)} := by
    rw [hP, Measure.prod_apply hSm]
    calc ENNReal.ofReal ((1 - Real.pi * d ^ 2 / A) ^ m)
        = ∫⁻ _, ENNReal.ofReal ((1 - Real.pi * d ^ 2 / A) ^ m) ∂uniformLaw W := by rw [lintegral_const, measure_univ, mul_one]
      _ ≤ _ := by
        refine lintegral_mono fun x => ?_
        have : Prod.mk x ⁻¹' S = Set.univ.pi fun _ : Fin m => {q | d ≤ planeDist x q} := by
          ext y; simp [hS, Set.mem_pi]
        simp only [this]
        rw [Measure.pi_pi, Finset.prod_const, Finset.card_univ, Fintype.card_fin, ENNReal.ofReal_pow hnn]
        exact pow_le_pow_left' (hone x) m
  rw [measureReal_def, ← ENNReal.toReal_ofReal (pow_nonneg hnn m)]
  exact ENNReal.toReal_mono (measure_ne_top _ _) hbig

end Isolated

/-- **C197.** Let `poisson` draw `N` points from a region, with independent draws that are uniform on `[0, 1)`, and let `d` be a distance
with `π d² ≤ area(region)`. With probability one it returns. For each of the points, the probability that all other points are `d` or more
away from it is at least `(1 - π d² / area(region)) ^ (N - 1)`. -/
theorem C197_isolated {Ω : Type} [MeasurableSpace Ω] (P : Measure Ω) [IsProbabilityMeasure P] (U : ℕ → Ω → ℝ)
    (hU : IndependentDraws P U ((volume : Measure ℝ).restrict (Set.Ico 0 1))) (region : Region ℝ)
    (hregion : IsConvexRegion region) (b : BBox ℝ) (hb : region.bounds = .ok b) (intensity : Option ℝ) (size : SizeArg) (n s : ℕ) (i : XF ℝ)
    (hp : parseSizeAndIntensity (region.toHull b) intensity size = .ok (n, s, i)) (pos : ℕ) (d : ℝ) (hd : 0 ≤ d)
    (hle : Real.pi * d ^ 2 ≤ region.area) (k : ℕ) (hk : k < s * n) :
    ∃ far : Set Ω, MeasurableSet far
      ∧ (∀ᵐ ω ∂P, ∃ r pos', Returns (fun fuel => poisson (region.toHull b) (fun i => U i ω) intensity size fuel pos) (.ok (r, pos'))
          ∧ r.data.length = s * n
          ∧ (ω ∈ far ↔ ∀ p, r.data[k]? = some p → ∀ j q, j ≠ k → r.data[j]? = some q →
              d ≤ Real.sqrt ((p.1 - q.1) ^ 2 + (p.2 - q.2) ^ 2)))
      ∧ (1 - Real.pi * d ^ 2 / region.area) ^ (s * n - 1) ≤ P.real far := by
  obtain ⟨X, hX, hret⟩ := C191_completely_random P U hU region hregion b hb intensity size n s i hp pos
  have harea := (convexRegion_facts hregion hb).2.1
  obtain ⟨-, hbox, h0, -⟩ := region_facts region hregion b hb
  have hfin : volume (pointsOf region) ≠ ⊤ := by
    have hcompact : IsCompact (Set.Icc b.xmin b.xmax ×ˢ Set.Icc b.ymin b.ymax) := isCompact_Icc.prod isCompact_Icc
    refine ne_top_of_le_ne_top hcompact.measure_lt_top.ne (measure_mono fun q hq => ?_)
    obtain ⟨e1, e2, e3, e4⟩ := hbox q hq
    exact ⟨⟨e1, e2⟩, ⟨e3, e4⟩⟩
  have hpos : 0 < region.area := by rw [harea]; exact ENNReal.toReal_pos h0 hfin
  have hvol : volume (pointsOf region) = ENNReal.ofReal region.area := by rw [harea, ENNReal.ofReal_toReal hfin]
  generalize hN : s * n = N at X hX hret hk ⊢
  obtain ⟨m, rfl⟩ : ∃ m, N = m + 1 := ⟨N - 1, by omega⟩
  obtain ⟨h1, h2⟩ := isolated_ge hX hpos hvol hd hle ⟨k, hk⟩
  refine ⟨_, h1, ?_, h2⟩
  filter_upwards [hret] with ω hω
  obtain ⟨r, pos', hr, hdata⟩ := hω
  refine ⟨r, pos', hr, by rw [hdata, List.length_ofFn], ?_⟩
  rw [hdata]
  have hget : ∀ j q, (List.ofFn fun k => X k ω)[j]? = some q ↔ ∃ h : j < m + 1, X ⟨j, h⟩ ω = q := by
    intro j q
    rw [List.getElem?_eq_some_iff]
    simp only [List.getElem_ofFn, List.length_ofFn]
  simp only [hget]
  constructor
  · rintro h p ⟨_, rfl⟩ j q hj ⟨hj', rfl⟩
    exact h ⟨j, hj'⟩ fun hc => hj (congrArg Fin.val hc)
  · intro h j hj
    exact h _ ⟨hk, rfl⟩ j _ (fun hc => hj (Fin.ext hc)) ⟨j.2, rfl⟩

/-- The hypotheses are met by ten points in the unit square at the distance one half; the bound is then `(1 - π / 4) ^ 9`. -/
example : ∃ (P : Measure (ℕ → ℝ)) (_ : IsProbabilityMeasure P), IndependentDraws P (fun i ω => ω i) ((volume : Measure ℝ).restrict (Set.Ico 0 1))
    ∧ IsConvexRegion (.bbox ⟨0, 0, 1, 1⟩) ∧ (Region.bbox ⟨(0 : ℝ), 0, 1, 1⟩).bounds = .ok ⟨0, 0, 1, 1⟩
    ∧ (∃ i, parseSizeAndIntensity ((Region.bbox ⟨(0 : ℝ), 0, 1, 1⟩).toHull ⟨0, 0, 1, 1⟩) none (.int 10) = .ok (10, (1 : ℕ), i))
    ∧ Real.pi * (1 / 2 : ℝ) ^ 2 ≤ (Region.bbox ⟨(0 : ℝ), 0, 1, 1⟩).area := by
  obtain ⟨P, hP, hU⟩ := uniformDraws_exist
  have ha : (Region.bbox ⟨(0 : ℝ), 0, 1, 1⟩).area = 1 := by norm_num [Region.area, areaBBox]
  refine ⟨P, hP, hU, .inr (.inr ⟨_, rfl, by norm_num, by norm_num⟩), rfl, ⟨.fin 10, ?_⟩, ?_⟩
  · simp [parseSizeAndIntensity, divArea, Region.toHull, ha, XF.div]
  · rw [ha]
    linarith [Real.pi_le_four]

end Pointpats.Props
