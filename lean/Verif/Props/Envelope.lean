import Verif.Props.RipleyCsr

/-!
# C176: the curve and the band of the simulated curves
-/

set_option linter.unusedSectionVars false

namespace Pointpats.Props

open DistStats Geometry Random Spec MeasureTheory ProbabilityTheory MeasurableRun MeasurableCurves Csr FuelMono

/-- The value `x` at place `i` is outside the band of the simulated curves: above all of them, or below all of them. -/
def OutsideBand (sims : List (List (XF ℝ))) (i : ℕ) (x : ℝ) : Prop :=
  (∀ c ∈ sims, ∃ y, c[i]? = some (.fin y) ∧ y < x) ∨ ∀ c ∈ sims, ∃ y, c[i]? = some (.fin y) ∧ x < y

private theorem union_bound {Ω : Type} [MeasurableSpace Ω] (P : Measure Ω) [IsProbabilityMeasure P] {S : Set Ω} (A B : ℕ → Set Ω)
    (N : ℕ) {a : ℝ} (hA : ∀ i, P.real (A i) ≤ a) (hB : ∀ i, P.real (B i) ≤ a) (h : ∀ ω ∈ S, ∃ i < N, ω ∈ A i ∨ ω ∈ B i) :
    P.real S ≤ 2 * N * a := by
  have h1 : S ⊆ ⋃ i ∈ Finset.range N, (A i ∪ B i) := by
    intro ω hω
    obtain ⟨i, hi, hw⟩ := h ω hω
    simp only [Set.mem_iUnion]
    exact ⟨i, Finset.mem_range.2 hi, hw⟩
  refine le_trans (measureReal_mono h1 (measure_ne_top _ _)) (le_trans (measureReal_biUnion_finset_le _ _) ?_)
  refine le_trans (Finset.sum_le_sum fun i _ => le_trans (measureReal_union_le _ _) (add_le_add (hA i) (hB i))) (le_of_eq ?_)
  rw [Finset.sum_const, Finset.card_range, nsmul_eq_mul]
  ring

/-- **C176.** For completely random events, the probability that the curve that `g_test`, `k_test` or `l_test` reports leaves the band
of its `R` simulated curves at one or more of the first `N` distances is at most `2N / (R + 1)`. -/
theorem C176_band {Ω : Type} [MeasurableSpace Ω] (P : Measure Ω) [IsProbabilityMeasure P]
    (gen : ℕ → ℕ → Ω → ℝ) (hgen : IndependentGenerators P gen ((volume : Measure ℝ).restrict (Set.Ico 0 1)))
    (lib : Lib ℝ) (hc : lib.Correct) (num : Num ℝ) (hroot : Measurable num.root) (call : Call)
    (hcall : call = .G ∨ call = .K ∨ ∃ lin, call = .L lin) (m : Metric)
    (hm : Measurable fun p : (ℝ × ℝ) × (ℝ × ℝ) => lib.pdist m p.1 p.2)
    (hullArg : HullArg ℝ) (hhull : GivenHull hullArg) (W : Set (ℝ × ℝ))
    (hW : ∀ x y, (lib.hullOf (.given hullArg)).contains x y = true ↔ (x, y) ∈ W) (hmeas : MeasurableSet W)
    (hbox : ∀ p ∈ W, (lib.hullOf (.given hullArg)).bbox.xmin ≤ p.1 ∧ p.1 ≤ (lib.hullOf (.given hullArg)).bbox.xmax
      ∧ (lib.hullOf (.given hullArg)).bbox.ymin ≤ p.2 ∧ p.2 ≤ (lib.hullOf (.given hullArg)).bbox.ymax)
    (harea : volume W ≠ 0)
    {n : ℕ} (hn : 2 ≤ n) (X : Fin n → Ω → ℝ × ℝ) (hX : CompletelyRandom P X W)
    (hXU : IndepFun (fun ω i => X i ω) (fun ω j k => gen j k ω) P)
    (support : SupportArg ℝ) (hsupport : GivenDistances support) (edge : Bool) (R : ℕ) (hR : 0 < R) (u : ℕ → ℝ) (N : ℕ) :
    P.real {ω | ∃ r pos' sims, Returns (fun fuel => ripleyTest lib num call u (fun j k => gen j k ω) (List.ofFn fun i => X i ω)
        support .none (.metric m) hullArg edge true R fuel) (.ok (r, pos'))
      ∧ r.simulations = some sims ∧ ∃ i < N, ∃ x, r.statistic[i]? = some (.fin x) ∧ OutsideBand sims i x}
      ≤ 2 * N / ((R : ℝ) + 1) := by
  have hα : (0 : ℚ) ≤ 1 / ((R : ℚ) + 1) := by positivity
  have high := fun i => C151_high P gen hgen lib hc num hroot call hcall m hm hullArg hhull W hW hmeas hbox harea hn X hX hXU support
    hsupport edge R hR u i _ hα
  have low := fun i => C151_low P gen hgen lib hc num hroot call hcall m hm hullArg hhull W hW hmeas hbox harea hn X hX hXU support
    hsupport edge R hR u i _ hα
  have hcast : (((1 / ((R : ℚ) + 1) : ℚ)) : ℝ) = 1 / ((R : ℝ) + 1) := by push_cast; rfl
  have e : (2 * N / ((R : ℝ) + 1) : ℝ) = 2 * N * ((1 / ((R : ℚ) + 1) : ℚ) : ℝ) := by rw [hcast]; ring
  rw [e]
  refine union_bound P _ _ N high low ?_
  rintro ω ⟨r, pos', sims, hr, hs, i, hi, x, hx, hout⟩
  refine ⟨i, hi, ?_⟩
  rcases hout with hout | hout
  · left
    have h0 : curvesAtLeast sims i (.fin x) = 0 := by
      unfold curvesAtLeast
      rw [List.length_eq_zero_iff, List.filter_eq_nil_iff]
      intro c hcm
      obtain ⟨y, hy, hlt⟩ := hout c hcm
      rw [List.getD_eq_getElem?_getD, hy]
      simpa [XF.ge] using hlt
    refine ⟨r, pos', sims, x, hr, hs, hx, ?_⟩
    rw [h0]
    push_cast
    simp
  · right
    have h0 : curvesAtMost sims i (.fin x) = 0 := by
      unfold curvesAtMost
      rw [List.length_eq_zero_iff, List.filter_eq_nil_iff]
      intro c hcm
      obtain ⟨y, hy, hlt⟩ := hout c hcm
      rw [List.getD_eq_getElem?_getD, hy]
      simpa [XF.ge] using hlt
    refine ⟨r, pos', sims, x, hr, hs, hx, ?_⟩
    rw [h0]
    push_cast
    simp

/-- Non-vacuity: fifty events in a box, four distances, 199 simulations. The curve leaves
the band with probability at most 1/25. -/
example : ∃ P : Measure ((Fin 50 → ℝ × ℝ) × (ℕ → ℕ → ℝ)), IsProbabilityMeasure P
    ∧ P.real {ω | ∃ r pos' sims, Returns (fun fuel => ripleyTest realSortLib ⟨fun _ _ => true, fun _ _ _ => .ok [], Real.sqrt, Real.pi⟩
          (.L true) (fun _ => 0) (fun j k => ω.2 j k) (List.ofFn fun i => ω.1 i) (.array [0, 1 / 8, 1 / 4, 1 / 2]) .none
          (.metric (.name "euclidean")) (.ndarray [4] [0, 0, 2, 1]) false true 199 fuel) (.ok (r, pos'))
        ∧ r.simulations = some sims ∧ ∃ i < 4, ∃ x, r.statistic[i]? = some (.fin x) ∧ OutsideBand sims i x} ≤ 1 / 25 := by
  have hW : ∀ x y : ℝ, (realSortLib.hullOf (.given (.ndarray [4] [0, 0, 2, 1]))).contains x y = true
      ↔ (x, y) ∈ (Set.Icc 0 2 ×ˢ Set.Icc 0 1 : Set (ℝ × ℝ)) := by
    intro x y
    simp [Lib.hullOf, Hull.ofBBox, containsBBox]
    tauto
  have hb : ∀ p ∈ (Set.Icc 0 2 ×ˢ Set.Icc 0 1 : Set (ℝ × ℝ)),
      (realSortLib.hullOf (.given (.ndarray [4] [0, 0, 2, 1]))).bbox.xmin ≤ p.1
      ∧ p.1 ≤ (realSortLib.hullOf (.given (.ndarray [4] [0, 0, 2, 1]))).bbox.xmax
      ∧ (realSortLib.hullOf (.given (.ndarray [4] [0, 0, 2, 1]))).bbox.ymin ≤ p.2
      ∧ p.2 ≤ (realSortLib.hullOf (.given (.ndarray [4] [0, 0, 2, 1]))).bbox.ymax := by
    rintro p ⟨⟨h1, h2⟩, ⟨h3, h4⟩⟩
    exact ⟨h1, h2, h3, h4⟩
  have hv : volume (Set.Icc 0 2 ×ˢ Set.Icc 0 1 : Set (ℝ × ℝ)) = ENNReal.ofReal 2 * ENNReal.ofReal 1 := by
    rw [Measure.volume_eq_prod, Measure.prod_prod, Real.volume_Icc, Real.volume_Icc]
    norm_num
  have h0 : volume (Set.Icc 0 2 ×ˢ Set.Icc 0 1 : Set (ℝ × ℝ)) ≠ 0 := by
    rw [hv]; norm_num
  have h1 : volume (Set.Icc 0 2 ×ˢ Set.Icc 0 1 : Set (ℝ × ℝ)) ≠ ⊤ := by
    rw [hv]; exact ENNReal.mul_ne_top ENNReal.ofReal_ne_top ENNReal.ofReal_ne_top
  have hmeas : MeasurableSet (Set.Icc 0 2 ×ˢ Set.Icc 0 1 : Set (ℝ × ℝ)) := measurableSet_Icc.prod measurableSet_Icc
  obtain ⟨P, hP, hX, hU, hXU⟩ := independentGenerators_exist 50 h0 h1
  refine ⟨P, hP, le_trans (C176_band P _ hU realSortLib realSortLib_correct
      ⟨fun _ _ => true, fun _ _ _ => .ok [], Real.sqrt, Real.pi⟩ Real.continuous_sqrt.measurable (.L true) (Or.inr (Or.inr ⟨_, rfl⟩))
      (.name "euclidean") ?_ (.ndarray [4] [0, 0, 2, 1]) rfl _ hW hmeas hb h0 (by omega) _ hX hXU (.array [0, 1 / 8, 1 / 4, 1 / 2])
      trivial false 199 (by omega) (fun _ => 0) 4) (by norm_num)⟩
  change Measurable fun p : (ℝ × ℝ) × (ℝ × ℝ) => |p.1.1 - p.2.1| + |p.1.2 - p.2.2|
  fun_prop

end Pointpats.Props
