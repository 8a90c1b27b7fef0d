import Verif.Props.Centers
import Verif.Props.Median
import Verif.Props.Ellipse
import Verif.Spec.Similarity
import Verif.Props.Regions
import Mathlib.Data.Rat.Floor
import Mathlib.Data.List.GetD

/-!
# C125: the centrographic measures of rotated, reflected, shifted, rescaled and reordered events
-/

namespace Pointpats.Props

set_option linter.unusedSectionVars false

open Centrography Spec

theorem IsSimilarity.sqDist {r : ℝ} {f : ℝ × ℝ → ℝ × ℝ} (hf : IsSimilarity r f) (p q : ℝ × ℝ) :
    sqDist (f p) (f q) = r ^ 2 * sqDist p q := by
  have hn : ∀ p q : ℝ × ℝ, 0 ≤ Spec.sqDist p q := fun p q => by unfold Spec.sqDist; positivity
  have h := congrArg (· ^ 2) (hf.dist p q)
  simp only [eucl, mul_pow, Real.sq_sqrt (hn _ _)] at h
  exact h

theorem sumSq_similar {r : ℝ} {f : ℝ × ℝ → ℝ × ℝ} (hf : IsSimilarity r f) (points : List (ℝ × ℝ)) (q : ℝ × ℝ) :
    sumSq (points.map f) (f q) = r ^ 2 * sumSq points q := by
  simp only [sumSq, List.map_map, Function.comp_def, IsSimilarity.sqDist hf, List.sum_map_mul_left]

/-- **C125, the mean center** moves with the events. -/
theorem C125_mean_center {r : ℝ} {f : ℝ × ℝ → ℝ × ℝ} (hf : IsSimilarity r f) (points : List (ℝ × ℝ)) (hne : points ≠ []) :
    meanCenter (points.map f) = f (meanCenter points) := by
  by_contra hc
  obtain ⟨q, hq⟩ := hf.onto (meanCenter (points.map f))
  have hne' : points.map f ≠ [] := by simpa using hne
  have h1 := (C24_mean_center (points.map f) hne').2.2.2 (f (meanCenter points)) (fun h => hc h.symm)
  rw [← hq, sumSq_similar hf, sumSq_similar hf] at h1
  have hr : 0 < r ^ 2 := pow_pos hf.pos 2
  have h2 : sumSq points q < sumSq points (meanCenter points) := lt_of_mul_lt_mul_left h1 hr.le
  by_cases hqm : q = meanCenter points
  · rw [hqm] at h2; exact lt_irrefl _ h2
  · exact lt_asymm h2 ((C24_mean_center points hne).2.2.2 q hqm)

/-- **C125, the weighted mean center** moves with the events. -/
theorem C125_weighted_mean_center {r : ℝ} {f : ℝ × ℝ → ℝ × ℝ} (hf : IsSimilarity r f) (points : List (ℝ × ℝ))
    (hne : points ≠ []) (weights : List ℝ) (hlen : weights.length = points.length) (hpos : ∀ w ∈ weights, 0 < w) :
    ∃ m, weightedMeanCenter points weights = .ok m ∧ weightedMeanCenter (points.map f) weights = .ok (f m) := by
  obtain ⟨m, hm, -, -, hmin⟩ := C25_weighted_mean_center points hne weights hlen hpos
  have hne' : points.map f ≠ [] := by simpa using hne
  obtain ⟨m', hm', -, -, hmin'⟩ := C25_weighted_mean_center (points.map f) hne' weights (by simpa using hlen) hpos
  refine ⟨m, hm, ?_⟩
  rw [hm']
  congr 1
  have hs : ∀ q, wSumSq (weights.zip (points.map f)) (f q) = r ^ 2 * wSumSq (weights.zip points) q := by
    intro q
    rw [List.zip_map_right]
    simp only [wSumSq, List.map_map, Function.comp_def, Prod.map, id_eq, IsSimilarity.sqDist hf]
    rw [← List.sum_map_mul_left]
    congr 1
    apply List.map_congr_left
    intro a _
    ring
  by_contra hc
  obtain ⟨q, hq⟩ := hf.onto m'
  have h1 := hmin' (f m) (fun h => hc h.symm)
  rw [← hq, hs, hs] at h1
  have hr : 0 < r ^ 2 := pow_pos hf.pos 2
  have h2 := lt_of_mul_lt_mul_left h1 hr.le
  by_cases hqm : q = m
  · rw [hqm] at h2; exact lt_irrefl _ h2
  · exact lt_asymm h2 (hmin q hqm)

/-- **C125, the standard distance** is a distance: it is multiplied by the factor of the distances. -/
theorem C125_std_distance {r : ℝ} {f : ℝ × ℝ → ℝ × ℝ} (hf : IsSimilarity r f) (points : List (ℝ × ℝ)) (hne : points ≠ []) :
    stdDistance (points.map f) = r * stdDistance points := by
  have hne' : points.map f ≠ [] := by simpa using hne
  obtain ⟨h0, h1, -⟩ := C27_std_distance points hne
  obtain ⟨h0', h1', -⟩ := C27_std_distance (points.map f) hne'
  rw [C125_mean_center hf points hne, sumSq_similar hf, List.length_map, mul_div_assoc, ← h1, ← mul_pow] at h1'
  exact (sq_eq_sq₀ h0' (mul_nonneg hf.pos.le h0)).1 h1'

/-- **C125, the total distance** is multiplied by the factor of the distances. -/
theorem C125_dtot {r : ℝ} {f : ℝ × ℝ → ℝ × ℝ} (hf : IsSimilarity r f) (c : ℝ × ℝ) (points : List (ℝ × ℝ)) :
    dtot (f c) (points.map f) = r * dtot c points := by
  rw [(C30_dtot (points.map f) (f c)).1, (C30_dtot points c).1]
  simp only [sumEucl, List.map_map, Function.comp_def, hf.dist, List.sum_map_mul_left]

/-- **C125, the Euclidean median.** The optimiser is given the same task: the Euclidean medians move with the events, and so does
the location it starts from. -/
theorem C125_euclidean_median {r : ℝ} {f : ℝ × ℝ → ℝ × ℝ} (hf : IsSimilarity r f) (points : List (ℝ × ℝ)) (hne : points ≠ []) :
    (∀ m, IsEuclideanMedian (points.map f) (f m) ↔ IsEuclideanMedian points m)
    ∧ euclideanMedian (fun _ start => start) (points.map f) = f (euclideanMedian (fun _ start => start) points) := by
  refine ⟨fun m => ?_, C125_mean_center hf points hne⟩
  have h : ∀ q, sumEucl (points.map f) (f q) = r * sumEucl points q := by
    intro q
    simp only [sumEucl, List.map_map, Function.comp_def, hf.dist, List.sum_map_mul_left]
  constructor
  · intro hm q
    have := hm (f q)
    rw [h, h] at this
    exact le_of_mul_le_mul_left this hf.pos
  · intro hm q'
    obtain ⟨q, rfl⟩ := hf.onto q'
    rw [h, h]
    exact mul_le_mul_of_nonneg_left (hm q) hf.pos.le

/-! ### The Manhattan median -/

section
variable {K : Type} [Field K] [LinearOrder K] [IsStrictOrderedRing K]

theorem insertionSort_eq {l s : List K} (hp : s.Perm l) (hs : s.Pairwise (· ≤ ·)) : l.insertionSort (· ≤ ·) = s :=
  List.Perm.eq_of_pairwise (fun _ _ _ _ hab hba => le_antisymm hab hba) (List.pairwise_insertionSort _ l) hs
    ((List.perm_insertionSort _ l).trans hp.symm)

theorem median_perm {l l' : List K} (h : l.Perm l') : median l = median l' := by
  have e : l.insertionSort (· ≤ ·) = l'.insertionSort (· ≤ ·) :=
    insertionSort_eq ((List.perm_insertionSort _ l').trans h.symm) (List.pairwise_insertionSort _ l')
  simp only [median, e, h.length_eq]

theorem median_mono {l : List K} (hne : l ≠ []) {s : K} (hs : 0 ≤ s) (a : K) :
    median (l.map fun x => a + s * x) = a + s * median l := by
  have hpos : 0 < l.length := List.length_pos_of_ne_nil hne
  have e : (l.map fun x => a + s * x).insertionSort (· ≤ ·) = (l.insertionSort (· ≤ ·)).map fun x => a + s * x := by
    apply insertionSort_eq ((List.perm_insertionSort _ l).map _)
    rw [List.pairwise_map]
    refine (List.pairwise_insertionSort _ l).imp fun h => ?_
    have := mul_le_mul_of_nonneg_left h hs
    linarith
  have hg : ∀ i < l.length, ((l.insertionSort (· ≤ ·)).map fun x => a + s * x).getD i 0
      = a + s * (l.insertionSort (· ≤ ·)).getD i 0 := by
    intro i hi
    have hi' : i < (l.insertionSort (· ≤ ·)).length := by rw [List.length_insertionSort]; exact hi
    rw [List.getD_eq_getElem _ _ (by simpa using hi'), List.getD_eq_getElem _ _ hi', List.getElem_map]
  simp only [median, e, List.length_map]
  rw [hg _ (by omega)]
  split
  · rfl
  · rw [hg _ (by omega)]
    ring

theorem median_neg {l : List K} (hne : l ≠ []) : median (l.map fun x => -x) = -median l := by
  have hpos : 0 < l.length := List.length_pos_of_ne_nil hne
  have e : (l.map fun x => -x).insertionSort (· ≤ ·) = ((l.insertionSort (· ≤ ·)).map fun x => -x).reverse := by
    apply insertionSort_eq ((List.reverse_perm _).trans ((List.perm_insertionSort _ l).map _))
    rw [List.pairwise_reverse, List.pairwise_map]
    exact (List.pairwise_insertionSort _ l).imp fun h => neg_le_neg h
  have hg : ∀ i < l.length, (((l.insertionSort (· ≤ ·)).map fun x => -x).reverse).getD i 0
      = -(l.insertionSort (· ≤ ·)).getD (l.length - 1 - i) 0 := by
    intro i hi
    have hl : (l.insertionSort (· ≤ ·)).length = l.length := List.length_insertionSort _ _
    rw [List.getD_eq_getElem _ _ (by simpa using hi), List.getD_eq_getElem _ _ (by omega), List.getElem_reverse,
      List.getElem_map]
    simp only [List.length_map, hl]
  simp only [median, e, List.length_map]
  rw [hg _ (by omega)]
  split
  · have : l.length - 1 - l.length / 2 = l.length / 2 := by omega
    rw [this]
  · rw [hg _ (by omega)]
    have e1 : l.length - 1 - (l.length / 2 - 1) = l.length / 2 := by omega
    have e2 : l.length - 1 - l.length / 2 = l.length / 2 - 1 := by omega
    rw [e1, e2]
    ring

theorem median_affine {l : List K} (hne : l ≠ []) (a s : K) : median (l.map fun x => a + s * x) = a + s * median l := by
  rcases le_total 0 s with hs | hs
  · exact median_mono hne hs a
  · have e : (l.map fun x => a + s * x) = (l.map fun x => -x).map fun x => a + (-s) * x := by
      rw [List.map_map]
      apply List.map_congr_left
      intro x _
      simp
    rw [e, median_mono (by simpa using hne) (neg_nonneg.2 hs), median_neg hne]
    ring

/-- **C125, the Manhattan median.** It moves with the events when they are shifted, when the unit of an axis is changed or its
direction reversed, and when the axes are exchanged; it does not depend on the order of the events. -/
theorem C125_manhattan_median (points : List (K × K)) (hne : points ≠ []) :
    (∀ a s b t : K, manhattanMedian (points.map fun p => (a + s * p.1, b + t * p.2))
      = (a + s * (manhattanMedian points).1, b + t * (manhattanMedian points).2))
    ∧ manhattanMedian (points.map Prod.swap) = (manhattanMedian points).swap
    ∧ ∀ points', points.Perm points' → manhattanMedian points = manhattanMedian points' := by
  refine ⟨fun a s b t => ?_, ?_, fun points' h => ?_⟩
  · simp only [manhattanMedian, List.map_map, Function.comp_def]
    have h1 := median_affine (l := points.map Prod.fst) (by simpa using hne) a s
    have h2 := median_affine (l := points.map Prod.snd) (by simpa using hne) b t
    simp only [List.map_map, Function.comp_def] at h1 h2
    rw [h1, h2]
  · simp [manhattanMedian, List.map_map, Function.comp_def]
  · simp only [manhattanMedian, median_perm (h.map Prod.fst), median_perm (h.map Prod.snd)]

end

/-- The rotation that takes `(5, 0)` to `(3, 4)`. -/
def turn345 (p : ℚ × ℚ) : ℚ × ℚ := ((3 * p.1 - 4 * p.2) / 5, (4 * p.1 + 3 * p.2) / 5)

/-- **C125, the Manhattan median does not turn with the events.** -/
theorem C125_manhattan_median_axes : ∃ points : List (ℚ × ℚ),
    manhattanMedian (points.map turn345) ≠ turn345 (manhattanMedian points) :=
  ⟨[(0, 0), (5, 0), (0, 5)], by decide +kernel⟩

/-! ### The standard deviational ellipse -/

theorem wMean_affine (l : List (ℝ × ℝ)) (hW : (l.map Prod.fst).sum ≠ 0) (c r : ℝ) :
    wMean (l.map fun a => (a.1, c + r * a.2)) = c + r * wMean l := by
  unfold wMean
  have h1 : ((l.map fun a => (a.1, c + r * a.2)).map Prod.fst) = l.map Prod.fst := by simp [Function.comp_def]
  have h2 : ((l.map fun a => (a.1, c + r * a.2)).map fun a => a.1 * a.2).sum
      = c * (l.map Prod.fst).sum + r * (l.map fun a => a.1 * a.2).sum := by
    clear hW h1
    induction l with
    | nil => simp
    | cons a l ih =>
      simp only [List.map_cons, List.sum_cons, ih]
      ring
  rw [h1, h2]
  field_simp

theorem wVar_affine (l : List (ℝ × ℝ)) (hW : (l.map Prod.fst).sum ≠ 0) (c r : ℝ) :
    wVar (l.map fun a => (a.1, c + r * a.2)) = r ^ 2 * wVar l := by
  unfold wVar
  rw [wMean_affine l hW]
  have h1 : ((l.map fun a => (a.1, c + r * a.2)).map Prod.fst) = l.map Prod.fst := by simp [Function.comp_def]
  rw [h1, List.map_map, ← mul_div_assoc, ← List.sum_map_mul_left]
  congr 3
  funext a
  simp only [Function.comp]
  ring

theorem dirVar_turn (wp : List (ℝ × (ℝ × ℝ))) (hW : (wp.map Prod.fst).sum ≠ 0) (r ρ a b φ : ℝ) :
    dirVar (wp.map (Prod.map id (turn r ρ a b))) φ = r ^ 2 * dirVar wp (φ - ρ) := by
  unfold dirVar
  rw [← wVar_affine _ (by simpa [Function.comp_def] using hW) (a * Real.cos φ + b * Real.sin φ) r]
  rw [List.map_map, List.map_map]
  congr 2
  funext x
  simp only [Function.comp, Prod.map, id_eq, turn, Real.cos_sub, Real.sin_sub]
  congr 1
  ring

theorem dirVar_mirror (wp : List (ℝ × (ℝ × ℝ))) (φ : ℝ) :
    dirVar (wp.map (Prod.map id mirror)) φ = dirVar wp (-φ) := by
  unfold dirVar
  rw [List.map_map]
  congr 2
  funext x
  simp only [Function.comp, Prod.map, id_eq, mirror, Real.cos_neg, Real.sin_neg]
  congr 1
  ring

theorem wVar_combine (l : List (ℝ × (ℝ × ℝ))) (hW : (l.map Prod.fst).sum ≠ 0) : ∃ X, ∀ c s : ℝ,
    wVar (l.map fun a => (a.1, c * a.2.1 + s * a.2.2))
      = c ^ 2 * wVar (l.map fun a => (a.1, a.2.1)) + s ^ 2 * wVar (l.map fun a => (a.1, a.2.2)) + 2 * (X * (s * c)) := by
  have hfst : ∀ g : ℝ × ℝ → ℝ, (l.map fun a => (a.1, g a.2)).map Prod.fst = l.map Prod.fst := by
    intro g; simp [Function.comp_def]
  have hm : ∀ c s : ℝ, wMean (l.map fun a => (a.1, c * a.2.1 + s * a.2.2))
      = c * wMean (l.map fun a => (a.1, a.2.1)) + s * wMean (l.map fun a => (a.1, a.2.2)) := by
    intro c s
    unfold wMean
    rw [hfst fun p => c * p.1 + s * p.2, hfst Prod.fst, hfst Prod.snd]
    have : ((l.map fun a => (a.1, c * a.2.1 + s * a.2.2)).map fun a => a.1 * a.2).sum
        = c * ((l.map fun a => (a.1, a.2.1)).map fun a => a.1 * a.2).sum
          + s * ((l.map fun a => (a.1, a.2.2)).map fun a => a.1 * a.2).sum := by
      clear hfst hW
      induction l with
      | nil => simp
      | cons a l ih => simp only [List.map_cons, List.sum_cons, ih]; ring
    rw [this]
    field_simp
  obtain ⟨m1, e1⟩ : ∃ m, m = wMean (l.map fun a => (a.1, a.2.1)) := ⟨_, rfl⟩
  obtain ⟨m2, e2⟩ : ∃ m, m = wMean (l.map fun a => (a.1, a.2.2)) := ⟨_, rfl⟩
  refine ⟨(l.map fun a => a.1 * ((a.2.1 - m1) * (a.2.2 - m2))).sum / (l.map Prod.fst).sum, fun c s => ?_⟩
  unfold wVar
  rw [hm, hfst fun p => c * p.1 + s * p.2, hfst Prod.fst, hfst Prod.snd, ← e1, ← e2]
  have : ((l.map fun a => (a.1, c * a.2.1 + s * a.2.2)).map fun a => a.1 * (a.2 - (c * m1 + s * m2)) ^ 2).sum
      = c ^ 2 * ((l.map fun a => (a.1, a.2.1)).map fun a => a.1 * (a.2 - m1) ^ 2).sum
        + s ^ 2 * ((l.map fun a => (a.1, a.2.2)).map fun a => a.1 * (a.2 - m2) ^ 2).sum
        + 2 * ((l.map fun a => a.1 * ((a.2.1 - m1) * (a.2.2 - m2))).sum * (s * c)) := by
    clear hfst hW hm e1 e2
    induction l with
    | nil => simp
    | cons a l ih => simp only [List.map_cons, List.sum_cons, ih]; ring
  rw [this]
  field_simp

theorem dirVar_combine (wp : List (ℝ × (ℝ × ℝ))) (hW : (wp.map Prod.fst).sum ≠ 0) (θ : ℝ) : ∃ X, ∀ δ,
    dirVar wp (θ + δ) = Real.cos δ ^ 2 * dirVar wp θ + Real.sin δ ^ 2 * dirVar wp (θ + Real.pi / 2)
      + 2 * (X * (Real.sin δ * Real.cos δ)) := by
  obtain ⟨X, hX⟩ := wVar_combine (wp.map fun a => (a.1, (a.2.1 * Real.cos θ + a.2.2 * Real.sin θ,
    a.2.1 * Real.cos (θ + Real.pi / 2) + a.2.2 * Real.sin (θ + Real.pi / 2)))) (by simpa [Function.comp_def] using hW)
  refine ⟨X, fun δ => ?_⟩
  have h := hX (Real.cos δ) (Real.sin δ)
  simp only [List.map_map, Function.comp_def] at h
  unfold dirVar
  rw [← h]
  congr 2
  funext a
  rw [Real.cos_add, Real.sin_add, Real.cos_add_pi_div_two, Real.sin_add_pi_div_two]
  congr 1
  ring

/-- Two directions of largest variance are the same up to half turns if the variance is not the same in all directions. -/
theorem largest_unique (wp : List (ℝ × (ℝ × ℝ))) (hW : (wp.map Prod.fst).sum ≠ 0) {θ ψ : ℝ}
    (hθ : ∀ φ, dirVar wp φ ≤ dirVar wp θ) (hlt : dirVar wp (θ + Real.pi / 2) < dirVar wp θ)
    (hψ : dirVar wp ψ = dirVar wp θ) : ∃ z : ℤ, ψ = θ + z * Real.pi := by
  obtain ⟨X, hX⟩ := dirVar_combine wp hW θ
  obtain ⟨D, hD⟩ : ∃ D, D = dirVar wp θ - dirVar wp (θ + Real.pi / 2) := ⟨_, rfl⟩
  have hDpos : 0 < D := by rw [hD]; linarith
  have key : ∀ δ, 2 * (X * (Real.sin δ * Real.cos δ)) ≤ D * Real.sin δ ^ 2 := by
    intro δ
    have h1 := hθ (θ + δ)
    rw [hX] at h1
    have h2 := Real.sin_sq_add_cos_sq δ
    have h3 : Real.cos δ ^ 2 = 1 - Real.sin δ ^ 2 := by linarith
    rw [h3] at h1
    rw [hD]
    nlinarith
  have hX0 : X = 0 := by
    have h := key (Real.arctan (X / D))
    have hs : Real.sin (Real.arctan (X / D)) = X / D * Real.cos (Real.arctan (X / D)) := by
      rw [Real.sin_arctan, Real.cos_arctan]; ring
    have hc := Real.cos_arctan_pos (X / D)
    rw [hs] at h
    have h' : 2 * (X ^ 2 / D) * Real.cos (Real.arctan (X / D)) ^ 2 ≤ (X ^ 2 / D) * Real.cos (Real.arctan (X / D)) ^ 2 := by
      have e1 : 2 * (X * (X / D * Real.cos (Real.arctan (X / D)) * Real.cos (Real.arctan (X / D))))
          = 2 * (X ^ 2 / D) * Real.cos (Real.arctan (X / D)) ^ 2 := by ring
      have e2 : D * (X / D * Real.cos (Real.arctan (X / D))) ^ 2 = (X ^ 2 / D) * Real.cos (Real.arctan (X / D)) ^ 2 := by
        field_simp
      rw [e1, e2] at h
      exact h
    have hc2 : 0 < Real.cos (Real.arctan (X / D)) ^ 2 := pow_pos hc 2
    have h4 := le_of_mul_le_mul_right h' hc2
    have h5 : X ^ 2 / D ≤ 0 := by linarith
    have h6 : 0 ≤ X ^ 2 / D := by positivity
    have h7 : X ^ 2 / D = 0 := le_antisymm h5 h6
    rcases div_eq_zero_iff.1 h7 with h | h
    · exact pow_eq_zero_iff two_ne_zero |>.1 h
    · exact absurd h hDpos.ne'
  have h := hX (ψ - θ)
  rw [add_sub_cancel, hψ, hX0] at h
  have h2 := Real.sin_sq_add_cos_sq (ψ - θ)
  have h3 : Real.cos (ψ - θ) ^ 2 = 1 - Real.sin (ψ - θ) ^ 2 := by linarith
  rw [h3] at h
  have h4 : D * Real.sin (ψ - θ) ^ 2 = 0 := by rw [hD]; linarith
  have h5 : Real.sin (ψ - θ) = 0 := by
    rcases mul_eq_zero.1 h4 with h | h
    · exact absurd h hDpos.ne'
    · exact pow_eq_zero_iff two_ne_zero |>.1 h
  obtain ⟨z, hz⟩ := Real.sin_eq_zero_iff.1 h5
  exact ⟨z, by linarith⟩

theorem ellipse_moved (points : List (ℝ × ℝ)) (hn : 3 ≤ points.length) (weights : Option (List ℝ))
    (hw : ∀ w, weights = some w → w.length = points.length ∧ (∀ a ∈ w, 0 ≤ a) ∧ 0 < w.sum) (method : String) (m : EllipseMethod)
    (hm : parseMethod method = .ok m) (crimestatCorr degfreedCorr : Bool) (f : ℝ × ℝ → ℝ × ℝ) {r : ℝ} (hr : 0 < r)
    (σ τ : ℝ → ℝ) (hστ : ∀ φ, σ (τ φ) = φ)
    (hquarter : ∀ wp : List (ℝ × (ℝ × ℝ)), ∀ φ, dirVar wp (σ (φ + Real.pi / 2)) = dirVar wp (σ φ + Real.pi / 2))
    (hf : ∀ wp : List (ℝ × (ℝ × ℝ)), (wp.map Prod.fst).sum ≠ 0 → ∀ φ,
      dirVar (wp.map (Prod.map id f)) φ = r ^ 2 * dirVar wp (σ φ)) :
    ∃ major minor angle angle', ellipse points weights method crimestatCorr degfreedCorr = .ok (major, minor, angle)
      ∧ ellipse (points.map f) weights method crimestatCorr degfreedCorr = .ok (r * major, r * minor, angle')
      ∧ (minor < major → ∃ z : ℤ, σ angle' = angle + z * Real.pi) := by
  obtain ⟨wp, hwp⟩ : ∃ wp, wp = ((weights.getD (List.replicate points.length 1)).zip points) := ⟨_, rfl⟩
  have hlen : (weights.getD (List.replicate points.length 1)).length = points.length := by
    cases weights with
    | none => simp
    | some w => exact (hw w rfl).1
  have hfst : wp.map Prod.fst = weights.getD (List.replicate points.length 1) := by
    rw [hwp]; exact List.map_fst_zip (by omega)
  have hW : (wp.map Prod.fst).sum ≠ 0 := by
    rw [hfst]
    cases weights with
    | none =>
      have : (0 : ℝ) < points.length := by exact_mod_cast (by omega : 0 < points.length)
      simp [this.ne']
    | some w => exact (hw w rfl).2.2.ne'
  have hwp' : wp.map (Prod.map id f) = ((weights.getD (List.replicate (points.map f).length 1)).zip (points.map f)) := by
    rw [hwp, List.zip_map_right, List.length_map]
  obtain ⟨a, b, θ, h⟩ := C28_C29_ellipse points hn weights hw wp hwp
  obtain ⟨a', b', θ', h'⟩ := C28_C29_ellipse (points.map f) (by simpa using hn) weights (by simpa using hw) _ hwp'
  obtain ⟨k, hk, hkpos, he, hd⟩ := h method m hm crimestatCorr degfreedCorr
  obtain ⟨k', hk', -, he', hd'⟩ := h' method m hm crimestatCorr degfreedCorr
  rw [List.length_map, ← hk] at hk'
  subst hk'
  have hr2 : 0 < r ^ 2 := pow_pos hr 2
  have hmax : dirVar wp (σ θ') = dirVar wp θ := by
    refine le_antisymm (hd.largest _) ?_
    have := hd'.largest (τ θ)
    rw [hf wp hW, hf wp hW, hστ] at this
    exact le_of_mul_le_mul_left this hr2
  have hmin : dirVar wp (σ θ' + Real.pi / 2) = dirVar wp (θ + Real.pi / 2) := by
    refine le_antisymm ?_ (hd.smallest _)
    have := hd'.smallest (τ (θ + Real.pi / 2))
    rw [hf wp hW, hf wp hW, hστ, hquarter] at this
    exact le_of_mul_le_mul_left this hr2
  have hsq : ∀ x, Real.sqrt (r ^ 2 * x) = r * Real.sqrt x := by
    intro x; rw [Real.sqrt_mul hr2.le, Real.sqrt_sq hr.le]
  refine ⟨k' * a, k' * b, θ, θ', he, ?_, ?_⟩
  · rw [he']
    have h1 := hd'.major_eq
    have h2 := hd'.minor_eq
    rw [hf wp hW, hmax, hsq] at h1
    rw [hf wp hW, hquarter, hmin, hsq] at h2
    rw [h1, h2, hd.major_eq, hd.minor_eq]
    congr 2
    · ring
    · congr 1
      ring
  · intro hlt
    rw [hd.major_eq, hd.minor_eq] at hlt
    have := lt_of_mul_lt_mul_left hlt hkpos.le
    exact largest_unique wp hW hd.largest (by
      by_contra hc
      push Not at hc
      exact absurd (Real.sqrt_le_sqrt hc) (not_le.2 this)) hmax

/-- **C125, the ellipse turns with the events.** When the events are rotated by `ρ`, given in another unit and shifted, the axes
are multiplied by the factor of the distances and the angle of the major axis grows by `ρ`, up to half turns. -/
theorem C125_ellipse_turns (points : List (ℝ × ℝ)) (hn : 3 ≤ points.length) (weights : Option (List ℝ))
    (hw : ∀ w, weights = some w → w.length = points.length ∧ (∀ a ∈ w, 0 ≤ a) ∧ 0 < w.sum) (method : String) (m : EllipseMethod)
    (hm : parseMethod method = .ok m) (crimestatCorr degfreedCorr : Bool) {r : ℝ} (hr : 0 < r) (ρ a b : ℝ) :
    ∃ major minor angle angle', ellipse points weights method crimestatCorr degfreedCorr = .ok (major, minor, angle)
      ∧ ellipse (points.map (turn r ρ a b)) weights method crimestatCorr degfreedCorr = .ok (r * major, r * minor, angle')
      ∧ (minor < major → ∃ z : ℤ, angle' = angle + ρ + z * Real.pi) := by
  obtain ⟨M, N, θ, θ', h1, h2, h3⟩ := ellipse_moved points hn weights hw method m hm crimestatCorr degfreedCorr
    (turn r ρ a b) hr (fun φ => φ - ρ) (fun φ => φ + ρ) (fun φ => by ring)
    (fun wp φ => by congr 1; ring) (fun wp hW φ => dirVar_turn wp hW r ρ a b φ)
  refine ⟨M, N, θ, θ', h1, h2, fun h => ?_⟩
  obtain ⟨z, hz⟩ := h3 h
  exact ⟨z, by linarith⟩

theorem dirVar_add_pi (wp : List (ℝ × (ℝ × ℝ))) (φ : ℝ) : dirVar wp (φ + Real.pi) = dirVar wp φ := by
  have e : ∀ l : List (ℝ × ℝ), wVar (l.map fun a => (a.1, -a.2)) = wVar l := by
    intro l
    unfold wVar
    have h1 : (l.map fun a => (a.1, -a.2)).map Prod.fst = l.map Prod.fst := by simp [Function.comp_def]
    have h2 : wMean (l.map fun a => (a.1, -a.2)) = -wMean l := by
      unfold wMean
      rw [h1, List.map_map, ← neg_div, List.sum_neg, List.map_map]
      congr 3
      funext a
      simp [Function.comp]
    rw [h1, h2, List.map_map]
    congr 3
    funext a
    simp only [Function.comp]
    ring
  unfold dirVar
  rw [← e (wp.map fun a => (a.1, a.2.1 * Real.cos φ + a.2.2 * Real.sin φ)), List.map_map]
  congr 2
  funext a
  simp only [Function.comp, Real.cos_add_pi, Real.sin_add_pi]
  congr 1
  ring

/-- **C125, the ellipse is reflected with the events.** -/
theorem C125_ellipse_mirrored (points : List (ℝ × ℝ)) (hn : 3 ≤ points.length) (weights : Option (List ℝ))
    (hw : ∀ w, weights = some w → w.length = points.length ∧ (∀ a ∈ w, 0 ≤ a) ∧ 0 < w.sum) (method : String) (m : EllipseMethod)
    (hm : parseMethod method = .ok m) (crimestatCorr degfreedCorr : Bool) :
    ∃ major minor angle angle', ellipse points weights method crimestatCorr degfreedCorr = .ok (major, minor, angle)
      ∧ ellipse (points.map mirror) weights method crimestatCorr degfreedCorr = .ok (major, minor, angle')
      ∧ (minor < major → ∃ z : ℤ, angle' = -angle + z * Real.pi) := by
  obtain ⟨M, N, θ, θ', h1, h2, h3⟩ := ellipse_moved points hn weights hw method m hm crimestatCorr degfreedCorr
    mirror one_pos (fun φ => -φ) (fun φ => -φ) (fun φ => by ring)
    (fun wp φ => by rw [← dirVar_add_pi wp (-(φ + Real.pi / 2))]; congr 1; ring)
    (fun wp hW φ => by rw [dirVar_mirror]; ring)
  rw [one_mul, one_mul] at h2
  refine ⟨M, N, θ, θ', h1, h2, fun h => ?_⟩
  obtain ⟨z, hz⟩ := h3 h
  exact ⟨-z, by push_cast; linarith⟩

/-! ### Order -/

/-- **C125, order.** Bounding rectangle, weighted mean center and standard distance do not depend on the order of the events; the
weights go with the events. -/
theorem C125_order {points points' : List (ℝ × ℝ)} (h : points.Perm points') {events events' : List (ℝ × (ℝ × ℝ))}
    (he : events.Perm events') :
    minimumBoundingRectangle points = minimumBoundingRectangle points'
    ∧ weightedMeanCenter (events.map Prod.snd) (events.map Prod.fst)
        = weightedMeanCenter (events'.map Prod.snd) (events'.map Prod.fst)
    ∧ stdDistance points = stdDistance points' := by
  refine ⟨?_, ?_, ?_⟩
  · have e : ∀ l : List (ℝ × ℝ), minimumBoundingRectangle l
        = (Geometry.bboxPts l).map fun b => (b.xmin, b.ymin, b.xmax, b.ymax) := by
      intro l; cases l <;> rfl
    rw [e, e, bboxPts_perm h]
  · have e : ∀ (l : List (ℝ × (ℝ × ℝ))), weightedMeanCenter (l.map Prod.snd) (l.map Prod.fst)
        = .ok ((l.map fun a => a.1 * 1 / (l.map Prod.fst).sum * a.2.1).sum,
            (l.map fun a => a.1 * 1 / (l.map Prod.fst).sum * a.2.2).sum) := by
      intro l
      unfold weightedMeanCenter
      simp only [List.length_map, ne_eq, not_true_eq_false, if_false, List.map_map]
      generalize (l.map Prod.fst).sum = W
      have g : ∀ c : ℝ × ℝ → ℝ, List.zipWith (fun a p => a * c p) (l.map ((fun x => x * 1 / W) ∘ Prod.fst)) (l.map Prod.snd)
          = l.map fun a => a.1 * 1 / W * c a.2 := by
        intro c
        induction l with
        | nil => rfl
        | cons a l ih => simp only [List.map_cons, List.zipWith_cons_cons, ih, Function.comp]
      rw [g Prod.fst, g Prod.snd]
    rw [e, e, (he.map Prod.fst).sum_eq, (he.map _).sum_eq, (he.map _).sum_eq]
  · unfold stdDistance meanCenter
    rw [(h.map Prod.fst).sum_eq, (h.map Prod.snd).sum_eq, (h.map fun p => p.1 * p.1).sum_eq,
      (h.map fun p => p.2 * p.2).sum_eq, h.length_eq]

/-! ### The hypotheses are met -/

/-- Every rotation with a change of unit and a translation multiplies distances by a factor, and so does the reflection. -/
theorem turn_isSimilarity {r : ℝ} (hr : 0 < r) (ρ a b : ℝ) : IsSimilarity r (turn r ρ a b) where
  pos := hr
  dist p q := by
    unfold eucl
    rw [← Real.sqrt_sq hr.le, ← Real.sqrt_mul (sq_nonneg r), Real.sqrt_sq hr.le]
    congr 1
    simp only [sqDist, turn]
    have h := Real.sin_sq_add_cos_sq ρ
    linear_combination (r ^ 2 * ((p.1 - q.1) ^ 2 + (p.2 - q.2) ^ 2)) * h
  onto q := by
    have h := Real.sin_sq_add_cos_sq ρ
    refine ⟨((Real.cos ρ * (q.1 - a) + Real.sin ρ * (q.2 - b)) / r, (Real.cos ρ * (q.2 - b) - Real.sin ρ * (q.1 - a)) / r), ?_⟩
    simp only [turn]
    refine Prod.ext ?_ ?_
    · simp only
      field_simp
      linear_combination (q.1 - a) * h
    · simp only
      field_simp
      linear_combination (q.2 - b) * h

theorem mirror_isSimilarity : IsSimilarity 1 mirror where
  pos := one_pos
  dist p q := by
    rw [one_mul]
    unfold eucl
    congr 1
    simp only [sqDist, mirror]
    ring
  onto q := ⟨(q.1, -q.2), by simp [mirror]⟩

/-- A pattern whose ellipse has different axes: its variances along the two axes differ. -/
example : dirVar [(1, ((0 : ℝ), (0 : ℝ))), (1, (6, 0)), (1, (3, 3))] (0 + Real.pi / 2)
    < dirVar [(1, (0, 0)), (1, (6, 0)), (1, (3, 3))] 0 := by
  simp [dirVar, wVar, wMean]
  norm_num

end Pointpats.Props
