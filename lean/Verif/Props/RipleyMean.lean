import Verif.Lemmas.PairLaw
import Verif.Lemmas.MeasurableCurves
import Verif.Props.DistanceJKL
import Verif.Props.CsrLevel

/-!
# C166: the mean of Ripley's K and L for completely random events
-/

set_option linter.unusedSectionVars false

namespace Pointpats.Props

open DistStats Geometry Spec MeasureTheory ProbabilityTheory MeasurableCurves PairLaw Real

/-- A box in a box has a smaller area. -/
private theorem box_area_le {events : List (ℝ × ℝ)} (hne : events ≠ []) {b B : BBox ℝ} (hb : IsSmallestBox events b)
    (hB : ∀ p ∈ events, InBox B p) :
    0 ≤ (b.xmax - b.xmin) * (b.ymax - b.ymin)
    ∧ (b.xmax - b.xmin) * (b.ymax - b.ymin) ≤ (B.xmax - B.xmin) * (B.ymax - B.ymin) := by
  obtain ⟨p, hp⟩ := List.exists_mem_of_ne_nil events hne
  obtain ⟨h1, h2, h3, h4⟩ := hb.1 p hp
  have hx : b.xmin ≤ b.xmax := h1.trans h2
  have hy : b.ymin ≤ b.ymax := h3.trans h4
  obtain ⟨c1, -, c3, -⟩ := hb.2 B hB (b.xmin, b.ymin) ⟨le_rfl, hx, le_rfl, hy⟩
  obtain ⟨-, e2, -, e4⟩ := hb.2 B hB (b.xmax, b.ymax) ⟨hx, le_rfl, hy, le_rfl⟩
  simp only at c1 c3 e2 e4
  exact ⟨mul_nonneg (by linarith) (by linarith), mul_le_mul (by linarith) (by linarith) (by linarith) (by linarith)⟩

private theorem volume_box {B : BBox ℝ} (hx : B.xmin < B.xmax) :
    MeasurableSet {p : ℝ × ℝ | InBox B p}
    ∧ volume {p : ℝ × ℝ | InBox B p} = ENNReal.ofReal ((B.xmax - B.xmin) * (B.ymax - B.ymin)) := by
  have : {p : ℝ × ℝ | InBox B p} = Set.Icc B.xmin B.xmax ×ˢ Set.Icc B.ymin B.ymax := by
    ext p
    simp only [InBox, Set.mem_ofPred_eq, Set.mem_prod, Set.mem_Icc]
    tauto
  rw [this]
  refine ⟨measurableSet_Icc.prod measurableSet_Icc, ?_⟩
  rw [Measure.volume_eq_prod, Measure.prod_prod, Real.volume_Icc, Real.volume_Icc, ENNReal.ofReal_mul (by linarith)]

private theorem planeDist_isDistance : IsDistance planeDist :=
  ⟨fun p q => by unfold planeDist; congr 1; ring, fun _ _ => Real.sqrt_nonneg _⟩

variable {Ω : Type} [MeasurableSpace Ω]

/-- The values of K for random events. -/
private theorem k_values (P : Measure Ω) [IsProbabilityMeasure P] (lib : Lib ℝ) (m : Metric)
    (hm : ∀ p q, lib.pdist m p q = Real.sqrt ((p.1 - q.1) ^ 2 + (p.2 - q.2) ^ 2)) (hpre : m ≠ .name "precomputed") (B : BBox ℝ)
    (hx : B.xmin < B.xmax) (hy : B.ymin < B.ymax) {n : ℕ} (hn : 2 ≤ n) (X : Fin n → Ω → ℝ × ℝ)
    (hX : CompletelyRandom P X {p | InBox B p}) (s : List ℝ) (i : ℕ) (d : ℝ) (hi : s[i]? = some d) (hd : 0 ≤ d) :
    ∃ value : Ω → ℝ, Measurable value
      ∧ (∀ ω, ∃ b v, IsSmallestBox (List.ofFn fun j => X j ω) b
          ∧ k lib (List.ofFn fun j => X j ω) (.array s) .none (.metric m) false = .ok (s, v) ∧ v[i]? = some (.fin (value ω))
          ∧ value ω = ripleyK (lib.pdist m) (List.ofFn fun j => X j ω) b d)
      ∧ (∀ ω, 0 ≤ value ω)
      ∧ Integrable value P ∧ ∫ ω, value ω ∂P ≤ ((n : ℝ) - 1) / n * (π * d ^ 2) := by
  have hpd : lib.pdist m = planeDist := by
    funext p q
    exact hm p q
  have hnR : (2 : ℝ) ≤ n := by exact_mod_cast hn
  obtain ⟨hWm, hvol⟩ := volume_box hx
  set A := (B.xmax - B.xmin) * (B.ymax - B.ymin) with hAdef
  have hA : 0 < A := mul_pos (by linarith) (by linarith)
  obtain ⟨y, hy, hval⟩ := k_measurable (lib := lib) (m := m) (by rw [hpd]; exact planeDist_measurable) hn s i d hi
  have hmeas : Measurable fun ω => y fun j => X j ω := hy.comp (measurable_pi_lambda _ hX.measurable)
  have hne : ∀ ω, (List.ofFn fun j => X j ω) ≠ [] := by
    intro ω h
    have := congrArg List.length h
    rw [List.length_ofFn] at this
    simp at this
    omega
  have hspec : ∀ ω, ∃ b v, IsSmallestBox (List.ofFn fun j => X j ω) b
      ∧ k lib (List.ofFn fun j => X j ω) (.array s) .none (.metric m) false = .ok (s, v)
      ∧ v[i]? = some (.fin (y fun j => X j ω))
      ∧ (y fun j => X j ω) = ripleyK (lib.pdist m) (List.ofFn fun j => X j ω) b d := by
    intro ω
    obtain ⟨b, -, hb, -⟩ := (C19_bbox_smallest (List.ofFn fun j => X j ω)).2 (hne ω)
    obtain ⟨v, hv⟩ := C61_k_returns lib _ (hne ω) s m hpre
    have h1 := hval _ _ _ _ hv rfl
    refine ⟨b, v, hb, hv, h1, ?_⟩
    have h2 := C61_k lib _ _ m _ (by rw [hpd]; exact planeDist_isDistance.symm) b hb s v hv
    rw [h2, List.getElem?_map, hi] at h1
    simpa using h1.symm
  have hsmall : ∀ ω, 0 ≤ (y fun j => X j ω) ∧ ((∀ j, InBox B (X j ω)) →
      (y fun j => X j ω) ≤ A / (n : ℝ) ^ 2 * (orderedPairsBelow planeDist (List.ofFn fun j => X j ω) d : ℝ)) := by
    intro ω
    obtain ⟨b, v, hb, -, -, he⟩ := hspec ω
    rw [he, hpd]
    unfold ripleyK
    rw [List.length_ofFn]
    constructor
    · obtain ⟨p, hp⟩ := List.exists_mem_of_ne_nil _ (hne ω)
      obtain ⟨h1, h2, h3, h4⟩ := hb.1 p hp
      have : 0 ≤ (b.xmax - b.xmin) * (b.ymax - b.ymin) :=
        mul_nonneg (sub_nonneg.2 (h1.trans h2)) (sub_nonneg.2 (h3.trans h4))
      positivity
    · intro hin
      have := (box_area_le (hne ω) hb (B := B) (by
        intro p hp
        obtain ⟨j, rfl⟩ := (List.mem_ofFn' _ _).1 hp
        exact hin j)).2
      gcongr
  have hae : ∀ᵐ ω ∂P, ∀ j, InBox B (X j ω) := by
    rw [ae_all_iff]
    intro j
    have h1 := hX.uniform j _ hWm
    rw [Set.inter_self, ENNReal.div_self (by rw [hvol]; simpa using hA) (by rw [hvol]; exact ENNReal.ofReal_ne_top)] at h1
    exact (prob_compl_eq_zero_iff (hX.measurable j hWm)).2 h1
  obtain ⟨hint, hmean⟩ := mean_pairs_le hX hA hvol hd (by omega)
  have hint' := hint.const_mul (A / (n : ℝ) ^ 2)
  have hle : ∀ᵐ ω ∂P, (y fun j => X j ω) ≤ A / (n : ℝ) ^ 2 * (orderedPairsBelow planeDist (List.ofFn fun j => X j ω) d : ℝ) := by
    filter_upwards [hae] with ω hω using (hsmall ω).2 hω
  have hI : Integrable (fun ω => y fun j => X j ω) P := by
    refine hint'.mono' hmeas.aestronglyMeasurable ?_
    filter_upwards [hle] with ω hω
    rwa [Real.norm_of_nonneg (hsmall ω).1]
  refine ⟨_, hmeas, hspec, fun ω => (hsmall ω).1, hI, ?_⟩
  calc ∫ ω, (y fun j => X j ω) ∂P
      ≤ ∫ ω, A / (n : ℝ) ^ 2 * (orderedPairsBelow planeDist (List.ofFn fun j => X j ω) d : ℝ) ∂P := integral_mono_ae hI hint' hle
    _ = A / (n : ℝ) ^ 2 * ∫ ω, (orderedPairsBelow planeDist (List.ofFn fun j => X j ω) d : ℝ) ∂P := integral_const_mul _ _
    _ ≤ A / (n : ℝ) ^ 2 * (n * (n - 1) * (π * d ^ 2 / A)) := by gcongr
    _ = _ := by
      have : (n : ℝ) ≠ 0 := by positivity
      field_simp

/-- **C166 (partial).** For two or more completely random events in a rectangle, `k` with the Euclidean metric returns for every array
of distances, its value at the distance `d` is a random variable, and its mean is at most `(n - 1) / n` times the area of a circle of
radius `d`. Missing: that the mean is the area of the circle, which is false, see `C166_mean_refuted`. -/
theorem C166_mean_partial (P : Measure Ω) [IsProbabilityMeasure P] (lib : Lib ℝ) (m : Metric)
    (hm : ∀ p q, lib.pdist m p q = Real.sqrt ((p.1 - q.1) ^ 2 + (p.2 - q.2) ^ 2)) (hpre : m ≠ .name "precomputed") (B : BBox ℝ)
    (hx : B.xmin < B.xmax) (hy : B.ymin < B.ymax) {n : ℕ} (hn : 2 ≤ n) (X : Fin n → Ω → ℝ × ℝ)
    (hX : CompletelyRandom P X {p | InBox B p}) (s : List ℝ) (i : ℕ) (d : ℝ) (hi : s[i]? = some d) (hd : 0 ≤ d) :
    ∃ value : Ω → ℝ,
      (∀ ω, ∃ v, k lib (List.ofFn fun j => X j ω) (.array s) .none (.metric m) false = .ok (s, v) ∧ v[i]? = some (.fin (value ω)))
      ∧ Integrable value P ∧ 0 ≤ ∫ ω, value ω ∂P ∧ ∫ ω, value ω ∂P ≤ ((n : ℝ) - 1) / n * (π * d ^ 2) := by
  obtain ⟨value, -, h1, h2, h3, h4⟩ := k_values P lib m hm hpre B hx hy hn X hX s i d hi hd
  exact ⟨value, fun ω => (h1 ω).elim fun _ ⟨v, _, hv, hi, _⟩ => ⟨v, hv, hi⟩, h3, integral_nonneg h2, h4⟩

/-- **C166 (refuted).** For two or more completely random events in a rectangle and every distance `d > 0`, the mean of `k` at `d` is
below the area of a circle of radius `d`, and the mean of `l`, linearized, at `d` is below zero: it is at most
`d (√((n - 1) / n) - 1)`. -/
theorem C166_mean_refuted (P : Measure Ω) [IsProbabilityMeasure P] (lib : Lib ℝ) (m : Metric)
    (hm : ∀ p q, lib.pdist m p q = Real.sqrt ((p.1 - q.1) ^ 2 + (p.2 - q.2) ^ 2)) (hpre : m ≠ .name "precomputed") (B : BBox ℝ)
    (hx : B.xmin < B.xmax) (hy : B.ymin < B.ymax) {n : ℕ} (hn : 2 ≤ n) (X : Fin n → Ω → ℝ × ℝ)
    (hX : CompletelyRandom P X {p | InBox B p}) (s : List ℝ) (i : ℕ) (d : ℝ) (hi : s[i]? = some d) (hd : 0 < d) :
    (∃ value : Ω → ℝ,
      (∀ ω, ∃ v, k lib (List.ofFn fun j => X j ω) (.array s) .none (.metric m) false = .ok (s, v) ∧ v[i]? = some (.fin (value ω)))
      ∧ Integrable value P ∧ ∫ ω, value ω ∂P < π * d ^ 2)
    ∧ ∃ value : Ω → ℝ,
      (∀ ω, ∃ v, l lib Real.sqrt π (List.ofFn fun j => X j ω) (.array s) .none (.metric m) false true = .ok (s, v)
        ∧ v[i]? = some (.fin (value ω)))
      ∧ Integrable value P ∧ ∫ ω, value ω ∂P ≤ d * (Real.sqrt (((n : ℝ) - 1) / n) - 1) ∧ ∫ ω, value ω ∂P < 0 := by
  obtain ⟨value, hmeas, h1, h2, h3, h4⟩ := k_values P lib m hm hpre B hx hy hn X hX s i d hi hd.le
  have hpd : lib.pdist m = planeDist := by
    funext p q
    exact hm p q
  have hnR : (2 : ℝ) ≤ n := by exact_mod_cast hn
  have hn0 : (0 : ℝ) < n := by linarith
  have hq1 : ((n : ℝ) - 1) / n < 1 := by rw [div_lt_one hn0]; linarith
  have hq0 : 0 < ((n : ℝ) - 1) / n := div_pos (by linarith) hn0
  have hd2 : 0 < π * d ^ 2 := by positivity
  refine ⟨⟨value, fun ω => (h1 ω).elim fun _ ⟨v, _, hv, hi, _⟩ => ⟨v, hv, hi⟩, h3, h4.trans_lt (by nlinarith)⟩, ?_⟩
  set c := d * Real.sqrt (((n : ℝ) - 1) / n) with hc
  have hc0 : 0 < c := mul_pos hd (Real.sqrt_pos.2 hq0)
  have hcc : c ^ 2 = d ^ 2 * (((n : ℝ) - 1) / n) := by rw [hc, mul_pow, Real.sq_sqrt hq0.le]
  have hroot : ∀ ω, Real.sqrt (value ω / π) ≤ (value ω / π / c + c) / 2 := by
    intro ω
    have h0 : 0 ≤ value ω / π := div_nonneg (h2 ω) pi_pos.le
    have hs := Real.sq_sqrt h0
    have : 0 ≤ (Real.sqrt (value ω / π) - c) ^ 2 := sq_nonneg _
    rw [le_div_iff₀ two_pos, div_add' _ _ _ hc0.ne', le_div_iff₀ hc0]
    nlinarith
  have hI2 : Integrable (fun ω => (value ω / π / c + c) / 2) P := (((h3.div_const π).div_const c).add (integrable_const c)).div_const 2
  have hI1 : Integrable (fun ω => Real.sqrt (value ω / π)) P := by
    refine hI2.mono' (Real.continuous_sqrt.measurable.comp (hmeas.div_const π)).aestronglyMeasurable (.of_forall fun ω => ?_)
    rw [Real.norm_of_nonneg (Real.sqrt_nonneg _)]
    exact hroot ω
  have hmean : ∫ ω, Real.sqrt (value ω / π) ∂P ≤ c := by
    refine (integral_mono hI1 hI2 hroot).trans ?_
    rw [integral_div, integral_add ((h3.div_const π).div_const c) (integrable_const c), integral_div, integral_div, integral_const]
    simp only [probReal_univ, one_smul]
    have h5 : (∫ ω, value ω ∂P) / π / c ≤ c := by
      rw [div_le_iff₀ hc0, div_le_iff₀ pi_pos, ← sq, hcc]
      linarith
    linarith
  have hval : ∫ ω, (Real.sqrt (value ω / π) - d) ∂P ≤ d * (Real.sqrt (((n : ℝ) - 1) / n) - 1) := by
    rw [integral_sub hI1 (integrable_const d), integral_const]
    simp only [probReal_univ, one_smul]
    linarith
  refine ⟨fun ω => Real.sqrt (value ω / π) - d, fun ω => ?_, hI1.sub (integrable_const d), hval, hval.trans_lt ?_⟩
  · obtain ⟨b, v, hb, hv, -, he⟩ := h1 ω
    obtain ⟨r1, r2⟩ := C62_l lib (List.ofFn fun j => X j ω) (.array s) m false true (by rw [hpd]; exact planeDist_isDistance) b hb
    cases hl : l lib Real.sqrt π (List.ofFn fun j => X j ω) (.array s) .none (.metric m) false true with
    | error e => rw [(r1 e).1 hl] at hv; cases hv
    | ok r =>
      have hs : r.1 = s := by
        unfold l at hl
        rw [hv] at hl
        cases hl
        rfl
      obtain ⟨s', v'⟩ := r
      cases hs
      refine ⟨v', rfl, ?_⟩
      rw [(r2 _ _ hl).1, List.getElem?_map, hi]
      simp [he]
  · have : Real.sqrt (((n : ℝ) - 1) / n) < 1 := by
      rw [Real.sqrt_lt' one_pos]
      linarith
    nlinarith

/-- Twenty completely random events in the unit square: the mean of the linearized L is negative at the distances 0.1 and 0.2. -/
example : ∃ (P : Measure ((Fin 20 → ℝ × ℝ) × (ℕ → ℝ))) (_ : IsProbabilityMeasure P) (lib : Lib ℝ),
    ∀ (i : ℕ) (d : ℝ), [1 / 10, (1 / 5 : ℝ)][i]? = some d → ∃ value : (Fin 20 → ℝ × ℝ) × (ℕ → ℝ) → ℝ,
      (∀ ω, ∃ v, l lib Real.sqrt π (List.ofFn ω.1) (.array [1 / 10, 1 / 5]) .none (.metric (.name "euclidean")) false true
        = .ok ([1 / 10, 1 / 5], v) ∧ v[i]? = some (.fin (value ω)))
      ∧ Integrable value P ∧ ∫ ω, value ω ∂P < 0 := by
  have hv := (volume_box (B := ⟨0, 0, 1, 1⟩) (by norm_num)).2
  obtain ⟨P, hP, hX, -, -⟩ := completelyRandom_exists 20 (W := {p | InBox ⟨0, 0, 1, 1⟩ p}) (by rw [hv]; simp)
    (by rw [hv]; exact ENNReal.ofReal_ne_top)
  refine ⟨P, hP, { realLib with pdist := fun _ p q => Real.sqrt ((p.1 - q.1) ^ 2 + (p.2 - q.2) ^ 2) }, fun i d hi => ?_⟩
  have hd : 0 < d := by
    match i with
    | 0 => simp at hi; linarith
    | 1 => simp at hi; linarith
    | i + 2 => simp at hi
  obtain ⟨value, h1, h2, -, h3⟩ := (C166_mean_refuted P { realLib with pdist := fun _ p q => Real.sqrt ((p.1 - q.1) ^ 2 + (p.2 - q.2) ^ 2) }
    (.name "euclidean") (fun _ _ => rfl) (by decide) ⟨0, 0, 1, 1⟩ (by norm_num) (by norm_num) (by norm_num) _ hX _ i d hi hd).2
  exact ⟨value, h1, h2, h3⟩

end Pointpats.Props
