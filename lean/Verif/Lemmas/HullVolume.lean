import Verif.Props.HullInBox
import Mathlib.MeasureTheory.Measure.Lebesgue.EqHaar
import Mathlib.MeasureTheory.Integral.IntervalIntegral.FundThmCalculus
import Mathlib.Analysis.SpecialFunctions.Integrals.Basic
import Mathlib.Analysis.Convex.Join
import Mathlib.Analysis.Convex.Topology
import Mathlib.Analysis.SpecialFunctions.PolarCoord

/-!
# The area of a convex polygon
-/

set_option linter.unusedSectionVars false

namespace Pointpats.HullVolume

open Pointpats.Spec Pointpats.Props MeasureTheory

/-- The triangle with corners `(0, 0)`, `(1, 0)` and `(0, 1)`. -/
def unitTriangle : Set (ℝ × ℝ) := {z | 0 ≤ z.1 ∧ 0 ≤ z.2 ∧ z.1 + z.2 ≤ 1}

theorem unitTriangle_measurable : MeasurableSet unitTriangle := by
  have h1 : MeasurableSet {z : ℝ × ℝ | 0 ≤ z.1} := measurableSet_le measurable_const measurable_fst
  have h2 : MeasurableSet {z : ℝ × ℝ | 0 ≤ z.2} := measurableSet_le measurable_const measurable_snd
  have h3 : MeasurableSet {z : ℝ × ℝ | z.1 + z.2 ≤ 1} := measurableSet_le (by fun_prop) measurable_const
  exact h1.inter (h2.inter h3)

theorem volume_unitTriangle : volume unitTriangle = ENNReal.ofReal (1 / 2) := by
  rw [Measure.volume_eq_prod, Measure.prod_apply unitTriangle_measurable]
  have hsec : ∀ x : ℝ, volume (Prod.mk x ⁻¹' unitTriangle)
      = (Set.Icc (0 : ℝ) 1).indicator (fun x => ENNReal.ofReal (1 - x)) x := by
    intro x
    by_cases hx : x ∈ Set.Icc (0 : ℝ) 1
    · rw [Set.indicator_of_mem hx]
      have : Prod.mk x ⁻¹' unitTriangle = Set.Icc 0 (1 - x) := by
        ext y
        simp only [Set.mem_preimage, unitTriangle, Set.mem_ofPred_eq, Set.mem_Icc]
        constructor
        · rintro ⟨-, h1, h2⟩; exact ⟨h1, by linarith⟩
        · rintro ⟨h1, h2⟩; exact ⟨hx.1, h1, by linarith⟩
      rw [this, Real.volume_Icc, sub_zero]
    · rw [Set.indicator_of_notMem hx]
      have : Prod.mk x ⁻¹' unitTriangle = ∅ := by
        ext y
        simp only [Set.mem_preimage, unitTriangle, Set.mem_ofPred_eq, Set.mem_empty_iff_false, iff_false]
        rintro ⟨h0, h1, h2⟩
        exact hx ⟨h0, by linarith⟩
      rw [this, measure_empty]
  simp_rw [hsec]
  rw [lintegral_indicator measurableSet_Icc, ← ofReal_integral_eq_lintegral_ofReal]
  · congr 1
    rw [integral_Icc_eq_integral_Ioc, ← intervalIntegral.integral_of_le zero_le_one, intervalIntegral.integral_sub (by simp) (by simp), intervalIntegral.integral_const, integral_id]
    norm_num
  · exact (continuous_const.sub continuous_id).integrableOn_Icc
  · refine (ae_restrict_iff' measurableSet_Icc).2 (Filter.Eventually.of_forall fun x hx => ?_)
    exact sub_nonneg.2 hx.2

/-- The linear map with columns `u` and `w`. -/
noncomputable def columns (u w : ℝ × ℝ) : (ℝ × ℝ) →ₗ[ℝ] (ℝ × ℝ) :=
  Matrix.toLin (Module.Basis.finTwoProd ℝ) (Module.Basis.finTwoProd ℝ) !![u.1, w.1; u.2, w.2]

theorem columns_apply (u w z : ℝ × ℝ) : columns u w z = (u.1 * z.1 + w.1 * z.2, u.2 * z.1 + w.2 * z.2) :=
  Matrix.toLin_finTwoProd_apply _ _ _ _ _

theorem columns_det (u w : ℝ × ℝ) : LinearMap.det (columns u w) = u.1 * w.2 - w.1 * u.2 := by
  unfold columns
  rw [LinearMap.det_toLin, Matrix.det_fin_two_of]

theorem volume_shifted_image (a u w : ℝ × ℝ) (s : Set (ℝ × ℝ)) :
    volume ((fun x => (-a) + x) ⁻¹' (columns u w '' s)) = ENNReal.ofReal |u.1 * w.2 - w.1 * u.2| * volume s := by
  rw [measure_preimage_add, Measure.addHaar_image_linearMap, columns_det]

/-- Points of a triangle have barycentric coordinates that are not negative. -/
theorem mem_triangle {a b c x : ℝ × ℝ} (hd : 0 < leftTurn a b c) (h1 : 0 ≤ leftTurn b c x) (h2 : 0 ≤ leftTurn c a x)
    (h3 : 0 ≤ leftTurn a b x) : x ∈ convexHull ℝ {a, b, c} := by
  have hsum : leftTurn b c x + leftTurn c a x + leftTurn a b x = leftTurn a b c := by unfold leftTurn; ring
  have e : x = (leftTurn b c x / leftTurn a b c) • a + (leftTurn c a x / leftTurn a b c) • b
      + (leftTurn a b x / leftTurn a b c) • c := by
    ext
    · simp only [Prod.fst_add, Prod.smul_fst, smul_eq_mul]
      field_simp
      unfold leftTurn; ring
    · simp only [Prod.snd_add, Prod.smul_snd, smul_eq_mul]
      field_simp
      unfold leftTurn; ring
  rw [e]
  have ha : a ∈ convexHull ℝ {a, b, c} := subset_convexHull ℝ _ (by simp)
  have hb : b ∈ convexHull ℝ {a, b, c} := subset_convexHull ℝ _ (by simp)
  have hc : c ∈ convexHull ℝ {a, b, c} := subset_convexHull ℝ _ (by simp)
  have := (convex_convexHull ℝ {a, b, c}).sum_mem (t := Finset.univ) (w := ![leftTurn b c x / leftTurn a b c,
    leftTurn c a x / leftTurn a b c, leftTurn a b x / leftTurn a b c]) (z := ![a, b, c])
    (by intro i _; fin_cases i <;> simp <;> positivity)
    (by
      rw [Fin.sum_univ_three]
      simp only [Matrix.cons_val_zero, Matrix.cons_val_one, Matrix.cons_val]
      rw [← add_div, ← add_div, hsum, div_self hd.ne'])
    (by intro i _; fin_cases i <;> simpa)
  rw [Fin.sum_univ_three] at this
  simpa using this

/-- One side of a line is convex. -/
theorem convex_left (p q : ℝ × ℝ) : Convex ℝ {z | 0 ≤ leftTurn p q z} := by
  intro x hx y hy s t hs ht hst
  simp only [Set.mem_ofPred_eq] at hx hy ⊢
  have : leftTurn p q (s • x + t • y) = s * leftTurn p q x + t * leftTurn p q y := by
    have ht' : t = 1 - s := by linarith
    subst ht'
    simp only [leftTurn, Prod.fst_add, Prod.snd_add, Prod.smul_fst, Prod.smul_snd, smul_eq_mul]
    ring
  rw [this]
  positivity

theorem leftTurn_mix (p q x y : ℝ × ℝ) (t : ℝ) :
    leftTurn p q ((1 - t) • x + t • y) = (1 - t) * leftTurn p q x + t * leftTurn p q y := by
  simp only [leftTurn, Prod.fst_add, Prod.snd_add, Prod.smul_fst, Prod.smul_snd, smul_eq_mul]
  ring

theorem leftTurn_swap (p q z : ℝ × ℝ) : leftTurn q p z = -leftTurn p q z := by unfold leftTurn; ring

theorem leftTurn_cycle (p q r : ℝ × ℝ) : leftTurn q r p = leftTurn p q r := by unfold leftTurn; ring

theorem volume_triangle {a b c : ℝ × ℝ} (hd : 0 < leftTurn a b c) :
    volume (convexHull ℝ {a, b, c}) = ENNReal.ofReal (leftTurn a b c / 2) := by
  have hset : convexHull ℝ {a, b, c} = (fun x => (-a) + x) ⁻¹' (columns (b - a) (c - a) '' unitTriangle) := by
    apply Set.Subset.antisymm
    · intro x hx
      have hin : ∀ p q : ℝ × ℝ, (0 ≤ leftTurn p q a) → (0 ≤ leftTurn p q b) → (0 ≤ leftTurn p q c) → 0 ≤ leftTurn p q x := by
        intro p q h1 h2 h3
        refine convexHull_min ?_ (convex_left p q) hx
        rintro y (rfl | rfl | rfl) <;> assumption
      have z1 : ∀ p q : ℝ × ℝ, leftTurn p q p = 0 := fun p q => by unfold leftTurn; ring
      have z2 : ∀ p q : ℝ × ℝ, leftTurn p q q = 0 := fun p q => by unfold leftTurn; ring
      have h1 := hin b c (by rw [leftTurn_cycle]; exact hd.le) (z1 _ _).ge (z2 _ _).ge
      have h2 := hin c a (z2 _ _).ge (by rw [← leftTurn_cycle]; exact hd.le) (z1 _ _).ge
      have h3 := hin a b (z1 _ _).ge (z2 _ _).ge hd.le
      have hsum : leftTurn b c x + leftTurn c a x + leftTurn a b x = leftTurn a b c := by unfold leftTurn; ring
      refine ⟨(leftTurn c a x / leftTurn a b c, leftTurn a b x / leftTurn a b c), ⟨by positivity, by positivity, ?_⟩, ?_⟩
      · rw [← add_div, div_le_one hd]; linarith
      · rw [columns_apply]
        ext
        · simp only [Prod.fst_add, Prod.fst_neg, Prod.fst_sub]
          field_simp
          unfold leftTurn; ring
        · simp only [Prod.snd_add, Prod.snd_neg, Prod.snd_sub]
          field_simp
          unfold leftTurn; ring
    · rintro x ⟨z, ⟨h1, h2, h3⟩, hz⟩
      rw [columns_apply] at hz
      have e1 : x.1 = a.1 + ((b.1 - a.1) * z.1 + (c.1 - a.1) * z.2) := by
        have := congrArg Prod.fst hz
        simp only [Prod.fst_add, Prod.fst_neg, Prod.fst_sub] at this
        linarith
      have e2 : x.2 = a.2 + ((b.2 - a.2) * z.1 + (c.2 - a.2) * z.2) := by
        have := congrArg Prod.snd hz
        simp only [Prod.snd_add, Prod.snd_neg, Prod.snd_sub] at this
        linarith
      apply mem_triangle hd
      · have : leftTurn b c x = leftTurn a b c * (1 - z.1 - z.2) := by unfold leftTurn; rw [e1, e2]; ring
        rw [this]; exact mul_nonneg hd.le (by linarith)
      · have : leftTurn c a x = leftTurn a b c * z.1 := by unfold leftTurn; rw [e1, e2]; ring
        rw [this]; positivity
      · have : leftTurn a b x = leftTurn a b c * z.2 := by unfold leftTurn; rw [e1, e2]; ring
        rw [this]; positivity
  rw [hset, volume_shifted_image, volume_unitTriangle]
  have : (b - a).1 * (c - a).2 - (c - a).1 * (b - a).2 = leftTurn a b c := rfl
  rw [this, abs_of_pos hd, ← ENNReal.ofReal_mul hd.le]
  congr 1
  ring

/-- A line has no area. -/
theorem volume_line {p r : ℝ × ℝ} (h : p ≠ r) : volume {z | leftTurn p r z = 0} = 0 := by
  refine measure_mono_null (t := (fun x => (-p) + x) ⁻¹' (columns (r - p) 0 '' Set.univ)) ?_ ?_
  · intro z hz
    simp only [Set.mem_ofPred_eq, leftTurn] at hz
    have hne : r.1 - p.1 ≠ 0 ∨ r.2 - p.2 ≠ 0 := by
      by_contra hc
      push Not at hc
      exact h (Prod.ext (by linarith [hc.1]) (by linarith [hc.2]))
    rcases hne with hne | hne
    · refine ⟨((z.1 - p.1) / (r.1 - p.1), 0), Set.mem_univ _, ?_⟩
      rw [columns_apply]
      ext
      · simp only [Prod.fst_add, Prod.fst_neg, Prod.fst_sub, Prod.fst_zero]
        field_simp; ring
      · simp only [Prod.snd_add, Prod.snd_neg, Prod.snd_sub, Prod.snd_zero]
        field_simp; linarith
    · refine ⟨((z.2 - p.2) / (r.2 - p.2), 0), Set.mem_univ _, ?_⟩
      rw [columns_apply]
      ext
      · simp only [Prod.fst_add, Prod.fst_neg, Prod.fst_sub, Prod.fst_zero]
        field_simp; linarith
      · simp only [Prod.snd_add, Prod.snd_neg, Prod.snd_sub, Prod.snd_zero]
        field_simp; ring
  · rw [volume_shifted_image]
    simp

/-- Cutting off the first triangle of the fan around `p`. -/
theorem hull_cut {p q r : ℝ × ℝ} {s : Set (ℝ × ℝ)} (hp : p ∈ s) (hr : r ∈ s) (hd : 0 < leftTurn p q r)
    (h1 : ∀ y ∈ s, 0 ≤ leftTurn p r y) (h2 : ∀ y ∈ s, 0 ≤ leftTurn p q y) (h3 : ∀ y ∈ s, 0 ≤ leftTurn q r y) :
    convexHull ℝ (insert q s) = convexHull ℝ {p, q, r} ∪ convexHull ℝ s := by
  apply Set.Subset.antisymm
  · rw [convexHull_insert ⟨p, hp⟩]
    intro x hx
    rw [mem_convexJoin] at hx
    obtain ⟨q', hq', y, hy, hx⟩ := hx
    rw [Set.mem_singleton_iff] at hq'
    subst hq'
    rw [segment_eq_image] at hx
    obtain ⟨t, ⟨ht0, ht1⟩, rfl⟩ := hx
    have g1 : 0 ≤ leftTurn p r y := convexHull_min h1 (convex_left p r) hy
    have g2 : 0 ≤ leftTurn p q' y := convexHull_min h2 (convex_left p q') hy
    have g3 : 0 ≤ leftTurn q' r y := convexHull_min h3 (convex_left q' r) hy
    have k1 : leftTurn p r q' = -leftTurn p q' r := by unfold leftTurn; ring
    have k2 : leftTurn p q' q' = 0 := by unfold leftTurn; ring
    have k3 : leftTurn q' r q' = 0 := by unfold leftTurn; ring
    have tri : ∀ τ, 0 ≤ τ → (1 - τ) * leftTurn p r q' + τ * leftTurn p r y ≤ 0 →
        (1 - τ) • q' + τ • y ∈ convexHull ℝ {p, q', r} := by
      intro τ hτ hle
      apply mem_triangle hd
      · rw [leftTurn_mix, k3]; nlinarith [mul_nonneg hτ g3]
      · rw [leftTurn_swap, leftTurn_mix]; linarith
      · rw [leftTurn_mix, k2]; nlinarith [mul_nonneg hτ g2]
    rcases le_or_gt ((1 - t) * leftTurn p r q' + t * leftTurn p r y) 0 with h | h
    · exact Or.inl (tri t ht0 h)
    · right
      have hden : 0 < leftTurn p q' r + leftTurn p r y := by linarith
      set τ := leftTurn p q' r / (leftTurn p q' r + leftTurn p r y) with hτ
      have hτ0 : 0 < τ := by positivity
      have hcross : (1 - τ) * leftTurn p r q' + τ * leftTurn p r y = 0 := by
        rw [k1, hτ]; field_simp; ring
      -- the point of the segment on the line through `p` and `r` is between them
      set z := (1 - τ) • q' + τ • y with hz
      have hzs : z ∈ convexHull ℝ s := by
        have c1 : 0 ≤ leftTurn q' r z := by rw [hz, leftTurn_mix, k3]; nlinarith [mul_nonneg hτ0.le g3]
        have c2 : leftTurn r p z = 0 := by rw [leftTurn_swap, hz, leftTurn_mix, hcross, neg_zero]
        have c3 : 0 ≤ leftTurn p q' z := by rw [hz, leftTurn_mix, k2]; nlinarith [mul_nonneg hτ0.le g2]
        have hsum : leftTurn q' r z + leftTurn r p z + leftTurn p q' z = leftTurn p q' r := by unfold leftTurn; ring
        have e : z = (leftTurn q' r z / leftTurn p q' r) • p + (leftTurn p q' z / leftTurn p q' r) • r := by
          have e' : z = (leftTurn q' r z / leftTurn p q' r) • p + (leftTurn r p z / leftTurn p q' r) • q'
              + (leftTurn p q' z / leftTurn p q' r) • r := by
            generalize z = z
            ext
            · simp only [Prod.fst_add, Prod.smul_fst, smul_eq_mul]
              field_simp
              unfold leftTurn; ring
            · simp only [Prod.snd_add, Prod.smul_snd, smul_eq_mul]
              field_simp
              unfold leftTurn; ring
          rw [c2, zero_div, zero_smul, add_zero] at e'
          exact e'
        rw [e]
        refine convex_convexHull ℝ s (subset_convexHull ℝ s hp) (subset_convexHull ℝ s hr) (by positivity) (by positivity) ?_
        rw [← add_div, div_eq_one_iff_eq hd.ne']
        linarith
      have hτt : τ ≤ t := by
        rw [hτ, div_le_iff₀ hden]
        rw [k1] at h
        linarith
      rcases eq_or_lt_of_le ht1 with rfl | ht1
      · simpa using hy
      have hτ1 : 0 < 1 - τ := by linarith
      have e : (1 - t) • q' + t • y = ((1 - t) / (1 - τ)) • z + (1 - (1 - t) / (1 - τ)) • y := by
        rw [hz]
        ext
        · simp only [Prod.fst_add, Prod.smul_fst, smul_eq_mul]
          field_simp; ring
        · simp only [Prod.snd_add, Prod.smul_snd, smul_eq_mul]
          field_simp; ring
      show (1 - t) • q' + t • y ∈ _
      rw [e]
      refine convex_convexHull ℝ s hzs hy (div_nonneg (by linarith) hτ1.le) ?_ (by ring)
      rw [sub_nonneg, div_le_one hτ1]
      linarith
  · apply Set.union_subset
    · apply convexHull_mono
      rintro x (rfl | rfl | rfl)
      · exact Or.inr hp
      · exact Or.inl rfl
      · exact Or.inr hr
    · exact convexHull_mono (Set.subset_insert _ _)

/-- Twice the area of the fan of triangles around `p`. -/
noncomputable def fan (p : ℝ × ℝ) : List (ℝ × ℝ) → ℝ
  | q :: r :: l => leftTurn p q r + fan p (r :: l)
  | _ => 0

theorem fan_path (p : ℝ × ℝ) : ∀ (q : ℝ × ℝ) (l : List (ℝ × ℝ)),
    crossPath (q :: l ++ [p]) = fan p (q :: l) + (q.1 * p.2 - p.1 * q.2)
  | q, [] => by simp [crossPath, fan]
  | q, r :: l => by
    have := fan_path p r l
    simp only [List.cons_append, crossPath, fan] at this ⊢
    rw [this]
    unfold leftTurn; ring

theorem fan_nonneg' (p : ℝ × ℝ) : ∀ l : List (ℝ × ℝ), (∀ b c, [b, c].Sublist l → 0 < leftTurn p b c) → 0 ≤ fan p l
  | [], _ => le_rfl
  | [_], _ => le_rfl
  | q :: r :: l, h => add_nonneg (h q r (by simp)).le (fan_nonneg' p (r :: l) fun b c hs => h b c (hs.cons _))

theorem volume_fan (p : ℝ × ℝ) : ∀ (q r : ℝ × ℝ) (l : List (ℝ × ℝ)),
    (∀ a b c, [a, b, c].Sublist (p :: q :: r :: l) → 0 < leftTurn a b c) →
    volume (convexHull ℝ {x | x ∈ p :: q :: r :: l}) = ENNReal.ofReal (fan p (q :: r :: l) / 2)
  | q, r, [], h => by
    have e : {x | x ∈ [p, q, r]} = ({p, q, r} : Set (ℝ × ℝ)) := by ext x; simp
    rw [e, volume_triangle (h p q r (List.Sublist.refl _))]
    simp [fan]
  | q, r, t :: l, h => by
    have ih := volume_fan p r t l fun a b c hs => h a b c (by
      exact hs.trans ((List.sublist_cons_self q _).cons_cons p))
    have hd := h p q r (by simp)
    have e : {x | x ∈ p :: q :: r :: t :: l} = insert q {x | x ∈ p :: r :: t :: l} := by
      ext x
      simp only [Set.mem_ofPred_eq, List.mem_cons, Set.mem_insert_iff]
      tauto
    have g1 : ∀ y ∈ {x | x ∈ p :: r :: t :: l}, 0 ≤ leftTurn p r y := by
      intro y hy
      rcases List.mem_cons.1 hy with rfl | hy
      · exact le_of_eq (by unfold leftTurn; ring)
      rcases List.mem_cons.1 hy with rfl | hy
      · exact le_of_eq (by unfold leftTurn; ring)
      exact (h p r y (((List.singleton_sublist.2 hy).cons_cons r).cons q |>.cons_cons p)).le
    have g2 : ∀ y ∈ {x | x ∈ p :: r :: t :: l}, 0 ≤ leftTurn p q y := by
      intro y hy
      rcases List.mem_cons.1 hy with rfl | hy
      · exact le_of_eq (by unfold leftTurn; ring)
      exact (h p q y (((List.singleton_sublist.2 hy).cons_cons q).cons_cons p)).le
    have g3 : ∀ y ∈ {x | x ∈ p :: r :: t :: l}, 0 ≤ leftTurn q r y := by
      intro y hy
      rcases List.mem_cons.1 hy with rfl | hy
      · rw [leftTurn_cycle]; exact hd.le
      rcases List.mem_cons.1 hy with rfl | hy
      · exact le_of_eq (by unfold leftTurn; ring)
      exact (h q r y (((List.singleton_sublist.2 hy).cons_cons r).cons_cons q |>.cons p)).le
    rw [e, hull_cut (s := {x | x ∈ p :: r :: t :: l}) (p := p) (r := r) (by simp) (by simp) hd g1 g2 g3, measure_union₀, ih,
      volume_triangle hd, ← ENNReal.ofReal_add (by positivity)]
    · congr 1
      simp only [fan]
      ring
    · apply div_nonneg _ zero_le_two
      exact fan_nonneg' p _ fun b c hs => h p b c ((hs.cons q).cons_cons p)
    · exact ((List.finite_toSet (p :: r :: t :: l)).isCompact_convexHull ℝ).isClosed.measurableSet.nullMeasurableSet
    · have hpr : p ≠ r := by
        rintro rfl
        have : leftTurn p q p = 0 := by unfold leftTurn; ring
        linarith
      refine measure_mono_null ?_ (volume_line hpr)
      rintro x ⟨hx1, hx2⟩
      have k1 : 0 ≤ leftTurn p r x := convexHull_min g1 (convex_left p r) hx2
      have k2 : 0 ≤ leftTurn r p x := by
        refine convexHull_min ?_ (convex_left r p) hx1
        rintro y (rfl | rfl | rfl) <;> rw [Set.mem_ofPred_eq]
        · exact le_of_eq (by unfold leftTurn; ring)
        · unfold leftTurn at hd ⊢; linarith
        · exact le_of_eq (by unfold leftTurn; ring)
      rw [leftTurn_swap] at k2
      exact le_antisymm (by linarith) k1

/-- The shoelace formula gives the area of the convex hull of the vertices. -/
theorem volume_ring {v : List (ℝ × ℝ)} (h3 : 3 ≤ v.length) (h : ∀ a b c, [a, b, c].Sublist v → 0 < leftTurn a b c) :
    volume (convexHull ℝ {x | x ∈ v}) = ENNReal.ofReal (shoelace v) := by
  rcases v with _ | ⟨p, _ | ⟨q, _ | ⟨r, l⟩⟩⟩
  · simp at h3
  · simp at h3
  · simp at h3
  · rw [volume_fan p q r l h, shoelace_path]
    congr 2
    have := fan_path p q (r :: l)
    simp only [List.cons_append, crossPath] at this ⊢
    rw [this]
    ring

end Pointpats.HullVolume
