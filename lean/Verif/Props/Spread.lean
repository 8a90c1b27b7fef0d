import Verif.Props.Ellipse
import Verif.Props.Centers

/-!
# C172: the standard distance and the standard deviational ellipse describe the same spread, and what share of the
events they hold
-/

set_option linter.unusedSectionVars false

namespace Pointpats.Props

open Centrography Spec

/-- The event `p` is in the ellipse round `c` with half axes `major` and `minor`, both positive, the major one in
direction `angle`. -/
def InEllipse (c : ℝ × ℝ) (major minor angle : ℝ) (p : ℝ × ℝ) : Prop :=
  (((p.1 - c.1) * Real.cos angle + (p.2 - c.2) * Real.sin angle) / major) ^ 2
    + (((p.2 - c.2) * Real.cos angle - (p.1 - c.1) * Real.sin angle) / minor) ^ 2 ≤ 1

/-- The weights of one. -/
private theorem zip_ones (points : List (ℝ × ℝ)) :
    (List.replicate points.length (1 : ℝ)).zip points = points.map fun p => (1, p) := by
  induction points with
  | nil => rfl
  | cons a l ih => simp [List.replicate_succ, ih]

private theorem dirVar_points (points : List (ℝ × ℝ)) (hne : points ≠ []) (φ : ℝ) :
    (points.length : ℝ) * dirVar (points.map fun p => (1, p)) φ
      = (points.map fun p => ((p.1 - (meanCenter points).1) * Real.cos φ
          + (p.2 - (meanCenter points).2) * Real.sin φ) ^ 2).sum := by
  have hn : (points.length : ℝ) ≠ 0 := Nat.cast_ne_zero.2 fun h => hne (List.length_eq_zero_iff.1 h)
  have hmean : wMean ((points.map fun p => ((1 : ℝ), p)).map fun a =>
      (a.1, a.2.1 * Real.cos φ + a.2.2 * Real.sin φ))
      = (meanCenter points).1 * Real.cos φ + (meanCenter points).2 * Real.sin φ := by
    unfold wMean meanCenter
    simp only [List.map_map, Function.comp_def, one_mul, List.map_const', List.sum_replicate, nsmul_eq_mul, mul_one]
    rw [List.sum_map_add, List.sum_map_mul_right, List.sum_map_mul_right]
    field_simp
  unfold dirVar wVar
  rw [hmean]
  simp only [List.map_map, Function.comp_def, one_mul, List.map_const', List.sum_replicate, nsmul_eq_mul, mul_one]
  rw [mul_div_cancel₀ _ hn]
  congr 1
  apply List.map_congr_left
  intro p _
  ring

private theorem dirVar_nonneg (points : List (ℝ × ℝ)) (hne : points ≠ []) (φ : ℝ) :
    0 ≤ dirVar (points.map fun p => (1, p)) φ := by
  have hn : (0 : ℝ) < points.length := Nat.cast_pos.2 (List.length_pos_iff.2 hne)
  have h := dirVar_points points hne φ
  have h0 : 0 ≤ (points.map fun p => ((p.1 - (meanCenter points).1) * Real.cos φ
          + (p.2 - (meanCenter points).2) * Real.sin φ) ^ 2).sum :=
    List.sum_nonneg fun x hx => by
      obtain ⟨p, -, rfl⟩ := List.mem_map.1 hx
      positivity
  rw [← h] at h0
  exact nonneg_of_mul_nonneg_right h0 hn

/-- A mean bounds the number of large values. -/
private theorem count_large {l : List (ℝ × ℝ)} {f : ℝ × ℝ → ℝ} (h0 : ∀ p ∈ l, 0 ≤ f p) (c : ℝ)
    (P : ℝ × ℝ → Prop) [DecidablePred P] (hP : ∀ p ∈ l, P p → c ≤ f p) :
    (l.countP fun p => decide (P p)) * c ≤ (l.map f).sum := by
  induction l with
  | nil => simp
  | cons a l ih =>
    rw [List.forall_mem_cons] at h0 hP
    have := ih h0.2 hP.2
    rw [List.countP_cons, List.map_cons, List.sum_cons]
    by_cases ha : P a
    · simp only [ha, decide_true, if_true]
      push_cast
      linarith [hP.1 ha]
    · simp only [ha, decide_false, Bool.false_eq_true, if_false]
      push_cast
      linarith [h0.1]

private theorem exists_small {l : List (ℝ × ℝ)} (hne : l ≠ []) {f : ℝ × ℝ → ℝ} {c : ℝ}
    (hs : (l.map f).sum ≤ l.length * c) : ∃ p ∈ l, f p ≤ c := by
  by_contra h
  push Not at h
  have : ∀ l : List (ℝ × ℝ), l ≠ [] → (∀ p ∈ l, c < f p) → l.length * c < (l.map f).sum := by
    intro l
    induction l with
    | nil => intro h; exact absurd rfl h
    | cons a l ih =>
      intro _ h
      rw [List.forall_mem_cons] at h
      rw [List.map_cons, List.sum_cons, List.length_cons]
      push_cast
      by_cases hl : l = []
      · subst hl; simp; linarith [h.1]
      · linarith [ih hl h.2, h.1]
  exact absurd hs (not_le.2 (this l hne h))

/-- **C172, one spread.** The squares of the two half axes add up to the square of the standard distance times the
square of the documented factor of the method. -/
theorem C172_spread (points : List (ℝ × ℝ)) (hn : 3 ≤ points.length) (method : String) (m : EllipseMethod)
    (hm : parseMethod method = .ok m) (crimestatCorr degfreedCorr : Bool) :
    ∃ major minor angle, ellipse points none method crimestatCorr degfreedCorr = .ok (major, minor, angle)
      ∧ major ^ 2 + minor ^ 2
        = ellipseFactor points.length m crimestatCorr degfreedCorr ^ 2 * stdDistance points ^ 2 := by
  have hne : points ≠ [] := by rintro rfl; simp at hn
  obtain ⟨a, b, angle, h⟩ := C28_C29_ellipse points hn none (by simp) _ rfl
  obtain ⟨k, rfl, -, he, hd⟩ := h method m hm crimestatCorr degfreedCorr
  refine ⟨_, _, _, he, ?_⟩
  have hz : ((none : Option (List ℝ)).getD (List.replicate points.length 1)).zip points
      = points.map fun p => (1, p) := zip_ones points
  rw [hz] at hd
  rw [hd.major_eq, hd.minor_eq, mul_pow, mul_pow, Real.sq_sqrt (dirVar_nonneg points hne _),
    Real.sq_sqrt (dirVar_nonneg points hne _), ← mul_add]
  congr 1
  have hnn : (points.length : ℝ) ≠ 0 := Nat.cast_ne_zero.2 fun h => hne (List.length_eq_zero_iff.1 h)
  rw [(C27_std_distance points hne).2.1, eq_div_iff hnn, mul_comm, mul_add, dirVar_points points hne,
    dirVar_points points hne, ← List.sum_map_add]
  unfold sumSq sqDist
  congr 1
  apply List.map_congr_left
  intro p _
  rw [Real.cos_add_pi_div_two, Real.sin_add_pi_div_two]
  have := Real.sin_sq_add_cos_sq angle
  linear_combination ((p.1 - (meanCenter points).1) ^ 2 + (p.2 - (meanCenter points).2) ^ 2) * this

/-- **C172, the circle.** At least one event is not farther than the standard distance from the mean centre, and for
every `r` at most `n / r²` of the `n` events are farther than `r` standard distances from it. -/
theorem C172_circle_share (points : List (ℝ × ℝ)) (hne : points ≠ []) :
    (∃ p ∈ points, eucl p (meanCenter points) ≤ stdDistance points)
    ∧ ∀ r : ℝ, 0 < r → 0 < stdDistance points →
      ((points.countP fun p => decide (r * stdDistance points < eucl p (meanCenter points))) : ℝ)
        ≤ points.length / r ^ 2 := by
  have hnn : (points.length : ℝ) ≠ 0 := Nat.cast_ne_zero.2 fun h => hne (List.length_eq_zero_iff.1 h)
  obtain ⟨h0, h1, -⟩ := C27_std_distance points hne
  rw [eq_div_iff hnn] at h1
  unfold sumSq at h1
  have hsq : ∀ p q : ℝ × ℝ, eucl p q ^ 2 = sqDist p q := fun p q => by
    unfold eucl; exact Real.sq_sqrt (by unfold sqDist; positivity)
  constructor
  · obtain ⟨p, hp, hle⟩ := exists_small hne (f := fun p => sqDist p (meanCenter points))
      (c := stdDistance points ^ 2) (by rw [← h1]; exact (mul_comm _ _).le)
    refine ⟨p, hp, ?_⟩
    rw [← hsq] at hle
    exact le_of_sq_le_sq hle h0
  · intro r hr hs
    have := count_large (l := points) (f := fun p => sqDist p (meanCenter points))
      (fun p _ => by rw [← hsq]; positivity) ((r * stdDistance points) ^ 2)
      (fun p => r * stdDistance points < eucl p (meanCenter points)) (fun p _ h => by
        rw [← hsq]
        exact pow_le_pow_left₀ (by positivity) h.le 2)
    rw [← h1] at this
    rw [le_div_iff₀ (by positivity)]
    have hs2 : 0 < stdDistance points ^ 2 := by positivity
    have e : ((points.countP fun p => decide (r * stdDistance points < eucl p (meanCenter points))) : ℝ) * r ^ 2
        * stdDistance points ^ 2 ≤ points.length * stdDistance points ^ 2 := by
      rw [mul_pow] at this; linarith
    exact le_of_mul_le_mul_right e hs2

/-- **C172, the ellipse, what holds.** If the events are not on a line (both half axes positive), at most `2 n / k²`
of the events are outside the ellipse round the mean centre, `k` being the factor of the method. For the CrimeStat
method this is `n − 2`: at least two events are inside. What is missing (and false, see `C172_ellipse_refuted`):
that the ellipse of every method holds an event. -/
theorem C172_ellipse_partial (points : List (ℝ × ℝ)) (hn : 3 ≤ points.length) (method : String) (m : EllipseMethod)
    (hm : parseMethod method = .ok m) (crimestatCorr degfreedCorr : Bool) (major minor angle : ℝ)
    (he : ellipse points none method crimestatCorr degfreedCorr = .ok (major, minor, angle)) (hpos : 0 < minor)
    [DecidablePred (InEllipse (meanCenter points) major minor angle)] :
    ((points.countP fun p => decide ¬InEllipse (meanCenter points) major minor angle p) : ℝ)
      ≤ 2 * points.length / ellipseFactor points.length m crimestatCorr degfreedCorr ^ 2
    ∧ (m = .crimestat → 2 ≤ points.countP fun p => decide (InEllipse (meanCenter points) major minor angle p)) := by
  have hne : points ≠ [] := by rintro rfl; simp at hn
  obtain ⟨a, b, angle', h⟩ := C28_C29_ellipse points hn none (by simp) _ rfl
  obtain ⟨k, hk, hk0, he', hd⟩ := h method m hm crimestatCorr degfreedCorr
  rw [he] at he'
  simp only [Except.ok.injEq, Prod.mk.injEq] at he'
  obtain ⟨e1, e2, rfl⟩ := he'
  rw [← e1, ← e2] at hd
  rw [← hk]
  have hz : ((none : Option (List ℝ)).getD (List.replicate points.length 1)).zip points
      = points.map fun p => (1, p) := zip_ones points
  rw [hz] at hd
  have hM : 0 < major := lt_of_lt_of_le hpos hd.le
  have s1 : (points.length : ℝ) * major ^ 2 = k ^ 2 * (points.map fun p => ((p.1 - (meanCenter points).1) * Real.cos angle
          + (p.2 - (meanCenter points).2) * Real.sin angle) ^ 2).sum := by
    rw [← dirVar_points points hne, hd.major_eq, mul_pow, Real.sq_sqrt (dirVar_nonneg points hne _)]; ring
  have s2 : (points.length : ℝ) * minor ^ 2 = k ^ 2 * (points.map fun p => ((p.2 - (meanCenter points).2) * Real.cos angle
          - (p.1 - (meanCenter points).1) * Real.sin angle) ^ 2).sum := by
    have := dirVar_points points hne (angle + Real.pi / 2)
    have e : (points.map fun p => ((p.2 - (meanCenter points).2) * Real.cos angle
          - (p.1 - (meanCenter points).1) * Real.sin angle) ^ 2)
        = points.map fun p => ((p.1 - (meanCenter points).1) * Real.cos (angle + Real.pi / 2)
          + (p.2 - (meanCenter points).2) * Real.sin (angle + Real.pi / 2)) ^ 2 := by
      apply List.map_congr_left
      intro p _
      rw [Real.cos_add_pi_div_two, Real.sin_add_pi_div_two]; ring
    rw [e, ← this, hd.minor_eq, mul_pow, Real.sq_sqrt (dirVar_nonneg points hne _)]; ring
  have hk2 : k ^ 2 ≠ 0 := by positivity
  have htot : (points.map fun p => (((p.1 - (meanCenter points).1) * Real.cos angle
        + (p.2 - (meanCenter points).2) * Real.sin angle) / major) ^ 2
      + (((p.2 - (meanCenter points).2) * Real.cos angle
        - (p.1 - (meanCenter points).1) * Real.sin angle) / minor) ^ 2).sum = 2 * points.length / k ^ 2 := by
    simp only [div_pow]
    rw [List.sum_map_add]
    simp only [div_eq_mul_inv]
    rw [List.sum_map_mul_right, List.sum_map_mul_right]
    have hM' := hM.ne'
    have hm' := hpos.ne'
    generalize (points.map fun p => ((p.1 - (meanCenter points).1) * Real.cos angle
          + (p.2 - (meanCenter points).2) * Real.sin angle) ^ 2).sum = A at s1 ⊢
    generalize (points.map fun p => ((p.2 - (meanCenter points).2) * Real.cos angle
          - (p.1 - (meanCenter points).1) * Real.sin angle) ^ 2).sum = B at s2 ⊢
    field_simp
    linear_combination (-minor ^ 2) * s1 + (-major ^ 2) * s2
  have hcount := count_large (l := points) (f := fun p => (((p.1 - (meanCenter points).1) * Real.cos angle
        + (p.2 - (meanCenter points).2) * Real.sin angle) / major) ^ 2
      + (((p.2 - (meanCenter points).2) * Real.cos angle
        - (p.1 - (meanCenter points).1) * Real.sin angle) / minor) ^ 2) (fun p _ => by positivity) 1
      (fun p => ¬InEllipse (meanCenter points) major minor angle p) (fun p _ h => by
        unfold InEllipse at h
        push Not at h
        exact h.le)
  rw [htot, mul_one] at hcount
  refine ⟨hcount, ?_⟩
  rintro rfl
  have hf : ellipseFactor points.length .crimestat crimestatCorr degfreedCorr
      = Real.sqrt (2 * points.length / (points.length - 2)) := by cases crimestatCorr <;> cases degfreedCorr <;> rfl
  have hn3 : (3 : ℝ) ≤ points.length := by exact_mod_cast hn
  rw [hk, hf, Real.sq_sqrt (div_nonneg (by positivity) (by linarith))] at hcount
  have h2 : (2 : ℝ) * points.length / (2 * points.length / (points.length - 2)) = points.length - 2 := by
    have : (points.length : ℝ) - 2 ≠ 0 := by linarith
    have : (points.length : ℝ) ≠ 0 := by linarith
    field_simp
  rw [h2] at hcount
  have hsplit := List.length_eq_countP_add_countP (fun p => decide (InEllipse (meanCenter points) major minor angle p))
    (l := points)
  have hnot : (points.countP fun p => decide ¬InEllipse (meanCenter points) major minor angle p)
      = points.countP fun p => decide ¬(decide (InEllipse (meanCenter points) major minor angle p) = true) := by
    congr 1; funext p; simp
  rw [hnot] at hcount
  have hc : ((points.countP fun p => decide ¬(decide (InEllipse (meanCenter points) major minor angle p) = true) : ℕ) : ℝ)
      + 2 ≤ points.length := by linarith
  have hc' : (points.countP fun p => decide ¬(decide (InEllipse (meanCenter points) major minor angle p) = true)) + 2
      ≤ points.length := by exact_mod_cast hc
  omega

/-- **C172, refuted.** Yuill's ellipse without corrections round the four corners of a square holds none of them: its
half axes are 1, and the corners are at the distance √2 from the centre. -/
theorem C172_ellipse_refuted :
    ∃ major minor angle, ellipse [(1, 1), (-1, 1), (-1, -1), (1, -1)] none "yuill" false false
        = .ok (major, minor, angle)
      ∧ 0 < minor
      ∧ ∀ p ∈ [((1 : ℝ), (1 : ℝ)), (-1, 1), (-1, -1), (1, -1)],
        ¬InEllipse (meanCenter [(1, 1), (-1, 1), (-1, -1), (1, -1)]) major minor angle p := by
  obtain ⟨a, b, angle, h⟩ := C28_C29_ellipse [(1, 1), (-1, 1), (-1, -1), (1, -1)] (by simp) none (by simp) _ rfl
  obtain ⟨k, hk, -, he, hd⟩ := h "yuill" .yuill (by decide +kernel) false false
  have hk1 : k = 1 := by rw [hk]; rfl
  subst hk1
  refine ⟨_, _, _, he, ?_⟩
  have hz : ((none : Option (List ℝ)).getD (List.replicate [((1 : ℝ), (1 : ℝ)), (-1, 1), (-1, -1), (1, -1)].length 1)).zip
      [((1 : ℝ), (1 : ℝ)), (-1, 1), (-1, -1), (1, -1)]
      = [((1 : ℝ), (1 : ℝ)), (-1, 1), (-1, -1), (1, -1)].map fun p => (1, p) := zip_ones _
  rw [hz] at hd
  have hc : meanCenter [((1 : ℝ), (1 : ℝ)), (-1, 1), (-1, -1), (1, -1)] = (0, 0) := by
    simp [meanCenter]
  have hv : ∀ φ, dirVar ([((1 : ℝ), (1 : ℝ)), (-1, 1), (-1, -1), (1, -1)].map fun p => (1, p)) φ = 1 := by
    intro φ
    have := dirVar_points [((1 : ℝ), (1 : ℝ)), (-1, 1), (-1, -1), (1, -1)] (by simp) φ
    rw [hc] at this
    simp only [List.length_cons, List.length_nil, List.map_cons, List.map_nil, List.sum_cons, List.sum_nil] at this
    push_cast at this
    have t := Real.sin_sq_add_cos_sq φ
    simp only [List.map_cons, List.map_nil]
    nlinarith
  have h1 := hd.major_eq
  have h2 := hd.minor_eq
  rw [hv, Real.sqrt_one] at h1 h2
  rw [h1, h2, hc]
  refine ⟨by norm_num, ?_⟩
  have t := Real.sin_sq_add_cos_sq angle
  intro p hp
  have hp2 : p.1 ^ 2 + p.2 ^ 2 = 2 := by
    simp only [List.mem_cons, List.not_mem_nil, or_false] at hp
    rcases hp with rfl | rfl | rfl | rfl <;> norm_num
  unfold InEllipse
  simp only [sub_zero, mul_one, div_one, not_le]
  have e : (p.1 * Real.cos angle + p.2 * Real.sin angle) ^ 2 + (p.2 * Real.cos angle - p.1 * Real.sin angle) ^ 2
      = (p.1 ^ 2 + p.2 ^ 2) * (Real.sin angle ^ 2 + Real.cos angle ^ 2) := by ring
  rw [e, t, hp2]; norm_num

/-- The hypotheses of `C172_ellipse_partial` are met by the same four corners. -/
example : parseMethod "crimestat" = .ok .crimestat
    ∧ ∃ major minor angle, ellipse [(1, 1), (-1, 1), (-1, -1), (1, -1)] none "crimestat" true true
      = .ok (major, minor, angle) ∧ 0 < minor := by
  refine ⟨by decide +kernel, ?_⟩
  obtain ⟨M, m, φ, e, hm, -⟩ := C172_ellipse_refuted
  obtain ⟨a, b, angle, h⟩ := C28_C29_ellipse [(1, 1), (-1, 1), (-1, -1), (1, -1)] (by simp) none (by simp) _ rfl
  obtain ⟨k, hk, -, he, -⟩ := h "yuill" .yuill (by decide +kernel) false false
  obtain ⟨k', -, hk', he', -⟩ := h "crimestat" .crimestat (by decide +kernel) true true
  rw [e] at he
  simp only [Except.ok.injEq, Prod.mk.injEq] at he
  have hk1 : k = 1 := by rw [hk]; rfl
  refine ⟨_, _, _, he', ?_⟩
  rw [he.2.1, hk1, one_mul] at hm
  positivity

end Pointpats.Props
