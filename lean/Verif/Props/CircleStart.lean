import Verif.Props.CircleUnits

/-!
# C130: the vertex the hull begins with, for hulls with nearly flat corners
-/

namespace Pointpats.Props

open Pointpats Pointpats.Skyum Pointpats.Spec Circ

set_option linter.unusedSectionVars false

/-- A parallelogram with two more corners that are nearly on its long sides; counterclockwise. -/
noncomputable def slantedHull : List Pt :=
  [(0, 0), (15 / 4, -1 / 1000000), (4, 0), (5, 1), (5 / 4, 1 + 1 / 1000000), (1, 1)]

/-- The same ring, from the opposite corner on. -/
noncomputable def slantedHull' : List Pt :=
  [(5, 1), (5 / 4, 1 + 1 / 1000000), (1, 1), (0, 0), (15 / 4, -1 / 1000000), (4, 0)]

theorem slanted_isHull (l : List Pt) (hl : l = slantedHull ∨ l = slantedHull') : IsHullOf l slantedHull := by
  have hsub : ∀ v, v ∈ l ↔ v ∈ slantedHull := by
    intro v
    rcases hl with rfl | rfl
    · rfl
    · simp only [slantedHull, slantedHull', List.mem_cons, List.not_mem_nil, or_false]
      tauto
  refine ⟨by rcases hl with rfl | rfl <;> simp [slantedHull, slantedHull'], fun v hv => (hsub v).1 hv, ?_,
    fun e he => subset_convexHull ℝ _ ((hsub e).2 he)⟩
  intro i j k hij hjk hk
  have hk6 : k < 6 := by rcases hl with rfl | rfl <;> simpa [slantedHull, slantedHull'] using hk
  have : i ≤ 3 := by omega
  have : j ≤ 4 := by omega
  rcases hl with rfl | rfl
  · interval_cases i <;> interval_cases j
    all_goals interval_cases k <;> first | omega | norm_num [slantedHull, clockwiseTurn]
  · interval_cases i <;> interval_cases j
    all_goals interval_cases k <;> first | omega | norm_num [slantedHull', clockwiseTurn]

private theorem slanted_angle {p q r : Pt} (h : (p = (4, 0) ∧ q = (15 / 4, -1 / 1000000) ∧ r = (0, 0)) ∨
    (p = (1, 1) ∧ q = (5 / 4, 1 + 1 / 1000000) ∧ r = (5, 1))) : |angle p q r - Real.pi| < 1 / 100000 := by
  rw [abs_of_nonpos (by linarith [angle_le_pi p q r]), neg_sub, angle_eq, ← Real.arccos_neg]
  have hb := (abs_le.1 (Real.cos_bound (x := 1 / 100000) (by norm_num))).2
  have hP : planeSqDist q p = 1 / 16 + 1 / 1000000 ^ 2 ∧ planeSqDist q r = 225 / 16 + 1 / 1000000 ^ 2
      ∧ dotAt q p r = -15 / 16 + 1 / 1000000 ^ 2 := by
    rcases h with ⟨rfl, rfl, rfl⟩ | ⟨rfl, rfl, rfl⟩ <;> norm_num [planeSqDist, dotAt]
  obtain ⟨e1, e2, e3⟩ := hP
  have hpos : 0 < Real.sqrt (planeSqDist q p) * Real.sqrt (planeSqDist q r) := by
    rw [e1, e2]; positivity
  have h1 : Real.cos (1 / 100000) < -(dotAt q p r / (Real.sqrt (planeSqDist q p) * Real.sqrt (planeSqDist q r))) := by
    refine lt_of_le_of_lt (sub_le_iff_le_add.1 hb) ?_
    rw [abs_of_pos (by norm_num), ← neg_div, lt_div_iff₀ hpos, ← Real.sqrt_mul (by rw [e1]; positivity), e1, e2, e3,
      mul_comm, ← lt_div_iff₀ (by norm_num), Real.sqrt_lt' (by norm_num)]
    norm_num
  have h2 : -(dotAt q p r / (Real.sqrt (planeSqDist q p) * Real.sqrt (planeSqDist q r))) ≤ 1 := by
    rw [← neg_div, div_le_one hpos, ← Real.sqrt_mul (by rw [e1]; positivity), e1, e2, e3]
    refine Real.le_sqrt_of_sq_le ?_
    norm_num
  have h3 := Real.arccos_lt_arccos (Real.neg_one_le_cos _) h1 h2
  rwa [Real.arccos_cos (by norm_num) (by linarith [Real.pi_gt_three])] at h3

private theorem slanted_circles :
    circleAt slantedHull.reverse 0 = (Real.sqrt (r2 (0, 0) (1, 1) (5 / 4, 1 + 1 / 1000000)), cc (0, 0) (1, 1) (5 / 4, 1 + 1 / 1000000)) ∧
    (circleAt slantedHull.reverse 1).1 = 2 ∧
    circleAt slantedHull.reverse 2 = (Real.sqrt (r2 (5 / 4, 1 + 1 / 1000000) (5, 1) (4, 0)), cc (5 / 4, 1 + 1 / 1000000) (5, 1) (4, 0)) ∧
    circleAt slantedHull.reverse 3 = (Real.sqrt (r2 (5, 1) (4, 0) (15 / 4, -1 / 1000000)), cc (5, 1) (4, 0) (15 / 4, -1 / 1000000)) ∧
    (circleAt slantedHull.reverse 4).1 = 2 ∧
    circleAt slantedHull.reverse 5 = (Real.sqrt (r2 (15 / 4, -1 / 1000000) (0, 0) (1, 1)), cc (15 / 4, -1 / 1000000) (0, 0) (1, 1)) := by
  have aux : ∀ p q r : Pt, SpreadOut p q r → circle p q r = (Real.sqrt (r2 p q r), cc p q r) := by
    intro p q r h
    exact circle_eq (SpreadOut_notFlat h) (ne_of_sqDist_pos h.1).symm (ne_of_sqDist_pos h.2.1).symm
  refine ⟨aux (0, 0) (1, 1) (5 / 4, 1 + 1 / 1000000) ?_, ?_, aux (5 / 4, 1 + 1 / 1000000) (5, 1) (4, 0) ?_,
    aux (5, 1) (4, 0) (15 / 4, -1 / 1000000) ?_, ?_, aux (15 / 4, -1 / 1000000) (0, 0) (1, 1) ?_⟩
  · refine ⟨?_, ?_, ?_⟩ <;> norm_num [planeSqDist, clockwiseTurn]
  · show (circle (1, 1) (5 / 4, 1 + 1 / 1000000) (5, 1)).1 = 2
    simp only [circle, abs_of_nonneg (angle_nonneg _ _ _), if_pos (slanted_angle (Or.inr ⟨rfl, rfl, rfl⟩)), euclideanDistance]
    rw [show ((1 : ℝ) - 5) ^ 2 + (1 - 1) ^ 2 = 4 ^ 2 by norm_num, Real.sqrt_sq (by norm_num)]
    norm_num
  · refine ⟨?_, ?_, ?_⟩ <;> norm_num [planeSqDist, clockwiseTurn]
  · refine ⟨?_, ?_, ?_⟩ <;> norm_num [planeSqDist, clockwiseTurn]
  · show (circle (4, 0) (15 / 4, -1 / 1000000) (0, 0)).1 = 2
    simp only [circle, abs_of_nonneg (angle_nonneg _ _ _), if_pos (slanted_angle (Or.inl ⟨rfl, rfl, rfl⟩)), euclideanDistance]
    rw [show ((4 : ℝ) - 0) ^ 2 + (0 - 0) ^ 2 = 4 ^ 2 by norm_num, Real.sqrt_sq (by norm_num)]
    norm_num
  · refine ⟨?_, ?_, ?_⟩ <;> norm_num [planeSqDist, clockwiseTurn]

private theorem slanted_max {m : ℕ} (h : IsLexMax slantedHull.reverse m) : m = 2 ∨ m = 5 := by
  obtain ⟨c0, c1, c2, c3, c4, c5⟩ := slanted_circles
  have hm : m < 6 := h.1
  have hle : (circleAt slantedHull.reverse 5).1 ≤ (circleAt slantedHull.reverse m).1 := by
    rcases h.2 5 (by decide : 5 < 6) with h' | ⟨h', -⟩
    · exact h'.le
    · exact h'.le
  rw [c5] at hle
  by_contra hne
  have : m = 0 ∨ m = 1 ∨ m = 3 ∨ m = 4 := by omega
  rcases this with rfl | rfl | rfl | rfl
  · rw [c0] at hle
    simp only at hle
    rw [Real.sqrt_le_sqrt_iff (by norm_num [r2, planeSqDist, clockwiseTurn])] at hle
    norm_num [r2, planeSqDist, clockwiseTurn] at hle
  · rw [c1] at hle
    simp only at hle
    rw [Real.sqrt_le_iff] at hle
    norm_num [r2, planeSqDist, clockwiseTurn] at hle
  · rw [c3] at hle
    simp only at hle
    rw [Real.sqrt_le_sqrt_iff (by norm_num [r2, planeSqDist, clockwiseTurn])] at hle
    norm_num [r2, planeSqDist, clockwiseTurn] at hle
  · rw [c4] at hle
    simp only at hle
    rw [Real.sqrt_le_iff] at hle
    norm_num [r2, planeSqDist, clockwiseTurn] at hle

/-- The circle that is returned is the one of a corner; it is not centred in the middle of the ring. -/
private theorem slanted_answer (hasNumba : Bool) (rounds : ℕ) : ∃ centre radius,
    minimumBoundingCircle hasNumba (rounds + 1) slantedHull = some (.ok (centre, radius)) ∧ centre ≠ (5 / 2, 1 / 2) := by
  have hh := slanted_isHull _ (Or.inl rfl)
  obtain ⟨-, -, c2, -, -, c5⟩ := slanted_circles
  have e1 := not_clockwise_of_ring hh.three hh.ring
  have e2 := clockwise_reverse hh.three hh.ring
  have hc := conv_reverse hh.ring
  have hd := nodup_of_conv (by rw [List.length_reverse]; exact hh.three) hc
  have h2 : 2 ≤ slantedHull.reverse.length := by rw [List.length_reverse]; have := hh.three; omega
  have hne : slantedHull.reverse ≠ [] := by rintro h; rw [h] at h2; simp at h2
  have hang : ∀ m, m = 2 ∨ m = 5 → angleAt slantedHull.reverse m ≤ Real.pi / 2 := by
    rintro m (rfl | rfl)
    · show angle (5 / 4, 1 + 1 / 1000000) (5, 1) (4, 0) ≤ Real.pi / 2
      rw [angle_le_iff (by norm_num) (by norm_num)]
      norm_num [dotAt]
    · show angle (15 / 4, -1 / 1000000) (0, 0) (1, 1) ≤ Real.pi / 2
      rw [angle_le_iff (by norm_num) (by norm_num)]
      norm_num [dotAt]
  have hcen : ∀ m, m = 2 ∨ m = 5 → (circleAt slantedHull.reverse m).2 ≠ (5 / 2, 1 / 2) := by
    rintro m (rfl | rfl)
    · rw [c2]
      intro h
      have := congrArg Prod.fst h
      norm_num [cc, clockwiseTurn] at this
    · rw [c5]
      intro h
      have := congrArg Prod.fst h
      norm_num [cc, clockwiseTurn] at this
  have hloop : ∀ pick : List Pt → ℕ, IsLexMax slantedHull.reverse (pick slantedHull.reverse) →
      loop pick (rounds + 1) slantedHull.reverse = some (pick slantedHull.reverse, slantedHull.reverse, []) := by
    intro pick hp
    unfold loop
    rw [if_pos (hang _ (slanted_max hp))]
  unfold minimumBoundingCircle
  simp only [e1, if_neg (Bool.false_ne_true), e2]
  cases hasNumba with
  | true =>
    have hp := numba_lexMax hc hd h2
    simp only [if_true]
    rw [skyumNumba_loop (rounds + 1) _ hd h2, hloop pickNumba hp]
    exact ⟨_, _, rfl, hcen _ (slanted_max hp)⟩
  | false =>
    have hp := (pickLists_spec hne).2
    simp only [if_neg Bool.false_ne_true]
    rw [skyumLists_loop (rounds + 1) 0 _ [] hd h2, hloop pickLists hp]
    exact ⟨_, _, rfl, hcen _ (slanted_max hp)⟩

/-- **C130 is false of hulls with nearly flat corners.** The same events and the same ring of hull vertices, once from one corner
on and once from the opposite corner on, give different circles, with and without numba: two corners have the same largest pair of
radius and angle, but not the same circle. -/
theorem C130_start_refuted (hasNumba : Bool) (rounds : ℕ) :
    IsHullOf slantedHull slantedHull ∧ IsHullOf slantedHull' slantedHull ∧ slantedHull' = slantedHull.rotate 3 ∧
    ∃ centre centre' radius, minimumBoundingCircle hasNumba (rounds + 1) slantedHull = some (.ok (centre, radius)) ∧
      minimumBoundingCircle hasNumba (rounds + 1) slantedHull' = some (.ok (centre', radius)) ∧ centre ≠ centre' := by
  have hh := slanted_isHull _ (Or.inl rfl)
  have hd : slantedHull.Nodup := by
    rw [← List.nodup_reverse]
    exact nodup_of_conv (by rw [List.length_reverse]; exact hh.three) (conv_reverse hh.ring)
  obtain ⟨c, ρ, h, hc⟩ := slanted_answer hasNumba rounds
  have hturn : ∀ p : ℝ × ℝ, turn 1 Real.pi 5 1 p = (5 - p.1, 1 - p.2) := by
    intro p
    simp only [turn, Real.cos_pi, Real.sin_pi]
    ext <;> ring
  have e : slantedHull' = slantedHull.map (turn 1 Real.pi 5 1) := by
    simp only [slantedHull, slantedHull', List.map_cons, List.map_nil, hturn]
    norm_num
  refine ⟨hh, slanted_isHull _ (Or.inr rfl), rfl, c, turn 1 Real.pi 5 1 c, ρ, h, ?_, ?_⟩
  · rw [e, C130_turned one_pos Real.pi 5 1 hasNumba (rounds + 1) slantedHull hd (by have := hh.three; omega), h]
    simp [Except.map]
  · rw [hturn]
    intro he
    refine hc (Prod.ext ?_ ?_)
    · have := congrArg Prod.fst he
      simp only at this ⊢
      linarith
    · have := congrArg Prod.snd he
      simp only at this ⊢
      linarith

end Pointpats.Props
