import Verif.Props.RegionCentroid

/-!
# The centroid of a region is the mean of its points (C190)
-/

set_option linter.unusedSectionVars false

namespace Pointpats.Props

open Pointpats.Spec Pointpats.Geometry Pointpats.HullVolume Pointpats.HullMoments MeasureTheory

/-- The mean position of the points of a set of the plane, with respect to area. -/
noncomputable def meanPosition (s : Set (ℝ × ℝ)) : ℝ × ℝ :=
  ((∫ z in s, z.1) / (volume s).toReal, (∫ z in s, z.2) / (volume s).toReal)

private theorem meanPosition_congr {s t : Set (ℝ × ℝ)} (h : s =ᵐ[volume] t) : meanPosition s = meanPosition t := by
  unfold meanPosition
  rw [setIntegral_congr_set h, setIntegral_congr_set h, measure_congr h]

private theorem mean_of_ring {ring : List (ℝ × ℝ)} (h3 : 3 ≤ ring.length)
    (h : ∀ a b c, [a, b, c].Sublist ring → 0 < leftTurn a b c) :
    ringCentroid ring = meanPosition (convexHull ℝ {x | x ∈ ring}) := by
  rcases ring with _ | ⟨p, _ | ⟨q, _ | ⟨r, l⟩⟩⟩
  · simp at h3
  · simp at h3
  · simp at h3
  unfold meanPosition
  have hn : 0 ≤ fan p (q :: r :: l) := fan_nonneg' p _ fun b c hs => h p b c (hs.cons_cons p)
  rw [ringCentroid_fan, integral_fan Prod.fst (Or.inl rfl) p q r l h, integral_fan Prod.snd (Or.inr rfl) p q r l h, volume_fan p q r l h,
    ENNReal.toReal_ofReal (by positivity)]
  ext <;> (simp only; ring)

private theorem interior_ae (s : Set (ℝ × ℝ)) (hs : Convex ℝ s) : interior s =ᵐ[volume] s := by
  refine (ae_le_set.2 ?_).antisymm (ae_le_set.2 ?_)
  · rw [Set.sdiff_eq_empty.2 interior_subset]; exact measure_empty
  · refine measure_mono_null ?_ (hs.addHaar_frontier volume)
    rintro x ⟨hx, hi⟩
    exact ⟨subset_closure hx, hi⟩

/-- **C190, proved part.** The centroid of a convex polygon, listed in either direction, and of a box is the mean position of the points
of the region, with respect to area. -/
theorem C190_mean_partial :
    (∀ ring corners : List (ℝ × ℝ), IsHullOf ring corners →
      (Region.polygon ring).centroid = .ok (meanPosition (pointsOf (.polygon ring)))
      ∧ (Region.polygon ring.reverse).centroid = .ok (meanPosition (pointsOf (.polygon ring.reverse))))
    ∧ ∀ b : BBox ℝ, b.xmin < b.xmax → b.ymin < b.ymax →
      (Region.bbox b).centroid = .ok (meanPosition (pointsOf (.bbox b))) := by
  have hpoly : ∀ ring corners : List (ℝ × ℝ), IsHullOf ring corners →
      (Region.polygon ring).centroid = .ok (meanPosition (pointsOf (.polygon ring))) := by
    intro ring corners h
    have hr := hullRing_of_isHullOf h
    rw [(C187_polygon ring corners h).1, meanPosition_congr (interior_ae _ (convex_convexHull ℝ _)), ← hull_of_vertices h,
      ← mean_of_ring h.three hr.sublists]
    rfl
  refine ⟨fun ring corners h => ⟨hpoly ring corners h, ?_⟩, fun b hx hy => ?_⟩
  · obtain ⟨-, -, h1, h2⟩ := C114_direction ring Region.polygon (Or.inr rfl)
    have e : pointsOf (.polygon ring.reverse) = pointsOf (.polygon ring) := by
      ext x
      simp only [pointsOf, Set.mem_ofPred_eq, h1]
    rw [h2, e]
    exact hpoly ring corners h
  · have hh : IsHullOf (corners b) (corners b) := by
      refine ⟨by simp [corners], fun v hv => hv, ?_, fun e he => subset_convexHull ℝ _ he⟩
      intro i j k hij hjk hk
      simp only [corners, List.length_cons, List.length_nil] at hk
      have : (i = 0 ∧ j = 1 ∧ k = 2) ∨ (i = 0 ∧ j = 1 ∧ k = 3) ∨ (i = 0 ∧ j = 2 ∧ k = 3) ∨ (i = 1 ∧ j = 2 ∧ k = 3) := by omega
      have hp := mul_pos (sub_pos.2 hx) (sub_pos.2 hy)
      rcases this with ⟨rfl, rfl, rfl⟩ | ⟨rfl, rfl, rfl⟩ | ⟨rfl, rfl, rfl⟩ | ⟨rfl, rfl, rfl⟩ <;>
        simp [corners, clockwiseTurn] <;> nlinarith
    have hrect := C114_rectangle_partial b hx hy
    have hm := mean_of_ring hh.three (hullRing_of_isHullOf hh).sublists
    have hs := (C187_hull (corners b) (corners b) hh).1
    have e : pointsOf (.bbox b) = pointsOf (.convexHull (corners b)) := by
      ext x
      simp only [pointsOf, Set.mem_ofPred_eq, (hrect.2 x.1 x.2).2.1]
    have hc := (hrect.1 (.polygon (corners b)) (by simp)).2.2
    rw [(hrect.1 (.bbox b) (by simp)).2.2, e, hs, ← hm, ← hc]
    rfl

/-- **C190 is false for a `ConvexHull`.** Its centroid is the mean of the corners. For this trapezium it is `(3/2, 1)`, while the mean
position of the points that `contains` accepts is `(14/9, 8/9)`. -/
theorem C190_hull_refuted :
    IsHullOf [((0 : ℝ), (0 : ℝ)), (4, 0), (2, 2), (0, 2)] [(0, 0), (4, 0), (2, 2), (0, 2)] ∧
    (Region.convexHull [((0 : ℝ), 0), (4, 0), (2, 2), (0, 2)]).centroid = .ok (3 / 2, 1) ∧
    meanPosition (pointsOf (.convexHull [((0 : ℝ), 0), (4, 0), (2, 2), (0, 2)])) = (14 / 9, 8 / 9) := by
  refine ⟨trapezium_hull, ?_, ?_⟩
  · norm_num [Region.centroid, centroidArr]
  · rw [(C187_hull _ _ trapezium_hull).1, ← hull_of_vertices trapezium_hull,
      ← mean_of_ring trapezium_hull.three (hullRing_of_isHullOf trapezium_hull).sublists]
    norm_num [ringCentroid, edges, cross]

end Pointpats.Props
