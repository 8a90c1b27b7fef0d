import Verif.Lemmas.HullMembership
import Verif.Props.HullArea
import Verif.Props.PoissonLaw
import Mathlib.Analysis.Convex.Measure

/-!
# `contains`, `area` and `bbox` describe one region (C187)

The region is a set of points of the plane; its area is Lebesgue measure.
-/

namespace Pointpats.Props

open Pointpats.Spec Pointpats.Geometry Pointpats.Random MeasureTheory

set_option linter.unusedSectionVars false

/-- The points of the plane that `contains` accepts. -/
def pointsOf (r : Region ℝ) : Set (ℝ × ℝ) := {p | r.contains p.1 p.2 = true}

theorem hull_of_vertices {v points : List (ℝ × ℝ)} (h : IsHullOf v points) :
    convexHull ℝ {x | x ∈ v} = convexHull ℝ {e | e ∈ points} :=
  Set.Subset.antisymm (convexHull_mono h.sub) (convexHull_min h.contains (convex_convexHull ℝ _))

theorem convex_inBox (b : BBox ℝ) : Convex ℝ {p : ℝ × ℝ | InBox b p} := by
  have : {p : ℝ × ℝ | InBox b p} = Set.Icc b.xmin b.xmax ×ˢ Set.Icc b.ymin b.ymax := by
    ext p
    simp only [Set.mem_ofPred_eq, InBox, Set.mem_prod, Set.mem_Icc]
    tauto
  rw [this]
  exact (convex_Icc _ _).prod (convex_Icc _ _)

private theorem bounds_of_vertices {v points : List (ℝ × ℝ)} (h : IsHullOf v points) :
    ∃ b, bboxPts v = .ok b ∧ IsSmallestBox points b := by
  have h3 := h.three
  obtain ⟨b, hb, hin, -⟩ := (C19_bbox_smallest v).2 (by rintro rfl; simp at h3)
  refine ⟨b, hb, fun p hp => ?_, fun b' hb' q hq => hin.2 b' (fun p hp => hb' p (h.sub p hp)) q hq⟩
  exact convexHull_min (t := {p | InBox b p}) hin.1 (convex_inBox b) (h.contains p hp)

/-- **C187, hulls.** The region of the hull of some points is their convex hull: `contains` accepts exactly its points, `area` is its
area and `bbox` the smallest box around it. -/
theorem C187_hull (v points : List (ℝ × ℝ)) (h : IsHullOf v points) :
    pointsOf (.convexHull v) = convexHull ℝ {p | p ∈ points}
    ∧ (Region.convexHull v).area = (volume (pointsOf (.convexHull v))).toReal
    ∧ ∃ b, (Region.convexHull v).bounds = .ok b ∧ IsSmallestBox points b := by
  have hr := hullRing_of_isHullOf h
  have hset : pointsOf (.convexHull v) = convexHull ℝ {p | p ∈ points} := by
    rw [← hull_of_vertices h]
    ext x
    rw [← HullVolume.mem_ring h.three hr.sublists]
    simp only [pointsOf, Region.contains, Set.mem_ofPred_eq, Bool.or_eq_true, List.all_eq_true, decide_eq_true_eq]
    exact ⟨fun hx => hx.elim id fun hx => (HullVolume.not_right h.three hr.sublists x hx).elim, Or.inl⟩
  refine ⟨hset, ?_, bounds_of_vertices h⟩
  rw [hset]
  exact C186_geometry v points h

/-- **C187, polygons.** For a convex polygon `contains` accepts exactly the points of its interior, and `area` and `bbox` are those
of the polygon. -/
theorem C187_polygon (ring corners : List (ℝ × ℝ)) (h : IsHullOf ring corners) :
    pointsOf (.polygon ring) = interior (convexHull ℝ {p | p ∈ corners})
    ∧ (Region.polygon ring).area = (volume (pointsOf (.polygon ring))).toReal
    ∧ (Region.polygon ring).area = (volume (convexHull ℝ {p | p ∈ corners})).toReal
    ∧ ∃ b, (Region.polygon ring).bounds = .ok b ∧ IsSmallestBox corners b := by
  have hr := hullRing_of_isHullOf h
  have hset : pointsOf (.polygon ring) = interior (convexHull ℝ {p | p ∈ corners}) := by
    rw [← hull_of_vertices h]
    ext x
    rw [← HullVolume.mem_interior_ring h.three hr.sublists]
    simp only [pointsOf, Region.contains, Set.mem_ofPred_eq, Bool.or_eq_true, List.all_eq_true, decide_eq_true_eq]
    exact ⟨fun hx => hx.elim id fun hx => (HullVolume.not_right h.three hr.sublists x fun e he => (hx e he).le).elim, Or.inl⟩
  have harea : (Region.polygon ring).area = (volume (convexHull ℝ {p | p ∈ corners})).toReal := C186_geometry ring corners h
  refine ⟨hset, ?_, harea, bounds_of_vertices h⟩
  rw [hset, harea]
  congr 1
  apply le_antisymm _ (measure_mono interior_subset)
  have hnull := (convex_convexHull ℝ {p : ℝ × ℝ | p ∈ corners}).addHaar_frontier volume
  calc volume (convexHull ℝ {p : ℝ × ℝ | p ∈ corners})
      ≤ volume (interior (convexHull ℝ {p : ℝ × ℝ | p ∈ corners}) ∪ frontier (convexHull ℝ {p : ℝ × ℝ | p ∈ corners})) := by
        apply measure_mono
        intro x hx
        by_cases hi : x ∈ interior (convexHull ℝ {p : ℝ × ℝ | p ∈ corners})
        · exact Or.inl hi
        · exact Or.inr ⟨subset_closure hx, hi⟩
    _ ≤ _ := (measure_union_le _ _).trans (by rw [hnull, add_zero])

/-- **C187, boxes.** For a box the region is the closed rectangle. -/
theorem C187_box (b : BBox ℝ) (hx : b.xmin ≤ b.xmax) (hy : b.ymin ≤ b.ymax) :
    pointsOf (.bbox b) = {p | InBox b p} ∧ (Region.bbox b).area = (volume (pointsOf (.bbox b))).toReal
    ∧ (Region.bbox b).bounds = .ok b := by
  have hset : pointsOf (.bbox b) = Set.Icc b.xmin b.xmax ×ˢ Set.Icc b.ymin b.ymax := by
    ext p
    simp only [pointsOf, Region.contains, containsBBox, Set.mem_ofPred_eq, Set.mem_prod, Set.mem_Icc, Bool.and_eq_true,
      decide_eq_true_eq]
  refine ⟨?_, ?_, rfl⟩
  · rw [hset]
    ext p
    simp only [Set.mem_ofPred_eq, InBox, Set.mem_prod, Set.mem_Icc]
    tauto
  · rw [hset, Measure.volume_eq_prod, Measure.prod_prod, Real.volume_Icc, Real.volume_Icc, ENNReal.toReal_mul,
      ENNReal.toReal_ofReal (sub_nonneg.2 hx), ENNReal.toReal_ofReal (sub_nonneg.2 hy)]
    exact abs_of_nonneg (mul_nonneg (sub_nonneg.2 hx) (sub_nonneg.2 hy))

/-- **C187, simulation.** The points that `poisson` draws from the hull of some points are independent and uniform on their convex
hull: the probability that they fall in given sets is the product of the areas of the parts of the sets in the hull, per
`area(hull)`. -/
theorem C187_poisson {Ω : Type} [MeasurableSpace Ω] (P : Measure Ω) [IsProbabilityMeasure P] (U : ℕ → Ω → ℝ)
    (hU : IndependentDraws P U ((volume : Measure ℝ).restrict (Set.Ico 0 1))) (v points : List (ℝ × ℝ)) (h : IsHullOf v points)
    (b : BBox ℝ) (hb : (Region.convexHull v).bounds = .ok b) (intensity : Option ℝ) (size : SizeArg) (n s : ℕ) (i : XF ℝ)
    (hp : parseSizeAndIntensity ((Region.convexHull v).toHull b) intensity size = .ok (n, s, i)) (pos : ℕ)
    (A : List (Set (ℝ × ℝ))) (hlen : A.length = n * s) (hA : ∀ a ∈ A, MeasurableSet a) :
    P {ω | ∃ r pos', Returns (fun fuel => poisson ((Region.convexHull v).toHull b) (fun i => U i ω) intensity size fuel pos)
          (.ok (r, pos')) ∧ List.Forall₂ (fun p a => p ∈ a) r.data A}
      = (A.map fun a => volume (a ∩ convexHull ℝ {p | p ∈ points}) / ENNReal.ofReal (Region.convexHull v).area).prod := by
  obtain ⟨h1, h2, b', hb', hbox⟩ := C187_hull v points h
  rw [hb] at hb'
  injection hb' with hb'
  subst hb'
  have hcompact := (List.finite_toSet points).isCompact_convexHull ℝ
  have hfin : volume (convexHull ℝ {p | p ∈ points}) ≠ ⊤ := hcompact.measure_lt_top.ne
  have hareaeq : ENNReal.ofReal (Region.convexHull v).area = volume (convexHull ℝ {p | p ∈ points}) := by
    rw [h2, h1, ENNReal.ofReal_toReal hfin]
  have hpos : 0 < (Region.convexHull v).area := by
    rw [C186_geometry v points h]
    have hr := hullRing_of_isHullOf h
    obtain ⟨_, _, hpos, _⟩ := C185_geometry v points hr
    rwa [← C186_geometry v points h]
  rw [hareaeq]
  refine C108_poisson_uniform P U hU ((Region.convexHull v).toHull b) (convexHull ℝ {p | p ∈ points}) ?_
    hcompact.isClosed.measurableSet ?_ ?_ intensity size n s i hp pos A hlen hA
  · intro x y
    rw [← h1]
    rfl
  · intro p hp
    have : InBox b p := convexHull_min (t := {p | InBox b p}) hbox.1 (convex_inBox b) hp
    obtain ⟨e1, e2, e3, e4⟩ := this
    exact ⟨by assumption, by assumption, by assumption, by assumption⟩
  · rw [← hareaeq]
    exact (ENNReal.ofReal_pos.2 hpos).ne'

/-- A square with an event in the middle. -/
example : IsHullOf [(0, 0), (2, 0), (2, 2), (0, 2)] [((1 : ℝ), (1 : ℝ)), (0, 0), (2, 0), (2, 2), (0, 2)]
    ∧ ∃ b, (Region.convexHull [((0 : ℝ), (0 : ℝ)), (2, 0), (2, 2), (0, 2)]).bounds = .ok b := by
  refine ⟨⟨by simp, by simp, ?_, ?_⟩, _, rfl⟩
  · intro i j k hij hjk hk
    simp only [List.length_cons, List.length_nil] at hk
    have : (i = 0 ∧ j = 1 ∧ k = 2) ∨ (i = 0 ∧ j = 1 ∧ k = 3) ∨ (i = 0 ∧ j = 2 ∧ k = 3) ∨ (i = 1 ∧ j = 2 ∧ k = 3) := by omega
    rcases this with ⟨rfl, rfl, rfl⟩ | ⟨rfl, rfl, rfl⟩ | ⟨rfl, rfl, rfl⟩ | ⟨rfl, rfl, rfl⟩ <;> norm_num [clockwiseTurn]
  · intro e he
    rcases List.mem_cons.1 he with rfl | he
    · have h1 : ((0 : ℝ), (0 : ℝ)) ∈ convexHull ℝ {v | v ∈ [((0 : ℝ), (0 : ℝ)), (2, 0), (2, 2), (0, 2)]} :=
        subset_convexHull ℝ _ (by simp)
      have h2 : ((2 : ℝ), (2 : ℝ)) ∈ convexHull ℝ {v | v ∈ [((0 : ℝ), (0 : ℝ)), (2, 0), (2, 2), (0, 2)]} :=
        subset_convexHull ℝ _ (by simp)
      have := convex_convexHull ℝ {v | v ∈ [((0 : ℝ), (0 : ℝ)), (2, 0), (2, 2), (0, 2)]} h1 h2
        (by norm_num : (0 : ℝ) ≤ 1 / 2) (by norm_num : (0 : ℝ) ≤ 1 / 2) (by norm_num)
      norm_num at this ⊢
      exact this
    · exact subset_convexHull ℝ _ he

end Pointpats.Props
