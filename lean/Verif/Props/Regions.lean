import Verif.Model.Regions
import Verif.Lemmas.MinMax
import Mathlib.Data.List.Rotate
import Mathlib.Data.Rat.Floor
import Mathlib.Tactic.Ring
import Mathlib.Tactic.Linarith
import Mathlib.Tactic.FieldSimp
import Mathlib.Tactic.NormNum

/-!
# Property C114: the representation of a study region
-/

set_option linter.unusedSectionVars false

namespace Pointpats.Props

open Geometry Random

variable {K : Type} [Field K] [LinearOrder K] [IsStrictOrderedRing K]

/-- The corners of a box in the order around it, as `shapely.geometry.box` lists them. -/
def corners (b : BBox K) : List (K × K) := [(b.xmax, b.ymin), (b.xmax, b.ymax), (b.xmin, b.ymax), (b.xmin, b.ymin)]

theorem edges_rotate (v : List (K × K)) (k : ℕ) : edges (v.rotate k) = (edges v).rotate k := by
  unfold edges
  rw [List.rotate_rotate, Nat.add_comm, ← List.rotate_rotate]
  apply List.ext_getElem
  · simp
  · intro i h1 h2
    simp [List.getElem_rotate, Nat.add_assoc, Nat.add_comm 1 k]

theorem edges_rotate_perm (v : List (K × K)) (k : ℕ) : (edges (v.rotate k)).Perm (edges v) := by
  rw [edges_rotate]
  exact List.rotate_perm _ _

theorem bboxPts_perm {v w : List (K × K)} (h : v.Perm w) : bboxPts v = bboxPts w := by
  cases v with
  | nil => rw [List.nil_perm.1 h]
  | cons p ps =>
    cases w with
    | nil => exact absurd h (by simp)
    | cons q qs =>
      have hf := h.map Prod.fst
      have hs := h.map Prod.snd
      simp only [List.map_cons] at hf hs
      simp only [bboxPts, Except.ok.injEq, BBox.mk.injEq]
      refine ⟨?_, ?_, ?_, ?_⟩
      · exact le_antisymm (listMin_le (hf.mem_iff.2 (listMin_mem _ _))) (listMin_le (hf.mem_iff.1 (listMin_mem _ _)))
      · exact le_antisymm (listMin_le (hs.mem_iff.2 (listMin_mem _ _))) (listMin_le (hs.mem_iff.1 (listMin_mem _ _)))
      · exact le_antisymm (le_listMax (hf.mem_iff.1 (listMax_mem _ _))) (le_listMax (hf.mem_iff.2 (listMax_mem _ _)))
      · exact le_antisymm (le_listMax (hs.mem_iff.1 (listMax_mem _ _))) (le_listMax (hs.mem_iff.2 (listMax_mem _ _)))

/-- **C114, the first vertex.** Area, bounding box, membership and centroid of a `ConvexHull` and of a `Polygon` do not
depend on the vertex at which the list of vertices starts. -/
theorem C114_first_vertex (v : List (K × K)) (k : ℕ) (make : List (K × K) → Region K)
    (hmake : make = Region.convexHull ∨ make = Region.polygon) :
    (make (v.rotate k)).area = (make v).area ∧ (make (v.rotate k)).bounds = (make v).bounds ∧
    (∀ x y, (make (v.rotate k)).contains x y = (make v).contains x y) ∧
    (make (v.rotate k)).centroid = (make v).centroid := by
  have hp := edges_rotate_perm v k
  have hv : (v.rotate k).Perm v := List.rotate_perm _ _
  have harea : ringAreaAbs (v.rotate k) = ringAreaAbs v := by
    unfold ringAreaAbs
    rw [(hp.map cross).sum_eq]
  have hall : ∀ P : (K × K) × (K × K) → Bool, (edges (v.rotate k)).all P = (edges v).all P := by
    intro P
    exact List.Perm.all_eq hp
  rcases hmake with rfl | rfl
  · refine ⟨harea, bboxPts_perm hv, fun x y => ?_, ?_⟩
    · simp only [Region.contains, hall]
    · simp only [Region.centroid]
      cases hw : v.rotate k with
      | nil =>
        rw [hw] at hv
        rw [List.nil_perm.1 hv]
      | cons a l =>
        rw [hw] at hv
        cases v with
        | nil => exact absurd hv (by simp)
        | cons a' l' =>
          simp only [centroidArr]
          rw [(hv.map Prod.fst).sum_eq, (hv.map Prod.snd).sum_eq, hv.length_eq]
  · refine ⟨harea, bboxPts_perm hv, fun x y => ?_, ?_⟩
    · simp only [Region.contains, hall]
    · simp only [Region.centroid, ringCentroid]
      rw [(hp.map cross).sum_eq, (hp.map _).sum_eq, (hp.map _).sum_eq]

theorem corners_edges (b : BBox K) : edges (corners b) =
    [((b.xmax, b.ymin), (b.xmax, b.ymax)), ((b.xmax, b.ymax), (b.xmin, b.ymax)), ((b.xmin, b.ymax), (b.xmin, b.ymin)),
      ((b.xmin, b.ymin), (b.xmax, b.ymin))] := rfl

/-- **C114, rectangles, partial.** A box with positive sides has the same area (width times height), bounding box (itself)
and centroid (its middle) as an array, as a `ConvexHull` and as a `Polygon`. As an array and as a `ConvexHull` it contains
the same points; as a `Polygon` it contains those of them that are not on the border.

Missing for the full property: the border (`C114_border_refuted`), and the centroid of other regions
(`C114_centroid_refuted`). -/
theorem C114_rectangle_partial (b : BBox K) (hx : b.xmin < b.xmax) (hy : b.ymin < b.ymax) :
    (∀ r ∈ [Region.bbox b, .convexHull (corners b), .polygon (corners b)],
      r.area = (b.xmax - b.xmin) * (b.ymax - b.ymin) ∧ r.bounds = .ok b ∧
      r.centroid = .ok ((b.xmin + b.xmax) / 2, (b.ymin + b.ymax) / 2)) ∧
    ∀ x y, ((Region.bbox b).contains x y = true ↔ (b.xmin ≤ x ∧ x ≤ b.xmax) ∧ b.ymin ≤ y ∧ y ≤ b.ymax) ∧
      (Region.convexHull (corners b)).contains x y = (Region.bbox b).contains x y ∧
      ((Region.polygon (corners b)).contains x y = true ↔ (b.xmin < x ∧ x < b.xmax) ∧ b.ymin < y ∧ y < b.ymax) := by
  have hw : 0 < b.xmax - b.xmin := sub_pos.2 hx
  have hh : 0 < b.ymax - b.ymin := sub_pos.2 hy
  have hwh : 0 < (b.xmax - b.xmin) * (b.ymax - b.ymin) := mul_pos hw hh
  have hsum : ((edges (corners b)).map cross).sum = 2 * ((b.xmax - b.xmin) * (b.ymax - b.ymin)) := by
    rw [corners_edges]
    simp only [List.map_cons, List.map_nil, List.sum_cons, List.sum_nil, cross]
    ring
  have hringarea : ringAreaAbs (corners b) = (b.xmax - b.xmin) * (b.ymax - b.ymin) := by
    unfold ringAreaAbs
    rw [hsum, mul_div_cancel_left₀ _ two_ne_zero, abs_of_pos hwh]
  have hbounds : bboxPts (corners b) = .ok b := by
    simp only [corners, bboxPts, listMin, listMax, List.map_cons, List.map_nil, List.foldl_cons, List.foldl_nil]
    simp [hx.le, hy.le]
  have s1 : ∀ x y, side ((b.xmax, b.ymin), (b.xmax, b.ymax)) x y = (b.ymax - b.ymin) * (b.xmax - x) := by
    intro x y; simp only [side]; ring
  have s2 : ∀ x y, side ((b.xmax, b.ymax), (b.xmin, b.ymax)) x y = (b.xmax - b.xmin) * (b.ymax - y) := by
    intro x y; simp only [side]; ring
  have s3 : ∀ x y, side ((b.xmin, b.ymax), (b.xmin, b.ymin)) x y = (b.ymax - b.ymin) * (x - b.xmin) := by
    intro x y; simp only [side]; ring
  have s4 : ∀ x y, side ((b.xmin, b.ymin), (b.xmax, b.ymin)) x y = (b.xmax - b.xmin) * (y - b.ymin) := by
    intro x y; simp only [side]; ring
  have hbox : ∀ x y, (Region.bbox b).contains x y = true ↔ (b.xmin ≤ x ∧ x ≤ b.xmax) ∧ b.ymin ≤ y ∧ y ≤ b.ymax := by
    intro x y
    simp only [Region.contains, containsBBox, Bool.and_eq_true, decide_eq_true_eq]
  refine ⟨?_, fun x y => ⟨hbox x y, ?_, ?_⟩⟩
  · intro r hr
    simp only [List.mem_cons, List.not_mem_nil, or_false] at hr
    rcases hr with rfl | rfl | rfl
    · exact ⟨abs_of_pos hwh, rfl, rfl⟩
    · refine ⟨hringarea, hbounds, ?_⟩
      simp only [Region.centroid, corners, centroidArr, List.map_cons, List.map_nil, List.sum_cons, List.sum_nil,
        List.length_cons, List.length_nil, Except.ok.injEq, Prod.mk.injEq]
      constructor <;> (push_cast; ring)
    · refine ⟨hringarea, hbounds, ?_⟩
      have h6 : (3 : K) * (2 * ((b.xmax - b.xmin) * (b.ymax - b.ymin))) ≠ 0 := by
        have := hwh.ne'
        exact mul_ne_zero three_ne_zero (mul_ne_zero two_ne_zero this)
      simp only [Region.centroid, ringCentroid, hsum, Except.ok.injEq, Prod.mk.injEq]
      constructor
      · rw [div_eq_iff h6, corners_edges]
        simp only [List.map_cons, List.map_nil, List.sum_cons, List.sum_nil, cross]
        ring
      · rw [div_eq_iff h6, corners_edges]
        simp only [List.map_cons, List.map_nil, List.sum_cons, List.sum_nil, cross]
        ring
  · rw [Bool.eq_iff_iff, hbox]
    simp only [Region.contains, corners_edges, List.all_cons, List.all_nil, s1, s2, s3, s4, Bool.or_eq_true,
      Bool.and_eq_true, decide_eq_true_eq, Bool.and_true]
    simp only [mul_nonneg_iff_of_pos_left hw, mul_nonneg_iff_of_pos_left hh, mul_nonpos_iff_pos_imp_nonpos, hw, hh]
    constructor
    · rintro (⟨h1, h2, h3, h4⟩ | ⟨h1, h2, h3, h4⟩)
      · exact ⟨⟨by linarith, by linarith⟩, by linarith, by linarith⟩
      · exfalso
        have h5 := h1.1 trivial
        have h6 := h3.1 trivial
        linarith
    · rintro ⟨⟨h1, h2⟩, h3, h4⟩
      exact Or.inl ⟨by linarith, by linarith, by linarith, by linarith⟩
  · simp only [Region.contains, corners_edges, List.all_cons, List.all_nil, s1, s2, s3, s4, Bool.or_eq_true,
      Bool.and_eq_true, decide_eq_true_eq, Bool.and_true]
    constructor
    · rintro (⟨h1, h2, h3, h4⟩ | ⟨h1, h2, h3, h4⟩)
      · have h1' := (mul_pos_iff_of_pos_left hh).1 h1
        have h2' := (mul_pos_iff_of_pos_left hw).1 h2
        have h3' := (mul_pos_iff_of_pos_left hh).1 h3
        have h4' := (mul_pos_iff_of_pos_left hw).1 h4
        exact ⟨⟨by linarith, by linarith⟩, by linarith, by linarith⟩
      · exfalso
        have h1' := neg_of_mul_neg_right h1 hh.le
        have h3' := neg_of_mul_neg_right h3 hh.le
        linarith
    · rintro ⟨⟨h1, h2⟩, h3, h4⟩
      exact Or.inl ⟨mul_pos hh (by linarith), mul_pos hw (by linarith), mul_pos hh (by linarith), mul_pos hw (by linarith)⟩

/-- **C114, triangles.** For a triangle the centroid of the `ConvexHull` is the centroid of the `Polygon`. -/
theorem C114_triangle (p q r : K × K) (h : (q.1 - p.1) * (r.2 - p.2) - (q.2 - p.2) * (r.1 - p.1) ≠ 0) :
    (Region.convexHull [p, q, r]).centroid = (Region.polygon [p, q, r]).centroid := by
  obtain ⟨p1, p2⟩ := p
  obtain ⟨q1, q2⟩ := q
  obtain ⟨r1, r2⟩ := r
  have he : edges [(p1, p2), (q1, q2), (r1, r2)] =
    [((p1, p2), (q1, q2)), ((q1, q2), (r1, r2)), ((r1, r2), (p1, p2))] := rfl
  simp only at h
  have hs : ((edges [(p1, p2), (q1, q2), (r1, r2)]).map cross).sum = (q1 - p1) * (r2 - p2) - (q2 - p2) * (r1 - p1) := by
    rw [he]
    simp only [List.map_cons, List.map_nil, List.sum_cons, List.sum_nil, cross]
    ring
  have h3 : (3 : K) * ((q1 - p1) * (r2 - p2) - (q2 - p2) * (r1 - p1)) ≠ 0 := mul_ne_zero three_ne_zero h
  simp only [Region.centroid, centroidArr, ringCentroid, hs, List.map_cons, List.map_nil, List.sum_cons, List.sum_nil,
    List.length_cons, List.length_nil, Except.ok.injEq, Prod.mk.injEq]
  have hn : ((0 + 1 + 1 + 1 : ℕ) : K) = 3 := by norm_num
  constructor
  · rw [hn, eq_div_iff h3, he]
    simp only [List.map_cons, List.map_nil, List.sum_cons, List.sum_nil, cross]
    field_simp
    ring
  · rw [hn, eq_div_iff h3, he]
    simp only [List.map_cons, List.map_nil, List.sum_cons, List.sum_nil, cross]
    field_simp
    ring

/-- **C114, refuted for the centroid.** For a trapezium the centroid of the `ConvexHull` is the mean of its corners; the
centroid of the `Polygon` is another point. -/
theorem C114_centroid_refuted :
    (Region.convexHull [((0 : ℚ), 0), (4, 0), (2, 2), (0, 2)]).centroid = .ok (3 / 2, 1) ∧
    (Region.polygon [((0 : ℚ), 0), (4, 0), (2, 2), (0, 2)]).centroid = .ok (14 / 9, 8 / 9) := by
  decide +kernel

/-- **C114, refuted on the border.** The corner of the unit square belongs to the square as an array and as a
`ConvexHull`, and not to the square as a `Polygon`. -/
theorem C114_border_refuted :
    (Region.bbox (⟨0, 0, 1, 1⟩ : BBox ℚ)).contains 0 0 = true ∧
    (Region.convexHull (corners (⟨0, 0, 1, 1⟩ : BBox ℚ))).contains 0 0 = true ∧
    (Region.polygon (corners (⟨0, 0, 1, 1⟩ : BBox ℚ))).contains 0 0 = false := by
  decide +kernel

section Sampling

variable [FloorRing K]

theorem rejection_accept_congr (cand : ℕ → K × K) (acc acc' : K × K → Bool) (h : ∀ pos, acc (cand pos) = acc' (cand pos)) :
    ∀ fuel pos n, rejection cand acc fuel pos n = rejection cand acc' fuel pos n := by
  intro fuel
  induction fuel with
  | zero => intro pos n; cases n <;> rfl
  | succ f ih =>
    intro pos n
    cases n with
    | zero => rfl
    | succ n =>
      simp only [rejection]
      rw [h pos, ih, ih]

theorem parseSize_congr (h h' : Hull K) (ha : h.area = h'.area) (h0 : h.area ≠ 0) (intensity : Option K) (size : SizeArg) :
    parseSizeAndIntensity h intensity size = parseSizeAndIntensity h' intensity size := by
  have hd : ∀ n, divArea h n = divArea h' n := by
    intro n
    unfold divArea
    rw [if_neg (fun hc => h0 hc.1), if_neg (fun hc => h0 (ha ▸ hc.1)), ha]
  unfold parseSizeAndIntensity
  simp only [hd, ha]

theorem poisson_congr (h h' : Hull K) (ha : h.area = h'.area) (h0 : h.area ≠ 0) (hb : h.bbox = h'.bbox) (u : ℕ → K)
    (hc : ∀ pos, h.contains (boxCandidate h u pos).1 (boxCandidate h u pos).2 =
      h'.contains (boxCandidate h u pos).1 (boxCandidate h u pos).2)
    (intensity : Option K) (size : SizeArg) (fuel pos : ℕ) :
    poisson h u intensity size fuel pos = poisson h' u intensity size fuel pos := by
  have hcand : boxCandidate h' u = boxCandidate h u := by
    funext pos
    simp only [boxCandidate, hb]
  have hreps : ∀ n s fuel pos, poissonReps h u n s fuel pos = poissonReps h' u n s fuel pos := by
    intro n s fuel pos
    unfold poissonReps
    congr 1
    funext _ pos
    rw [hcand]
    exact rejection_accept_congr _ _ _ hc _ _ _
  unfold poisson
  simp only [parseSize_congr h h' ha h0, hreps]

/-- **C114, simulation, partial.** `poisson` with a box as an array, as a `ConvexHull` and as a `Polygon` returns the same
points from the same draws of the generator, whatever the intensity and the size. For the `Polygon` no draw is 0: then
no candidate is on the border. -/
theorem C114_simulation_partial (b : BBox K) (hx : b.xmin < b.xmax) (hy : b.ymin < b.ymax) (u : ℕ → K)
    (intensity : Option K) (size : SizeArg) (fuel pos : ℕ) :
    poisson ((Region.convexHull (corners b)).toHull b) u intensity size fuel pos =
      poisson ((Region.bbox b).toHull b) u intensity size fuel pos ∧
    ((∀ k, 0 < u k ∧ u k < 1) →
      poisson ((Region.polygon (corners b)).toHull b) u intensity size fuel pos =
        poisson ((Region.bbox b).toHull b) u intensity size fuel pos) := by
  obtain ⟨hall, hcont⟩ := C114_rectangle_partial b hx hy
  have hw : 0 < b.xmax - b.xmin := sub_pos.2 hx
  have hh : 0 < b.ymax - b.ymin := sub_pos.2 hy
  have hwh : (b.xmax - b.xmin) * (b.ymax - b.ymin) ≠ 0 := (mul_pos hw hh).ne'
  have a1 := (hall (.bbox b) (by simp)).1
  have a2 := (hall (.convexHull (corners b)) (by simp)).1
  have a3 := (hall (.polygon (corners b)) (by simp)).1
  constructor
  · refine poisson_congr ((Region.convexHull (corners b)).toHull b) ((Region.bbox b).toHull b) ?_ ?_ rfl u
      (fun pos => ?_) intensity size fuel pos
    · exact a2.trans a1.symm
    · exact fun h => hwh (a2.symm.trans h)
    · exact (hcont _ _).2.1
  · intro hu
    refine poisson_congr ((Region.polygon (corners b)).toHull b) ((Region.bbox b).toHull b) ?_ ?_ rfl u
      (fun pos => ?_) intensity size fuel pos
    · exact a3.trans a1.symm
    · exact fun h => hwh (a3.symm.trans h)
    · have hbnd : ∀ a c t : K, a < c → 0 < t → t < 1 → a < uniform a c t ∧ uniform a c t < c := by
        intro a c t hac h0 h1
        unfold uniform
        have hd : 0 < c - a := sub_pos.2 hac
        constructor
        · nlinarith [mul_pos hd h0]
        · nlinarith [mul_pos hd (sub_pos.2 h1)]
      obtain ⟨x1, x2⟩ := hbnd b.xmin b.xmax (u pos) hx (hu pos).1 (hu pos).2
      obtain ⟨y1, y2⟩ := hbnd b.ymin b.ymax (u (pos + 1)) hy (hu (pos + 1)).1 (hu (pos + 1)).2
      have l := (hcont (uniform b.xmin b.xmax (u pos)) (uniform b.ymin b.ymax (u (pos + 1)))).2.2.2
        ⟨⟨x1, x2⟩, y1, y2⟩
      have r := (hcont (uniform b.xmin b.xmax (u pos)) (uniform b.ymin b.ymax (u (pos + 1)))).1.2
        ⟨⟨x1.le, x2.le⟩, y1.le, y2.le⟩
      exact l.trans r.symm

end Sampling

/-- A box with positive sides, draws between 0 and 1, and a triangle with an area. -/
example : ((⟨0, 1, 3, 5⟩ : BBox ℚ).xmin < (⟨0, 1, 3, 5⟩ : BBox ℚ).xmax ∧
      (⟨0, 1, 3, 5⟩ : BBox ℚ).ymin < (⟨0, 1, 3, 5⟩ : BBox ℚ).ymax) ∧
    (∀ k : ℕ, 0 < (fun k => 1 / ((k : ℚ) + 2)) k ∧ (fun k => 1 / ((k : ℚ) + 2)) k < 1) ∧
    ((4 : ℚ) - 0) * (2 - 0) - (0 - 0) * (2 - 0) ≠ 0 ∧
    poisson ((Region.polygon (corners (⟨0, 1, 3, 5⟩ : BBox ℚ))).toHull ⟨0, 1, 3, 5⟩) (fun k => 1 / ((k : ℚ) + 2)) none
      (.int 2) 5 0 = some (.ok (.rows [(3 / 2, 7 / 3), (3 / 4, 9 / 5)], 4)) := by
  refine ⟨⟨by norm_num, by norm_num⟩, fun k => ?_, by norm_num, by decide +kernel⟩
  have hk : (0 : ℚ) ≤ k := Nat.cast_nonneg k
  exact ⟨by positivity, by rw [div_lt_one (by linarith)]; linarith⟩

end Pointpats.Props
