import Verif.Spec.Box
import Verif.Lemmas.MinMax
import Verif.Lemmas.Neighbours
import Verif.Model.Window
import Mathlib.Tactic.Linarith
import Mathlib.Tactic.Ring
import Mathlib.Tactic.FieldSimp
import Mathlib.Data.Rat.Floor

/-!
# C17 – C23: windows, bounding boxes, spatial index selection and neighbour queries
-/

namespace Pointpats.Props

open Geometry Spec

variable {K : Type} [Field K] [LinearOrder K]

/-! ### C19 -/

omit [Field K] in
private theorem isSmallest_unique {points : List (K × K)} {b b' : BBox K}
    (hb : IsSmallestBox points b) (hb' : IsSmallestBox points b') (hne : points ≠ []) : b = b' := by
  obtain ⟨p, hp⟩ := List.exists_mem_of_ne_nil points hne
  have h1 := hb.1 p hp
  have h2 := hb'.1 p hp
  have k1 : InBox b' (b.xmin, b.ymin) := hb.2 b' hb'.1 _
    ⟨le_refl _, h1.1.trans h1.2.1, le_refl _, h1.2.2.1.trans h1.2.2.2⟩
  have k2 : InBox b' (b.xmax, b.ymax) := hb.2 b' hb'.1 _
    ⟨h1.1.trans h1.2.1, le_refl _, h1.2.2.1.trans h1.2.2.2, le_refl _⟩
  have k3 : InBox b (b'.xmin, b'.ymin) := hb'.2 b hb.1 _
    ⟨le_refl _, h2.1.trans h2.2.1, le_refl _, h2.2.2.1.trans h2.2.2.2⟩
  have k4 : InBox b (b'.xmax, b'.ymax) := hb'.2 b hb.1 _
    ⟨h2.1.trans h2.2.1, le_refl _, h2.2.2.1.trans h2.2.2.2, le_refl _⟩
  cases b; cases b'
  simp only [InBox] at k1 k2 k3 k4
  simp only [BBox.mk.injEq]
  exact ⟨le_antisymm k3.1 k1.1, le_antisymm k3.2.2.1 k1.2.2.1,
    le_antisymm k2.2.1 k4.2.1, le_antisymm k2.2.2.2 k4.2.2.2⟩

omit [Field K] in
/-- **C19.** For every non-empty array of points `bbox` returns a box, and it is the smallest closed box
containing the points; no other box is. (An empty array is a `ValueError`.) -/
theorem C19_bbox_smallest (points : List (K × K)) :
    (points = [] → bboxArr (.pts points) = .error .valueError)
    ∧ (points ≠ [] → ∃ b, bboxArr (.pts points) = .ok b ∧ IsSmallestBox points b
        ∧ ∀ b', IsSmallestBox points b' → b' = b) := by
  constructor
  · rintro rfl; rfl
  · intro hne
    obtain ⟨b, hb⟩ := bboxPts_ok hne
    obtain ⟨h1, h2⟩ := bboxPts_spec hb
    have hs : IsSmallestBox points b := by
      refine ⟨fun p hp => h1 p hp, fun b' hb' q hq => ?_⟩
      obtain ⟨⟨p1, hp1, e1⟩, ⟨p2, hp2, e2⟩, ⟨p3, hp3, e3⟩, ⟨p4, hp4, e4⟩⟩ := h2
      have q1 := hb' p1 hp1
      have q2 := hb' p2 hp2
      have q3 := hb' p3 hp3
      have q4 := hb' p4 hp4
      refine ⟨?_, ?_, ?_, ?_⟩
      · exact le_trans q1.1 (e1 ▸ hq.1)
      · exact le_trans hq.2.1 (e2 ▸ q2.2.1)
      · exact le_trans q3.2.2.1 (e3 ▸ hq.2.2.1)
      · exact le_trans hq.2.2.2 (e4 ▸ q4.2.2.2)
    exact ⟨b, hb, hs, fun b' hb' => isSmallest_unique hb' hs hne⟩

omit [Field K] in
/-- **C19, agreement with `contains`.** Every point of the array is contained, in the sense of
`contains`, in the box `bbox` returns. -/
theorem C19_bbox_contains_points (points : List (K × K)) (b : BBox K)
    (hb : bboxArr (.pts points) = .ok b) : ∀ p ∈ points, containsBBox b p.1 p.2 = true := by
  intro p hp
  obtain ⟨h1, -⟩ := bboxPts_spec hb
  have := h1 p hp
  simp [containsBBox, this.1, this.2.1, this.2.2.1, this.2.2.2]

omit [Field K] in
/-- **C19, idempotence.** The box of the corners of a proper box is that box, and a box array passes
through `bbox` unchanged. -/
theorem C19_bbox_of_corners (b : BBox K) (hx : b.xmin ≤ b.xmax) (hy : b.ymin ≤ b.ymax) :
    bboxArr (.pts (corners b)) = .ok b
      ∧ bboxArr (.vec [b.xmin, b.ymin, b.xmax, b.ymax]) = .ok b := by
  constructor
  · simp [bboxArr, corners, bboxPts, listMin, listMax, hx, hy]
  · rfl

example : bboxArr (.pts [((3 : ℚ), 1), (-2, 5), (0, 0)]) = .ok ⟨-2, 0, 3, 5⟩ := by decide +kernel

/-! ### C20 -/

section

variable [IsStrictOrderedRing K]

omit [IsStrictOrderedRing K] in
/-- **C20, area.** The area of an array of length 4 is `|(right - left) * (top - bottom)|`; all other
lengths are an `AssertionError`. -/
theorem C20_area (l : List K) :
    (∀ x0 y0 x1 y1, l = [x0, y0, x1, y1] → areaArr l = .ok |(x1 - x0) * (y1 - y0)|)
    ∧ (l.length ≠ 4 → areaArr l = .error .assertionError) := by
  constructor
  · rintro x0 y0 x1 y1 rfl; rfl
  · intro h
    unfold areaArr
    split
    · simp at h
    · rfl

omit [Field K] [IsStrictOrderedRing K] in
/-- **C20, containment.** `contains(box, x, y)` is true exactly for the locations of the closed box. -/
theorem C20_contains (b : BBox K) (x y : K) : containsBBox b x y = true ↔ InBox b (x, y) := by
  simp [containsBBox, InBox, and_assoc]

/-- **C20, geometry.** If every location of one (non-empty) box is in another then its area is not
larger; the area is non-negative and is zero exactly if the box has no width or no height; the
centroid of a proper box is contained in it, half-way between the sides. -/
theorem C20_area_geometry (b b' : BBox K) (hx : b.xmin ≤ b.xmax) (hy : b.ymin ≤ b.ymax)
    (hsub : ∀ p, InBox b p → InBox b' p) :
    areaBBox b ≤ areaBBox b'
      ∧ 0 ≤ areaBBox b
      ∧ (areaBBox b = 0 ↔ b.xmin = b.xmax ∨ b.ymin = b.ymax)
      ∧ ∃ c, centroidArr (.vec [b.xmin, b.ymin, b.xmax, b.ymax]) = .ok c ∧ containsBBox b c.1 c.2 = true
          ∧ c.1 - b.xmin = b.xmax - c.1 ∧ c.2 - b.ymin = b.ymax - c.2 := by
  have k1 := hsub (b.xmin, b.ymin) ⟨le_refl _, hx, le_refl _, hy⟩
  have k2 := hsub (b.xmax, b.ymax) ⟨hx, le_refl _, hy, le_refl _⟩
  simp only [InBox] at k1 k2
  refine ⟨?_, abs_nonneg _, ?_, ((b.xmin + b.xmax) / 2, (b.ymin + b.ymax) / 2), rfl, ?_, ?_, ?_⟩
  · unfold areaBBox
    rw [abs_of_nonneg (mul_nonneg (sub_nonneg.2 hx) (sub_nonneg.2 hy)),
      abs_of_nonneg (mul_nonneg (sub_nonneg.2 (k1.1.trans k1.2.1)) (sub_nonneg.2 (k1.2.2.1.trans k1.2.2.2)))]
    apply mul_le_mul <;> linarith
  · unfold areaBBox
    rw [abs_eq_zero, mul_eq_zero, sub_eq_zero, sub_eq_zero]
    constructor <;> rintro (h | h) <;> simp [h]
  · rw [C20_contains]
    refine ⟨?_, ?_, ?_, ?_⟩ <;> simp only <;> linarith
  · simp only; ring
  · simp only; ring

example : areaArr [(1 : ℚ), 2, 4, 6] = .ok 12 := by decide +kernel
example : ∀ p : ℚ × ℚ, InBox ⟨1, 2, 4, 6⟩ p → InBox ⟨0, 2, 5, 6⟩ p := by
  rintro ⟨x, y⟩ ⟨h1, h2, h3, h4⟩
  simp only [InBox] at *
  refine ⟨?_, ?_, ?_, ?_⟩ <;> linarith

end

/-! ### C17 -/

omit [Field K] in
/-- **C17, closing rings.** `to_ccf` of a non-empty ring starts and ends at the same vertex; a ring that
already does is returned as it is, otherwise exactly one copy of the first vertex is added at the end;
closing twice is the same as closing once. -/
theorem C17_to_ccf (ring : List (K × K)) (hne : ring ≠ []) :
    ∃ closed, Window.toCcf ring = .ok closed
      ∧ closed.head? = closed.getLast?
      ∧ (ring.head? = ring.getLast? → closed = ring)
      ∧ (ring.head? ≠ ring.getLast? → closed = ring ++ [ring.head hne])
      ∧ Window.toCcf closed = .ok closed := by
  obtain ⟨p, ps, rfl⟩ := List.exists_cons_of_ne_nil hne
  by_cases h : (p :: ps).getLast (by simp) = p
  · refine ⟨p :: ps, by simp [Window.toCcf, h], ?_, fun _ => rfl, ?_, by simp [Window.toCcf, h]⟩
    · rw [List.getLast?_eq_some_getLast (by simp), h]; rfl
    · intro h'; exact absurd (by rw [List.getLast?_eq_some_getLast (by simp), h]; rfl) h'
  · refine ⟨p :: ps ++ [p], by simp [Window.toCcf, h], by rw [List.getLast?_concat]; rfl, ?_, fun _ => rfl, ?_⟩
    · intro h'
      rw [List.getLast?_eq_some_getLast (by simp)] at h'
      exact absurd (by simpa using h'.symm) h
    · simp [Window.toCcf]

omit [Field K] in
/-- `to_ccf` of an empty list is an `IndexError`. -/
theorem C17_to_ccf_empty : Window.toCcf ([] : List (K × K)) = .error .indexError := rfl

/-- **C17, boxes as polygons.** For a box given as (left, bottom, right, top), the polygon of
`poly_from_bbox` has one ring, which is closed, visits exactly the four corners, has no holes, is left
unchanged by `to_ccf` and by conversion to a window, and has area `(right - left) * (top - bottom)`. -/
theorem C17_poly_from_bbox [IsStrictOrderedRing K] (b : BBox K) (hx : b.xmin ≤ b.xmax)
    (hy : b.ymin ≤ b.ymax) :
    ∃ ring, Window.asWindow (Window.polyFromBBox b) = ⟨[ring], [[]]⟩
      ∧ Window.polyFromBBox b = ⟨[ring], [[]]⟩
      ∧ Window.toCcf ring = .ok ring
      ∧ ring.dropLast = corners b
      ∧ Window.area (Window.asWindow (Window.polyFromBBox b)) = (b.xmax - b.xmin) * (b.ymax - b.ymin) := by
  refine ⟨_, ?_, rfl, ?_, rfl, ?_⟩
  · simp [Window.asWindow, Window.polyFromBBox, Window.mk]
  · simp [Window.toCcf]
  · simp only [Window.asWindow, Window.polyFromBBox, Window.mk, Window.area, Window.ringSum, if_true,
      ne_eq, not_true_eq_false, if_false, List.map_cons, List.map_nil, List.sum_cons, List.sum_nil]
    have hnn : 0 ≤ (b.xmax - b.xmin) * (b.ymax - b.ymin) :=
      mul_nonneg (sub_nonneg.2 hx) (sub_nonneg.2 hy)
    have e : (b.xmin + b.xmin) * (b.ymax - b.ymin) + ((b.xmax + b.xmin) * (b.ymax - b.ymax)
        + ((b.xmax + b.xmax) * (b.ymin - b.ymax) + ((b.xmin + b.xmax) * (b.ymin - b.ymin) + 0)))
        = -(2 * ((b.xmax - b.xmin) * (b.ymax - b.ymin))) := by ring
    rw [e, abs_neg, abs_of_nonneg (by linarith)]
    simp

example : Window.area (Window.polyFromBBox (⟨1, 2, 4, 7⟩ : BBox ℚ)) = 15 := by decide +kernel
example : Window.toCcf [((0 : ℚ), (0 : ℚ)), (1, 0), (1, 1)]
    = .ok [((0 : ℚ), (0 : ℚ)), (1, 0), (1, 1), (0, 0)] := by decide +kernel

/-! ### C18 -/

omit [Field K] [LinearOrder K] in
/-- **C18.** `filter_contained` returns a sub-list of the given points (same order), consisting of
contained points only, and every contained point is kept as often as it was given. -/
theorem C18_filter_contained [DecidableEq K] (contains : K × K → Bool) (points : List (K × K)) :
    (Window.filterContained contains points).Sublist points
      ∧ (∀ p ∈ Window.filterContained contains points, contains p = true)
      ∧ ∀ p, contains p = true →
          (Window.filterContained contains points).count p = points.count p := by
  refine ⟨List.filter_sublist, fun p hp => (List.mem_filter.1 hp).2, fun p hp => ?_⟩
  unfold Window.filterContained
  rw [List.count_filter (by simpa using hp)]

example : Window.filterContained (containsBBox ⟨0, 0, 2, 2⟩).uncurry
    [((1 : ℚ), (1 : ℚ)), (3, 1), (1, 1), (2, 2)] = [(1, 1), (1, 1), (2, 2)] := by decide +kernel

/-! ### C21 -/

/-- **C21.** Let `dist i j` be the distances between `n` indexed points, and let `1 ≤ k ≤ n - 1`. Whatever
correct answer the index gives to the query for the `k + 1` points nearest to each of its own points
(every way of breaking ties is a correct answer), `k_neighbors` returns a table whose row `i` is a
correct list of the `k` nearest *other* points: `k` different ids, none of them `i`, true distances in
non-decreasing order, nothing closer left out. In particular its distances are the `k` smallest distances
to the other points. -/
theorem C21_k_neighbors {D : Type} [LinearOrder D] (dist : ℕ → ℕ → D) (n k : ℕ)
    (rows : List (List (D × ℕ))) (hlen : rows.length = n)
    (hrows : ∀ i (h : i < rows.length), NearestRow (dist i) (List.range n) (k + 1) rows[i]) :
    ∃ out, kNeighbors k rows = .ok out ∧ out.length = n
      ∧ ∀ i (h : i < out.length), NearestRow (dist i) (others n i) k out[i]
          ∧ out[i].map Prod.fst = smallest (dist i) (others n i) k := by
  have hk : ∀ r ∈ rows, r.length = k + 1 := by
    intro r hr
    obtain ⟨i, hi, rfl⟩ := List.mem_iff_getElem.1 hr
    exact (hrows i hi).length
  set ls := rows.zipIdx.map fun r => maskRow k r.2 r.1 with hls
  have hlslen : ls.length = rows.length := by simp [hls]
  have hget : ∀ i (h : i < ls.length), NearestRow (dist i) (others n i) k ls[i] := by
    intro i h
    have hi : i < rows.length := by omega
    have : ls[i] = maskRow k i rows[i] := by simp [hls]
    rw [this]
    exact maskRow_spec (hrows i hi)
  refine ⟨ls, ?_, by omega, fun i h => ⟨hget i h, (hget i h).distances (nodup_others n i)⟩⟩
  unfold kNeighbors
  rw [if_pos (by simpa using hk), ← hls, ← hlslen]
  apply reshape_flatten
  intro l hl
  obtain ⟨i, hi, rfl⟩ := List.mem_iff_getElem.1 hl
  exact (hget i hi).length

/-- Non-vacuity: three points, two of them coincident; the index lists a coincident point before the
query point itself. -/
example : ∀ i (h : i < 3), NearestRow (fun j => ([[0, 0, 5], [0, 0, 5], [5, 5, 0]] : List (List ℕ))[i]![j]!)
    (List.range 3) 2 ([[(0, 1), (0, 0)], [(0, 0), (0, 1)], [(0, 2), (5, 1)]] : List (List (ℕ × ℕ)))[i] := by
  intro i h
  have : i = 0 ∨ i = 1 ∨ i = 2 := by omega
  rcases this with rfl | rfl | rfl <;> simp only [List.getElem_cons_zero, List.getElem_cons_succ] <;>
    exact ⟨by decide, by decide, by decide, by decide, by decide, by decide⟩

example : kNeighbors 1 ([[(0, 1), (0, 0)], [(0, 0), (0, 1)], [(0, 2), (5, 1)]] : List (List (ℕ × ℕ)))
    = .ok [[(0, 1)], [(0, 0)], [(5, 1)]] := by decide

/-! ### C22 -/

/-- **C22.** With scikit-learn, `build_best_tree` succeeds exactly if the metric is callable or a name
listed by one of the two index classes; without it, exactly for the names `l2` and `euclidean`. If it
succeeds, the index it builds supports the requested metric and was built for it; the KD-tree is
preferred when both classes know the name. In all other cases it raises `KeyError`. -/
theorem C22_build_best_tree (hasSklearn : Bool) (kd ball : List String) (metric : Metric) :
    ((∃ t, buildBestTree hasSklearn kd ball metric = .ok t) ↔
      (hasSklearn = true ∧ (metric = .callable ∨ ∃ s, metric = .name s ∧ (s ∈ kd ∨ s ∈ ball)))
      ∨ (hasSklearn = false ∧ (metric = .name "l2" ∨ metric = .name "euclidean")))
    ∧ (∀ t, buildBestTree hasSklearn kd ball metric = .ok t → Supports kd ball t metric)
    ∧ (∀ s, hasSklearn = true → metric = .name s → s ∈ kd →
        buildBestTree hasSklearn kd ball metric = .ok (.sklearnKDTree metric))
    ∧ (∀ e, buildBestTree hasSklearn kd ball metric = .error e → e = .keyError) := by
  rcases hasSklearn with _ | _ <;> rcases metric with s | _
  · by_cases h : s = "l2" ∨ s = "euclidean" <;> simp [buildBestTree, h, Supports]
  · simp [buildBestTree]
  · by_cases h : s ∈ kd <;> by_cases h' : s ∈ ball <;> simp [buildBestTree, h, h', Supports]
  · simp [buildBestTree, Supports]

/-- Non-vacuity: `haversine` is a ball-tree metric only, an unknown name fails. -/
example : buildBestTree true ["euclidean", "l2"] ["euclidean", "haversine"] (.name "haversine")
    = .ok (.sklearnBallTree (.name "haversine"))
  ∧ buildBestTree true ["euclidean", "l2"] ["euclidean", "haversine"] (.name "nope") = .error .keyError := by
  decide

/-! ### C23 -/

omit [Field K] in
/-- **C23.** `prepare_hull` on a non-empty array of coordinates: `None` and `"bbox"` give the bounding
box of the coordinates; a one-dimensional array of length 4 and every geometry object are returned
unchanged; a name starting with `convex` or with `alpha` / `α` gives the convex hull or the alpha shape of the
coordinates; every other string and every other object is a `ValueError`; an array of another shape is
an `AssertionError` (`TypeError` if it has no dimensions). -/
theorem C23_prepare_hull (coords : List (K × K)) (b : BBox K) (hb : IsSmallestBox coords b)
    (hne : coords ≠ []) :
    prepareHull coords .none = .ok (.bboxOf b)
    ∧ prepareHull coords (.str "bbox") = .ok (.bboxOf b)
    ∧ (∀ data, prepareHull coords (.ndarray [4] data) = .ok (.given (.ndarray [4] data)))
    ∧ (∀ shape data, shape ≠ [4] → shape ≠ [] →
        prepareHull coords (.ndarray shape data) = .error .assertionError)
    ∧ (∀ data, prepareHull coords (.ndarray [] data) = .error .typeError)
    ∧ (∀ h : HullArg K, (∃ t, h = .polygon t ∨ h = .multiPolygon t ∨ h = .otherShapely t ∨ h = .convexHull t) →
        prepareHull coords h = .ok (.given h))
    ∧ (∀ s : String, "convex".toList <+: s.toList → prepareHull coords (.str s) = .ok .convexOf)
    ∧ (∀ s : String, "alpha".toList <+: s.toList ∨ "α".toList <+: s.toList →
        prepareHull coords (.str s) = .ok .alphaOf)
    ∧ (∀ s : String, s ≠ "bbox" → ¬ "convex".toList <+: s.toList → ¬ "alpha".toList <+: s.toList →
        ¬ "α".toList <+: s.toList → prepareHull coords (.str s) = .error .valueError)
    ∧ prepareHull coords .other = .error .valueError := by
  have hbox : bboxPts coords = .ok b := by
    obtain ⟨b', hb', -, h3⟩ := (C19_bbox_smallest coords).2 hne
    rw [h3 b hb]; exact hb'
  refine ⟨by simp [prepareHull, hbox, Except.map], by simp [prepareHull, hbox, Except.map], fun data => rfl, ?_,
    fun _ => rfl, ?_, ?_, ?_, ?_, rfl⟩
  · intro shape data h4 h0
    match shape with
    | [] => exact absurd rfl h0
    | n :: rest =>
      simp only [prepareHull]
      by_cases hn : n = 4
      · subst hn
        have : rest ≠ [] := by rintro rfl; exact h4 rfl
        simp [this]
      · simp [hn]
  · rintro h ⟨t, rfl | rfl | rfl | rfl⟩ <;> rfl
  · intro s hs
    have hnb : s ≠ "bbox" := by rintro rfl; revert hs; decide
    simp only [prepareHull]
    rw [if_neg hnb, if_pos (List.isPrefixOf_iff_prefix.2 hs)]
  · intro s hs
    have hnb : s ≠ "bbox" := by rintro rfl; revert hs; decide
    have hnc : ¬ "convex".toList.isPrefixOf s.toList = true := by
      rw [List.isPrefixOf_iff_prefix]
      intro hc
      have e1 := List.prefix_iff_eq_take.1 hc
      rcases hs with hs | hs <;>
      · have e2 := List.prefix_iff_eq_take.1 hs
        have e3 := congrArg (List.take 1) e1
        have e4 := congrArg (List.take 1) e2
        simp only [List.take_take] at e3 e4
        have : List.take 1 "convex".toList = List.take 1 s.toList := by simpa using e3
        have h5 := e4.trans (by simpa using this.symm)
        revert h5; decide
    simp only [prepareHull]
    rw [if_neg hnb, if_neg hnc, if_pos]
    simpa [List.isPrefixOf_iff_prefix] using hs
  · intro s h1 h2 h3 h4
    simp only [prepareHull]
    rw [if_neg h1, if_neg (by rwa [List.isPrefixOf_iff_prefix]), if_neg]
    simp only [Bool.or_eq_true, List.isPrefixOf_iff_prefix, not_or]
    exact ⟨h3, h4⟩

example : prepareHull [((0 : ℚ), (1 : ℚ)), (2, 0)] (.str "alphashape") = .ok .alphaOf := by decide +kernel
example : prepareHull [((0 : ℚ), (1 : ℚ)), (2, 0)] (.str "rectangle") = .error .valueError := by decide +kernel
example : IsSmallestBox [((0 : ℚ), (1 : ℚ)), (2, 0)] ⟨0, 0, 2, 1⟩ := by
  obtain ⟨b, hb, h, -⟩ := (C19_bbox_smallest [((0 : ℚ), (1 : ℚ)), (2, 0)]).2 (by simp)
  have : b = ⟨0, 0, 2, 1⟩ := by
    have e : bboxArr (.pts [((0 : ℚ), (1 : ℚ)), (2, 0)]) = .ok ⟨0, 0, 2, 1⟩ := by decide +kernel
    rw [e] at hb; injection hb with hb; exact hb.symm
  rwa [this] at h

end Pointpats.Props
