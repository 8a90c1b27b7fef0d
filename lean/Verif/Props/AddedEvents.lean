import Verif.Props.GeoOverloads
import Verif.Props.Centers
import Verif.Props.Median
import Verif.Props.Skyum
import Verif.Props.Knox

/-!
# C177: what adding events can and cannot do to the measures of extent, spread and clustering
-/

set_option linter.unusedSectionVars false

namespace Pointpats.Props

open Spec Centrography Spacetime Geometry Pointpats.Skyum Pointpats.Circ Geo

variable {K : Type} [Field K] [LinearOrder K] [IsStrictOrderedRing K]

/-- C177, rectangle: the minimum bounding rectangle of more events holds the rectangle of fewer. -/
theorem C177_rectangle (points more : List (K × K)) (hne : points ≠ []) (hsub : ∀ p ∈ points, p ∈ more) :
    ∃ x0 y0 x1 y1 x0' y0' x1' y1', minimumBoundingRectangle points = .ok (x0, y0, x1, y1)
      ∧ minimumBoundingRectangle more = .ok (x0', y0', x1', y1')
      ∧ x0' ≤ x0 ∧ y0' ≤ y0 ∧ x1 ≤ x1' ∧ y1 ≤ y1' := by
  have hne' : more ≠ [] := by
    obtain ⟨p, hp⟩ := List.exists_mem_of_ne_nil _ hne
    exact List.ne_nil_of_mem (hsub p hp)
  have key : ∀ l : List (K × K), l ≠ [] → ∃ b : BBox K, IsSmallestBox l b
      ∧ minimumBoundingRectangle l = .ok (b.xmin, b.ymin, b.xmax, b.ymax) := by
    intro l hl
    obtain ⟨b, h1, h2, -⟩ := (C99_minimum_bounding_rectangle l [.multiPoint l]
      (by simpa using HoldsCoordinates.multiPoint l HoldsCoordinates.nil)).2 hl
    exact ⟨b, h1, h2⟩
  obtain ⟨b, h1, h2⟩ := key points hne
  obtain ⟨b', h1', h2'⟩ := key more hne'
  refine ⟨_, _, _, _, _, _, _, _, h2, h2', ?_⟩
  obtain ⟨p, hp⟩ := List.exists_mem_of_ne_nil _ hne
  have hin := h1.1 p hp
  have hsubset := h1.2 b' fun q hq => h1'.1 q (hsub q hq)
  have c1 := hsubset (b.xmin, b.ymin) ⟨le_refl _, hin.1.trans hin.2.1, le_refl _, hin.2.2.1.trans hin.2.2.2⟩
  have c2 := hsubset (b.xmax, b.ymax) ⟨hin.1.trans hin.2.1, le_refl _, hin.2.2.1.trans hin.2.2.2, le_refl _⟩
  exact ⟨c1.1, c1.2.2.1, c2.2.1, c2.2.2.2⟩

/-- C177, circle: the minimum bounding circle of more events is not smaller than that of fewer.
Missing: patterns with hull vertices almost on a line, for which `minimum_bounding_circle` can fail
(`C33_contains_refuted`). -/
theorem C177_circle_partial (numba numba' : Bool) (rounds rounds' : ℕ) (hull events hull' events' : List (ℝ × ℝ))
    (hh : IsHullOf hull events) (hh' : IsHullOf hull' events')
    (hs : ∀ x ∈ hull, ∀ y ∈ hull, ∀ z ∈ hull, x ≠ y → y ≠ z → x ≠ z → SpreadOut x y z)
    (hs' : ∀ x ∈ hull', ∀ y ∈ hull', ∀ z ∈ hull', x ≠ y → y ≠ z → x ≠ z → SpreadOut x y z)
    (hr : hull.length - 1 ≤ rounds) (hr' : hull'.length - 1 ≤ rounds') (hsub : ∀ p ∈ events, p ∈ events') :
    ∃ c r c' r', minimumBoundingCircle numba rounds hull = some (.ok (c, r))
      ∧ minimumBoundingCircle numba' rounds' hull' = some (.ok (c', r')) ∧ r ≤ r' := by
  obtain ⟨c, r, e, h⟩ := C33_smallest_circle_partial numba rounds hull events hh hs hr
  obtain ⟨c', r', e', h'⟩ := C33_smallest_circle_partial numba' rounds' hull' events' hh' hs' hr'
  exact ⟨c, r, c', r', e, e', h.2 c' r' fun p hp => h'.1 p (hsub p hp)⟩

private theorem pairs_sublist {α : Type} {l l' : List α} (h : l.Sublist l') : (pairs l).Sublist (pairs l') := by
  induction h with
  | slnil => exact List.Sublist.refl _
  | cons a _ ih => exact ih.trans (List.sublist_append_right _ _)
  | cons_cons a h ih => exact (h.map _).append ih

/-- C177, Knox: the Knox statistic of more events is not smaller than that of fewer, with the same thresholds. -/
theorem C177_knox [FloorRing K] (cdf : K → XF K → XF K) {sdist : K × K → K × K → K} (hd : IsSpaceDistance sdist)
    (delta tau : K) (E E' : List (Event K)) (hsub : E.Sublist E') (sball tball sball' tball' : List (List ℕ))
    (hs : AnswersSpace sdist delta E sball) (ht : AnswersTime tau E tball)
    (hs' : AnswersSpace sdist delta E' sball') (ht' : AnswersTime tau E' tball')
    (perms perms' : List (List ℕ)) (hperm : ∀ p ∈ perms, IsShuffle E.length p)
    (hperm' : ∀ p ∈ perms', IsShuffle E'.length p) (keep keep' : Bool) :
    ∃ o o', knoxInit cdf sball tball perms keep = .ok o ∧ knoxInit cdf sball' tball' perms' keep' = .ok o'
      ∧ o.statistic_ ≤ o'.statistic_ := by
  obtain ⟨-, o, -, ho, -, -, -, h, -⟩ := C74_knox_counts_pairs cdf hd delta tau E sball tball hs ht perms hperm keep
  obtain ⟨-, o', -, ho', -, -, -, h', -⟩ :=
    C74_knox_counts_pairs cdf hd delta tau E' sball' tball' hs' ht' perms' hperm' keep'
  refine ⟨o, o', ho, ho', ?_⟩
  rw [h, h']
  exact_mod_cast (pairs_sublist hsub).countP_le

/-- C177, medians: the smallest total distance of more events is not smaller than that of fewer. -/
theorem C177_median (points more : List (ℝ × ℝ)) (hsub : points.Sublist more) (m m' : ℝ × ℝ)
    (hm : IsEuclideanMedian points m) :
    dtot m points ≤ dtot m' more := by
  rw [(C30_dtot points m).1, (C30_dtot more m').1]
  refine (hm m').trans ?_
  unfold sumEucl
  exact (hsub.map _).sum_le_sum fun x hx => by
    obtain ⟨p, -, rfl⟩ := List.mem_map.mp hx
    exact Real.sqrt_nonneg _

private theorem sumSq_sublist {points more : List (ℝ × ℝ)} (hsub : points.Sublist more) (q : ℝ × ℝ) :
    sumSq points q ≤ sumSq more q := by
  unfold sumSq
  exact (hsub.map _).sum_le_sum fun x hx => by
    obtain ⟨p, -, rfl⟩ := List.mem_map.mp hx
    unfold sqDist; positivity

/-- C177, spread: the square of the standard distance times the number of events does not fall when events are
added. So the standard distance falls by the factor √(n/n') at most. Missing: that it does not fall at all, which
is false. -/
theorem C177_spread_partial (points more : List (ℝ × ℝ)) (hne : points ≠ []) (hsub : points.Sublist more) :
    points.length * stdDistance points ^ 2 ≤ more.length * stdDistance more ^ 2
    ∧ stdDistance points * Real.sqrt (points.length / more.length) ≤ stdDistance more := by
  have hne' : more ≠ [] := fun h => hne (by rw [h] at hsub; exact List.sublist_nil.mp hsub)
  have hn : (0 : ℝ) < points.length := by exact_mod_cast List.length_pos_iff.mpr hne
  have hn' : (0 : ℝ) < more.length := by exact_mod_cast List.length_pos_iff.mpr hne'
  obtain ⟨p0, p1, -⟩ := C27_std_distance points hne
  obtain ⟨q0, q1, -⟩ := C27_std_distance more hne'
  have key : points.length * stdDistance points ^ 2 ≤ more.length * stdDistance more ^ 2 := by
    rw [p1, q1, mul_div_cancel₀ _ hn.ne', mul_div_cancel₀ _ hn'.ne']
    have hmin : sumSq points (meanCenter points) ≤ sumSq points (meanCenter more) := by
      by_cases h : meanCenter more = meanCenter points
      · rw [h]
      · exact ((C24_mean_center points hne).2.2.2 _ h).le
    exact hmin.trans (sumSq_sublist hsub _)
  refine ⟨key, ?_⟩
  refine abs_le_of_sq_le_sq' ?_ q0 |>.2
  rw [mul_pow, Real.sq_sqrt (by positivity), ← mul_div_assoc, div_le_iff₀ hn']
  linarith

/-- C177, spread: an event added at the mean centre makes the standard distance smaller. -/
theorem C177_spread_refuted :
    ¬ ∀ (points more : List (ℝ × ℝ)), points ≠ [] → points.Sublist more → stdDistance points ≤ stdDistance more := by
  intro h
  have h1 := h [(0, 0), (2, 0)] [(0, 0), (2, 0), (1, 0)] (by simp) (by simp)
  have e1 := (C27_std_distance [((0 : ℝ), (0 : ℝ)), (2, 0)] (by simp))
  have e2 := (C27_std_distance [((0 : ℝ), (0 : ℝ)), (2, 0), (1, 0)] (by simp))
  have f1 := e1.2.2.1
  have f2 := e2.2.2.1
  simp only [sumSq, sqDist, List.map_cons, List.map_nil, List.sum_cons, List.sum_nil, List.length_cons,
    List.length_nil] at f1 f2
  norm_num at f1 f2
  have h3 := pow_le_pow_left₀ e1.1 h1 2
  rcases f1 with f1 | f1 <;> nlinarith [e1.1, e2.1]

/-- Non-vacuity for the circle: an event in the middle is added. -/
example : IsHullOf circleEvents circleEvents ∧ IsHullOf circleEvents ((0, 0) :: circleEvents)
    ∧ ∀ p ∈ circleEvents, p ∈ ((0 : ℝ), (0 : ℝ)) :: circleEvents := by
  refine ⟨circleEvents_hull, ⟨circleEvents_hull.three, fun v hv => List.mem_cons_of_mem _ (circleEvents_hull.sub v hv),
    circleEvents_hull.ring, fun e he => ?_⟩, fun p hp => List.mem_cons_of_mem _ hp⟩
  rcases List.mem_cons.mp he with rfl | he
  · have h1 : ((3 : ℝ), (4 : ℝ)) ∈ convexHull ℝ {p | p ∈ circleEvents} := subset_convexHull ℝ _ (by simp [circleEvents])
    have h2 : ((-3 : ℝ), (-4 : ℝ)) ∈ convexHull ℝ {p | p ∈ circleEvents} := subset_convexHull ℝ _ (by simp [circleEvents])
    have := (convex_convexHull ℝ _) h1 h2 (a := 1 / 2) (b := 1 / 2) (by norm_num) (by norm_num) (by norm_num)
    simpa using this
  · exact circleEvents_hull.contains e he

/-- Non-vacuity for Knox: the first two of the four events of `someEvents`. -/
example : (someEvents.take 2).Sublist someEvents
    ∧ AnswersTime 2 (someEvents.take 2) [[0, 1], [1, 0]] := by
  refine ⟨List.take_sublist _ _, rfl, ?_⟩
  have key : ∀ i < 2, ∀ j < 2, j ∈ ([[0, 1], [1, 0]] : List (List ℕ)).getD i [] ↔
      NearTime 2 (ev (someEvents.take 2) i) (ev (someEvents.take 2) j) := by decide +kernel
  have key2 : ∀ i < 2, ∀ j ∈ ([[0, 1], [1, 0]] : List (List ℕ)).getD i [], j < 2 := by decide +kernel
  intro i hi j
  constructor
  · intro h
    exact ⟨key2 i hi j h, (key i hi j (key2 i hi j h)).1 h⟩
  · rintro ⟨h1, h2⟩
    exact (key i hi j h1).2 h2

example : ([((0 : ℝ), (0 : ℝ)), (2, 0)] : List (ℝ × ℝ)).Sublist [(0, 0), (1, 0), (2, 0)] := by simp

end Pointpats.Props
