import Verif.Props.Inputs
import Verif.Props.GeoOverloads
import Verif.Lemmas.HullUnique
import Verif.Spec.Shapes

/-!
# C137: the form and the order of the events do not matter to hulls, rectangles, ellipses and circles
-/

namespace Pointpats.Props

open Spec Geo Inputs Centrography

set_option linter.unusedSectionVars false

private theorem multipoints_of_single {K : Type} {rows : List (Geom K)} (h : SinglePoints rows) :
    multipoints rows = .ok (getCoordinates rows) := by
  unfold multipoints
  rw [if_neg]
  rw [List.any_eq_true]
  rintro ⟨g, hg, hm⟩
  rcases h g hg with rfl | ⟨xy, rfl⟩ <;> simp at hm

/-- **C137, partial: hulls.** Let SciPy answer for the events with the positions of the corners of a convex hull and Shapely
with a closed ring of such corners, in either direction. Then `hull` of a list of pairs or an array is the corners SciPy
found, and `hull` of a GeoPandas object with at most one point in a row is a ring with the same corners in the same or the
opposite cyclic order. Missing: rows with several points. -/
theorem C137_hull_partial (scipy : List (ℝ × ℝ) → Py (List ℕ)) (shapely : List (ℝ × ℝ) → List (ℝ × ℝ))
    (points : List (ℝ × ℝ)) (vertices : List ℕ) (hs : scipy points = .ok vertices)
    (hv : IsHullOf (vertices.map fun i => points.getD i (0, 0)) points)
    (corners : List (ℝ × ℝ)) (hring : shapely points = corners ++ corners.take 1)
    (hc : IsHullOf corners points ∨ IsHullOf corners.reverse points)
    (arg : PointsArg ℝ) (h : Represents arg points) (hsingle : ∀ rows, arg = .geo rows → SinglePoints rows) :
    ∃ hull, IsHullOf hull points ∧
      ((∀ rows, arg ≠ .geo rows) → hullOf scipy shapely arg = .ok hull)
      ∧ (∀ rows, arg = .geo rows → ∃ cs, hullOf scipy shapely arg = .ok (cs ++ cs.take 1)
          ∧ (cs ~r hull ∨ cs.reverse ~r hull)) := by
  refine ⟨_, hv, ?_, ?_⟩
  · intro hno
    cases h with
    | array => simp only [hullOf, hs]; rfl
    | sequence => simp only [hullOf, hs]; rfl
    | geo h => exact absurd rfl (hno _)
  · rintro rows rfl
    cases h with
    | geo h =>
      refine ⟨corners, ?_, ?_⟩
      · simp only [hullOf, multipoints_of_single (hsingle rows rfl), coordinates_of_holds h]
        exact congrArg Except.ok hring
      · exact hc.imp (fun hc => hull_unique hc hv fun _ => Iff.rfl) fun hc => hull_unique hc hv fun _ => Iff.rfl

/-- C137 for the order of the events: if two arrays or lists hold the same events, in any order and with any
repetitions, then `hull` returns the same corners in the same cyclic order; only the first one may differ. -/
theorem C137_order (scipy : List (ℝ × ℝ) → Py (List ℕ)) (shapely : List (ℝ × ℝ) → List (ℝ × ℝ))
    (points points' : List (ℝ × ℝ)) (hsame : ∀ p, p ∈ points ↔ p ∈ points') (vertices vertices' : List ℕ)
    (hs : scipy points = .ok vertices) (hs' : scipy points' = .ok vertices')
    (hv : IsHullOf (vertices.map fun i => points.getD i (0, 0)) points)
    (hv' : IsHullOf (vertices'.map fun i => points'.getD i (0, 0)) points') :
    ∃ hull hull', hullOf scipy shapely (.array points) = .ok hull ∧ hullOf scipy shapely (.sequence points') = .ok hull'
      ∧ hull ~r hull' :=
  ⟨_, _, by simp only [hullOf, hs]; rfl, by simp only [hullOf, hs']; rfl, hull_unique hv hv' hsame⟩

/-- C137, partial: the rotated rectangle of a list, an array and a GeoPandas object with at most one point in a row has the
same corners, listed in opposite directions, and the same angle. Missing: rows with several points. -/
theorem C137_rotated_rectangle_partial (shapely : List (ℝ × ℝ) → List (ℝ × ℝ)) (points : List (ℝ × ℝ)) (a b c d : ℝ × ℝ)
    (hring : shapely points = [a, b, c, d, a]) (arg : PointsArg ℝ) (h : Represents arg points)
    (hsingle : ∀ rows, arg = .geo rows → SinglePoints rows) :
    ((∀ rows, arg ≠ .geo rows) → rotatedRectangleOf shapely arg = .ok ([d, c, b, a], getMrrAngle a b))
    ∧ ∀ rows, arg = .geo rows → rotatedRectangleOf shapely arg = .ok ([a, b, c, d, a], getMrrAngle a b) := by
  constructor
  · intro hno
    cases h with
    | array => simp only [rotatedRectangleOf, hring]; rfl
    | sequence => simp only [rotatedRectangleOf, hring]; rfl
    | geo h => exact absurd rfl (hno _)
  · rintro rows rfl
    cases h with
    | geo h =>
      simp only [rotatedRectangleOf, multipoints_of_single (hsingle rows rfl), coordinates_of_holds h, hring]
      rfl

/-- C137: the axis-parallel rectangle of a list, an array and a GeoPandas object with the same coordinates is the smallest box
around them, whatever the rows hold. -/
theorem C137_rectangle {K : Type} [Field K] [LinearOrder K] (arg : PointsArg K) (points : List (K × K))
    (h : Represents arg points) (hne : points ≠ []) :
    ∃ b, IsSmallestBox points b ∧ minimumBoundingRectangleOf arg = .ok (some b) := by
  obtain ⟨rows, hrows⟩ : ∃ rows : List (Geom K), HoldsCoordinates rows points := by
    clear h hne
    induction points with
    | nil => exact ⟨[], .nil⟩
    | cons p l ih => obtain ⟨rows, hr⟩ := ih; exact ⟨_, .point p hr⟩
  cases h with
  | array =>
    obtain ⟨b, h1, h2, -⟩ := (C99_minimum_bounding_rectangle points rows hrows).2 hne
    exact ⟨b, h1, by simp only [minimumBoundingRectangleOf, h2]; rfl⟩
  | sequence =>
    obtain ⟨b, h1, h2, -⟩ := (C99_minimum_bounding_rectangle points rows hrows).2 hne
    exact ⟨b, h1, by simp only [minimumBoundingRectangleOf, h2]; rfl⟩
  | geo h =>
    obtain ⟨b, h1, -, h2⟩ := (C99_minimum_bounding_rectangle points _ h).2 hne
    exact ⟨b, h1, by simp only [minimumBoundingRectangleOf, h2]⟩

/-- C137: the bounding circle of a list is that of the array; for a GeoPandas object the polygon is the one around that
circle, whatever the rows hold. -/
theorem C137_circle (hasNumba : Bool) (rounds : ℕ) (scipy : List (ℝ × ℝ) → Py (List ℕ)) (q : ℕ) (points : List (ℝ × ℝ))
    (centre : ℝ × ℝ) (radius : ℝ)
    (hcircle : minimumBoundingCircleOf hasNumba rounds scipy q (.array points) = some (.ok (.inl (centre, radius))))
    (arg : PointsArg ℝ) (h : Represents arg points) :
    ((∀ rows, arg ≠ .geo rows) → minimumBoundingCircleOf hasNumba rounds scipy q arg = some (.ok (.inl (centre, radius))))
    ∧ ∀ rows, arg = .geo rows →
        minimumBoundingCircleOf hasNumba rounds scipy q arg = some (.ok (.inr (bufferRing q centre radius))) := by
  constructor
  · intro hno
    cases h with
    | array => exact hcircle
    | sequence => exact hcircle
    | geo h => exact absurd rfl (hno _)
  · rintro rows rfl
    cases h with
    | geo h =>
      simp only [minimumBoundingCircleOf, minimumBoundingCircleOf.circleOfArray, coordinates_of_holds h] at hcircle ⊢
      cases hs : scipy points with
      | error e => rw [hs] at hcircle; cases hcircle
      | ok v =>
        rw [hs] at hcircle
        simp only at hcircle ⊢
        cases hm : Skyum.minimumBoundingCircle hasNumba rounds (v.map fun i => points.getD i (0, 0)) with
        | none => rw [hm] at hcircle; cases hcircle
        | some res =>
          rw [hm] at hcircle
          cases res with
          | error e => cases hcircle
          | ok cr =>
            simp only [Option.map_some, Except.map, Option.some.injEq, Except.ok.injEq, Sum.inl.injEq] at hcircle
            rw [hcircle]
            rfl

/-- C137: the ellipse of a list is that of the array. (For GeoPandas objects see C100.) -/
theorem C137_ellipse (arg : PointsArg ℝ) (points : List (ℝ × ℝ)) (h : Represents arg points)
    (hno : ∀ rows, arg ≠ .geo rows) (weights : Option (List ℝ)) (method : String) (crimestatCorr degfreedCorr : Bool) :
    ellipseOf arg weights method crimestatCorr degfreedCorr
      = (ellipse points weights method crimestatCorr degfreedCorr).map Sum.inl := by
  cases h with
  | array => rfl
  | sequence => rfl
  | geo h => exact absurd rfl (hno _)

/-- C137: the polygon of a GeoPandas object is drawn from the axes and the angle that an array with the same coordinates gives for
the same weights, method and corrections, around the weighted mean, whatever the rows hold. -/
theorem C137_ellipse_polygon (rows : List (Geom ℝ)) (points : List (ℝ × ℝ)) (h : Represents (.geo rows) points)
    (hn : 3 ≤ points.length) (weights : Option (List ℝ))
    (hw : ∀ w, weights = some w → w.length = points.length ∧ (∀ a ∈ w, 0 ≤ a) ∧ 0 < w.sum)
    (wp : List (ℝ × (ℝ × ℝ))) (hwp : wp = ((weights.getD (List.replicate points.length 1)).zip points))
    (method : String) (m : Centrography.EllipseMethod) (hm : Centrography.parseMethod method = .ok m)
    (crimestatCorr degfreedCorr : Bool) :
    ∃ major minor angle, ellipseOf (.array points) weights method crimestatCorr degfreedCorr = .ok (.inl (major, minor, angle))
      ∧ ellipseOf (.geo rows) weights method crimestatCorr degfreedCorr
        = .ok (.inr ((List.range 65).map fun (i : ℕ) => ellipsePoint
          (wMean (wp.map fun a => (a.1, a.2.1)), wMean (wp.map fun a => (a.1, a.2.2))) major minor angle
          (-(i * (Real.pi / 32))))) := by
  cases h with
  | geo hrows =>
  replace hrows := HoldsCoordinates.eq hrows
  obtain ⟨a, b, angle, h⟩ := C28_C29_ellipse points hn weights hw wp hwp
  obtain ⟨k, -, hk, he, hd⟩ := h method m hm crimestatCorr degfreedCorr
  refine ⟨k * a, k * b, angle, by simp only [ellipseOf, he, Except.map], ?_⟩
  have hc := ellipseCentre_eq points weights (fun w e => (hw w e).1) wp hwp
  unfold ellipseOf ellipseGeo
  simp only [hrows, he, bind, Except.bind]
  have hrot := rotate_scaled (q := 16) (by norm_num)
    (wMean (wp.map fun a => (a.1, a.2.1)), wMean (wp.map fun a => (a.1, a.2.2))) (hd.nonneg.trans hd.le) hd.nonneg angle
  norm_num at hrot
  rw [hc]
  simp only [pure, Except.pure]
  rw [hrot]
  rfl

/-- C137 is false of GeoPandas objects with several points in a row: `hull` and `minimum_rotated_rectangle` raise a
`TypeError`, although the other measures use the points of all rows, here for a row with one and a row with three points. -/
theorem C137_several_points_refuted : ∃ (rows : List (Geom ℝ)) (points : List (ℝ × ℝ)), Represents (.geo rows) points
    ∧ (∀ scipy shapely, hullOf scipy shapely (.geo rows) = .error .typeError)
    ∧ (∀ shapely, rotatedRectangleOf shapely (.geo rows) = .error .typeError)
    ∧ meanCenterOf (.geo rows) = meanCenter points ∧ IsHullOf points points := by
  refine ⟨[.point (some (0, 0)), .multiPoint [(4, 0), (4, 4), (0, 3)]], [(0, 0), (4, 0), (4, 4), (0, 3)],
    .geo (.point _ (.multiPoint [(4, 0), (4, 4), (0, 3)] .nil)), fun _ _ => rfl, fun _ => rfl, rfl, ?_⟩
  refine ⟨by simp, fun v hv => hv, ?_, fun e he => subset_convexHull ℝ _ he⟩
  intro i j k hij hjk hk
  simp only [List.length_cons, List.length_nil] at hk
  have : (i = 0 ∧ j = 1 ∧ k = 2) ∨ (i = 0 ∧ j = 1 ∧ k = 3) ∨ (i = 0 ∧ j = 2 ∧ k = 3) ∨ (i = 1 ∧ j = 2 ∧ k = 3) := by omega
  rcases this with ⟨rfl, rfl, rfl⟩ | ⟨rfl, rfl, rfl⟩ | ⟨rfl, rfl, rfl⟩ | ⟨rfl, rfl, rfl⟩ <;> norm_num [clockwiseTurn]

/-- The hypotheses are met: SciPy's positions and Shapely's clockwise ring for the corners of a quadrilateral and an event
inside, and the rows of a GeoPandas object with a missing geometry. -/
example : IsHullOf ([1, 2, 3, 4].map fun i => [((1 : ℝ), (1 : ℝ)), (0, 0), (4, 0), (4, 4), (0, 3)].getD i (0, 0))
      [(1, 1), (0, 0), (4, 0), (4, 4), (0, 3)]
    ∧ SinglePoints [.point (some ((1 : ℝ), (1 : ℝ))), .missing, .point (some (0, 0)), .point none] := by
  refine ⟨?_, ?_⟩
  · have : ([1, 2, 3, 4].map fun i => [((1 : ℝ), (1 : ℝ)), (0, 0), (4, 0), (4, 4), (0, 3)].getD i (0, 0))
        = [(0, 0), (4, 0), (4, 4), (0, 3)] := rfl
    rw [this]
    refine ⟨by simp, by simp, ?_, ?_⟩
    · intro i j k hij hjk hk
      simp only [List.length_cons, List.length_nil] at hk
      have : (i = 0 ∧ j = 1 ∧ k = 2) ∨ (i = 0 ∧ j = 1 ∧ k = 3) ∨ (i = 0 ∧ j = 2 ∧ k = 3) ∨ (i = 1 ∧ j = 2 ∧ k = 3) := by omega
      rcases this with ⟨rfl, rfl, rfl⟩ | ⟨rfl, rfl, rfl⟩ | ⟨rfl, rfl, rfl⟩ | ⟨rfl, rfl, rfl⟩ <;> norm_num [clockwiseTurn]
    · intro e he
      rw [List.mem_cons] at he
      rcases he with rfl | he
      · refine segment_subset_convexHull (x := (0, 0)) (y := (4, 4)) (by simp) (by simp) ?_
        exact ⟨3 / 4, 1 / 4, by norm_num, by norm_num, by norm_num, by ext <;> norm_num⟩
      · exact subset_convexHull ℝ _ he
  · intro g hg
    fin_cases hg
    · exact Or.inr ⟨_, rfl⟩
    · exact Or.inl rfl
    · exact Or.inr ⟨_, rfl⟩
    · exact Or.inr ⟨_, rfl⟩

end Pointpats.Props
