import Verif.Model.Inputs
import Verif.Spec.Inputs
import Verif.Props.Draws
import Verif.Spec.Box
import Verif.Spec.Centrography
import Verif.Props.Centers
import Verif.Props.Geometry
import Mathlib.Data.Rat.Floor
import Mathlib.Tactic.Linarith
import Mathlib.Tactic.NormNum

/-!
# C117 to C120: the form of the arguments does not matter
-/

set_option linter.unusedSectionVars false

namespace Pointpats.Props

open Spec Geo Inputs Centrography Quadrat Random

theorem coordinates_of_holds {K : Type} {rows : List (Geom K)} {points : List (K × K)}
    (h : HoldsCoordinates rows points) : getCoordinates rows = points := by
  induction h with
  | nil => rfl
  | missing _ ih => simpa [getCoordinates, Geom.coords] using ih
  | empty _ ih => simpa [getCoordinates, Geom.coords] using ih
  | point p _ ih => simpa [getCoordinates, Geom.coords] using ih
  | multiPoint l _ ih => simpa [getCoordinates, Geom.coords] using ih
  | other l _ ih => simpa [getCoordinates, Geom.coords] using ih

theorem coordinates_of_represents {K : Type} {a : PointsArg K} {points : List (K × K)} (h : Represents a points) :
    a.coordinates = points := by
  cases h with
  | array => rfl
  | sequence => rfl
  | geo h => exact coordinates_of_holds h

section Field

variable {K : Type} [Field K] [LinearOrder K] [IsStrictOrderedRing K]

/-- C117: the centres of a list of pairs, of an array and of a GeoPandas object with the same coordinates are those of the
events. -/
theorem C117_centres (arg : PointsArg K) (points : List (K × K)) (h : Represents arg points) :
    meanCenterOf arg = meanCenter points
    ∧ manhattanMedianOf arg = manhattanMedian points
    ∧ ∀ weights, weightedMeanCenterOf arg weights = weightedMeanCenter points weights := by
  have e := coordinates_of_represents h
  simp only [meanCenterOf, manhattanMedianOf, weightedMeanCenterOf, e]
  exact ⟨trivial, trivial, fun _ => trivial⟩

/-- C117: the same for the standard distance and the Euclidean median, with any optimiser. -/
theorem C117_distances (arg : PointsArg ℝ) (points : List (ℝ × ℝ)) (h : Represents arg points) :
    stdDistanceOf arg = stdDistance points
    ∧ ∀ minimize, euclideanMedianOf minimize arg = euclideanMedian minimize points := by
  have e := coordinates_of_represents h
  simp only [stdDistanceOf, euclideanMedianOf, e]
  exact ⟨trivial, fun _ => trivial⟩

/-- C117: `dtot` is the sum of the distances from the location to the events, for two arrays, for a list with a list or an
array, and for a `Point` with a GeoPandas object. -/
theorem C117_dtot_partial (coord : CoordArg) (arg : PointsArg ℝ) (points : List (ℝ × ℝ)) (h : Represents arg points)
    (hkind : (∃ c l, coord = .array c ∧ arg = .array l) ∨ (∃ c, coord = .sequence c ∧ ∀ rows, arg ≠ .geo rows)
      ∨ (∃ c rows, coord = .point c ∧ arg = .geo rows)) :
    dtotOf coord arg = .ok (sumEucl points coord.xy) := by
  have hd : ∀ c l, dtot c l = sumEucl l c := by
    intro c l
    unfold dtot sumEucl eucl sqDist
    simp only [pow_two]
  have e := coordinates_of_represents h
  rcases hkind with ⟨c, l, rfl, rfl⟩ | ⟨c, rfl, hg⟩ | ⟨c, rows, rfl, rfl⟩
  · cases h; exact congrArg Except.ok (hd _ _)
  · cases arg with
    | array l => cases h; exact congrArg Except.ok (hd _ _)
    | sequence l => cases h; exact congrArg Except.ok (hd _ _)
    | geo rows => exact absurd rfl (hg rows)
  · have e' : getCoordinates rows = points := e
    rw [dtotOf, e', hd]; rfl

/-- C117 is false of `dtot`: every measure accepts a list of pairs, but the total distance from the mean center of a list, which is
an array, to that list is a `TypeError`; and the mean center of a GeoPandas object, a `Point`, does not go with the array of
the same coordinates, nor that of the array, or any list of two numbers, with the GeoPandas object. -/
theorem C117_dtot_refuted (points : List (ℝ × ℝ)) (rows : List (Geom ℝ)) :
    dtotOf (.array (meanCenterOf (.sequence points))) (.sequence points) = .error .typeError
    ∧ dtotOf (.point (meanCenterOf (.geo rows))) (.array points) = .error .attributeError
    ∧ dtotOf (.point (meanCenterOf (.geo rows))) (.sequence points) = .error .attributeError
    ∧ dtotOf (.array (meanCenterOf (.array points))) (.geo rows) = .error .keyError
    ∧ ∀ c, dtotOf (.sequence c) (.geo rows) = .error .indexError :=
  ⟨rfl, rfl, rfl, rfl, fun _ => rfl⟩

theorem rowWeights_points {rows : List (Geom K)} {weights : List K} {wp : List (K × (K × K))}
    (h : RowWeights rows weights wp) (hp : ∀ r ∈ rows, ∃ p, r = .point (some p)) :
    wp = weights.zip (getCoordinates rows) ∧ weights.length = (getCoordinates rows).length ∧
      (getCoordinates rows).length = rows.length := by
  induction h with
  | nil => simp [getCoordinates]
  | missing w _ _ => obtain ⟨p, hp⟩ := hp _ (List.mem_cons_self ..); cases hp
  | empty w _ _ => obtain ⟨p, hp⟩ := hp _ (List.mem_cons_self ..); cases hp
  | multiPoint w l _ _ => obtain ⟨p, hp⟩ := hp _ (List.mem_cons_self ..); cases hp
  | point w p _ ih =>
    obtain ⟨h1, h2, h3⟩ := ih fun r hr => hp r (List.mem_cons_of_mem _ hr)
    simp only [getCoordinates, List.flatMap_cons, Geom.coords, Option.toList_some, List.singleton_append,
      List.zip_cons_cons, List.length_cons] at *
    exact ⟨by rw [← h1], by omega, by omega⟩

/-- C117: with one point in every row of a GeoPandas object, the weighted mean center minimises the weighted sum of squared
distances to the points of the rows, with the weights of the rows. Missing: rows without points and with several. -/
theorem C117_weights_partial (rows : List (Geom K)) (weights : List K) (wp : List (K × (K × K)))
    (hw : RowWeights rows weights wp) (hrows : ∀ r ∈ rows, ∃ p, r = .point (some p)) (hne : rows ≠ [])
    (hpos : ∀ w ∈ weights, 0 < w) :
    ∃ m, weightedMeanCenterOf (.geo rows) weights = .ok m ∧ ∀ q, q ≠ m → wSumSq wp m < wSumSq wp q := by
  obtain ⟨h1, h2, h3⟩ := rowWeights_points hw hrows
  obtain ⟨m, hm, -, -, h⟩ := C25_weighted_mean_center (getCoordinates rows)
    (by intro h; rw [h] at h3; exact hne (List.length_eq_zero_iff.1 h3.symm)) weights h2 hpos
  subst h1
  exact ⟨m, hm, h⟩

/-- C117 is false of weights: for a missing geometry and a row with two points the numbers of weights and coordinates agree,
and the weights of the rows are taken for those of the coordinates. The result does not minimise the weighted sum. -/
theorem C117_weights_refuted : ∃ (rows : List (Geom ℚ)) (weights : List ℚ) (wp : List (ℚ × (ℚ × ℚ))) (m q : ℚ × ℚ),
    RowWeights rows weights wp ∧ (∀ w ∈ weights, 0 < w)
    ∧ weightedMeanCenterOf (.geo rows) weights = .ok m ∧ wSumSq wp q < wSumSq wp m := by
  refine ⟨[.missing, .multiPoint [(0, 0), (10, 0)]], [1, 3], [(3, (0, 0)), (3, (10, 0))], (15 / 2, 0), (5, 0),
    .missing _ (.multiPoint _ _ .nil), ?_, ?_, ?_⟩
  · intro w hw; fin_cases hw <;> norm_num
  · decide +kernel
  · norm_num [wSumSq, sqDist]

/-- The hypotheses are met: four events as a GeoPandas object with a missing row, an empty point and a row with two points. -/
example : Represents (.geo [.point (some ((0 : ℚ), (0 : ℚ))), .missing, .multiPoint [(1, 2), (3, 4)], .point none,
      .point (some (5, 6))]) [(0, 0), (1, 2), (3, 4), (5, 6)]
    ∧ meanCenterOf (.geo [.point (some ((0 : ℚ), (0 : ℚ))), .missing, .multiPoint [(1, 2), (3, 4)], .point none,
      .point (some (5, 6))]) = (9 / 4, 3) :=
  ⟨.geo (.point _ (.missing (.multiPoint [(1, 2), (3, 4)] (.empty (.point _ .nil))))), by decide +kernel⟩

example : RowWeights [.point (some ((0 : ℚ), (0 : ℚ))), .point (some (4, 0))] [1, 3] [(1, (0, 0)), (3, (4, 0))]
    ∧ weightedMeanCenterOf (.geo [.point (some ((0 : ℚ), (0 : ℚ))), .point (some (4, 0))]) [1, 3] = .ok (3, 0) :=
  ⟨.point _ _ (.point _ _ .nil), by decide +kernel⟩

end Field

/-! ### Quadrat methods -/

section Quadrat

theorem pairs_map {K : Type} (points : List (K × K)) : pairs (points.map fun p => [p.1, p.2]) = some points := by
  induction points with
  | nil => rfl
  | cons p l ih => simp [pairs, ih]

theorem getCoordinates_filter {K : Type} (rows : List (Geom K)) :
    getCoordinates (rows.filter fun g => !isMissing g) = getCoordinates rows := by
  induction rows with
  | nil => rfl
  | cons g rows ih =>
    have hc : ∀ l : List (Geom K), getCoordinates (g :: l) = g.coords ++ getCoordinates l := fun l => by
      simp [getCoordinates]
    cases g with
    | missing => rw [List.filter_cons_of_neg (by simp [isMissing]), ih, hc]; rfl
    | point xy => rw [List.filter_cons_of_pos (by simp [isMissing]), hc, hc, ih]
    | multiPoint l => rw [List.filter_cons_of_pos (by simp [isMissing]), hc, hc, ih]
    | other l => rw [List.filter_cons_of_pos (by simp [isMissing]), hc, hc, ih]

theorem all_isPoints {K : Type} (rows : List (Geom K)) :
    (rows.filter fun g => !isMissing g).all isPoints = true ↔ ∀ l, Geom.other l ∉ rows := by
  simp only [List.all_eq_true, List.mem_filter]
  constructor
  · intro h l hl
    have := h _ ⟨hl, rfl⟩
    simp [isPoints] at this
  · rintro h g ⟨hg, hm⟩
    cases g with
    | missing => simp [isMissing] at hm
    | point => rfl
    | multiPoint => rfl
    | other l => exact absurd hg (h l)

theorem asPoints_represents {K : Type} {pp : QInput K} {points : List (K × K)} (h : QRepresents pp points) :
    (points ≠ [] → asPoints pp = .ok points) ∧ (points = [] → asPoints pp = .error .valueError ∨ asPoints pp = .ok []) := by
  cases h with
  | array points =>
    rw [asPoints, pairs_map]
    cases points <;> simp
  | geo hc ho =>
    rw [asPoints]
    simp only [(all_isPoints _).2 ho, if_true, getCoordinates_filter, coordinates_of_holds hc]
    cases points <;> simp
  | pattern pp => exact ⟨fun _ => rfl, fun e => .inr (by rw [asPoints, e])⟩

variable {K : Type} [Field K] [LinearOrder K] [IsStrictOrderedRing K] [FloorRing K]

/-- C118: the quadrat methods give the same result for an array, a GeoPandas object and a `PointPattern` with the same
coordinates; with no window it is the result for the inside of the bounding box of the events. -/
theorem C118_inputs (pp : QInput K) (points : List (K × K)) (h : QRepresents pp points) (cos30 : K) :
    (∀ cc cr w h, rectangleOf pp cc cr w h = RectangleM.init points cc cr w h)
    ∧ (∀ lh, hexagonOf cos30 pp lh = HexagonM.init cos30 points lh)
    ∧ (∀ window u grid realizations fuel pos, qStatisticOf cos30 (some window) u pp grid realizations fuel pos
        = qStatistic cos30 window u points grid realizations fuel pos)
    ∧ (points ≠ [] → ∃ window : Hull K, IsSmallestBox points window.bbox
        ∧ window.area = (window.bbox.xmax - window.bbox.xmin) * (window.bbox.ymax - window.bbox.ymin)
        ∧ (∀ x y, window.contains x y = true ↔ window.bbox.xmin < x ∧ x < window.bbox.xmax
            ∧ window.bbox.ymin < y ∧ y < window.bbox.ymax)
        ∧ ∀ u grid realizations fuel pos, qStatisticOf cos30 none u pp grid realizations fuel pos
            = qStatistic cos30 window u points grid realizations fuel pos) := by
  obtain ⟨h1, h2⟩ := asPoints_represents h
  rcases eq_or_ne points [] with rfl | hne
  · rcases h2 rfl with e | e <;>
    · simp only [rectangleOf, hexagonOf, qStatisticOf, e, bind, Except.bind, ensureWindow, Geometry.bboxPts]
      refine ⟨fun _ _ _ _ => by first | rfl | trivial, fun _ => by first | rfl | trivial, fun _ _ _ _ _ _ => ?_,
        fun h => absurd rfl h⟩
      simp [qStatistic, asPointsArray, Run.fail]
  · have e := h1 hne
    obtain ⟨b, hb⟩ : ∃ b, Geometry.bboxPts points = .ok b := by
      cases points with
      | nil => exact absurd rfl hne
      | cons p l => exact ⟨_, rfl⟩
    refine ⟨fun _ _ _ _ => ?_, fun _ => ?_, fun _ _ _ _ _ _ => ?_, fun _ => ?_⟩
    · simp only [rectangleOf, e, bind, Except.bind]
    · simp only [hexagonOf, e, bind, Except.bind]
    · simp only [qStatisticOf, e, ensureWindow, hb, bind, Except.bind, pure, Except.pure]
    · refine ⟨{ bbox := b, area := (b.xmax - b.xmin) * (b.ymax - b.ymin), isArray := false
                contains := fun x y => decide (b.xmin < x ∧ x < b.xmax ∧ b.ymin < y ∧ y < b.ymax) }, ?_, rfl, ?_, ?_⟩
      · obtain ⟨b', hb', hs, -⟩ := (C19_bbox_smallest points).2 hne
        have : b' = b := by
          have hb2 : Geometry.bboxPts points = .ok b' := hb'
          rw [hb] at hb2
          exact (Except.ok.inj hb2).symm
        exact this ▸ hs
      · intro x y; simp
      · intro _ _ _ _ _
        simp only [qStatisticOf, e, ensureWindow, hb, bind, Except.bind, pure, Except.pure]

/-- C118: what is not a pattern of points is refused by all quadrat methods: another geometry in any row with a `TypeError`;
an array that has a row without exactly two numbers, and an argument without events, with a `ValueError`. -/
theorem C118_refusals (pp : QInput K) (cos30 : K) (err : PyErr)
    (h : (∃ rows l, pp = .geo rows ∧ Geom.other l ∈ rows ∧ err = .typeError)
      ∨ (∃ rows r, pp = .array rows ∧ r ∈ rows ∧ r.length ≠ 2 ∧ err = .valueError)
      ∨ (QRepresents pp [] ∧ err = .valueError)) :
    (∀ cc cr w h, rectangleOf pp cc cr w h = .error err) ∧ (∀ lh, hexagonOf cos30 pp lh = .error err)
    ∧ (∀ window u grid realizations fuel pos, qStatisticOf cos30 window u pp grid realizations fuel pos
        = some (.error err)) := by
  have key : ∀ e, asPoints pp = .error e → (∀ cc cr w h, rectangleOf pp cc cr w h = .error e)
      ∧ (∀ lh, hexagonOf cos30 pp lh = .error e)
      ∧ (∀ window u grid realizations fuel pos, qStatisticOf cos30 window u pp grid realizations fuel pos
        = some (.error e)) := by
    intro e he
    simp only [rectangleOf, hexagonOf, qStatisticOf, he, bind, Except.bind, Run.fail]
    exact ⟨fun _ _ _ _ => trivial, fun _ => trivial, fun _ _ _ _ _ _ => trivial⟩
  rcases h with ⟨rows, l, rfl, hl, rfl⟩ | ⟨rows, r, rfl, hr, hr2, rfl⟩ | ⟨hq, rfl⟩
  · apply key
    have : ¬ (rows.filter fun g => !isMissing g).all isPoints = true := by
      rw [all_isPoints]; push Not; exact ⟨l, hl⟩
    rw [asPoints]
    simp only [this]
    rfl
  · apply key
    have : pairs rows = none := by
      clear key
      induction rows with
      | nil => cases hr
      | cons s rows ih =>
        by_cases hs : s.length = 2
        · obtain ⟨x, y, rfl⟩ := List.length_eq_two.1 hs
          rcases List.mem_cons.1 hr with rfl | hr
          · exact absurd hs hr2
          · simp [pairs, ih hr]
        · match s, hs with
          | [], _ => rfl
          | [_], _ => rfl
          | [_, _], h => exact absurd rfl h
          | _ :: _ :: _ :: _, _ => rfl
    rw [asPoints, this]
  · rcases (asPoints_represents hq).2 rfl with e | e
    · exact key _ e
    · simp only [rectangleOf, hexagonOf, qStatisticOf, e, bind, Except.bind, ensureWindow, Geometry.bboxPts, Run.fail]
      exact ⟨fun _ _ _ _ => rfl, fun _ => rfl, fun _ _ _ _ _ _ => trivial⟩

/-- The hypotheses are met: rows with two points, a missing row and a point give the counts of three events. -/
example : QRepresents (.geo [.multiPoint [((0 : ℚ), (0 : ℚ)), (1, 3)], .missing, .point (some (4, 4))])
      [(0, 0), (1, 3), (4, 4)]
    ∧ ((rectangleOf (.geo [.multiPoint [((0 : ℚ), (0 : ℚ)), (1, 3)], .missing, .point (some (4, 4))]) 2 2 0 0).bind
        fun m => m.pointLocationSta).map Dict.values = .ok [1, 0, 1, 1] :=
  ⟨.geo (.multiPoint [(0, 0), (1, 3)] (.missing (.point _ .nil))) (by simp), by decide +kernel⟩

/-! ### Generators -/

/-- C119: with a seed, `QStatistic` gives the same result whatever has happened in the program before, and changes no
generator. A negative seed is refused, even without simulations. -/
theorem C119_seed (cos30 : K) (defaultRng : ℕ → ℕ → K) (world world' : World K) (seed : ℤ) (window : Option (Hull K))
    (pp : QInput K) (grid : GridArg K) (realizations : ℤ) (fuel : ℕ) :
    (qStatisticRng cos30 defaultRng world (.int seed) window pp grid realizations fuel).map (·.map Prod.fst)
      = (qStatisticRng cos30 defaultRng world' (.int seed) window pp grid realizations fuel).map (·.map Prod.fst)
    ∧ (∀ res after, qStatisticRng cos30 defaultRng world (.int seed) window pp grid realizations fuel = some (.ok (res, after)) →
        after = world ∧ 0 ≤ seed) := by
  unfold qStatisticRng
  cases asPoints pp with
  | error e => exact ⟨rfl, by simp⟩
  | ok points =>
    simp only
    cases ensureWindow window points with
    | error e => exact ⟨rfl, by simp⟩
    | ok w =>
      simp only [coerceRng]
      by_cases hn : seed < 0
      · simp only [hn, if_true]; exact ⟨trivial, by simp⟩
      · simp only [hn, if_false, withSource]
        cases h : qStatistic cos30 w (defaultRng seed.toNat) points grid realizations fuel 0 with
        | none => exact ⟨rfl, by simp⟩
        | some r =>
          cases r with
          | error e => exact ⟨rfl, by simp [Except.map]⟩
          | ok a =>
            refine ⟨rfl, ?_⟩
            intro res after he
            simp only [Option.map_some, Except.map, Option.some.injEq, Except.ok.injEq, Prod.mk.injEq] at he
            exact ⟨he.2.symm, not_lt.1 hn⟩

/-- C119: with a `Generator` or a bit generator the result depends on the numbers that object will give and on nothing else;
that object alone is moved on, behind the numbers that were used: another stream with the same numbers up to there gives the
same result. -/
theorem C119_generator (cos30 : K) (defaultRng : ℕ → ℕ → K) (world world' : World K) (i j : ℕ) (rng rng' : RngArg)
    (hr : rng = .generator i ∨ rng = .bitGenerator i) (hr' : rng' = .generator j ∨ rng' = .bitGenerator j)
    (hsame : world.bits i = world'.bits j) (window : Option (Hull K)) (pp : QInput K) (grid : GridArg K) (realizations : ℤ)
    (fuel : ℕ) :
    (qStatisticRng cos30 defaultRng world rng window pp grid realizations fuel).map (·.map Prod.fst)
      = (qStatisticRng cos30 defaultRng world' rng' window pp grid realizations fuel).map (·.map Prod.fst)
    ∧ (∀ res after, qStatisticRng cos30 defaultRng world rng window pp grid realizations fuel = some (.ok (res, after)) →
        after.legacy = world.legacy ∧ after.entropy = world.entropy ∧ (∀ k, k ≠ i → after.bits k = world.bits k)
        ∧ (after.bits i).1 = (world.bits i).1 ∧ (world.bits i).2 ≤ (after.bits i).2
        ∧ ∀ stream, (∀ k, (world.bits i).2 ≤ k → k < (after.bits i).2 → stream k = (world.bits i).1 k) →
            qStatisticRng cos30 defaultRng { world with bits := Function.update world.bits i (stream, (world.bits i).2) } rng
              window pp grid realizations fuel = some (.ok (res,
                { world with bits := Function.update world.bits i (stream, (after.bits i).2) }))) := by
  have h1 : ∀ world : World K, coerceRng world rng = .ok (.shared i, world) := by
    intro world
    rcases hr with rfl | rfl <;> rfl
  have h2 : coerceRng world' rng' = .ok (.shared j, world') := by rcases hr' with rfl | rfl <;> rfl
  unfold qStatisticRng
  cases asPoints pp with
  | error e => exact ⟨rfl, by simp⟩
  | ok points =>
    simp only
    cases ensureWindow window points with
    | error e => exact ⟨rfl, by simp⟩
    | ok w =>
      simp only [h1, h2, withSource, hsame]
      cases h : qStatistic cos30 w (world'.bits j).1 points grid realizations fuel (world'.bits j).2 with
      | none => exact ⟨rfl, by simp⟩
      | some r =>
        cases r with
        | error e => exact ⟨rfl, by simp [Except.map]⟩
        | ok a =>
          refine ⟨rfl, ?_⟩
          intro res after he
          simp only [Option.map_some, Except.map, Option.some.injEq, Except.ok.injEq, Prod.mk.injEq] at he
          obtain ⟨rfl, rfl⟩ := he
          obtain ⟨g1, g2⟩ := C123_quadrat_test cos30 w points grid realizations fuel _ _ a.1 a.2 h
          simp only [Function.update_self]
          refine ⟨trivial, trivial, fun k hk => by simp [Function.update_of_ne hk], trivial, g1, ?_⟩
          intro stream hs
          have e := g2 stream (world'.bits j).2 fun k hk => by
            exact hs _ (by omega) (by omega)
          have e3 : (world'.bits j).2 + (a.2 - (world'.bits j).2) = a.2 := by omega
          simp only [e, e3, Option.map_some, Except.map, Function.update_idem]

/-- C119: a legacy `RandomState` is a seed drawn from it: one number is taken from it, however many patterns are simulated, and
the result is that of the number as a seed. -/
theorem C119_random_state (cos30 : K) (defaultRng : ℕ → ℕ → K) (world : World K) (i : ℕ) (window : Option (Hull K))
    (pp : QInput K) (grid : GridArg K) (realizations : ℤ) (fuel : ℕ) :
    (qStatisticRng cos30 defaultRng world (.randomState i) window pp grid realizations fuel).map (·.map Prod.fst)
      = (qStatisticRng cos30 defaultRng world (.int ((world.legacy i).1 (world.legacy i).2)) window pp grid realizations
          fuel).map (·.map Prod.fst)
    ∧ (∀ res after, qStatisticRng cos30 defaultRng world (.randomState i) window pp grid realizations fuel
          = some (.ok (res, after)) →
        after.bits = world.bits ∧ after.entropy = world.entropy ∧ (∀ k, k ≠ i → after.legacy k = world.legacy k)
        ∧ after.legacy i = ((world.legacy i).1, (world.legacy i).2 + 1)) := by
  unfold qStatisticRng
  cases asPoints pp with
  | error e => exact ⟨rfl, by simp⟩
  | ok points =>
    simp only
    cases ensureWindow window points with
    | error e => exact ⟨rfl, by simp⟩
    | ok w =>
      have hn : ¬ (((world.legacy i).1 (world.legacy i).2 : ℕ) : ℤ) < 0 := by omega
      simp only [coerceRng, hn, if_false, Int.toNat_natCast, withSource]
      cases h : qStatistic cos30 w (defaultRng ((world.legacy i).1 (world.legacy i).2)) points grid realizations fuel 0 with
      | none => exact ⟨rfl, by simp⟩
      | some r =>
        cases r with
        | error e => exact ⟨rfl, by simp [Except.map]⟩
        | ok a =>
          refine ⟨rfl, ?_⟩
          intro res after he
          simp only [Option.map_some, Except.map, Option.some.injEq, Except.ok.injEq, Prod.mk.injEq] at he
          obtain ⟨-, rfl⟩ := he
          exact ⟨rfl, rfl, fun k hk => by simp [Function.update_of_ne hk], by simp⟩

/-- C119: without a generator the test is that of a seed from the operating system, used once: the next test without a
generator gets the next such seed. No generator of the program is changed. -/
theorem C119_fresh (cos30 : K) (defaultRng : ℕ → ℕ → K) (world : World K) (window : Option (Hull K))
    (pp : QInput K) (grid : GridArg K) (realizations : ℤ) (fuel : ℕ) :
    (qStatisticRng cos30 defaultRng world .none window pp grid realizations fuel).map (·.map Prod.fst)
      = (qStatisticRng cos30 defaultRng world (.int (world.entropy 0)) window pp grid realizations fuel).map (·.map Prod.fst)
    ∧ (∀ res after, qStatisticRng cos30 defaultRng world .none window pp grid realizations fuel = some (.ok (res, after)) →
        after.bits = world.bits ∧ after.legacy = world.legacy ∧ ∀ k, after.entropy k = world.entropy (k + 1)) := by
  unfold qStatisticRng
  cases asPoints pp with
  | error e => exact ⟨rfl, by simp⟩
  | ok points =>
    simp only
    cases ensureWindow window points with
    | error e => exact ⟨rfl, by simp⟩
    | ok w =>
      have hn : ¬ ((world.entropy 0 : ℕ) : ℤ) < 0 := by omega
      simp only [coerceRng, hn, if_false, Int.toNat_natCast, withSource]
      cases h : qStatistic cos30 w (defaultRng (world.entropy 0)) points grid realizations fuel 0 with
      | none => exact ⟨rfl, by simp⟩
      | some r =>
        cases r with
        | error e => exact ⟨rfl, by simp [Except.map]⟩
        | ok a =>
          refine ⟨rfl, ?_⟩
          intro res after he
          simp only [Option.map_some, Except.map, Option.some.injEq, Except.ok.injEq, Prod.mk.injEq] at he
          obtain ⟨-, rfl⟩ := he
          exact ⟨rfl, rfl, fun _ => rfl⟩

/-- C119: a `SeedSequence` is the seed it was made from. -/
theorem C119_seed_sequence (cos30 : K) (defaultRng : ℕ → ℕ → K) (world : World K) (seed : ℕ) (window : Option (Hull K))
    (pp : QInput K) (grid : GridArg K) (realizations : ℤ) (fuel : ℕ) :
    qStatisticRng cos30 defaultRng world (.seedSequence seed) window pp grid realizations fuel
      = qStatisticRng cos30 defaultRng world (.int seed) window pp grid realizations fuel := by
  unfold qStatisticRng
  have hn : ¬ ((seed : ℕ) : ℤ) < 0 := by omega
  simp only [coerceRng, hn, if_false, Int.toNat_natCast]

/-- C119: for events that can be used, a negative seed raises a `ValueError` and a value that is no seed a `TypeError`, also if
nothing is simulated. Unusable events are reported first. -/
theorem C119_refused (cos30 : K) (defaultRng : ℕ → ℕ → K) (world : World K) (window : Option (Hull K))
    (pp : QInput K) (grid : GridArg K) (realizations : ℤ) (fuel : ℕ) :
    (∀ points, QRepresents pp points → points ≠ [] →
      (∀ seed : ℤ, seed < 0 → qStatisticRng cos30 defaultRng world (.int seed) window pp grid realizations fuel
        = some (.error .valueError))
      ∧ qStatisticRng cos30 defaultRng world .other window pp grid realizations fuel = some (.error .typeError))
    ∧ ∀ e, asPoints pp = .error e →
      ∀ rng, qStatisticRng cos30 defaultRng world rng window pp grid realizations fuel = some (.error e) := by
  constructor
  · intro points hp hne
    have hb : ∃ b, Geometry.bboxPts points = .ok b := by
      cases points with
      | nil => exact absurd rfl hne
      | cons p ps => exact ⟨_, rfl⟩
    obtain ⟨b, hb⟩ := hb
    have hw : ∃ w, ensureWindow window points = .ok w := by
      unfold ensureWindow
      rw [hb]
      cases window <;> exact ⟨_, rfl⟩
    obtain ⟨w, hw⟩ := hw
    constructor
    · intro seed hs
      simp only [qStatisticRng, (asPoints_represents hp).1 hne, hw, coerceRng, hs, if_true]
    · simp only [qStatisticRng, (asPoints_represents hp).1 hne, hw, coerceRng]
  · intro e he rng
    simp only [qStatisticRng, he]

/-- A seeded test with two simulated patterns ends, and so does one with a `Generator`, which then stands behind the twelve
numbers it gave. -/
example :
    ((qStatisticRng (1 : ℚ) (fun seed i => (((7 * (seed + i) + 3) % 10 : ℕ) + 1 / 2 : ℚ) / 10)
        ⟨fun _ => (fun _ => 0, 0), fun _ => (fun _ => 0, 0), fun _ => 0⟩ (.int 1) none
        (.array [[0, 0], [1, 1], [1, 0]]) (.rectangle 2 2 0 0) 2 20).map (·.map fun a => a.1.simulated.isSome))
      = some (.ok true)
    ∧ ((qStatisticRng (1 : ℚ) (fun _ _ => 0)
        ⟨fun _ => (fun i => (((7 * i + 3) % 10 : ℕ) + 1 / 2 : ℚ) / 10, 5), fun _ => (fun _ => 0, 0), fun _ => 0⟩
        (.generator 3) none (.array [[0, 0], [1, 1], [1, 0]]) (.rectangle 2 2 0 0) 2 20).map
          (·.map fun a => (a.1.simulated.isSome, (a.2.bits 3).2, (a.2.bits 4).2))) = some (.ok (true, 17, 5)) := by
  constructor <;> decide +kernel

end Quadrat

/-! ### The outline of the window -/

mutual

private theorem outline_aux {K : Type} (r : List (K × K)) : ∀ w : Shape K, r ∈ windowToPaths w ↔ RingOf r w
  | .polygon e is => by
    rw [windowToPaths, List.mem_cons]
    constructor
    · rintro (rfl | h)
      · exact .exterior _
      · exact .interior h
    · intro h
      cases h with
      | exterior => exact .inl rfl
      | interior h => exact .inr h
  | .collection gs => by
    rw [windowToPaths, outline_list r gs]
    constructor
    · rintro ⟨g, hg, h⟩
      exact .part hg h
    · intro h
      cases h with
      | part hg h => exact ⟨_, hg, h⟩
  | .other => by
    rw [windowToPaths]
    constructor
    · intro h; cases h
    · intro h; cases h

private theorem outline_list {K : Type} (r : List (K × K)) : ∀ gs : List (Shape K),
    r ∈ windowToPaths.go gs ↔ ∃ g ∈ gs, RingOf r g
  | [] => by simp [windowToPaths.go]
  | g :: gs => by
    rw [windowToPaths.go, List.mem_append, outline_aux r g, outline_list r gs]
    simp

end

/-- C120: the lines drawn for a window are the rings of its polygons and nothing else, holes included, at any depth of
nesting; without a window nothing is drawn. -/
theorem C120_outline {K : Type} (window : Option (Shape K)) (r : List (K × K)) :
    r ∈ drawWindow window ↔ ∃ w, window = some w ∧ RingOf r w := by
  cases window with
  | none => simp [drawWindow]
  | some w => simpa [drawWindow] using outline_aux r w

/-- A square with a square hole next to another one, in a collection with a line. -/
example : RingOf [((4 : ℚ), (4 : ℚ)), (5, 4), (5, 5)] (.collection [.other, .collection
      [.polygon [(0, 0), (9, 0), (9, 9), (0, 9)] [[(1, 1), (2, 1), (2, 2)], [(4, 4), (5, 4), (5, 5)]],
       .polygon [(20, 0), (29, 0), (29, 9)] []]]) :=
  .part (List.mem_cons_of_mem _ (List.mem_cons_self ..)) (.part (List.mem_cons_self ..) (.interior (by simp)))

end Pointpats.Props
