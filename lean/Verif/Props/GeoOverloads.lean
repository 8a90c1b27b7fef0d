import Verif.Model.GeoOverloads
import Verif.Spec.Box
import Verif.Spec.Geo
import Verif.Spec.Polygon
import Verif.Spec.Centrography
import Verif.Spec.Circle
import Verif.Props.Ellipse
import Verif.Props.Geometry
import Verif.Props.Skyum
import Mathlib.NumberTheory.Niven
import Mathlib.Analysis.Convex.Extreme

/-!
# C99 – C101: the results for GeoPandas objects
-/

set_option linter.unusedSectionVars false

namespace Pointpats.Props

open Geo Spec Geometry

theorem HoldsCoordinates.eq {K : Type} {rows : List (Geom K)} {points : List (K × K)} (h : HoldsCoordinates rows points) :
    getCoordinates rows = points := by
  induction h with
  | nil => rfl
  | missing _ ih => exact ih
  | empty _ ih => exact ih
  | point p _ ih => rw [← ih]; rfl
  | multiPoint l _ ih => rw [← ih]; rfl
  | other l _ ih => rw [← ih]; rfl

/-- Every object holds some coordinates. -/
theorem holdsCoordinates_exists {K : Type} (rows : List (Geom K)) : ∃ points, HoldsCoordinates rows points := by
  induction rows with
  | nil => exact ⟨_, .nil⟩
  | cons r rows ih =>
    obtain ⟨points, h⟩ := ih
    cases r with
    | missing => exact ⟨_, .missing h⟩
    | point xy =>
      cases xy with
      | none => exact ⟨_, .empty h⟩
      | some p => exact ⟨_, .point p h⟩
    | multiPoint l => exact ⟨_, .multiPoint l h⟩
    | other l => exact ⟨_, .other l h⟩

/-! ### C99 -/

section
variable {K : Type} [Field K] [LinearOrder K]

/-- **C99.** For every non-empty array of events `minimum_bounding_rectangle` returns `(left, bottom, right, top)` of the
smallest box that contains the events, and for a GeoPandas object the box of its coordinates; without events the array
version raises `ValueError` and the GeoPandas version returns an empty geometry. -/
theorem C99_minimum_bounding_rectangle (points : List (K × K)) (rows : List (Geom K)) (hrows : HoldsCoordinates rows points) :
    (points = [] → Centrography.minimumBoundingRectangle points = .error .valueError ∧ minimumBoundingRectangleGeo rows = none)
    ∧ (points ≠ [] → ∃ b : BBox K, IsSmallestBox points b
        ∧ Centrography.minimumBoundingRectangle points = .ok (b.xmin, b.ymin, b.xmax, b.ymax)
        ∧ minimumBoundingRectangleGeo rows = some b) := by
  replace hrows := HoldsCoordinates.eq hrows
  constructor
  · rintro rfl
    refine ⟨rfl, ?_⟩
    unfold minimumBoundingRectangleGeo
    rw [hrows]
    rfl
  · intro hne
    obtain ⟨b, hb, hs, -⟩ := (C19_bbox_smallest points).2 hne
    have hb' : Geometry.bboxPts points = .ok b := hb
    refine ⟨b, hs, ?_, ?_⟩
    · cases points with
      | nil => exact absurd rfl hne
      | cons p ps =>
        simp only [Geometry.bboxPts, Except.ok.injEq] at hb'
        subst hb'
        rfl
    · unfold minimumBoundingRectangleGeo
      rw [hrows, hb']

/-- The smallest box of three events; a missing row, an empty point and a multi-part geometry. -/
example : Centrography.minimumBoundingRectangle [((3 : ℚ), (1 : ℚ)), (0, 2), (5, -1)] = .ok (0, -1, 5, 2)
    ∧ getCoordinates [Geom.missing, .point (some ((3 : ℚ), (1 : ℚ))), .point none, .multiPoint [(0, 2), (5, -1)]]
      = [(3, 1), (0, 2), (5, -1)] := by decide +kernel

end

/-! ### C100 -/

theorem bufferRing_axes {q : ℕ} (hq : 0 < q) (c : ℝ × ℝ) (r : ℝ) :
    (c.1 + r, c.2) ∈ bufferRing q c r ∧ (c.1 - r, c.2) ∈ bufferRing q c r
    ∧ (c.1, c.2 + r) ∈ bufferRing q c r ∧ (c.1, c.2 - r) ∈ bufferRing q c r := by
  have hq' : (q : ℝ) ≠ 0 := by positivity
  have a2 : ((2 * q : ℕ) : ℝ) * (Real.pi / (2 * q)) = Real.pi := by push_cast; field_simp
  have a1 : (q : ℝ) * (Real.pi / (2 * q)) = Real.pi / 2 := by field_simp
  have a3 : ((3 * q : ℕ) : ℝ) * (Real.pi / (2 * q)) = Real.pi + Real.pi / 2 := by push_cast; field_simp; ring
  have s3 : Real.sin (Real.pi + Real.pi / 2) = -1 := by rw [Real.sin_add]; simp
  have c3 : Real.cos (Real.pi + Real.pi / 2) = 0 := by rw [Real.cos_add]; simp
  unfold bufferRing
  simp only [List.mem_map, List.mem_range]
  refine ⟨⟨0, by omega, by simp⟩, ⟨2 * q, by omega, ?_⟩, ⟨3 * q, by omega, ?_⟩, ⟨q, by omega, ?_⟩⟩
  · rw [a2]; simp; ring
  · rw [a3, s3, c3]; simp
  · rw [a1]; simp

theorem bufferRing_mem {q : ℕ} {c : ℝ × ℝ} {r : ℝ} {v : ℝ × ℝ} (h : v ∈ bufferRing q c r) :
    ∃ t, v = (c.1 + r * Real.cos t, c.2 + r * Real.sin t) := by
  unfold bufferRing at h
  obtain ⟨k, -, rfl⟩ := List.mem_map.1 h
  exact ⟨-(k * (Real.pi / (2 * q))), by rw [Real.cos_neg, Real.sin_neg]; ring_nf⟩

/-- The centre of the bounds of a list that reaches its extremes symmetrically about `c`. -/
theorem originCenter_eq {ring : List (ℝ × ℝ)} {c : ℝ × ℝ} {a b : ℝ}
    (h1 : ∃ y, (c.1 + a, y) ∈ ring) (h2 : ∃ y, (c.1 - a, y) ∈ ring) (h3 : ∃ x, (x, c.2 + b) ∈ ring)
    (h4 : ∃ x, (x, c.2 - b) ∈ ring) (h : ∀ v ∈ ring, |v.1 - c.1| ≤ a ∧ |v.2 - c.2| ≤ b) : originCenter ring = c := by
  obtain ⟨y1, h1⟩ := h1
  obtain ⟨y2, h2⟩ := h2
  obtain ⟨x3, h3⟩ := h3
  obtain ⟨x4, h4⟩ := h4
  have hne : ring ≠ [] := List.ne_nil_of_mem h1
  obtain ⟨bb, hbb⟩ := bboxPts_ok hne
  obtain ⟨k1, ⟨p1, m1, e1⟩, ⟨p2, m2, e2⟩, ⟨p3, m3, e3⟩, ⟨p4, m4, e4⟩⟩ := bboxPts_spec hbb
  have i1 := k1 _ h1
  have i2 := k1 _ h2
  have i3 := k1 _ h3
  have i4 := k1 _ h4
  have j1 := h _ m1
  have j2 := h _ m2
  have j3 := h _ m3
  have j4 := h _ m4
  simp only [abs_le] at j1 j2 j3 j4
  unfold originCenter
  rw [hbb]
  simp only
  ext
  · simp only at *; linarith
  · simp only at *; linarith

theorem scale_buffer {q : ℕ} (hq : 0 < q) (c : ℝ × ℝ) (a b : ℝ) :
    scale (bufferRing q c 1) a b = (List.range (4 * q + 1)).map fun (k : ℕ) =>
      (c.1 + a * Real.cos (k * (Real.pi / (2 * q))), c.2 - b * Real.sin (k * (Real.pi / (2 * q)))) := by
  have ho : originCenter (bufferRing q c 1) = c := by
    obtain ⟨h1, h2, h3, h4⟩ := bufferRing_axes hq c 1
    refine originCenter_eq (a := 1) (b := 1) ⟨_, h1⟩ ⟨_, h2⟩ ⟨_, h3⟩ ⟨_, h4⟩ ?_
    intro v hv
    obtain ⟨t, rfl⟩ := bufferRing_mem hv
    simp only [one_mul, add_sub_cancel_left]
    exact ⟨Real.abs_cos_le_one t, Real.abs_sin_le_one t⟩
  unfold scale
  rw [ho]
  unfold bufferRing
  rw [List.map_map]
  apply List.map_congr_left
  intro k _
  simp only [Function.comp]
  ext <;> ring

theorem rotate_scaled {q : ℕ} (hq : 0 < q) (c : ℝ × ℝ) {a b : ℝ} (ha : 0 ≤ a) (hb : 0 ≤ b) (angle : ℝ) :
    rotate (scale (bufferRing q c 1) a b) angle = (List.range (4 * q + 1)).map fun (k : ℕ) =>
      ellipsePoint c a b angle (-(k * (Real.pi / (2 * q)))) := by
  have hq' : (q : ℝ) ≠ 0 := by positivity
  have a2 : ((2 * q : ℕ) : ℝ) * (Real.pi / (2 * q)) = Real.pi := by push_cast; field_simp
  have a1 : (q : ℝ) * (Real.pi / (2 * q)) = Real.pi / 2 := by field_simp
  have a3 : ((3 * q : ℕ) : ℝ) * (Real.pi / (2 * q)) = Real.pi + Real.pi / 2 := by push_cast; field_simp; ring
  have s3 : Real.sin (Real.pi + Real.pi / 2) = -1 := by rw [Real.sin_add]; simp
  have c3 : Real.cos (Real.pi + Real.pi / 2) = 0 := by rw [Real.cos_add]; simp
  have ho : originCenter (scale (bufferRing q c 1) a b) = c := by
    rw [scale_buffer hq]
    have mem : ∀ k, k ≤ 4 * q → (c.1 + a * Real.cos (k * (Real.pi / (2 * q))), c.2 - b * Real.sin (k * (Real.pi / (2 * q)))) ∈
        (List.range (4 * q + 1)).map fun (k : ℕ) =>
          (c.1 + a * Real.cos (k * (Real.pi / (2 * q))), c.2 - b * Real.sin (k * (Real.pi / (2 * q)))) :=
      fun k hk => List.mem_map.2 ⟨k, List.mem_range.2 (by omega), rfl⟩
    refine originCenter_eq (a := a) (b := b) ?_ ?_ ?_ ?_ ?_
    · have := mem 0 (by omega)
      simp only [Nat.cast_zero, zero_mul, Real.cos_zero, mul_one] at this
      exact ⟨_, this⟩
    · have := mem (2 * q) (by omega)
      rw [a2, Real.cos_pi] at this
      exact ⟨_, by convert this using 2; ring⟩
    · have := mem (3 * q) (by omega)
      rw [a3, s3] at this
      exact ⟨_, by convert this using 2; ring⟩
    · have := mem q (by omega)
      rw [a1, Real.sin_pi_div_two] at this
      exact ⟨_, by convert this using 2; ring⟩
    · intro v hv
      obtain ⟨k, -, rfl⟩ := List.mem_map.1 hv
      simp only [add_sub_cancel_left, sub_sub_cancel_left, abs_neg, abs_mul, abs_of_nonneg ha, abs_of_nonneg hb]
      exact ⟨mul_le_of_le_one_right ha (Real.abs_cos_le_one _), mul_le_of_le_one_right hb (Real.abs_sin_le_one _)⟩
  unfold rotate
  rw [ho, scale_buffer hq, List.map_map]
  apply List.map_congr_left
  intro k _
  simp only [Function.comp, ellipsePoint, Real.cos_neg, Real.sin_neg]
  ext <;> ring

theorem ellipseCentre_eq (points : List (ℝ × ℝ)) (weights : Option (List ℝ))
    (hw : ∀ w, weights = some w → w.length = points.length)
    (wp : List (ℝ × (ℝ × ℝ))) (hwp : wp = ((weights.getD (List.replicate points.length 1)).zip points)) :
    ellipseCentre points weights = .ok (wMean (wp.map fun a => (a.1, a.2.1)), wMean (wp.map fun a => (a.1, a.2.2))) := by
  cases weights with
  | none =>
    have hz : wp = points.map fun p => (1, p) := by
      rw [hwp]
      simp only [Option.getD_none]
      clear hw hwp
      induction points with
      | nil => rfl
      | cons p ps ih => simp [List.replicate_succ, ih]
    rw [hz]
    simp only [ellipseCentre, Centrography.meanCenter, wMean, List.map_map, Function.comp_def, one_mul, List.map_const',
      List.sum_replicate, nsmul_eq_mul, mul_one]
  | some w =>
    have hl := hw w rfl
    simp only [Option.getD_some] at hwp
    have hfst : wp.map Prod.fst = w := by rw [hwp]; exact List.map_fst_zip (by omega)
    have key : ∀ f : ℝ × ℝ → ℝ, (List.zipWith (fun a p => a * f p) (w.map fun x => x * 1 / w.sum) points).sum
        = wMean (wp.map fun a => (a.1, f a.2)) := by
      intro f
      unfold wMean
      simp only [List.map_map, Function.comp_def]
      rw [show (List.map (fun x : ℝ × (ℝ × ℝ) => x.1) wp) = w from hfst, hwp]
      generalize w.sum = W
      have gen : ∀ (w : List ℝ) (points : List (ℝ × ℝ)), (List.zipWith (fun a p => a * f p) (w.map fun x => x * 1 / W) points).sum
          = (List.map (fun x => x.1 * f x.2) (w.zip points)).sum / W := by
        intro w
        induction w with
        | nil => intro points; simp
        | cons x xs ih =>
          intro points
          cases points with
          | nil => simp
          | cons p ps =>
            simp only [List.map_cons, List.zipWith_cons_cons, List.sum_cons, List.zip_cons_cons, ih ps]
            ring
      exact gen w points
    unfold ellipseCentre Centrography.weightedMeanCenter
    simp only [List.length_map, hl, ne_eq, not_true_eq_false, if_false]
    rw [key (fun p => p.1), key (fun p => p.2)]

/-- **C100.** Under the conditions of C28 (at least three coordinates; no weights, or as many non-negative ones with a
positive sum) the polygon `ellipse` returns for a GeoPandas object has its 64 corners on the standard deviational ellipse: on
the ellipse around the weighted mean of the coordinates with a half axis along the direction of largest variance and the other
perpendicular to it, of lengths `k` times the standard deviations in these directions, at equally spaced parameters that
include the four ends of the axes. -/
theorem C100_ellipse_polygon (rows : List (Geom ℝ)) (points : List (ℝ × ℝ)) (hrows : HoldsCoordinates rows points)
    (hn : 3 ≤ points.length) (weights : Option (List ℝ))
    (hw : ∀ w, weights = some w → w.length = points.length ∧ (∀ a ∈ w, 0 ≤ a) ∧ 0 < w.sum)
    (wp : List (ℝ × (ℝ × ℝ))) (hwp : wp = ((weights.getD (List.replicate points.length 1)).zip points))
    (method : String) (m : Centrography.EllipseMethod) (hm : Centrography.parseMethod method = .ok m)
    (crimestatCorr degfreedCorr : Bool) :
    ∃ k major minor angle ring, 0 < k ∧ IsDeviationalEllipse wp k major minor angle
      ∧ ellipseGeo rows weights method crimestatCorr degfreedCorr = .ok ring
      ∧ ring = (List.range 65).map (fun (i : ℕ) => ellipsePoint
          (wMean (wp.map fun a => (a.1, a.2.1)), wMean (wp.map fun a => (a.1, a.2.2))) major minor angle (-(i * (Real.pi / 32)))) := by
  replace hrows := HoldsCoordinates.eq hrows
  obtain ⟨a, b, angle, h⟩ := C28_C29_ellipse points hn weights hw wp hwp
  obtain ⟨k, -, hk, he, hd⟩ := h method m hm crimestatCorr degfreedCorr
  refine ⟨k, k * a, k * b, angle, _, hk, hd, ?_, rfl⟩
  have hc := ellipseCentre_eq points weights (fun w e => (hw w e).1) wp hwp
  unfold ellipseGeo
  simp only [hrows, he, bind, Except.bind]
  have hrot := rotate_scaled (q := 16) (by norm_num)
    (wMean (wp.map fun a => (a.1, a.2.1)), wMean (wp.map fun a => (a.1, a.2.2))) (hd.nonneg.trans hd.le) hd.nonneg angle
  norm_num at hrot
  rw [hc]
  simp only [pure, Except.pure]
  rw [hrot]

/-- Four events in two rows meet the hypotheses. -/
example : HoldsCoordinates [Geom.multiPoint [((0 : ℝ), (0 : ℝ)), (1, 2), (4, 4)], .point (some (5, 1))]
    [(0, 0), (1, 2), (4, 4), (5, 1)] ∧ 3 ≤ [((0 : ℝ), (0 : ℝ)), (1, 2), (4, 4), (5, 1)].length :=
  ⟨.multiPoint [(0, 0), (1, 2), (4, 4)] (.point _ .nil), by simp⟩

/-! ### C101 -/

theorem sq_combo (c x y : ℝ × ℝ) {a b : ℝ} (h : a + b = 1) :
    planeSqDist c (a • x + b • y) = a * planeSqDist c x + b * planeSqDist c y - a * b * planeSqDist x y := by
  obtain rfl : b = 1 - a := by linarith
  simp only [planeSqDist, Prod.fst_add, Prod.snd_add, Prod.smul_fst, Prod.smul_snd, smul_eq_mul]
  ring

theorem polygon_subset_disc {c : ℝ × ℝ} {r : ℝ} {ring : List (ℝ × ℝ)} (h : ∀ v ∈ ring, planeSqDist c v ≤ r ^ 2) {p : ℝ × ℝ}
    (hp : InPolygon ring p) : planeSqDist c p ≤ r ^ 2 := by
  have hconv : Convex ℝ {x : ℝ × ℝ | planeSqDist c x ≤ r ^ 2} := by
    intro x hx y hy a b ha hb hab
    show planeSqDist c _ ≤ r ^ 2
    have hx : planeSqDist c x ≤ r ^ 2 := hx
    have hy : planeSqDist c y ≤ r ^ 2 := hy
    rw [sq_combo c x y hab]
    have h1 := mul_le_mul_of_nonneg_left hx ha
    have h2 := mul_le_mul_of_nonneg_left hy hb
    have h3 : 0 ≤ a * b * planeSqDist x y := by unfold planeSqDist; positivity
    have h4 : a * r ^ 2 + b * r ^ 2 = r ^ 2 := by rw [← add_mul, hab, one_mul]
    linarith
  exact convexHull_min (fun v hv => h v hv) hconv hp

/-- A polygon with its corners in a disc has no other point on the circle than corners. -/
theorem polygon_on_circle {c : ℝ × ℝ} {r : ℝ} {ring : List (ℝ × ℝ)} (h : ∀ v ∈ ring, planeSqDist c v ≤ r ^ 2) {p : ℝ × ℝ}
    (hp : InPolygon ring p) (hr : planeSqDist c p = r ^ 2) : p ∈ ring := by
  have hext : p ∈ Set.extremePoints ℝ (convexHull ℝ {v | v ∈ ring}) := by
    refine ⟨hp, ?_⟩
    intro x hx y hy hseg
    obtain ⟨a, b, ha, hb, hab, rfl⟩ := hseg
    have hx' := polygon_subset_disc h hx
    have hy' := polygon_subset_disc h hy
    rw [sq_combo c x y hab] at hr
    have h1 := mul_le_mul_of_nonneg_left hx' ha.le
    have h2 := mul_le_mul_of_nonneg_left hy' hb.le
    have h4 : a * r ^ 2 + b * r ^ 2 = r ^ 2 := by rw [← add_mul, hab, one_mul]
    have h5 : a * b * planeSqDist x y ≤ 0 := by linarith
    have h6 : planeSqDist x y ≤ 0 := by
      by_contra hc
      push Not at hc
      have := mul_pos (mul_pos ha hb) hc
      linarith
    have e1 : x.1 = y.1 := by
      unfold planeSqDist at h6
      nlinarith [sq_nonneg (x.1 - y.1), sq_nonneg (x.2 - y.2)]
    have e2 : x.2 = y.2 := by
      unfold planeSqDist at h6
      nlinarith [sq_nonneg (x.1 - y.1), sq_nonneg (x.2 - y.2)]
    have e : x = y := Prod.ext e1 e2
    subst e
    rw [← add_smul, hab, one_smul]
  exact extremePoints_convexHull_subset (A := {v | v ∈ ring}) hext

/-- The ring of a circle is on the circle. -/
theorem bufferRing_on_circle {q : ℕ} {c : ℝ × ℝ} {r : ℝ} {v : ℝ × ℝ} (h : v ∈ bufferRing q c r) : planeSqDist c v = r ^ 2 := by
  obtain ⟨t, rfl⟩ := bufferRing_mem h
  simp only [planeSqDist]
  linear_combination r ^ 2 * Real.sin_sq_add_cos_sq t

/-- Every location is given by its distance from `c` and an angle in `[0, 2π)`, counted clockwise. -/
theorem exists_polar (c p : ℝ × ℝ) : ∃ ρ φ, 0 ≤ ρ ∧ ρ ^ 2 = planeSqDist c p ∧ 0 ≤ φ ∧ φ < 2 * Real.pi
    ∧ p = (c.1 + ρ * Real.cos φ, c.2 - ρ * Real.sin φ) := by
  obtain ⟨z, hz⟩ : ∃ z : ℂ, z = ⟨p.1 - c.1, p.2 - c.2⟩ := ⟨_, rfl⟩
  have hre : ‖z‖ * Real.cos z.arg = p.1 - c.1 := by rw [Complex.norm_mul_cos_arg, hz]
  have him : ‖z‖ * Real.sin z.arg = p.2 - c.2 := by rw [Complex.norm_mul_sin_arg, hz]
  have hsq : ‖z‖ ^ 2 = planeSqDist c p := by
    rw [← Complex.normSq_eq_norm_sq, hz, Complex.normSq_mk]
    unfold planeSqDist
    ring
  have hp := Real.pi_pos
  by_cases h0 : z.arg ≤ 0
  · refine ⟨‖z‖, -z.arg, norm_nonneg _, hsq, by linarith, by linarith [Complex.neg_pi_lt_arg z], ?_⟩
    rw [Real.cos_neg, Real.sin_neg]
    ext
    · simp only; linarith
    · simp only; linarith
  · push Not at h0
    refine ⟨‖z‖, 2 * Real.pi - z.arg, norm_nonneg _, hsq, by linarith [Complex.arg_le_pi z], by linarith, ?_⟩
    rw [Real.cos_two_pi_sub, Real.sin_two_pi_sub]
    ext
    · simp only; linarith
    · simp only; linarith

/-- The polygon contains the disc of radius `r cos (π / 4q)`. -/
theorem disc_subset_polygon {q : ℕ} (hq : 0 < q) (c : ℝ × ℝ) {r : ℝ} (hr : 0 ≤ r) {p : ℝ × ℝ}
    (hp : planeSqDist c p ≤ (r * Real.cos (Real.pi / (4 * q))) ^ 2) : InPolygon (bufferRing q c r) p := by
  have hq' : (0 : ℝ) < q := by exact_mod_cast hq
  have hq1 : (1 : ℝ) ≤ q := by exact_mod_cast hq
  have hpi := Real.pi_pos
  obtain ⟨α, hα⟩ : ∃ α, α = Real.pi / (2 * q) := ⟨_, rfl⟩
  have hα0 : 0 < α := by rw [hα]; positivity
  have hα1 : α ≤ Real.pi / 2 := by
    rw [hα]
    apply div_le_div_of_nonneg_left hpi.le (by norm_num)
    linarith
  have hhalf : Real.pi / (4 * q) = α / 2 := by rw [hα]; field_simp; ring
  rw [hhalf] at hp
  have hcos : 0 < Real.cos (α / 2) := Real.cos_pos_of_mem_Ioo ⟨by linarith, by linarith⟩
  have hsinh : 0 < Real.sin (α / 2) := Real.sin_pos_of_pos_of_lt_pi (by linarith) (by linarith)
  have hsin : Real.sin α = 2 * Real.sin (α / 2) * Real.cos (α / 2) := by
    rw [← Real.sin_two_mul]; congr 1; ring
  have hsin0 : 0 < Real.sin α := by rw [hsin]; positivity
  have hvert : ∀ k : ℕ, k ≤ 4 * q → InPolygon (bufferRing q c r) (c.1 + r * Real.cos (k * α), c.2 - r * Real.sin (k * α)) := by
    intro k hk
    refine subset_convexHull ℝ _ ?_
    show _ ∈ bufferRing q c r
    unfold bufferRing
    rw [hα]
    exact List.mem_map.2 ⟨k, List.mem_range.2 (by omega), rfl⟩
  have hcentre : InPolygon (bufferRing q c r) c := by
    obtain ⟨h1, h2, -, -⟩ := bufferRing_axes hq c r
    have hconv := convex_convexHull ℝ {v | v ∈ bufferRing q c r}
    have := hconv (subset_convexHull ℝ _ (show (c.1 + r, c.2) ∈ {v | v ∈ bufferRing q c r} from h1))
      (subset_convexHull ℝ _ (show (c.1 - r, c.2) ∈ {v | v ∈ bufferRing q c r} from h2))
      (by norm_num : (0 : ℝ) ≤ 1 / 2) (by norm_num : (0 : ℝ) ≤ 1 / 2) (by norm_num)
    have e : (1 / 2 : ℝ) • (c.1 + r, c.2) + (1 / 2 : ℝ) • (c.1 - r, c.2) = c := by
      ext
      · simp only [Prod.fst_add, Prod.smul_fst, smul_eq_mul]; ring
      · simp only [Prod.snd_add, Prod.smul_snd, smul_eq_mul]; ring
    rw [e] at this
    exact this
  obtain ⟨ρ, φ, hρ, hρ2, hφ0, hφ1, rfl⟩ := exists_polar c p
  rw [← hρ2] at hp
  have hρr : ρ ≤ r * Real.cos (α / 2) := by
    exact (le_abs_self _).trans (abs_le_of_sq_le_sq hp (mul_nonneg hr hcos.le))
  rcases hr.eq_or_lt with hr0 | hr0
  · have : ρ = 0 := le_antisymm (by rw [← hr0] at hρr; linarith) hρ
    subst this
    simpa using hcentre
  obtain ⟨k, hk⟩ : ∃ k : ℕ, k = ⌊φ / α⌋₊ := ⟨_, rfl⟩
  have hk0 : (k : ℝ) ≤ φ / α := hk ▸ Nat.floor_le (by positivity)
  have hk1 : φ / α < k + 1 := hk ▸ Nat.lt_floor_add_one _
  rw [le_div_iff₀ hα0] at hk0
  rw [div_lt_iff₀ hα0] at hk1
  have hk4 : k + 1 ≤ 4 * q := by
    have h1 : (k : ℝ) * α < 4 * q * α := by
      have : 4 * (q : ℝ) * α = 2 * Real.pi := by rw [hα]; field_simp; ring
      linarith
    have h2 : (k : ℝ) < 4 * q := lt_of_mul_lt_mul_right h1 hα0.le
    have h3 : k < 4 * q := by exact_mod_cast h2
    omega
  obtain ⟨β, hβ⟩ : ∃ β, β = φ - k * α := ⟨_, rfl⟩
  have hβ0 : 0 ≤ β := by linarith
  have hβ1 : β ≤ α := by rw [hβ]; linarith
  have hφ : φ = k * α + β := by linarith
  have s1 : 0 ≤ Real.sin (α - β) := Real.sin_nonneg_of_nonneg_of_le_pi (by linarith) (by linarith)
  have s2 : 0 ≤ Real.sin β := Real.sin_nonneg_of_nonneg_of_le_pi hβ0 (by linarith)
  have hsum : Real.sin (α - β) + Real.sin β ≤ 2 * Real.sin (α / 2) := by
    have : Real.sin (α - β) + Real.sin β = 2 * Real.sin (α / 2) * Real.cos (α / 2 - β) := by
      rw [Real.sin_add_sin]
      congr 2
      · ring_nf
      · ring_nf
    rw [this]
    exact mul_le_of_le_one_right (by positivity) (Real.cos_le_one _)
  have hconv := convex_convexHull ℝ {v | v ∈ bufferRing q c r}
  obtain ⟨l1, hl1⟩ : ∃ l1, l1 = ρ * Real.sin (α - β) / (r * Real.sin α) := ⟨_, rfl⟩
  obtain ⟨l2, hl2⟩ : ∃ l2, l2 = ρ * Real.sin β / (r * Real.sin α) := ⟨_, rfl⟩
  have hl1n : 0 ≤ l1 := by rw [hl1]; positivity
  have hl2n : 0 ≤ l2 := by rw [hl2]; positivity
  have hls : l1 + l2 ≤ 1 := by
    rw [hl1, hl2, ← add_div, div_le_one (by positivity), ← mul_add]
    calc ρ * (Real.sin (α - β) + Real.sin β) ≤ r * Real.cos (α / 2) * (2 * Real.sin (α / 2)) := by
          apply mul_le_mul hρr hsum (by positivity) (by positivity)
      _ = r * Real.sin α := by rw [hsin]; ring
  have hm1 : l1 * r * Real.sin α = ρ * Real.sin (α - β) := by rw [hl1]; field_simp
  have hm2 : l2 * r * Real.sin α = ρ * Real.sin β := by rw [hl2]; field_simp
  have hk1' : ((k + 1 : ℕ) : ℝ) * α = k * α + α := by push_cast; ring
  have v1 := hvert k (by omega)
  have v2 := hvert (k + 1) hk4
  rw [hk1'] at v2
  have hcomb := hconv.sum_mem (t := Finset.univ) (w := ![l1, l2, 1 - l1 - l2])
    (z := ![(c.1 + r * Real.cos (k * α), c.2 - r * Real.sin (k * α)),
      (c.1 + r * Real.cos (k * α + α), c.2 - r * Real.sin (k * α + α)), c])
    (by intro i _; fin_cases i <;> simp <;> linarith)
    (by simp [Fin.sum_univ_three]) (by intro i _; fin_cases i; exacts [v1, v2, hcentre])
  have e : ∑ i : Fin 3, ![l1, l2, 1 - l1 - l2] i • ![(c.1 + r * Real.cos (k * α), c.2 - r * Real.sin (k * α)),
      (c.1 + r * Real.cos (k * α + α), c.2 - r * Real.sin (k * α + α)), c] i
      = (c.1 + ρ * Real.cos φ, c.2 - ρ * Real.sin φ) := by
    rw [Real.sin_sub] at hm1
    have hne := hsin0.ne'
    rw [hφ, Real.cos_add, Real.sin_add, Real.cos_add, Real.sin_add, Fin.sum_univ_three]
    simp only [Matrix.cons_val_zero, Matrix.cons_val_one, Matrix.cons_val_two, Matrix.head_cons, Matrix.tail_cons,
      Prod.smul_mk, Prod.mk_add_mk, smul_eq_mul]
    ext
    · simp only [Prod.fst_add, Prod.smul_fst, smul_eq_mul]
      apply mul_right_cancel₀ hne
      linear_combination Real.cos (k * α) * hm1
        + (Real.cos (k * α) * Real.cos α - Real.sin (k * α) * Real.sin α) * hm2
    · simp only [Prod.snd_add, Prod.smul_snd, smul_eq_mul]
      apply mul_right_cancel₀ hne
      linear_combination -Real.sin (k * α) * hm1
        - (Real.sin (k * α) * Real.cos α + Real.cos (k * α) * Real.sin α) * hm2
  rw [e] at hcomb
  exact hcomb

/-- **C101**, what holds. For events whose hull has no three vertices nearly on a line (as in C33) and for every `quad_segs`
`q ≥ 1`: the polygon is in the smallest circle of the events and contains every location whose distance from its centre is at
most `cos (π / 4q)` times the radius, so every such event; an event on the circle itself is in the polygon only if it is one
of its corners. -/
theorem C101_circle_polygon_partial (hasNumba : Bool) (rounds : ℕ) (hull events : List (ℝ × ℝ)) (hh : IsHullOf hull events)
    (hs : ∀ x ∈ hull, ∀ y ∈ hull, ∀ z ∈ hull, x ≠ y → y ≠ z → x ≠ z → SpreadOut x y z)
    (hr : hull.length - 1 ≤ rounds) (q : ℕ) (hq : 0 < q) :
    ∃ centre radius ring, minimumBoundingCircleGeo hasNumba rounds hull q = some (.ok ring)
      ∧ IsSmallestDisc centre radius events
      ∧ (∀ p, InPolygon ring p → InDisc centre radius p)
      ∧ (∀ p, InDisc centre (radius * Real.cos (Real.pi / (4 * q))) p → InPolygon ring p)
      ∧ (∀ p, planeSqDist centre p = radius ^ 2 → (InPolygon ring p ↔ p ∈ ring)) := by
  obtain ⟨c, r, h1, h2⟩ := C33_smallest_circle_partial hasNumba rounds hull events hh hs hr
  have hr0 : 0 ≤ r := by
    have h3 := hh.three
    obtain ⟨v, hv⟩ := List.exists_mem_of_ne_nil hull (by rintro rfl; simp at h3)
    exact (h2.1 v (hh.sub v hv)).1
  have hon : ∀ v ∈ bufferRing q c r, planeSqDist c v ≤ r ^ 2 := fun v hv => (bufferRing_on_circle hv).le
  refine ⟨c, r, bufferRing q c r, ?_, h2, ?_, ?_, ?_⟩
  · unfold minimumBoundingCircleGeo
    rw [h1]
    rfl
  · exact fun p hp => ⟨hr0, polygon_subset_disc hon hp⟩
  · exact fun p hp => disc_subset_polygon hq c hr0 hp.2
  · exact fun p hp => ⟨fun h => polygon_on_circle hon h hp, fun h => subset_convexHull ℝ _ h⟩

/-- Three events with integer coordinates on the circle of radius 5. -/
def circleEvents : List (ℝ × ℝ) := [(3, 4), (-4, 3), (-3, -4)]

theorem circleEvents_hull : IsHullOf circleEvents circleEvents := by
  refine ⟨by simp [circleEvents], fun v hv => hv, ?_, fun e he => subset_convexHull ℝ _ he⟩
  intro i j k hij hjk hk
  simp only [circleEvents, List.length_cons, List.length_nil] at hk
  have : i = 0 := by omega
  have : j = 1 := by omega
  have : k = 2 := by omega
  subst i j k
  norm_num [circleEvents, clockwiseTurn]

theorem circleEvents_spread : ∀ x ∈ circleEvents, ∀ y ∈ circleEvents, ∀ z ∈ circleEvents, x ≠ y → y ≠ z → x ≠ z →
    SpreadOut x y z := by
  intro x hx y hy z hz
  simp only [circleEvents, List.mem_cons, List.not_mem_nil, or_false] at hx hy hz
  rcases hx with rfl | rfl | rfl <;> rcases hy with rfl | rfl | rfl <;> rcases hz with rfl | rfl | rfl <;>
    first
    | (intro h1 h2 h3; exact absurd rfl h1)
    | (intro h1 h2 h3; exact absurd rfl h2)
    | (intro h1 h2 h3; exact absurd rfl h3)
    | (intro _ _ _; refine ⟨?_, ?_, ?_⟩ <;> norm_num [planeSqDist, clockwiseTurn])

theorem circleEvents_disc : IsSmallestDisc (0, 0) 5 circleEvents := by
  constructor
  · intro p hp
    simp only [circleEvents, List.mem_cons, List.not_mem_nil, or_false] at hp
    rcases hp with rfl | rfl | rfl <;> refine ⟨by norm_num, ?_⟩ <;> norm_num [planeSqDist]
  · intro c r h
    obtain ⟨hr, h1⟩ := h (3, 4) (by simp [circleEvents])
    obtain ⟨-, h2⟩ := h (-3, -4) (by simp [circleEvents])
    simp only [planeSqDist] at h1 h2
    by_contra hlt
    push Not at hlt
    nlinarith [sq_nonneg c.1, sq_nonneg c.2]

/-- **C101 is false.** The bounding circle of a GeoPandas object need not contain its events: for these three events, with
every number of segments, with and without numba, the polygon misses an event. -/
theorem C101_circle_polygon_refuted (hasNumba : Bool) (rounds : ℕ) (hr : 2 ≤ rounds) (q : ℕ) (hq : 0 < q) :
    IsHullOf circleEvents circleEvents ∧ ∃ ring, minimumBoundingCircleGeo hasNumba rounds circleEvents q = some (.ok ring)
      ∧ ∃ e ∈ circleEvents, ¬ InPolygon ring e := by
  refine ⟨circleEvents_hull, ?_⟩
  obtain ⟨c, r, h1, h2⟩ := C33_smallest_circle_partial hasNumba rounds circleEvents circleEvents circleEvents_hull
    circleEvents_spread (by simpa [circleEvents] using hr)
  obtain ⟨rfl, rfl⟩ := smallestDisc_unique (by simp [circleEvents]) circleEvents_disc h2
  refine ⟨bufferRing q (0, 0) 5, ?_, (3, 4), by simp [circleEvents], ?_⟩
  · unfold minimumBoundingCircleGeo
    rw [h1]
    rfl
  intro h
  have hmem := polygon_on_circle (fun v hv => (bufferRing_on_circle hv).le) h (by norm_num [planeSqDist])
  unfold bufferRing at hmem
  obtain ⟨k, -, hk⟩ := List.mem_map.1 hmem
  have h3 : Real.cos (k * (Real.pi / (2 * q))) = 3 / 5 := by
    have := congrArg Prod.fst hk
    simp only at this
    linarith
  have hn := niven (θ := k * (Real.pi / (2 * q))) ⟨(k : ℚ) / (2 * q), by push_cast; ring⟩ ⟨3 / 5, by rw [h3]; norm_num⟩
  rw [h3] at hn
  simp only [Set.mem_insert_iff, Set.mem_singleton_iff] at hn
  norm_num at hn

end Pointpats.Props
