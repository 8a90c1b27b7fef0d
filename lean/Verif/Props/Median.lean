import Verif.Props.Centers
import Mathlib.Analysis.Complex.Norm

/-!
# C30: total distance and the Euclidean median
-/

namespace Pointpats.Props

open Centrography Spec

private noncomputable def toC (p : ℝ × ℝ) : ℂ := ⟨p.1, p.2⟩

private theorem eucl_norm (p q : ℝ × ℝ) : eucl p q = ‖toC p - toC q‖ := by
  rw [Complex.norm_def, Complex.normSq_apply]
  unfold eucl sqDist
  congr 1
  simp only [toC, Complex.sub_re, Complex.sub_im]
  ring

private theorem dtot_eq (c : ℝ × ℝ) (points : List (ℝ × ℝ)) : dtot c points = sumEucl points c := by
  unfold dtot sumEucl eucl sqDist
  congr 1
  apply List.map_congr_left
  intro p _
  simp only
  congr 1
  ring

private theorem eucl_nonneg (p q : ℝ × ℝ) : 0 ≤ eucl p q := Real.sqrt_nonneg _

private theorem eucl_eq_zero {p q : ℝ × ℝ} : eucl p q = 0 ↔ p = q := by
  rw [eucl_norm, norm_eq_zero, sub_eq_zero]
  constructor
  · intro h
    have h1 := congrArg Complex.re h
    have h2 := congrArg Complex.im h
    exact Prod.ext h1 h2
  · rintro rfl; rfl

private theorem eucl_convex (p c c' : ℝ × ℝ) (t : ℝ) (h0 : 0 ≤ t) (h1 : t ≤ 1) :
    eucl p (t * c.1 + (1 - t) * c'.1, t * c.2 + (1 - t) * c'.2) ≤ t * eucl p c + (1 - t) * eucl p c' := by
  rw [eucl_norm, eucl_norm, eucl_norm]
  have e : toC p - toC (t * c.1 + (1 - t) * c'.1, t * c.2 + (1 - t) * c'.2)
      = (t : ℂ) * (toC p - toC c) + ((1 - t : ℝ) : ℂ) * (toC p - toC c') := by
    apply Complex.ext <;> simp [toC] <;> ring
  rw [e]
  refine (norm_add_le _ _).trans ?_
  rw [norm_mul, norm_mul, Complex.norm_real, Complex.norm_real, Real.norm_of_nonneg h0,
    Real.norm_of_nonneg (by linarith)]

private theorem eucl_tri (p c c' : ℝ × ℝ) : eucl p c ≤ eucl p c' + eucl c c' := by
  rw [eucl_norm, eucl_norm, eucl_norm]
  have : toC p - toC c = (toC p - toC c') - (toC c - toC c') := by ring
  rw [this]
  exact norm_sub_le _ _

private theorem sumEucl_convex (points : List (ℝ × ℝ)) (c c' : ℝ × ℝ) (t : ℝ) (h0 : 0 ≤ t) (h1 : t ≤ 1) :
    sumEucl points (t * c.1 + (1 - t) * c'.1, t * c.2 + (1 - t) * c'.2)
      ≤ t * sumEucl points c + (1 - t) * sumEucl points c' := by
  unfold sumEucl
  induction points with
  | nil => simp
  | cons a l ih =>
    simp only [List.map_cons, List.sum_cons]
    have := eucl_convex a c c' t h0 h1
    linarith

private theorem sumEucl_lip (points : List (ℝ × ℝ)) (c c' : ℝ × ℝ) :
    sumEucl points c ≤ sumEucl points c' + points.length * eucl c c' := by
  unfold sumEucl
  induction points with
  | nil => simp
  | cons a l ih =>
    simp only [List.map_cons, List.sum_cons, List.length_cons]
    push_cast
    have := eucl_tri a c c'
    linarith

private theorem eucl_comm (p q : ℝ × ℝ) : eucl p q = eucl q p := by
  unfold eucl sqDist; congr 1; ring

/-- **C30, total distance.** `dtot(c, points)` is the sum of the Euclidean distances of the events to `c`. It
is non-negative, zero exactly if all events are at `c`, additive over concatenation, independent of the order
of the events, unchanged if events and `c` are moved together, convex in `c`, and changes by at most
`n |c - c'|` from `c` to `c'`. -/
theorem C30_dtot (points : List (ℝ × ℝ)) (c : ℝ × ℝ) :
    dtot c points = sumEucl points c
    ∧ 0 ≤ dtot c points
    ∧ (dtot c points = 0 ↔ ∀ p ∈ points, p = c)
    ∧ (∀ more, dtot c (points ++ more) = dtot c points + dtot c more)
    ∧ (∀ points', points.Perm points' → dtot c points = dtot c points')
    ∧ (∀ u v : ℝ, dtot (c.1 + u, c.2 + v) (points.map fun p => (p.1 + u, p.2 + v)) = dtot c points)
    ∧ (∀ c' (t : ℝ), 0 ≤ t → t ≤ 1 →
        dtot (t * c.1 + (1 - t) * c'.1, t * c.2 + (1 - t) * c'.2) points
          ≤ t * dtot c points + (1 - t) * dtot c' points)
    ∧ (∀ c', |dtot c points - dtot c' points| ≤ points.length * eucl c c') := by
  simp only [dtot_eq]
  refine ⟨trivial, ?_, ?_, ?_, ?_, ?_, ?_, ?_⟩
  · apply List.sum_nonneg
    intro x hx
    obtain ⟨p, _, rfl⟩ := List.mem_map.1 hx
    exact eucl_nonneg _ _
  · unfold sumEucl
    induction points with
    | nil => simp
    | cons a l ih =>
      have h1 := eucl_nonneg a c
      have h2 : 0 ≤ (l.map fun p => eucl p c).sum := by
        apply List.sum_nonneg
        intro x hx
        obtain ⟨p, _, rfl⟩ := List.mem_map.1 hx
        exact eucl_nonneg _ _
      simp only [List.map_cons, List.sum_cons, List.forall_mem_cons]
      rw [add_eq_zero_iff_of_nonneg h1 h2, eucl_eq_zero, ih]
  · intro more; simp [sumEucl]
  · intro points' h; exact (h.map _).sum_eq
  · intro u v
    unfold sumEucl eucl sqDist
    rw [List.map_map]
    congr 1
    apply List.map_congr_left
    intro p _
    simp only [Function.comp]
    congr 1
    ring
  · intro c' t h0 h1; exact sumEucl_convex points c c' t h0 h1
  · intro c'
    rw [abs_le]
    have h1 := sumEucl_lip points c c'
    have h2 := sumEucl_lip points c' c
    rw [eucl_comm c' c] at h2
    constructor <;> linarith

/-- **C30, Euclidean median.** If the optimiser, called for these events, stops at a local minimum of the
total distance, that is, no location closer than some `ε > 0` has a smaller value, then `euclidean_median`
returns a Euclidean median: no location at all has a smaller sum of distances to the events. -/
theorem C30_euclidean_median (minimize : ((ℝ × ℝ) → ℝ) → ℝ × ℝ → ℝ × ℝ) (points : List (ℝ × ℝ))
    (hlocal : ∃ ε > 0, ∀ q, eucl (euclideanMedian minimize points) q < ε →
      sumEucl points (euclideanMedian minimize points) ≤ sumEucl points q) :
    IsEuclideanMedian points (euclideanMedian minimize points) := by
  obtain ⟨ε, hε, h⟩ := hlocal
  generalize euclideanMedian minimize points = m at h
  intro q
  by_contra hlt
  push Not at hlt
  -- a location on the way to q, close to m
  have hd := eucl_nonneg m q
  obtain ⟨t, ht0, ht1, ht⟩ : ∃ t : ℝ, 0 < t ∧ t ≤ 1 ∧ t * eucl m q < ε := by
    refine ⟨min 1 (ε / (2 * (eucl m q + 1))), ?_, min_le_left _ _, ?_⟩
    · apply lt_min one_pos; positivity
    · have h1 : min 1 (ε / (2 * (eucl m q + 1))) * eucl m q ≤ ε / (2 * (eucl m q + 1)) * eucl m q :=
        mul_le_mul_of_nonneg_right (min_le_right _ _) hd
      have h2 : ε / (2 * (eucl m q + 1)) * eucl m q < ε := by
        rw [div_mul_eq_mul_div, div_lt_iff₀ (by positivity)]
        nlinarith
      linarith
  have h1 := h (t * q.1 + (1 - t) * m.1, t * q.2 + (1 - t) * m.2) (by
    have : eucl m (t * q.1 + (1 - t) * m.1, t * q.2 + (1 - t) * m.2) = t * eucl m q := by
      rw [eucl_norm, eucl_norm]
      have e : toC m - toC (t * q.1 + (1 - t) * m.1, t * q.2 + (1 - t) * m.2)
          = (t : ℂ) * (toC m - toC q) := by
        apply Complex.ext <;> simp [toC] <;> ring
      rw [e, norm_mul, Complex.norm_real, Real.norm_of_nonneg ht0.le]
    rw [this]; exact ht)
  have h2 := sumEucl_convex points q m t ht0.le ht1
  nlinarith

/-- **C30, collinear events.** For events on a line, given by their positions `s` along it, the point of the
line at the median position is a Euclidean median. -/
theorem C30_collinear (o u : ℝ × ℝ) (s : List ℝ) (hs : s ≠ []) :
    IsEuclideanMedian (s.map fun t => (o.1 + t * u.1, o.2 + t * u.2))
      (o.1 + median s * u.1, o.2 + median s * u.2) := by
  intro q
  set U := Real.sqrt (u.1 ^ 2 + u.2 ^ 2) with hU
  have hU2 : U ^ 2 = u.1 ^ 2 + u.2 ^ 2 := Real.sq_sqrt (by positivity)
  have hU0 : 0 ≤ U := Real.sqrt_nonneg _
  have on : ∀ t m : ℝ, eucl (o.1 + t * u.1, o.2 + t * u.2) (o.1 + m * u.1, o.2 + m * u.2) = U * |t - m| := by
    intro t m
    unfold eucl sqDist
    have : (o.1 + t * u.1 - (o.1 + m * u.1)) ^ 2 + (o.2 + t * u.2 - (o.2 + m * u.2)) ^ 2
        = (U * |t - m|) ^ 2 := by rw [mul_pow, sq_abs, hU2]; ring
    rw [this, Real.sqrt_sq (by positivity)]
  obtain ⟨m, hm⟩ : ∃ m : ℝ, ∀ t : ℝ, U * |t - m| ≤ eucl (o.1 + t * u.1, o.2 + t * u.2) q := by
    by_cases hu : U = 0
    · refine ⟨0, fun t => ?_⟩
      rw [hu, zero_mul]; exact eucl_nonneg _ _
    · have hUp : 0 < U := lt_of_le_of_ne hU0 (Ne.symm hu)
      refine ⟨((q.1 - o.1) * u.1 + (q.2 - o.2) * u.2) / U ^ 2, fun t => ?_⟩
      unfold eucl
      apply Real.le_sqrt_of_sq_le
      rw [mul_pow, sq_abs]
      unfold sqDist
      simp only
      obtain ⟨m, hm⟩ : ∃ m, m = ((q.1 - o.1) * u.1 + (q.2 - o.2) * u.2) / U ^ 2 := ⟨_, rfl⟩
      rw [← hm]
      have h1 : m * U ^ 2 = (q.1 - o.1) * u.1 + (q.2 - o.2) * u.2 := by rw [hm]; field_simp
      have key : U ^ 2 * ((o.1 + t * u.1 - q.1) ^ 2 + (o.2 + t * u.2 - q.2) ^ 2 - U ^ 2 * (t - m) ^ 2)
          = ((q.1 - o.1) * u.2 - (q.2 - o.2) * u.1) ^ 2 := by
        have h2 : U ^ 2 * (t - m) = t * U ^ 2 - ((q.1 - o.1) * u.1 + (q.2 - o.2) * u.2) := by
          rw [← h1]; ring
        have h3 : U ^ 2 * (U ^ 2 * (t - m) ^ 2) = (U ^ 2 * (t - m)) ^ 2 := by ring
        rw [mul_sub, h3, h2, hU2]; ring
      have hp : 0 < U ^ 2 := by positivity
      by_contra hneg
      push Not at hneg
      have := mul_neg_of_pos_of_neg hp (sub_neg.2 hneg)
      rw [key] at this
      exact absurd this (not_lt.2 (sq_nonneg _))
  unfold sumEucl
  rw [List.map_map, List.map_map]
  calc (s.map ((fun p => eucl p (o.1 + median s * u.1, o.2 + median s * u.2)) ∘ fun t =>
        (o.1 + t * u.1, o.2 + t * u.2))).sum
      = (s.map fun t => U * |t - median s|).sum := by
        congr 1; apply List.map_congr_left; intro t _; exact on t _
    _ = U * (s.map fun t => |t - median s|).sum := List.sum_map_mul_left ..
    _ ≤ U * (s.map fun t => |t - m|).sum := mul_le_mul_of_nonneg_left (median_aux s hs m) hU0
    _ = (s.map fun t => U * |t - m|).sum := (List.sum_map_mul_left ..).symm
    _ ≤ _ := by
        apply List.sum_le_sum
        intro t _
        exact hm t

/-- The optimiser is called with the total distance of the events and started at their mean centre: with an
optimiser that returns the start, the result is the mean centre, and with one that minimises over the mean
centre and the origin it is the one of the two with the smaller sum of distances. -/
theorem C30_optimiser_arguments (points : List (ℝ × ℝ)) :
    euclideanMedian (fun _ start => start) points = meanCenter points
    ∧ ∀ q, euclideanMedian (fun f start => if f q < f start then q else start) points
        = if sumEucl points q < sumEucl points (meanCenter points) then q else meanCenter points := by
  refine ⟨rfl, fun q => ?_⟩
  unfold euclideanMedian
  simp only [dtot_eq]

/-- Non-vacuity: the hypothesis of `C30_euclidean_median` holds for three events on a line and an optimiser
that finds the middle one; and the sum of distances is smaller there than at the mean centre. -/
example : ∃ minimize : ((ℝ × ℝ) → ℝ) → ℝ × ℝ → ℝ × ℝ, ∃ ε > 0, ∀ q,
    eucl (euclideanMedian minimize [(0, 0), (1, 0), (5, 0)]) q < ε →
      sumEucl [(0, 0), (1, 0), (5, 0)] (euclideanMedian minimize [(0, 0), (1, 0), (5, 0)])
        ≤ sumEucl [(0, 0), (1, 0), (5, 0)] q := by
  refine ⟨fun _ _ => (1, 0), 1, one_pos, fun q _ => ?_⟩
  have h := C30_collinear (0, 0) (1, 0) [0, 1, 5] (by simp) q
  have hm : median [(0 : ℝ), 1, 5] = 1 := by
    unfold median
    norm_num [List.insertionSort, List.orderedInsert]
  rw [hm] at h
  simpa [euclideanMedian] using h

end Pointpats.Props
