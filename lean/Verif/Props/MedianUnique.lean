import Verif.Props.Median
import Mathlib.Analysis.Convex.StrictConvexSpace
import Mathlib.Analysis.InnerProductSpace.Projection.Minimal
import Mathlib.Analysis.Complex.Basic
import Mathlib.Analysis.InnerProductSpace.Convex
import Mathlib.Analysis.Convex.Topology

/-!
# C170: there is one Euclidean median, and how far from it the optimiser may stop
-/

set_option linter.unusedSectionVars false

namespace Pointpats.Props

open Centrography Spec
open scoped RealInnerProductSpace

private noncomputable def cx (p : ℝ × ℝ) : ℂ := ⟨p.1, p.2⟩

private theorem cx_inj {p q : ℝ × ℝ} (h : cx p = cx q) : p = q :=
  Prod.ext (congrArg Complex.re h) (congrArg Complex.im h)

private theorem eucl_cx (p q : ℝ × ℝ) : eucl p q = ‖cx p - cx q‖ := by
  rw [Complex.norm_def, Complex.normSq_apply]
  unfold eucl sqDist
  congr 1
  simp only [cx, Complex.sub_re, Complex.sub_im]
  ring

private theorem sum_strict {l : List (ℝ × ℝ)} {f g : ℝ × ℝ → ℝ} (hle : ∀ p ∈ l, f p ≤ g p)
    (hs : (l.map g).sum ≤ (l.map f).sum) : ∀ p ∈ l, f p = g p := by
  induction l with
  | nil => simp
  | cons a l ih =>
    simp only [List.map_cons, List.sum_cons, List.forall_mem_cons] at *
    have h1 : (l.map f).sum ≤ (l.map g).sum := List.sum_le_sum hle.2
    exact ⟨by linarith [hle.1], ih hle.2 (by linarith [hle.1])⟩

private theorem continuous_sumEucl (points : List (ℝ × ℝ)) : Continuous (sumEucl points) := by
  unfold sumEucl
  induction points with
  | nil => simpa using continuous_const
  | cons a l ih =>
    simp only [List.map_cons, List.sum_cons]
    refine Continuous.add ?_ ih
    unfold eucl sqDist
    fun_prop

/-- Existence: the total distance is continuous and large far away. -/
private theorem exists_median (points : List (ℝ × ℝ)) : ∃ m, IsEuclideanMedian points m := by
  match points with
  | [] => exact ⟨(0, 0), fun q => by simp [sumEucl]⟩
  | a :: l =>
    set R := sumEucl (a :: l) a with hR
    have hR0 : 0 ≤ R := by
      rw [hR]
      exact List.sum_nonneg fun x hx => by
        obtain ⟨p, -, rfl⟩ := List.mem_map.1 hx
        exact Real.sqrt_nonneg _
    obtain ⟨m, -, hm⟩ := (isCompact_Icc (a := (a.1 - R, a.2 - R)) (b := (a.1 + R, a.2 + R))).exists_isMinOn
      ⟨a, by constructor <;> constructor <;> simp <;> linarith⟩ (continuous_sumEucl (a :: l)).continuousOn
    refine ⟨m, fun q => ?_⟩
    by_cases hq : q ∈ Set.Icc (a.1 - R, a.2 - R) (a.1 + R, a.2 + R)
    · exact hm hq
    · have h1 : sumEucl (a :: l) m ≤ R := hm ⟨by constructor <;> simp <;> linarith, by constructor <;> simp <;> linarith⟩
      have h2 : eucl a q ≤ sumEucl (a :: l) q := by
        simp only [sumEucl, List.map_cons, List.sum_cons, le_add_iff_nonneg_right]
        exact List.sum_nonneg fun x hx => by
          obtain ⟨p, -, rfl⟩ := List.mem_map.1 hx
          exact Real.sqrt_nonneg _
      have h3 : R ≤ eucl a q := by
        by_contra hlt
        push Not at hlt
        refine hq ?_
        have hx : |a.1 - q.1| ≤ eucl a q := by
          unfold eucl sqDist
          exact Real.abs_le_sqrt (by nlinarith [sq_nonneg (a.2 - q.2)])
        have hy : |a.2 - q.2| ≤ eucl a q := by
          unfold eucl sqDist
          exact Real.abs_le_sqrt (by nlinarith [sq_nonneg (a.1 - q.1)])
        rw [abs_le] at hx hy
        constructor <;> constructor <;> simp <;> linarith
      linarith

/-- Two different medians: all events are on the line through them. -/
private theorem two_medians {points : List (ℝ × ℝ)} {m m' : ℝ × ℝ} (h : IsEuclideanMedian points m)
    (h' : IsEuclideanMedian points m') (hne : m ≠ m') :
    ∀ p ∈ points, (p.1 - m.1) * (m'.2 - m.2) = (p.2 - m.2) * (m'.1 - m.1) := by
  set c : ℝ × ℝ := ((m.1 + m'.1) / 2, (m.2 + m'.2) / 2) with hc
  have hcx : ∀ p : ℝ × ℝ, (2 : ℂ) * (cx p - cx c) = (cx p - cx m) + (cx p - cx m') := by
    intro p
    apply Complex.ext <;> simp [cx, hc] <;> ring
  have hn : ∀ p : ℝ × ℝ, 2 * eucl p c = ‖(cx p - cx m) + (cx p - cx m')‖ := by
    intro p
    rw [← hcx, norm_mul, eucl_cx]; simp
  have key := sum_strict (l := points) (f := fun p => 2 * eucl p c) (g := fun p => eucl p m + eucl p m')
    (fun p _ => by
      show 2 * eucl p c ≤ eucl p m + eucl p m'
      rw [hn, eucl_cx, eucl_cx]; exact norm_add_le _ _)
    (by
      rw [List.sum_map_mul_left, List.sum_map_add]
      have h1 := h c
      have h2 := h' c
      unfold sumEucl at h1 h2
      linarith)
  intro p hp
  have e := key p hp
  simp only [hn] at e
  rw [eucl_cx, eucl_cx] at e
  rcases sameRay_iff_norm_add.2 e with h0 | h0 | ⟨r, t, hr, ht, hrt⟩
  · have : p = m := cx_inj (sub_eq_zero.1 h0)
    subst this; ring
  · have : p = m' := cx_inj (sub_eq_zero.1 h0)
    subst this; ring
  · have e1 := congrArg Complex.re hrt
    have e2 := congrArg Complex.im hrt
    simp only [cx, Complex.smul_re, Complex.smul_im, Complex.sub_re, Complex.sub_im, smul_eq_mul] at e1 e2
    -- r (p - m) = t (p - m'), so (r - t) (p - m) = t (m - m')
    have f1 : (r - t) * (p.1 - m.1) = t * (m.1 - m'.1) := by linarith
    have f2 : (r - t) * (p.2 - m.2) = t * (m.2 - m'.2) := by linarith
    have : t * ((p.1 - m.1) * (m'.2 - m.2) - (p.2 - m.2) * (m'.1 - m.1)) = 0 := by
      have g : t * ((p.1 - m.1) * (m'.2 - m.2) - (p.2 - m.2) * (m'.1 - m.1))
          = (p.2 - m.2) * (t * (m.1 - m'.1)) - (p.1 - m.1) * (t * (m.2 - m'.2)) := by ring
      rw [g, ← f1, ← f2]; ring
    rcases mul_eq_zero.1 this with h | h
    · exact absurd h ht.ne'
    · linarith

/-- A median is in every half plane that contains the events. -/
private theorem median_halfplane {points : List (ℝ × ℝ)} (hne : points ≠ []) {m : ℝ × ℝ}
    (h : IsEuclideanMedian points m) (a b c : ℝ) (hp : ∀ p ∈ points, a * p.1 + b * p.2 ≤ c) :
    a * m.1 + b * m.2 ≤ c := by
  by_contra hlt
  push Not at hlt
  obtain ⟨p0, hp0⟩ := List.exists_mem_of_ne_nil _ hne
  have hN : 0 < a ^ 2 + b ^ 2 := by
    by_contra hz
    have ha : a = 0 := by nlinarith [sq_nonneg a, sq_nonneg b]
    have hb : b = 0 := by nlinarith [sq_nonneg a, sq_nonneg b]
    have := hp p0 hp0
    rw [ha, hb] at this hlt
    linarith
  obtain ⟨s, hs⟩ : ∃ s, s = (a * m.1 + b * m.2 - c) / (a ^ 2 + b ^ 2) := ⟨_, rfl⟩
  have hs0 : 0 < s := by rw [hs]; exact div_pos (by linarith) hN
  have hsN : s * (a ^ 2 + b ^ 2) = a * m.1 + b * m.2 - c := by rw [hs]; field_simp
  have hlt' : ∀ p ∈ points, eucl p (m.1 - s * a, m.2 - s * b) < eucl p m := by
    intro p hpm
    unfold eucl sqDist
    apply Real.sqrt_lt_sqrt (by positivity)
    have h1 := hp p hpm
    have h2 : (p.1 - (m.1 - s * a)) ^ 2 + (p.2 - (m.2 - s * b)) ^ 2
        = (p.1 - m.1) ^ 2 + (p.2 - m.2) ^ 2
          + s * (2 * (a * p.1 + b * p.2 - (a * m.1 + b * m.2)) + s * (a ^ 2 + b ^ 2)) := by ring
    simp only [h2, hsN]
    have : s * (2 * (a * p.1 + b * p.2 - (a * m.1 + b * m.2)) + (a * m.1 + b * m.2 - c)) < 0 :=
      mul_neg_of_pos_of_neg hs0 (by linarith)
    linarith
  have := sum_strict (fun p hpm => (hlt' p hpm).le) (h (m.1 - s * a, m.2 - s * b)) p0 hp0
  exact absurd this (hlt' p0 hp0).ne

/-- **C170, what holds.** Every pattern with events has a Euclidean median. Every median lies in each half plane
that contains the events, that is, in their convex hull. If three of the events are not on a line, there is
exactly one. What is missing (and false, see `C170_unique_refuted`): one median for events on a line. -/
theorem C170_median_partial (points : List (ℝ × ℝ)) (hne : points ≠ []) :
    (∃ m, IsEuclideanMedian points m)
    ∧ (∀ m, IsEuclideanMedian points m → ∀ a b c : ℝ, (∀ p ∈ points, a * p.1 + b * p.2 ≤ c) →
        a * m.1 + b * m.2 ≤ c)
    ∧ ((∃ p ∈ points, ∃ q ∈ points, ∃ r ∈ points,
          (q.1 - p.1) * (r.2 - p.2) ≠ (q.2 - p.2) * (r.1 - p.1)) → ∃! m, IsEuclideanMedian points m) := by
  obtain ⟨m, hm⟩ := exists_median points
  refine ⟨⟨m, hm⟩, fun m h a b c hp => median_halfplane hne h a b c hp, ?_⟩
  rintro ⟨p, hp, q, hq, r, hr, hpqr⟩
  refine ⟨m, hm, fun m' hm' => ?_⟩
  by_contra hmm
  have hl := two_medians hm hm' (Ne.symm hmm)
  have e1 := hl p hp
  have e2 := hl q hq
  have e3 := hl r hr
  apply hpqr
  by_cases hd : m'.1 - m.1 = 0
  · have hd2 : m'.2 - m.2 ≠ 0 := fun h => hmm (Prod.ext (by linarith) (by linarith))
    rw [hd, mul_zero] at e1 e2 e3
    have z : ∀ x : ℝ, x * (m'.2 - m.2) = 0 → x = 0 := fun x hx => (mul_eq_zero.1 hx).resolve_right hd2
    have := z _ e1
    have := z _ e2
    have := z _ e3
    have h1 : q.1 - p.1 = 0 := by linarith
    have h2 : r.1 - p.1 = 0 := by linarith
    rw [h1, h2]; ring
  · apply mul_right_cancel₀ hd
    have g2 : (q.2 - p.2) * (m'.1 - m.1) = (q.1 - p.1) * (m'.2 - m.2) := by linarith
    have g3 : (r.2 - p.2) * (m'.1 - m.1) = (r.1 - p.1) * (m'.2 - m.2) := by linarith
    calc (q.1 - p.1) * (r.2 - p.2) * (m'.1 - m.1) = (q.1 - p.1) * ((r.2 - p.2) * (m'.1 - m.1)) := by ring
      _ = (q.1 - p.1) * (m'.2 - m.2) * (r.1 - p.1) := by rw [g3]; ring
      _ = (q.2 - p.2) * (r.1 - p.1) * (m'.1 - m.1) := by rw [← g2]; ring

/-- Three corners of a square and its centre are not on a line. -/
example : ∃ p ∈ [((0 : ℝ), (0 : ℝ)), (2, 0), (1, 1), (0, 2)], ∃ q ∈ [((0 : ℝ), (0 : ℝ)), (2, 0), (1, 1), (0, 2)],
    ∃ r ∈ [((0 : ℝ), (0 : ℝ)), (2, 0), (1, 1), (0, 2)],
      (q.1 - p.1) * (r.2 - p.2) ≠ (q.2 - p.2) * (r.1 - p.1) :=
  ⟨(0, 0), by simp, (2, 0), by simp, (0, 2), by simp, by norm_num⟩

/-- No location closer than some positive distance has a smaller sum of distances to the events. -/
def StopsAtLocalMinimum (minimize : ((ℝ × ℝ) → ℝ) → ℝ × ℝ → ℝ × ℝ) (points : List (ℝ × ℝ)) : Prop :=
  ∃ ε > 0, ∀ q, eucl (euclideanMedian minimize points) q < ε →
    sumEucl points (euclideanMedian minimize points) ≤ sumEucl points q

/-- **C170, the optimiser does not matter.** If three events are not on a line, `euclidean_median` returns the
same location with any two optimisers that stop at a local minimum, and for the events in any order. -/
theorem C170_optimisers_agree (points points' : List (ℝ × ℝ)) (hperm : points.Perm points')
    (hpqr : ∃ p ∈ points, ∃ q ∈ points, ∃ r ∈ points,
      (q.1 - p.1) * (r.2 - p.2) ≠ (q.2 - p.2) * (r.1 - p.1))
    (minimize minimize' : ((ℝ × ℝ) → ℝ) → ℝ × ℝ → ℝ × ℝ) (h : StopsAtLocalMinimum minimize points)
    (h' : StopsAtLocalMinimum minimize' points') :
    euclideanMedian minimize points = euclideanMedian minimize' points' := by
  have hne : points ≠ [] := by
    obtain ⟨p, hp, -⟩ := hpqr
    exact List.ne_nil_of_mem hp
  obtain ⟨m, -, hu⟩ := (C170_median_partial points hne).2.2 hpqr
  have e : ∀ q, sumEucl points' q = sumEucl points q := fun q => ((hperm.map _).sum_eq).symm
  have h1 := C30_euclidean_median minimize points h
  have h2 := C30_euclidean_median minimize' points' h'
  exact (hu _ h1).trans (hu _ fun q => by rw [← e, ← e]; exact h2 q).symm

/-- **C170, refuted.** For two events at different places every location between them is a Euclidean median: two
optimisers that both stop at a minimum make `euclidean_median` return different locations. -/
theorem C170_unique_refuted (a b : ℝ × ℝ) (hab : a ≠ b) :
    (∀ t : ℝ, 0 ≤ t → t ≤ 1 →
      IsEuclideanMedian [a, b] (a.1 + t * (b.1 - a.1), a.2 + t * (b.2 - a.2)))
    ∧ ∃ minimize minimize' : ((ℝ × ℝ) → ℝ) → ℝ × ℝ → ℝ × ℝ, StopsAtLocalMinimum minimize [a, b]
      ∧ StopsAtLocalMinimum minimize' [a, b]
      ∧ euclideanMedian minimize [a, b] ≠ euclideanMedian minimize' [a, b] := by
  have hm : ∀ t : ℝ, 0 ≤ t → t ≤ 1 →
      IsEuclideanMedian [a, b] (a.1 + t * (b.1 - a.1), a.2 + t * (b.2 - a.2)) := by
    intro t h0 h1 q
    have e1 : eucl a (a.1 + t * (b.1 - a.1), a.2 + t * (b.2 - a.2)) = t * eucl a b := by
      rw [eucl_cx, eucl_cx]
      have : cx a - cx (a.1 + t * (b.1 - a.1), a.2 + t * (b.2 - a.2)) = (t : ℂ) * (cx a - cx b) := by
        apply Complex.ext <;> simp [cx] <;> ring
      rw [this, norm_mul, Complex.norm_real, Real.norm_of_nonneg h0]
    have e2 : eucl b (a.1 + t * (b.1 - a.1), a.2 + t * (b.2 - a.2)) = (1 - t) * eucl a b := by
      rw [eucl_cx, eucl_cx]
      have : cx b - cx (a.1 + t * (b.1 - a.1), a.2 + t * (b.2 - a.2)) = ((-(1 - t) : ℝ) : ℂ) * (cx a - cx b) := by
        apply Complex.ext <;> simp [cx] <;> ring
      rw [this, norm_mul, Complex.norm_real, norm_neg, Real.norm_of_nonneg (by linarith)]
    have tri : eucl a b ≤ eucl a q + eucl b q := by
      rw [eucl_cx, eucl_cx, eucl_cx]
      have : cx a - cx b = (cx a - cx q) - (cx b - cx q) := by ring
      rw [this]; exact norm_sub_le _ _
    simp only [sumEucl, List.map_cons, List.map_nil, List.sum_cons, List.sum_nil, e1, e2]
    linarith
  refine ⟨hm, fun _ _ => a, fun _ _ => b, ⟨1, one_pos, fun q _ => ?_⟩, ⟨1, one_pos, fun q _ => ?_⟩, hab⟩
  · have := hm 0 le_rfl zero_le_one q
    simpa [euclideanMedian] using this
  · have := hm 1 zero_le_one le_rfl q
    simpa [euclideanMedian] using this

/-- The pull of the events on a location: the sum of the unit vectors from the location to the events, minus the
gradient of the total distance where no event is. -/
noncomputable def pull (points : List (ℝ × ℝ)) (m : ℝ × ℝ) : ℝ × ℝ :=
  ((points.map fun p => (p.1 - m.1) / eucl p m).sum, (points.map fun p => (p.2 - m.2) / eucl p m).sum)

private theorem pull_bound (points : List (ℝ × ℝ)) (m q : ℝ × ℝ) (hm : ∀ p ∈ points, p ≠ m) :
    sumEucl points m + ((m.1 - q.1) * (pull points m).1 + (m.2 - q.2) * (pull points m).2) ≤ sumEucl points q := by
  unfold sumEucl pull
  induction points with
  | nil => simp
  | cons p l ih =>
    rw [List.forall_mem_cons] at hm
    have hl := ih hm.2
    simp only [List.map_cons, List.sum_cons] at hl ⊢
    have hd : 0 < eucl p m := by
      rw [eucl_cx, norm_pos_iff, sub_ne_zero]
      exact fun h => hm.1 (cx_inj h)
    have hsq : eucl p m ^ 2 = (p.1 - m.1) ^ 2 + (p.2 - m.2) ^ 2 := by
      unfold eucl sqDist; exact Real.sq_sqrt (by positivity)
    have hsq' : eucl p q ^ 2 = (p.1 - q.1) ^ 2 + (p.2 - q.2) ^ 2 := by
      unfold eucl sqDist; exact Real.sq_sqrt (by positivity)
    have hq0 : 0 ≤ eucl p q := Real.sqrt_nonneg _
    have key : eucl p m + ((m.1 - q.1) * ((p.1 - m.1) / eucl p m) + (m.2 - q.2) * ((p.2 - m.2) / eucl p m))
        ≤ eucl p q := by
      have e : eucl p m + ((m.1 - q.1) * ((p.1 - m.1) / eucl p m) + (m.2 - q.2) * ((p.2 - m.2) / eucl p m))
          = ((p.1 - q.1) * (p.1 - m.1) + (p.2 - q.2) * (p.2 - m.2)) / eucl p m := by
        rw [eq_div_iff hd.ne']
        have : eucl p m * eucl p m = (p.1 - m.1) ^ 2 + (p.2 - m.2) ^ 2 := by rw [← hsq]; ring
        field_simp
        rw [hsq]; ring
      rw [e, div_le_iff₀ hd]
      apply le_of_sq_le_sq _ (by positivity)
      rw [mul_pow, hsq, hsq']
      nlinarith [sq_nonneg ((p.1 - q.1) * (p.2 - m.2) - (p.2 - q.2) * (p.1 - m.1))]
    linarith

/-- **C170, where the optimiser stops.** If the location returned is not that of an event and the gradient of the
total distance there is not longer than `ε`, as SciPy's stopping rule asks, then the total distance exceeds that
at any other location `q` by at most `ε` times the distance to `q`. With a gradient of zero it is a median. -/
theorem C170_stopping (minimize : ((ℝ × ℝ) → ℝ) → ℝ × ℝ → ℝ × ℝ) (points : List (ℝ × ℝ)) (ε : ℝ)
    (hm : ∀ p ∈ points, p ≠ euclideanMedian minimize points)
    (hg : (pull points (euclideanMedian minimize points)).1 ^ 2
      + (pull points (euclideanMedian minimize points)).2 ^ 2 ≤ ε ^ 2) (hε : 0 ≤ ε) (q : ℝ × ℝ) :
    dtot (euclideanMedian minimize points) points
      ≤ sumEucl points q + ε * eucl (euclideanMedian minimize points) q := by
  generalize euclideanMedian minimize points = m at hm hg ⊢
  rw [(C30_dtot points m).1]
  have h1 := pull_bound points m q hm
  have hsq : eucl m q ^ 2 = (m.1 - q.1) ^ 2 + (m.2 - q.2) ^ 2 := by
    unfold eucl sqDist; exact Real.sq_sqrt (by positivity)
  have h2 : -((m.1 - q.1) * (pull points m).1 + (m.2 - q.2) * (pull points m).2) ≤ ε * eucl m q := by
    have h0 : 0 ≤ eucl m q := Real.sqrt_nonneg _
    apply le_of_sq_le_sq _ (by positivity)
    rw [mul_pow, hsq]
    have hs : 0 ≤ (m.1 - q.1) ^ 2 + (m.2 - q.2) ^ 2 := by positivity
    nlinarith [sq_nonneg ((m.1 - q.1) * (pull points m).2 - (m.2 - q.2) * (pull points m).1),
      mul_le_mul_of_nonneg_right hg hs]
  linarith

/-- The gradient of the total distance of the four corners of a square is zero at the centre. -/
example : pull [(0, 0), (2, 0), (2, 2), (0, 2)] (1, 1) = (0, 0) := by
  simp only [pull, eucl, sqDist, List.map_cons, List.map_nil, List.sum_cons, List.sum_nil]
  norm_num
  constructor <;> ring

/-- **C170, where the optimiser starts.** The mean centre, from which the search starts, has at most twice the
smallest possible total distance. So an optimiser that returns nothing worse than its start returns a location
within a factor of two of the best. -/
theorem C170_start (minimize : ((ℝ × ℝ) → ℝ) → ℝ × ℝ → ℝ × ℝ) (points : List (ℝ × ℝ)) (hne : points ≠ [])
    (hdesc : dtot (euclideanMedian minimize points) points ≤ dtot (meanCenter points) points) (q : ℝ × ℝ) :
    dtot (euclideanMedian minimize points) points ≤ 2 * sumEucl points q := by
  refine hdesc.trans ?_
  have h1 := (C30_dtot points (meanCenter points)).2.2.2.2.2.2.2 q
  rw [(C30_dtot points q).1, abs_le] at h1
  have hn : (points.length : ℝ) ≠ 0 := Nat.cast_ne_zero.2 fun h => hne (List.length_eq_zero_iff.1 h)
  have h2 : (points.length : ℝ) * eucl (meanCenter points) q ≤ sumEucl points q := by
    have e : ((points.length : ℝ) : ℂ) * (cx (meanCenter points) - cx q)
        = (points.map fun p => cx p - cx q).sum := by
      have hs : ∀ l : List (ℝ × ℝ), (l.map fun p => cx p - cx q).sum
          = ⟨(l.map Prod.fst).sum - l.length * q.1, (l.map Prod.snd).sum - l.length * q.2⟩ := by
        intro l
        induction l with
        | nil => apply Complex.ext <;> simp
        | cons a l ih =>
          rw [List.map_cons, List.sum_cons, ih]
          apply Complex.ext <;> simp [cx] <;> ring
      rw [hs]
      apply Complex.ext <;> simp [cx, meanCenter] <;> field_simp
    have hb : ∀ l : List (ℝ × ℝ), ‖(l.map fun p => cx p - cx q).sum‖ ≤ sumEucl l q := by
      intro l
      induction l with
      | nil => simp [sumEucl]
      | cons a l ih =>
        simp only [sumEucl, List.map_cons, List.sum_cons] at ih ⊢
        refine (norm_add_le _ _).trans ?_
        rw [eucl_cx]; linarith
    have := hb points
    rw [← e, norm_mul, Complex.norm_real, Real.norm_of_nonneg (Nat.cast_nonneg _), ← eucl_cx] at this
    exact this
  linarith [h1.2]

/-- The bound is not vacuous: with the optimiser that returns its start. -/
example : dtot (euclideanMedian (fun _ start => start) [((0 : ℝ), (0 : ℝ)), (2, 0), (0, 2)]) [(0, 0), (2, 0), (0, 2)]
    ≤ dtot (meanCenter [((0 : ℝ), (0 : ℝ)), (2, 0), (0, 2)]) [(0, 0), (2, 0), (0, 2)] := le_rfl

end Pointpats.Props
