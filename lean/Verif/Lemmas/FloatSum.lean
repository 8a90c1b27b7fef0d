import Verif.Model.FloatStats
import Verif.Lemmas.Float64
import Mathlib.Algebra.Order.BigOperators.Group.List
import Mathlib.Algebra.BigOperators.Group.List.Basic
import Mathlib.Algebra.Order.Chebyshev

/-! # Error bounds for sums of floats -/

namespace Pointpats.Float64

/-- The unit roundoff. -/
def u : ℚ := 1 / 2 ^ 53

theorem u_pos : 0 < u := by unfold u; norm_num

theorem one_le_pow_u (k : ℕ) : 1 ≤ (1 + u) ^ k := one_le_pow₀ (by linarith [u_pos])

theorem pow_u_le {j k : ℕ} (h : j ≤ k) : (1 + u) ^ j ≤ (1 + u) ^ k :=
  pow_le_pow_right₀ (by linarith [u_pos]) h

theorem fl_err (x : ℚ) : |fl x - x| ≤ u * |x| := by
  have := fl_near x
  unfold u
  linarith

theorem fl_abs_le (x : ℚ) : |fl x| ≤ (1 + u) * |x| := by
  have h1 := fl_err x
  have h2 := abs_sub_abs_le_abs_sub (fl x) x
  linarith

/-- If `a` approximates `b` up to `(E - 1) Q` and `|b| ≤ Q`, its rounding does up to `((1 + u) E - 1) Q`. -/
theorem fl_approx {a b E Q : ℚ} (h : |a - b| ≤ (E - 1) * Q) (hb : |b| ≤ Q) :
    |fl a - b| ≤ ((1 + u) * E - 1) * Q := by
  have h1 := fl_err a
  have h2 : |a| ≤ E * Q := by
    have := abs_sub_abs_le_abs_sub a b
    linarith
  have h3 := abs_sub_le (fl a) a b
  have := u_pos
  nlinarith

theorem foldl_fadd_err (l : List ℚ) : ∀ a : ℚ,
    |l.foldl fadd a - (a + l.sum)| ≤ ((1 + u) ^ l.length - 1) * (|a| + (l.map abs).sum) := by
  induction l with
  | nil => intro a; simp
  | cons x l ih =>
    intro a
    simp only [List.foldl_cons, List.sum_cons, List.map_cons, List.length_cons]
    have h1 := ih (fadd a x)
    have h2 : |fadd a x - (a + x)| ≤ u * |a + x| := fl_err (a + x)
    have h3 : |a + x| ≤ |a| + |x| := abs_add_le a x
    have h4 : |fadd a x| ≤ (1 + u) * |a + x| := fl_abs_le (a + x)
    have h5 := abs_sub_le (l.foldl fadd (fadd a x)) (fadd a x + l.sum) (a + (x + l.sum))
    have e : fadd a x + l.sum - (a + (x + l.sum)) = fadd a x - (a + x) := by ring
    rw [e] at h5
    have hS : 0 ≤ (l.map abs).sum := List.sum_nonneg (by
      intro y hy; obtain ⟨z, -, rfl⟩ := List.mem_map.1 hy; exact abs_nonneg z)
    have hu := u_pos
    have hE := one_le_pow_u l.length
    rw [pow_succ]
    generalize (1 + u) ^ l.length = E at *
    generalize (l.map abs).sum = S at *
    generalize |fadd a x - (a + x)| = d at *
    generalize |fadd a x| = f at *
    have ha := abs_nonneg a
    have hx := abs_nonneg x
    have hax := abs_nonneg (a + x)
    generalize |a + x| = c at *
    generalize |a| = A at *
    generalize |x| = X at *
    have k1 : (E - 1) * (f + S) ≤ (E - 1) * ((1 + u) * (A + X + S)) := by
      apply mul_le_mul_of_nonneg_left _ (by linarith)
      nlinarith
    have k2 : d ≤ u * (A + X + S) := by nlinarith
    calc _ ≤ (E - 1) * ((1 + u) * (A + X + S)) + u * (A + X + S) := by linarith
      _ = (E * (1 + u) - 1) * (A + (X + S)) := by ring

theorem fsum_err (l : List ℚ) : |fsum l - l.sum| ≤ ((1 + u) ^ l.length - 1) * (l.map abs).sum := by
  have := foldl_fadd_err l 0
  simpa [fsum] using this

theorem abs_sum_le (l : List ℚ) : |l.sum| ≤ (l.map abs).sum := by
  induction l with
  | nil => simp
  | cons x l ih =>
    simp only [List.sum_cons, List.map_cons]
    exact (abs_add_le _ _).trans (by linarith)

theorem sum_abs_nonneg (l : List ℚ) : 0 ≤ (l.map abs).sum := (abs_nonneg _).trans (abs_sum_le l)

/-- Error of the mean. -/
theorem fmean_err {l : List ℚ} (hl : l ≠ []) :
    |fmean l - l.sum / l.length| ≤ ((1 + u) ^ (l.length + 1) - 1) * ((l.map abs).sum / l.length) := by
  have hn : (0 : ℚ) < l.length := by exact_mod_cast List.length_pos_iff.2 hl
  unfold fmean fdiv
  rw [pow_succ, mul_comm ((1 + u) ^ l.length)]
  apply fl_approx
  · rw [← sub_div, abs_div, abs_of_pos hn, ← mul_div_assoc]
    exact div_le_div_of_nonneg_right (fsum_err l) hn.le
  · rw [abs_div, abs_of_pos hn]
    exact div_le_div_of_nonneg_right (abs_sum_le l) hn.le

/-- The square of the mean absolute value is at most the mean square. -/
theorem sq_mean_abs_le (l : List ℚ) :
    ((l.map abs).sum / l.length) ^ 2 ≤ (l.map fun x => x * x).sum / l.length := by
  by_cases hl : l = []
  · simp [hl]
  have hn : (0 : ℚ) < l.length := by exact_mod_cast List.length_pos_iff.2 hl
  have key : (l.map abs).sum ^ 2 ≤ l.length * (l.map fun x => x * x).sum := by
    clear hn hl
    induction l with
    | nil => simp
    | cons x l ih =>
      simp only [List.map_cons, List.sum_cons, List.length_cons]
      push_cast
      have hS := sum_abs_nonneg l
      have hx := abs_nonneg x
      have hxx : x * x = |x| * |x| := (abs_mul_abs_self x).symm
      rw [hxx]
      have h2 : 0 ≤ (l.map fun x => x * x).sum := List.sum_nonneg (by
        intro y hy; obtain ⟨z, -, rfl⟩ := List.mem_map.1 hy; exact mul_self_nonneg z)
      generalize (l.map abs).sum = S at *
      generalize (l.map fun x => x * x).sum = Q at *
      generalize |x| = X at *
      have hn : (0 : ℚ) ≤ l.length := by positivity
      generalize (l.length : ℚ) = n at *
      -- 2 S X ≤ n X² + Q because S² ≤ n Q
      have : 2 * S * X ≤ n * (X * X) + Q := by
        by_contra hcon
        push Not at hcon
        have h3 : (n * (X * X) + Q) ^ 2 < (2 * S * X) ^ 2 := by
          have : 0 ≤ n * (X * X) + Q := by positivity
          nlinarith
        have h4 : 4 * (n * (X * X)) * Q ≤ (n * (X * X) + Q) ^ 2 := by nlinarith [sq_nonneg (n * (X * X) - Q)]
        have h5 : (2 * S * X) ^ 2 = 4 * (X * X) * S ^ 2 := by ring
        have h6 : 4 * (X * X) * S ^ 2 ≤ 4 * (X * X) * (n * Q) := by
          apply mul_le_mul_of_nonneg_left ih; positivity
        nlinarith
      nlinarith
  rw [div_pow, div_le_div_iff₀ (by positivity) hn]
  nlinarith

/-- Error of the mean square. -/
theorem fmeansq_err {l : List ℚ} (hl : l ≠ []) :
    |fdiv (fsum (l.map fun x => fmul x x)) l.length - (l.map fun x => x * x).sum / l.length|
      ≤ ((1 + u) ^ (l.length + 2) - 1) * ((l.map fun x => x * x).sum / l.length) := by
  have hn : (0 : ℚ) < l.length := by exact_mod_cast List.length_pos_iff.2 hl
  have hu := u_pos
  have hQ : 0 ≤ (l.map fun x => x * x).sum := List.sum_nonneg (by
    intro y hy; obtain ⟨z, -, rfl⟩ := List.mem_map.1 hy; exact mul_self_nonneg z)
  have h1 : ((l.map fun x => fmul x x).map abs).sum ≤ (1 + u) * (l.map fun x => x * x).sum
      ∧ |(l.map fun x => fmul x x).sum - (l.map fun x => x * x).sum| ≤ u * (l.map fun x => x * x).sum := by
    clear hn hl hQ
    induction l with
    | nil => simp
    | cons x l ih =>
      simp only [List.map_cons, List.sum_cons]
      have a1 := fl_abs_le (x * x)
      have a2 := fl_err (x * x)
      rw [abs_of_nonneg (mul_self_nonneg x)] at a1 a2
      refine ⟨?_, ?_⟩
      · have := ih.1
        show |fl (x * x)| + _ ≤ _
        linarith
      · have := ih.2
        have e : fmul x x + (l.map fun x => fmul x x).sum - (x * x + (l.map fun x => x * x).sum)
            = (fl (x * x) - x * x) + ((l.map fun x => fmul x x).sum - (l.map fun x => x * x).sum) := by
          unfold fmul; ring
        rw [e]
        exact (abs_add_le _ _).trans (by linarith)
  have h2 := fsum_err (l.map fun x => fmul x x)
  rw [List.length_map] at h2
  have h3 : |fsum (l.map fun x => fmul x x) - (l.map fun x => x * x).sum|
      ≤ ((1 + u) ^ (l.length + 1) - 1) * (l.map fun x => x * x).sum := by
    have h4 := abs_sub_le (fsum (l.map fun x => fmul x x)) (l.map fun x => fmul x x).sum
      (l.map fun x => x * x).sum
    have hE := one_le_pow_u l.length
    rw [pow_succ]
    generalize (1 + u) ^ l.length = E at *
    have h5 := mul_le_mul_of_nonneg_left h1.1 (by linarith : 0 ≤ E - 1)
    have := h1.2
    nlinarith
  unfold fdiv
  rw [pow_succ, mul_comm _ (1 + u)]
  apply fl_approx
  · rw [← sub_div, abs_div, abs_of_pos hn, ← mul_div_assoc]
    exact div_le_div_of_nonneg_right h3 hn.le
  · rw [abs_of_nonneg (div_nonneg hQ hn.le)]

/-- Error of the variance computed as mean square minus square of the mean. -/
theorem fvar_err {l : List ℚ} (hl : l ≠ []) :
    |fvar l - ((l.map fun x => x * x).sum / l.length - (l.sum / l.length) ^ 2)|
      ≤ 2 * ((1 + u) ^ (2 * l.length + 4) - 1) * ((l.map fun x => x * x).sum / l.length) := by
  have hn : (0 : ℚ) < l.length := by exact_mod_cast List.length_pos_iff.2 hl
  have hu := u_pos
  have hA := fmeansq_err hl
  have hM := fmean_err hl
  have hc := sq_mean_abs_le l
  have hm : |l.sum / l.length| ≤ (l.map abs).sum / l.length := by
    rw [abs_div, abs_of_pos hn]; exact div_le_div_of_nonneg_right (abs_sum_le l) hn.le
  have hM0 : 0 ≤ (l.map abs).sum / l.length := (abs_nonneg _).trans hm
  unfold fvar
  generalize hA' : fdiv (fsum (l.map fun x => fmul x x)) l.length = A at *
  generalize fmean l = m' at *
  generalize l.sum / l.length = m at *
  generalize (l.map abs).sum / l.length = M at *
  generalize (l.map fun x => x * x).sum / l.length = Q at *
  have hQ : 0 ≤ Q := (sq_nonneg M).trans hc
  -- the square of the mean
  have hmm : |m' * m' - m * m| ≤ ((1 + u) ^ (2 * l.length + 2) - 1) * Q := by
    have hE := one_le_pow_u (l.length + 1)
    have e2 : (1 + u) ^ (2 * l.length + 2) = (1 + u) ^ (l.length + 1) * (1 + u) ^ (l.length + 1) := by
      rw [← pow_add]; congr 1; ring
    rw [e2]
    generalize (1 + u) ^ (l.length + 1) = E at *
    have e : m' * m' - m * m = (m' - m) * (m' - m) + 2 * m * (m' - m) := by ring
    have h1 : |m' * m' - m * m| ≤ |m' - m| * |m' - m| + 2 * |m| * |m' - m| := by
      rw [e]
      refine (abs_add_le _ _).trans ?_
      rw [abs_mul, abs_mul, abs_mul]
      norm_num
    have h0 := abs_nonneg (m' - m)
    have h0' := abs_nonneg m
    generalize |m' - m| = d at *
    generalize |m| = k at *
    have hEM : 0 ≤ (E - 1) * M := mul_nonneg (by linarith) hM0
    calc _ ≤ d * d + 2 * k * d := h1
      _ ≤ ((E - 1) * M) * ((E - 1) * M) + 2 * M * ((E - 1) * M) := by
          have a1 : d * d ≤ ((E - 1) * M) * ((E - 1) * M) := mul_le_mul hM hM h0 hEM
          have a2 : k * d ≤ M * ((E - 1) * M) := mul_le_mul hm hM h0 hM0
          linarith
      _ = (E * E - 1) * M ^ 2 := by ring
      _ ≤ (E * E - 1) * Q := mul_le_mul_of_nonneg_left hc (by nlinarith)
  have hm2 : |m * m| ≤ Q := by
    rw [abs_mul]
    have h0' := abs_nonneg m
    nlinarith
  have hB : |fmul m' m' - m * m| ≤ ((1 + u) ^ (2 * l.length + 3) - 1) * Q := by
    have := fl_approx hmm hm2
    rw [show 2 * l.length + 3 = (2 * l.length + 2) + 1 from rfl, pow_succ, mul_comm _ (1 + u)]
    exact this
  generalize fmul m' m' = B at *
  have hA2 : |A - Q| ≤ ((1 + u) ^ (2 * l.length + 3) - 1) * Q := by
    refine hA.trans (mul_le_mul_of_nonneg_right ?_ hQ)
    have := pow_u_le (show l.length + 2 ≤ 2 * l.length + 3 by omega)
    linarith
  have hmm0 : 0 ≤ m * m := mul_self_nonneg m
  rw [abs_of_nonneg hmm0] at hm2
  have hE := one_le_pow_u (2 * l.length + 3)
  rw [show 2 * l.length + 4 = (2 * l.length + 3) + 1 from rfl, pow_succ (1 + u)]
  generalize (1 + u) ^ (2 * l.length + 3) = E at *
  have hD : |A - B - (Q - m ^ 2)| ≤ 2 * (E - 1) * Q := by
    have e : A - B - (Q - m ^ 2) = (A - Q) - (B - m * m) := by ring
    rw [e]
    exact (abs_sub _ _).trans (by linarith)
  have hv : |Q - m ^ 2| ≤ Q := by
    rw [abs_of_nonneg (by nlinarith)]; nlinarith
  unfold fsub
  have h1 := fl_err (A - B)
  have h2 := abs_sub_le (fl (A - B)) (A - B) (Q - m ^ 2)
  have h3 : |A - B| ≤ Q + 2 * (E - 1) * Q := by
    have := abs_sub_abs_le_abs_sub (A - B) (Q - m ^ 2)
    linarith
  generalize |A - B| = x at *
  calc _ ≤ u * x + 2 * (E - 1) * Q := by linarith
    _ ≤ u * (Q + 2 * (E - 1) * Q) + 2 * (E - 1) * Q := by nlinarith
    _ ≤ 2 * (E * (1 + u) - 1) * Q := by nlinarith

end Pointpats.Float64
