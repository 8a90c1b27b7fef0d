import Verif.Lemmas.FloatSum
import Verif.Model.Centrography
import Verif.Spec.Float

/-!
# C93 - C98: statistics in floating point arithmetic
-/

namespace Pointpats.Props

open Float64 Spec

set_option linter.unusedSectionVars false

/-! ### Mean centre -/

/-- **C93 (partial).** In floating point arithmetic the mean centre is the centre of mass up to the rounding of
`n` sums and one quotient: each coordinate is off by at most `(1 + 2⁻⁵³)ⁿ⁺¹ - 1` times the mean absolute value of
that coordinate. -/
theorem C93_float_mean_center_partial (points : List (ℚ × ℚ)) (h : points ≠ []) :
    |(meanCenter points).1 - mean (points.map Prod.fst)|
        ≤ ((1 + 1 / 2 ^ 53) ^ (points.length + 1) - 1) * mean (points.map fun p => |p.1|)
    ∧ |(meanCenter points).2 - mean (points.map Prod.snd)|
        ≤ ((1 + 1 / 2 ^ 53) ^ (points.length + 1) - 1) * mean (points.map fun p => |p.2|) := by
  have h1 := fmean_err (l := points.map Prod.fst) (by simpa using h)
  have h2 := fmean_err (l := points.map Prod.snd) (by simpa using h)
  simp only [List.length_map, List.map_map, Function.comp_def] at h1 h2
  unfold Spec.mean meanCenter
  simp only [List.length_map]
  exact ⟨h1, h2⟩

/-- **C93 is FALSE of the code** as an exact statement: the mean centre of three events at the same place, the
floats nearest to (0.1, 0.1), is not that place, and lies outside the bounding box of the events. -/
theorem C93_float_mean_center_refuted :
    ∃ (a : ℚ), IsFloat a ∧ a < (meanCenter [(a, a), (a, a), (a, a)]).1
      ∧ a < (meanCenter [(a, a), (a, a), (a, a)]).2 :=
  ⟨fl (1 / 10), fl_isFloat _, by decide +kernel, by decide +kernel⟩

/-- Non-vacuity of C93: coordinates that the rounding of the sum changes. -/
example : meanCenter [(fl (1 / 10), 1), (fl (2 / 10), 2), (fl (3 / 10), 4)]
    = (fl (fl (fl (fl (1 / 10) + fl (2 / 10)) + fl (3 / 10)) / 3), fl (7 / 3))
    ∧ (meanCenter [(fl (1 / 10), 1), (fl (2 / 10), 2), (fl (3 / 10), 4)]).1
      ≠ (fl (1 / 10) + fl (2 / 10) + fl (3 / 10)) / 3 := by
  decide +kernel

/-! ### Standard distance -/

/-- **C94 (partial).** If the events are spread out far enough compared with their distance from the origin, the
standard distance is a number, and its square is the mean squared distance from the centre of mass up to
rounding: `r` is the number under the root, `v` its exact value, `q` the mean squared distance from the origin. -/
theorem C94_float_std_distance_partial (points : List (ℚ × ℚ)) (h : points ≠ [])
    (hspread : 2 * ((1 + 1 / 2 ^ 53) ^ (2 * points.length + 4) - 1) * mean (points.map fun p => p.1 ^ 2 + p.2 ^ 2)
      ≤ variance (points.map Prod.fst) + variance (points.map Prod.snd)) :
    ∃ r, stdRadicand points = some r
      ∧ |r - (variance (points.map Prod.fst) + variance (points.map Prod.snd))|
        ≤ 2 * ((1 + 1 / 2 ^ 53) ^ (2 * points.length + 5) - 1) * mean (points.map fun p => p.1 ^ 2 + p.2 ^ 2) := by
  have hn : (0 : ℚ) < points.length := by exact_mod_cast List.length_pos_iff.2 h
  have h1 := fvar_err (l := points.map Prod.fst) (by simpa using h)
  have h2 := fvar_err (l := points.map Prod.snd) (by simpa using h)
  have v1 := variance_eq (points.map Prod.fst) (by simpa using h)
  have v2 := variance_eq (points.map Prod.snd) (by simpa using h)
  have hq : mean (points.map fun p => p.1 ^ 2 + p.2 ^ 2)
      = (points.map fun p => p.1 * p.1).sum / points.length + (points.map fun p => p.2 * p.2).sum / points.length := by
    unfold mean
    rw [← add_div, ← List.sum_map_add]
    simp [pow_two]
  simp only [List.length_map, List.map_map, Function.comp_def] at h1 h2
  rw [show (2 : ℚ) ^ 53 = 1 / u by unfold u; norm_num, one_div_one_div] at *
  rw [hq] at hspread ⊢
  have e1 : (points.map fun p => p.1 * p.1).sum / (points.length : ℚ) - ((points.map Prod.fst).sum / points.length) ^ 2
      = variance (points.map Prod.fst) := by
    rw [v1]; simp [List.map_map, Function.comp_def, mean]
  have e2 : (points.map fun p => p.2 * p.2).sum / (points.length : ℚ) - ((points.map Prod.snd).sum / points.length) ^ 2
      = variance (points.map Prod.snd) := by
    rw [v2]; simp [List.map_map, Function.comp_def, mean]
  have e1' : (List.map (fun x => x.1) points).sum = (points.map Prod.fst).sum := rfl
  have e2' : (List.map (fun x => x.2) points).sum = (points.map Prod.snd).sum := rfl
  rw [e1] at h1
  rw [e2] at h2
  have hQ : 0 ≤ (points.map fun p => p.1 * p.1).sum / (points.length : ℚ)
      + (points.map fun p => p.2 * p.2).sum / points.length := by
    have a1 : 0 ≤ (points.map fun p => p.1 * p.1).sum := List.sum_nonneg (by
      intro y hy; obtain ⟨z, -, rfl⟩ := List.mem_map.1 hy; exact mul_self_nonneg _)
    have a2 : 0 ≤ (points.map fun p => p.2 * p.2).sum := List.sum_nonneg (by
      intro y hy; obtain ⟨z, -, rfl⟩ := List.mem_map.1 hy; exact mul_self_nonneg _)
    positivity
  have n1 := variance_nonneg (points.map Prod.fst)
  have n2 := variance_nonneg (points.map Prod.snd)
  have m1 : variance (points.map Prod.fst) ≤ (points.map fun p => p.1 * p.1).sum / (points.length : ℚ) := by
    rw [← e1]; nlinarith [sq_nonneg ((points.map Prod.fst).sum / (points.length : ℚ))]
  have m2 : variance (points.map Prod.snd) ≤ (points.map fun p => p.2 * p.2).sum / (points.length : ℚ) := by
    rw [← e2]; nlinarith [sq_nonneg ((points.map Prod.snd).sum / (points.length : ℚ))]
  unfold stdRadicand
  generalize fvar (points.map Prod.fst) = f1 at *
  generalize fvar (points.map Prod.snd) = f2 at *
  generalize variance (points.map Prod.fst) = w1 at *
  generalize variance (points.map Prod.snd) = w2 at *
  generalize (points.map fun p => p.1 * p.1).sum / (points.length : ℚ) = q1 at *
  generalize (points.map fun p => p.2 * p.2).sum / (points.length : ℚ) = q2 at *
  have hu := u_pos
  have hE := one_le_pow_u (2 * points.length + 4)
  rw [show 2 * points.length + 5 = (2 * points.length + 4) + 1 from rfl, pow_succ (1 + u)]
  generalize (1 + u) ^ (2 * points.length + 4) = E at *
  have hsum : |f1 + f2 - (w1 + w2)| ≤ 2 * (E - 1) * (q1 + q2) := by
    have e : f1 + f2 - (w1 + w2) = (f1 - w1) + (f2 - w2) := by ring
    rw [e]
    exact (abs_add_le _ _).trans (by linarith)
  have hnn : 0 ≤ f1 + f2 := by have := (abs_le.1 hsum).1; linarith
  have hr : 0 ≤ fadd f1 f2 := fl_nonneg hnn
  refine ⟨fadd f1 f2, by simp only [if_neg (not_lt.2 hr)], ?_⟩
  have a1 : |fadd f1 f2 - (f1 + f2)| ≤ u * |f1 + f2| := fl_err _
  have a2 : |f1 + f2| ≤ (q1 + q2) + 2 * (E - 1) * (q1 + q2) := by
    have := abs_sub_abs_le_abs_sub (f1 + f2) (w1 + w2)
    rw [abs_of_nonneg (by linarith : 0 ≤ w1 + w2)] at this
    linarith
  have a3 := abs_sub_le (fadd f1 f2) (f1 + f2) (w1 + w2)
  generalize |f1 + f2| = t at *
  generalize q1 + q2 = q at *
  calc _ ≤ u * t + 2 * (E - 1) * q := by linarith
    _ ≤ u * (q + 2 * (E - 1) * q) + 2 * (E - 1) * q := by nlinarith
    _ ≤ 2 * (E * (1 + u) - 1) * q := by nlinarith

/-- **C94 is FALSE of the code** without the condition: the standard distance of three events at the same place,
the floats nearest to (0.1, 0.1), is `nan`. -/
theorem C94_float_std_distance_refuted :
    ∃ (a : ℚ), IsFloat a ∧ stdRadicand [(a, a), (a, a), (a, a)] = none :=
  ⟨fl (1 / 10), fl_isFloat _, by decide +kernel⟩

/-- Non-vacuity of C94: three events for which the condition holds. -/
example : 2 * ((1 + 1 / 2 ^ 53) ^ (2 * 3 + 4) - 1)
      * mean ([((1 : ℚ), (2 : ℚ)), (3, 1), (4, 4)].map fun p => p.1 ^ 2 + p.2 ^ 2)
      ≤ variance ([((1 : ℚ), (2 : ℚ)), (3, 1), (4, 4)].map Prod.fst)
        + variance ([((1 : ℚ), (2 : ℚ)), (3, 1), (4, 4)].map Prod.snd)
    ∧ (stdRadicand [((1 : ℚ), (2 : ℚ)), (3, 1), (4, 4)]).isSome = true := by
  decide +kernel

/-! ### Angle of the rotated rectangle -/

private theorem fmod_cases (a : ℚ) :
    (0 ≤ a → 0 ≤ mrrAngle a ∧ mrrAngle a < 90 ∧ ∃ k : ℤ, a = mrrAngle a + 90 * k)
    ∧ (a < 0 → ∃ r, -90 < r ∧ r ≤ 0 ∧ (∃ k : ℤ, a = r + 90 * k)
        ∧ mrrAngle a = if r < 0 then fl (r + 90) else r) := by
  constructor
  · intro h
    have h1 := Int.floor_le (a / 90)
    have h2 := Int.lt_floor_add_one (a / 90)
    rw [le_div_iff₀ (by norm_num)] at h1
    rw [div_lt_iff₀ (by norm_num)] at h2
    have e : mrrAngle a = a - 90 * (⌊a / 90⌋ : ℤ) := by
      unfold mrrAngle Float64.fmod
      rw [if_pos h, if_neg (by linarith)]
    rw [e]
    exact ⟨by linarith, by linarith, ⌊a / 90⌋, by ring⟩
  · intro h
    have h1 := Int.le_ceil (a / 90)
    have h2 := Int.ceil_lt_add_one (a / 90)
    rw [div_le_iff₀ (by norm_num)] at h1
    rw [← sub_lt_iff_lt_add, lt_div_iff₀ (by norm_num)] at h2
    refine ⟨a - 90 * (⌈a / 90⌉ : ℤ), by linarith, by linarith, ⟨⌈a / 90⌉, by ring⟩, ?_⟩
    unfold mrrAngle Float64.fmod
    rw [if_neg (not_le.2 h)]
    rfl

/-- **C95 (partial).** In floating point arithmetic the angle of the rotated rectangle is between 0 and 90
degrees, it is less than 90 unless the direction of the first edge is a negative angle, and it differs from the
direction of that edge by a multiple of 90 degrees up to one rounding. -/
theorem C95_float_angle_partial (degrees : ℚ) :
    0 ≤ mrrAngle degrees ∧ mrrAngle degrees ≤ 90 ∧ (0 ≤ degrees → mrrAngle degrees < 90)
    ∧ ∃ k : ℤ, |mrrAngle degrees - (degrees - 90 * k)| ≤ 90 / 2 ^ 53 := by
  rcases lt_or_ge degrees 0 with h | h
  · obtain ⟨r, h1, h2, ⟨k, hk⟩, e⟩ := (fmod_cases degrees).2 h
    have h90 : IsFloat 90 := isFloat_nat (n := 90) (by norm_num)
    by_cases hr : r < 0
    · rw [if_pos hr] at e
      have := fl_near (r + 90)
      rw [abs_of_nonneg (by linarith : 0 ≤ r + 90)] at this
      refine ⟨by rw [e]; exact fl_nonneg (by linarith), by rw [e]; exact fl_le h90 (by linarith),
        fun h' => absurd h' (not_le.2 h), k - 1, ?_⟩
      rw [e, hk]
      push_cast
      have e' : fl (r + 90) - (r + 90 * k - 90 * (k - 1)) = fl (r + 90) - (r + 90) := by ring
      rw [e']
      refine this.trans (div_le_div_of_nonneg_right (by linarith) (by norm_num))
    · rw [if_neg hr] at e
      have : r = 0 := by linarith [not_lt.1 hr]
      refine ⟨by rw [e, this], by rw [e, this]; norm_num, fun h' => absurd h' (not_le.2 h), k, ?_⟩
      rw [e, hk]
      have e' : r - (r + 90 * (k : ℚ) - 90 * k) = 0 := by ring
      rw [e']
      norm_num
  · obtain ⟨h1, h2, k, hk⟩ := (fmod_cases degrees).1 h
    refine ⟨h1, h2.le, fun _ => h2, k, ?_⟩
    have e : mrrAngle degrees - (degrees - 90 * k) = 0 := by linarith
    rw [e]
    norm_num

/-- **C95 is FALSE of the code** with the bound 90 excluded: for an edge that points a tiny angle below the axis the
angle reported is exactly 90. -/
theorem C95_float_angle_refuted : ∃ degrees, IsFloat degrees ∧ mrrAngle degrees = 90 :=
  ⟨-(1 / 2 ^ 60), (⟨-1, -60, by norm_num, by norm_num⟩ : IsFloat _), by decide +kernel⟩

example : mrrAngle 100 = 10 ∧ mrrAngle (-10) = 80 ∧ mrrAngle (-90) = 0 := by decide +kernel

/-! ### Supports -/

/-- The values of `flinspace` before the last. -/
private theorem flinspace_bound {start stop : ℚ} (hs : IsFloat stop) (h : start ≤ stop) {num : ℕ}
    (h2 : 2 ≤ num) (hb : num ≤ 2 ^ 50) {i : ℕ} (hi : i + 1 < num) :
    fadd (fmul (i : ℚ) (fdiv (fsub stop start) ((num : ℚ) - 1))) start ≤ stop := by
  have hn : (2 : ℚ) ≤ (num : ℚ) := by exact_mod_cast h2
  have hb' : (num : ℚ) ≤ 2 ^ 50 := by exact_mod_cast hb
  have hi' : (i : ℚ) + 2 ≤ (num : ℚ) := by
    have : i + 2 ≤ num := by omega
    exact_mod_cast this
  have hi0 : (0 : ℚ) ≤ (i : ℚ) := by positivity
  unfold fadd fmul fdiv fsub
  apply fl_le hs
  have hD : 0 ≤ stop - start := by linarith
  have d1 := (abs_le.1 (fl_near (stop - start))).2
  rw [abs_of_nonneg hD] at d1
  have d0 := fl_nonneg hD
  have q0 : 0 ≤ fl (stop - start) / ((num : ℚ) - 1) := div_nonneg d0 (by linarith)
  have d2 := (abs_le.1 (fl_near (fl (stop - start) / ((num : ℚ) - 1)))).2
  rw [abs_of_nonneg q0] at d2
  have s0 := fl_nonneg q0
  have d3 := (abs_le.1 (fl_near ((i : ℚ) * fl (fl (stop - start) / ((num : ℚ) - 1))))).2
  rw [abs_of_nonneg (mul_nonneg hi0 s0)] at d3
  have e : fl (stop - start) = fl (stop - start) / ((num : ℚ) - 1) * ((num : ℚ) - 1) := by
    rw [div_mul_cancel₀]; linarith
  generalize hR : fl (stop - start) = R at *
  generalize hq : R / ((num : ℚ) - 1) = q at *
  generalize hS : fl q = S at *
  generalize fl ((i : ℚ) * S) = P at *
  generalize hD' : stop - start = D at *
  -- P ≤ i S (1 + u), S ≤ q (1 + u), q (num - 1) = R ≤ D (1 + u)
  have k1 : P ≤ (i : ℚ) * S * (1 + 1 / 2 ^ 53) := by linarith
  have k2 : S ≤ q * (1 + 1 / 2 ^ 53) := by linarith
  have k3 : q * ((num : ℚ) - 1) ≤ D * (1 + 1 / 2 ^ 53) := by rw [← e]; linarith
  have k4 : P ≤ ((num : ℚ) - 2) * (q * (1 + 1 / 2 ^ 53)) * (1 + 1 / 2 ^ 53) := by
    refine k1.trans (mul_le_mul_of_nonneg_right ?_ (by norm_num))
    exact mul_le_mul (by linarith) k2 s0 (by linarith)
  have k5 : ((num : ℚ) - 2) * (1 + 1 / 2 ^ 53) * (1 + 1 / 2 ^ 53) * (1 + 1 / 2 ^ 53) ≤ (num : ℚ) - 1 := by
    nlinarith
  have k6 : ((num : ℚ) - 2) * (1 + 1 / 2 ^ 53) * (1 + 1 / 2 ^ 53) * (q * ((num : ℚ) - 1))
      ≤ ((num : ℚ) - 2) * (1 + 1 / 2 ^ 53) * (1 + 1 / 2 ^ 53) * (D * (1 + 1 / 2 ^ 53)) := by
    apply mul_le_mul_of_nonneg_left k3
    have : 0 ≤ (num : ℚ) - 2 := by linarith
    positivity
  have k7 : P * ((num : ℚ) - 1) ≤ D * ((num : ℚ) - 1) := by
    have a1 : P * ((num : ℚ) - 1)
        ≤ ((num : ℚ) - 2) * (q * (1 + 1 / 2 ^ 53)) * (1 + 1 / 2 ^ 53) * ((num : ℚ) - 1) :=
      mul_le_mul_of_nonneg_right k4 (by linarith)
    have a2 := mul_le_mul_of_nonneg_left k5 hD
    calc _ ≤ _ := a1
      _ = ((num : ℚ) - 2) * (1 + 1 / 2 ^ 53) * (1 + 1 / 2 ^ 53) * (q * ((num : ℚ) - 1)) := by ring
      _ ≤ _ := k6
      _ = D * (((num : ℚ) - 2) * (1 + 1 / 2 ^ 53) * (1 + 1 / 2 ^ 53) * (1 + 1 / 2 ^ 53)) := by ring
      _ ≤ _ := a2
  have k8 : P ≤ D := le_of_mul_le_mul_right k7 (by linarith)
  linarith

/-- **C96.** In floating point arithmetic too, a support given by its end points and a number of distances
(`numpy.linspace`) has that many values, starts and stops at the end points, and is in non-decreasing order, so
that it is accepted as bin edges. -/
theorem C96_float_support (start stop : ℚ) (h1 : IsFloat start) (h2 : IsFloat stop) (h : start ≤ stop) (num : ℕ)
    (hn : 2 ≤ num) (hb : num ≤ 2 ^ 50) :
    (flinspace start stop num).length = num
    ∧ (flinspace start stop num).head? = some start ∧ (flinspace start stop num).getLast? = some stop
    ∧ (flinspace start stop num).Pairwise (· ≤ ·)
    ∧ ∀ x ∈ flinspace start stop num, IsFloat x ∧ start ≤ x ∧ x ≤ stop := by
  have hlow : ∀ i : ℕ, start ≤ fadd (fmul (i : ℚ) (fdiv (fsub stop start) ((num : ℚ) - 1))) start := by
    intro i
    apply le_fl h1
    have hnum : (2 : ℚ) ≤ (num : ℚ) := by exact_mod_cast hn
    have : 0 ≤ fmul (i : ℚ) (fdiv (fsub stop start) ((num : ℚ) - 1)) :=
      fl_nonneg (mul_nonneg (by positivity) (fl_nonneg (div_nonneg (fl_nonneg (by linarith)) (by linarith))))
    linarith
  refine ⟨by simp [flinspace], ?_, ?_, ?_, ?_⟩
  · obtain ⟨k, rfl⟩ : ∃ k, num = k + 2 := ⟨num - 2, by omega⟩
    unfold flinspace
    rw [List.range_succ_eq_map]
    simp [fadd, fmul, h1.fl_eq]
  · obtain ⟨k, rfl⟩ : ∃ k, num = k + 1 := ⟨num - 1, by omega⟩
    unfold flinspace
    rw [List.range_succ]
    simp
  · unfold flinspace
    rw [List.pairwise_map]
    refine List.Pairwise.imp_of_mem ?_ List.pairwise_lt_range
    intro i j hi hj hij
    rw [List.mem_range] at hi hj
    have hne : ¬ i + 1 = num := by omega
    simp only [if_neg hne]
    split_ifs with hj'
    · exact flinspace_bound h2 h hn hb (by omega)
    · apply fl_mono
      have hnum : (2 : ℚ) ≤ (num : ℚ) := by exact_mod_cast hn
      have hs : 0 ≤ fdiv (fsub stop start) ((num : ℚ) - 1) :=
        fl_nonneg (div_nonneg (fl_nonneg (by linarith)) (by linarith))
      have hij' : (i : ℚ) ≤ (j : ℚ) := by exact_mod_cast hij.le
      have : fmul (i : ℚ) (fdiv (fsub stop start) ((num : ℚ) - 1))
          ≤ fmul (j : ℚ) (fdiv (fsub stop start) ((num : ℚ) - 1)) :=
        fl_mono (mul_le_mul_of_nonneg_right hij' hs)
      linarith
  · intro x hx
    unfold flinspace at hx
    obtain ⟨i, hi, rfl⟩ := List.mem_map.1 hx
    rw [List.mem_range] at hi
    split_ifs with hc
    · exact ⟨h2, h, le_refl _⟩
    · exact ⟨fl_isFloat _, hlow i, flinspace_bound h2 h hn hb (by omega)⟩

/-- Non-vacuity of C96: four distances up to the float nearest to 0.1. -/
example : flinspace 0 (fl (1 / 10)) 4
      = [0, fl (fl (1 / 10) / 3), fl (2 * fl (fl (1 / 10) / 3)), fl (1 / 10)] := by decide +kernel

/-! ### p-values -/

/-- **C97.** In floating point arithmetic too, the p-value of a permutation test is positive and at most one, it is
one exactly if all permutations are counted, it does not decrease with the count; and the folded p-value of the
distance functions is between 0 and 1/2. -/
theorem C97_float_pvalues (count permutations : ℕ) (h : count ≤ permutations) :
    0 < fpvalue count permutations ∧ fpvalue count permutations ≤ 1
    ∧ (permutations < 2 ^ 53 → (fpvalue count permutations = 1 ↔ count = permutations))
    ∧ (∀ count', count ≤ count' → fpvalue count permutations ≤ fpvalue count' permutations)
    ∧ 0 ≤ ffolded count permutations ∧ ffolded count permutations ≤ 1 / 2 := by
  have hp : (0 : ℚ) < (permutations : ℚ) + 1 := by positivity
  have hc : (count : ℚ) ≤ (permutations : ℚ) := by exact_mod_cast h
  have hle : ((count : ℚ) + 1) / ((permutations : ℚ) + 1) ≤ 1 := by rw [div_le_one hp]; linarith
  have one : IsFloat 1 := isFloat_nat (n := 1) (by norm_num)
  have half : IsFloat (1 / 2) := by
    have := isFloat_zpow (-1)
    rwa [show (2 : ℚ) ^ (-1 : ℤ) = 1 / 2 by norm_num] at this
  have hpos : 0 < fpvalue count permutations := fl_pos (div_pos (by positivity) hp)
  have hle1 : fpvalue count permutations ≤ 1 := fl_le one hle
  refine ⟨hpos, hle1, ?_, ?_, ?_, ?_⟩
  · intro hb
    constructor
    · intro he
      by_contra hne
      have hlt : count + 1 ≤ permutations := by omega
      have hlt' : (count : ℚ) + 1 ≤ (permutations : ℚ) := by exact_mod_cast hlt
      have hb' : (permutations : ℚ) + 1 ≤ 2 ^ 53 := by exact_mod_cast hb
      have hq : ((count : ℚ) + 1) / ((permutations : ℚ) + 1) ≤ 1 - 1 / 2 ^ 53 := by
        rw [div_le_iff₀ hp]
        linarith
      have hf : IsFloat (1 - 1 / 2 ^ 53) := ⟨2 ^ 53 - 1, -53, by norm_num, by norm_num⟩
      have := fl_le hf hq
      unfold fpvalue fdiv at he
      rw [he] at this
      norm_num at this
    · rintro rfl
      unfold fpvalue fdiv
      rw [div_self hp.ne', one.fl_eq]
  · intro count' hcc
    apply fl_mono
    apply div_le_div_of_nonneg_right _ hp.le
    have : (count : ℚ) ≤ (count' : ℚ) := by exact_mod_cast hcc
    linarith
  · unfold ffolded
    exact le_min hpos.le (fl_nonneg (by have := hle1; unfold fpvalue at this; linarith))
  · unfold ffolded
    change min (fpvalue count permutations) (fsub 1 (fpvalue count permutations)) ≤ 1 / 2
    rcases le_total (fpvalue count permutations) (1 / 2) with hh | hh
    · exact (min_le_left _ _).trans hh
    · exact (min_le_right _ _).trans (fl_le half (by linarith))

example : fpvalue 4 99 = fl (5 / 100) ∧ ffolded 97 99 = fl (1 - fl (98 / 100)) := by decide +kernel

/-! ### Closeness in time -/

/-- **C98.** In floating point arithmetic `knox`, which compares the squares of the time difference and of the
threshold, takes two events to be close in time exactly if their (rounded) difference is at most the threshold:
the rounding of the squares changes nothing, for all floats. The sign of the threshold is ignored. -/
theorem C98_float_time_threshold (tau a b : ℚ) (htau : IsFloat tau) :
    Float64.timeClose tau a b = true ↔ |fl (a - b)| ≤ |tau| := by
  have habs : ∀ {z : ℚ}, IsFloat z → IsFloat |z| := by
    intro z hz
    rcases abs_choice z with e | e <;> rw [e]
    · exact hz
    · exact hz.neg
  have h1 := habs (fl_isFloat (a - b))
  have h2 := habs htau
  unfold Float64.timeClose
  simp only [decide_eq_true_eq]
  unfold fmul fsub
  rw [← abs_mul_abs_self (fl (a - b)), ← abs_mul_abs_self tau]
  constructor
  · intro h
    by_contra hcon
    push Not at hcon
    exact absurd (IsFloat.sq_lt h2 h1 (abs_nonneg _) hcon) (not_lt.2 h)
  · intro h
    exact fl_mono (mul_self_le_mul_self (abs_nonneg _) h)

/-- Non-vacuity of C98: a difference of the float after the threshold is not close, although its square differs
from that of the threshold by only a few units in the last place. -/
example : Float64.timeClose (fl (1 / 10)) (fl (3 / 10)) (fl (2 / 10)) = true
    ∧ Float64.timeClose (fl (1 / 10)) (fl (1 / 10) + 1 / 2 ^ 56) 0 = false := by decide +kernel

end Pointpats.Props
