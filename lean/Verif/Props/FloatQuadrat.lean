import Verif.Lemmas.FloatSum

/-!
# C102: the size of simulated patterns in floating point arithmetic
-/

namespace Pointpats.Props

open Float64

/-- **C102, what holds.** For up to `2^51` events and every positive area that is a float, the simulated patterns have as
many points as the observed one or exactly one point less; never less and never more. They have as many if the
intensity `n / area` is itself a float, in particular if the area is a power of two. -/
theorem C102_float_simulated_size_partial (n : ℕ) (hn : n ≤ 2 ^ 51) (area : ℚ) (ha : 0 < area) :
    (simulatedSize n area = n ∨ simulatedSize n area = (n : ℤ) - 1)
    ∧ (IsFloat ((n : ℚ) / area) → simulatedSize n area = n)
    ∧ (∀ e : ℤ, area = 2 ^ e → simulatedSize n area = n) := by
  have hnf : IsFloat (n : ℚ) := isFloat_nat (le_trans hn (by norm_num))
  have exact : IsFloat ((n : ℚ) / area) → simulatedSize n area = n := by
    intro h
    unfold simulatedSize fmul fdiv
    rw [h.fl_eq, div_mul_cancel₀ _ ha.ne', hnf.fl_eq]
    simp
  refine ⟨?_, exact, ?_⟩
  · have hn' : (n : ℚ) ≤ 2 ^ 51 := by exact_mod_cast hn
    have h0 : (0 : ℚ) ≤ n := Nat.cast_nonneg n
    have hq : 0 ≤ (n : ℚ) / area := div_nonneg h0 ha.le
    have e1 := abs_le.1 (fl_err ((n : ℚ) / area))
    rw [abs_of_nonneg hq] at e1
    obtain ⟨f, hf⟩ : ∃ f, f = fl ((n : ℚ) / area) := ⟨_, rfl⟩
    rw [← hf] at e1
    have hf0 : 0 ≤ f := hf ▸ fl_nonneg hq
    have hna : (n : ℚ) / area * area = n := div_mul_cancel₀ _ ha.ne'
    have hup : f * area ≤ (1 + u) * n := by
      have : f ≤ (1 + u) * ((n : ℚ) / area) := by linarith [e1.2]
      calc f * area ≤ (1 + u) * ((n : ℚ) / area) * area := mul_le_mul_of_nonneg_right this ha.le
        _ = (1 + u) * n := by rw [mul_assoc, hna]
    have hlo : (1 - u) * n ≤ f * area := by
      have : (1 - u) * ((n : ℚ) / area) ≤ f := by linarith [e1.1]
      calc (1 - u) * (n : ℚ) = (1 - u) * ((n : ℚ) / area) * area := by rw [mul_assoc, hna]
        _ ≤ f * area := mul_le_mul_of_nonneg_right this ha.le
    have hfa : 0 ≤ f * area := mul_nonneg hf0 ha.le
    have e2 := abs_le.1 (fl_err (f * area))
    rw [abs_of_nonneg hfa] at e2
    have hu : u = 1 / 2 ^ 53 := rfl
    have hmul : u * (n : ℚ) ≤ 1 / 4 := by
      rw [hu]
      linarith
    have hu0 := u_pos
    have hu1 : u ≤ 1 / 8 := by rw [hu]; norm_num
    have h1 : fl (f * area) < n + 1 := by nlinarith [e2.2]
    have h2 : (n : ℚ) - 1 ≤ fl (f * area) := by nlinarith [e2.1]
    have h3 : ⌊fl (f * area)⌋ < (n : ℤ) + 1 := by
      rw [Int.floor_lt]
      push_cast
      exact h1
    have h4 : (n : ℤ) - 1 ≤ ⌊fl (f * area)⌋ := by
      rw [Int.le_floor]
      push_cast
      exact h2
    unfold simulatedSize fmul fdiv
    rw [← hf]
    omega
  · rintro e rfl
    apply exact
    refine ⟨n, -e, ?_, ?_⟩
    · rw [abs_of_nonneg (by positivity)]
      exact_mod_cast le_trans hn (by norm_num)
    · rw [zpow_neg, div_eq_mul_inv]
      simp

/-- **C102 is false.** For 29 events in a window of area 100 the simulated patterns have 28 points, so the statistic of the
observed pattern is compared with that of smaller patterns; and similarly for others. -/
theorem C102_float_simulated_size_refuted :
    IsFloat 100 ∧ simulatedSize 29 100 = 28 ∧ simulatedSize 57 100 = 56 ∧ simulatedSize 2 49 = 1 := by
  refine ⟨by have := isFloat_nat (n := 100) (by norm_num); exact_mod_cast this, ?_, ?_, ?_⟩ <;> decide +kernel

/-- A window of area 100 where the sizes agree. -/
example : simulatedSize 30 100 = 30 ∧ simulatedSize 61 7 = 60 ∧ simulatedSize 61 8 = 61 := by decide +kernel

end Pointpats.Props
