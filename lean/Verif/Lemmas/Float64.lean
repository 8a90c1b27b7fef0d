import Verif.Model.Float64

/-! # Properties of rounding to floating point numbers -/

namespace Pointpats.Float64

/-! ### Rounding to integers -/

theorem halfEven_near (x : ℚ) : |(halfEven x : ℚ) - x| ≤ 1 / 2 := by
  have h1 := Int.floor_le x
  have h2 := Int.lt_floor_add_one x
  unfold halfEven
  split_ifs <;> push_cast <;> rw [abs_le] <;> constructor <;> linarith

theorem halfEven_tie (x : ℚ) (h : |(halfEven x : ℚ) - x| = 1 / 2) : halfEven x % 2 = 0 := by
  have h1 := Int.floor_le x
  have h2 := Int.lt_floor_add_one x
  unfold halfEven at h ⊢
  split_ifs at h ⊢ with a b c
  · rw [abs_of_nonpos (by linarith)] at h; linarith
  · push_cast at h
    rw [abs_of_nonneg (by linarith)] at h; linarith
  · exact c
  · omega

theorem halfEven_unique (x : ℚ) (n : ℤ)
    (h : |(n : ℚ) - x| < 1 / 2 ∨ |(n : ℚ) - x| = 1 / 2 ∧ n % 2 = 0) : halfEven x = n := by
  by_contra hne
  have hn := halfEven_near x
  have ht := halfEven_tie x
  generalize halfEven x = m at *
  have hd : (1 : ℚ) ≤ |(m : ℚ) - n| := by
    have : (1 : ℤ) ≤ |m - n| := Int.one_le_abs (sub_ne_zero.mpr hne)
    exact_mod_cast this
  have htri : |(m : ℚ) - n| ≤ |(m : ℚ) - x| + |(n : ℚ) - x| := by
    have := abs_sub_le (m : ℚ) x n
    rwa [abs_sub_comm x (n : ℚ)] at this
  rcases h with h | ⟨h, he⟩
  · linarith
  · have hm : |(m : ℚ) - x| = 1 / 2 := by linarith
    have hme := ht hm
    have h1 : |(m : ℚ) - n| = 1 := by linarith
    have h2 : |m - n| = 1 := by exact_mod_cast h1
    rcases abs_eq (by norm_num : (0 : ℤ) ≤ 1) |>.1 h2 with h3 | h3 <;> omega

theorem halfEven_int (n : ℤ) : halfEven (n : ℚ) = n := by
  apply halfEven_unique
  left
  simp

theorem halfEven_neg (x : ℚ) : halfEven (-x) = -halfEven x := by
  apply halfEven_unique
  have hn := halfEven_near x
  have ht := halfEven_tie x
  generalize halfEven x = m at *
  have e : ((-m : ℤ) : ℚ) - -x = -((m : ℚ) - x) := by push_cast; ring
  rw [e, abs_neg]
  rcases hn.lt_or_eq with h | h
  · exact Or.inl h
  · exact Or.inr ⟨h, by have := ht h; omega⟩

theorem halfEven_mono {x y : ℚ} (h : x ≤ y) : halfEven x ≤ halfEven y := by
  rcases h.eq_or_lt with h | h
  · rw [h]
  by_contra hlt
  push Not at hlt
  have h1 := abs_le.1 (halfEven_near x)
  have h2 := abs_le.1 (halfEven_near y)
  have h3 : (halfEven y : ℚ) + 1 ≤ (halfEven x : ℚ) := by exact_mod_cast hlt
  linarith [h1.2, h2.1]

/-! ### Rounding to floats -/

theorem ulp_pos (x : ℚ) : 0 < ulp x := by unfold ulp; positivity

theorem ulp_neg (x : ℚ) : ulp (-x) = ulp x := by unfold ulp; rw [abs_neg]

@[simp] theorem fl_zero : fl 0 = 0 := by simp [fl]

theorem fl_of_ne {x : ℚ} (h : x ≠ 0) : fl x = (halfEven (x / ulp x) : ℚ) * ulp x := by
  simp [fl, h]

theorem fl_neg (x : ℚ) : fl (-x) = -fl x := by
  by_cases h : x = 0
  · simp [h]
  rw [fl_of_ne h, fl_of_ne (neg_ne_zero.mpr h), ulp_neg, neg_div, halfEven_neg]
  push_cast; ring

theorem log_le {x : ℚ} (h : x ≠ 0) : (2 : ℚ) ^ Int.log 2 |x| ≤ |x| := by
  have := Int.zpow_log_le_self (b := 2) (R := ℚ) (r := |x|) (by norm_num) (abs_pos.mpr h)
  simpa using this

theorem lt_log (x : ℚ) : |x| < (2 : ℚ) ^ (Int.log 2 |x| + 1) := by
  have := Int.lt_zpow_succ_log_self (b := 2) (R := ℚ) (by norm_num) |x|
  simpa using this

theorem ulp_log (x : ℚ) : (2 : ℚ) ^ Int.log 2 |x| = 2 ^ 52 * ulp x := by
  unfold ulp
  rw [zpow_sub₀ (by norm_num)]
  norm_num
  field_simp

theorem ulp_le {x : ℚ} (h : x ≠ 0) : 2 ^ 52 * ulp x ≤ |x| := by
  rw [← ulp_log]; exact log_le h

theorem lt_ulp (x : ℚ) : |x| < 2 ^ 53 * ulp x := by
  have h := lt_log x
  rw [zpow_add₀ (by norm_num), ulp_log] at h
  norm_num at h ⊢
  linarith

/-- The rounding error is at most half a unit in the last place. -/
theorem fl_near_ulp (x : ℚ) : |fl x - x| ≤ ulp x / 2 := by
  by_cases h : x = 0
  · subst h; have := ulp_pos 0; simp; linarith
  rw [fl_of_ne h]
  have hu := ulp_pos x
  have e : (halfEven (x / ulp x) : ℚ) * ulp x - x = ((halfEven (x / ulp x) : ℚ) - x / ulp x) * ulp x := by
    field_simp
  rw [e, abs_mul, abs_of_pos hu]
  have := halfEven_near (x / ulp x)
  nlinarith

/-- The relative error is at most `2⁻⁵³`. -/
theorem fl_near (x : ℚ) : |fl x - x| ≤ |x| / 2 ^ 53 := by
  by_cases h : x = 0
  · simp [h]
  have h1 := fl_near_ulp x
  have h2 := ulp_le h
  rw [le_div_iff₀ (by norm_num)]
  linarith

theorem IsFloat.neg {x : ℚ} (h : IsFloat x) : IsFloat (-x) := by
  obtain ⟨m, e, hm, rfl⟩ := h
  exact ⟨-m, e, by rwa [abs_neg], by push_cast; ring⟩

theorem isFloat_zero : IsFloat 0 := ⟨0, 0, by norm_num, by simp⟩

theorem isFloat_int {n : ℤ} (h : |n| ≤ 2 ^ 53) : IsFloat (n : ℚ) := ⟨n, 0, h, by simp⟩

theorem isFloat_nat {n : ℕ} (h : n ≤ 2 ^ 53) : IsFloat (n : ℚ) := by
  have := isFloat_int (n := (n : ℤ)) (by rw [abs_of_nonneg (by positivity)]; exact_mod_cast h)
  simpa using this

theorem isFloat_zpow (e : ℤ) : IsFloat ((2 : ℚ) ^ e) := ⟨1, e, by norm_num, by simp⟩

/-- A float is its own rounding. -/
theorem IsFloat.fl_eq {x : ℚ} (h : IsFloat x) : fl x = x := by
  by_cases h0 : x = 0
  · simp [h0]
  obtain ⟨m, e, hm, hx⟩ := h
  have hint : ∃ k : ℤ, x / ulp x = (k : ℚ) := by
    by_cases he : Int.log 2 |x| - 52 ≤ e
    · refine ⟨m * 2 ^ (e - (Int.log 2 |x| - 52)).toNat, ?_⟩
      unfold ulp
      rw [eq_comm, eq_div_iff (by positivity)]
      conv_rhs => rw [hx]
      push_cast
      rw [mul_assoc, ← zpow_natCast, ← zpow_add₀ (by norm_num), Int.toNat_of_nonneg (by omega)]
      congr 2
      ring
    · push Not at he
      have h1 := log_le h0
      have h2 : |x| = |(m : ℚ)| * 2 ^ e := by
        conv_lhs => rw [hx]
        rw [abs_mul, abs_of_pos (by positivity : (0 : ℚ) < 2 ^ e)]
      have h3 : |(m : ℚ)| ≤ 2 ^ 53 := by exact_mod_cast hm
      have h4 : (2 : ℚ) ^ (53 + e) ≤ 2 ^ Int.log 2 |x| := zpow_le_zpow_right₀ (by norm_num) (by omega)
      have h5 : (2 : ℚ) ^ (53 + e) = 2 ^ 53 * 2 ^ e := by
        rw [zpow_add₀ (by norm_num)]; norm_num
      have hp : (0 : ℚ) < 2 ^ e := by positivity
      have h6 : |x| ≤ 2 ^ 53 * 2 ^ e := by rw [h2]; nlinarith
      have h7 : |x| = 2 ^ Int.log 2 |x| := le_antisymm (by linarith) h1
      rw [ulp_log] at h7
      have hu := ulp_pos x
      rcases abs_choice x with h8 | h8
      · refine ⟨2 ^ 52, ?_⟩
        rw [div_eq_iff hu.ne']
        rw [h8] at h7
        push_cast
        linarith
      · refine ⟨-2 ^ 52, ?_⟩
        rw [div_eq_iff hu.ne']
        rw [h8] at h7
        push_cast
        linarith
  obtain ⟨k, hk⟩ := hint
  rw [fl_of_ne h0, hk, halfEven_int, ← hk]
  field_simp [(ulp_pos x).ne']

/-- The rounding of any number is a float. -/
theorem fl_isFloat (x : ℚ) : IsFloat (fl x) := by
  by_cases h : x = 0
  · rw [h, fl_zero]; exact isFloat_zero
  rw [fl_of_ne h]
  refine ⟨halfEven (x / ulp x), Int.log 2 |x| - 52, ?_, rfl⟩
  have hu := ulp_pos x
  have h1 : |x / ulp x| ≤ 2 ^ 53 := by
    rw [abs_div, abs_of_pos hu, div_le_iff₀ hu]
    exact (lt_ulp x).le
  obtain ⟨h2, h3⟩ := abs_le.1 h1
  rw [abs_le]
  constructor
  · have := halfEven_mono h2
    have e : (-2 ^ 53 : ℚ) = ((-2 ^ 53 : ℤ) : ℚ) := by norm_num
    rwa [e, halfEven_int] at this
  · have := halfEven_mono h3
    have e : (2 ^ 53 : ℚ) = ((2 ^ 53 : ℤ) : ℚ) := by norm_num
    rwa [e, halfEven_int] at this

theorem fl_nonneg {x : ℚ} (h : 0 ≤ x) : 0 ≤ fl x := by
  rcases h.eq_or_lt with h | h
  · rw [← h, fl_zero]
  rw [fl_of_ne h.ne']
  have hu := ulp_pos x
  have := halfEven_mono (div_nonneg h.le hu.le : (0 : ℚ) ≤ x / ulp x)
  have e : (0 : ℚ) = ((0 : ℤ) : ℚ) := by simp
  rw [e, halfEven_int] at this
  have : (0 : ℚ) ≤ (halfEven (x / ulp x) : ℚ) := by exact_mod_cast this
  positivity

private theorem fl_mono_pos {x y : ℚ} (hx : 0 < x) (h : x ≤ y) : fl x ≤ fl y := by
  have hy : 0 < y := hx.trans_le h
  have hl : Int.log 2 |x| ≤ Int.log 2 |y| := by
    apply Int.log_mono_right (abs_pos.mpr hx.ne')
    rwa [abs_of_pos hx, abs_of_pos hy]
  rw [fl_of_ne hx.ne', fl_of_ne hy.ne']
  have hux := ulp_pos x
  have huy := ulp_pos y
  rcases hl.eq_or_lt with he | he
  · have hu : ulp x = ulp y := by unfold ulp; rw [he]
    rw [hu]
    have := halfEven_mono (div_le_div_of_nonneg_right h huy.le : x / ulp y ≤ y / ulp y)
    have : (halfEven (x / ulp y) : ℚ) ≤ (halfEven (y / ulp y) : ℚ) := by exact_mod_cast this
    exact mul_le_mul_of_nonneg_right this huy.le
  · have h1 : x / ulp x ≤ 2 ^ 53 := by
      rw [div_le_iff₀ hux]; have := lt_ulp x; rw [abs_of_pos hx] at this; exact this.le
    have h2 : 2 ^ 52 ≤ y / ulp y := by
      rw [le_div_iff₀ huy]; have := ulp_le hy.ne'; rwa [abs_of_pos hy] at this
    have h3 := halfEven_mono h1
    have e : (2 ^ 53 : ℚ) = ((2 ^ 53 : ℤ) : ℚ) := by norm_num
    rw [e, halfEven_int] at h3
    have h4 := halfEven_mono h2
    have e : (2 ^ 52 : ℚ) = ((2 ^ 52 : ℤ) : ℚ) := by norm_num
    rw [e, halfEven_int] at h4
    have h3 : (halfEven (x / ulp x) : ℚ) ≤ 2 ^ 53 := by exact_mod_cast h3
    have h4 : (2 ^ 52 : ℚ) ≤ (halfEven (y / ulp y) : ℚ) := by exact_mod_cast h4
    have h5 : (2 : ℚ) ^ (Int.log 2 |x| + 1) ≤ 2 ^ Int.log 2 |y| :=
      zpow_le_zpow_right₀ (by norm_num) (by omega)
    rw [zpow_add₀ (by norm_num), ulp_log, ulp_log] at h5
    norm_num at h5
    nlinarith

/-- Rounding is monotone. -/
theorem fl_mono {x y : ℚ} (h : x ≤ y) : fl x ≤ fl y := by
  rcases lt_trichotomy x 0 with hx | hx | hx
  · rcases lt_or_ge y 0 with hy | hy
    · have := fl_mono_pos (x := -y) (y := -x) (by linarith) (by linarith)
      rw [fl_neg, fl_neg] at this
      linarith
    · have h1 : 0 ≤ fl (-x) := fl_nonneg (by linarith)
      rw [fl_neg] at h1
      linarith [fl_nonneg hy]
  · rw [hx] at h ⊢
    rw [fl_zero]; exact fl_nonneg h
  · exact fl_mono_pos hx h

/-- A bound that is a float survives rounding. -/
theorem fl_le {x b : ℚ} (hb : IsFloat b) (h : x ≤ b) : fl x ≤ b := by
  have := fl_mono h; rwa [hb.fl_eq] at this

theorem le_fl {x b : ℚ} (hb : IsFloat b) (h : b ≤ x) : b ≤ fl x := by
  have := fl_mono h; rwa [hb.fl_eq] at this

theorem fl_pos {x : ℚ} (h : 0 < x) : 0 < fl x := by
  have h1 := abs_le.1 (fl_near x)
  rw [abs_of_pos h] at h1
  have h2 : x / 2 ^ 53 < x := by
    rw [div_lt_iff₀ (by norm_num)]
    linarith
  linarith [h1.1]

theorem fl_eq_zero {x : ℚ} : fl x = 0 ↔ x = 0 := by
  constructor
  · intro h
    rcases lt_trichotomy x 0 with hx | hx | hx
    · have := fl_pos (x := -x) (by linarith)
      rw [fl_neg, h] at this
      simp at this
    · exact hx
    · exact absurd h (fl_pos hx).ne'
  · rintro rfl; exact fl_zero

/-- A positive float and any larger float differ by at least the spacing at the smaller one, which is more than
`2⁻⁵³` of it. -/
theorem IsFloat.gap {x y : ℚ} (hx : IsFloat x) (hy : IsFloat y) (h0 : 0 < x) (h : x < y) :
    x * (1 + 1 / 2 ^ 53) < y := by
  have hu := ulp_pos x
  have hint : ∀ {z : ℚ}, IsFloat z → 0 < z → ∃ k : ℤ, z = (k : ℚ) * ulp z := by
    intro z hz hz0
    have := hz.fl_eq
    rw [fl_of_ne hz0.ne'] at this
    exact ⟨_, this.symm⟩
  obtain ⟨k, hk⟩ := hint hx h0
  obtain ⟨l, hl⟩ := hint hy (h0.trans h)
  have hlog : Int.log 2 |x| ≤ Int.log 2 |y| := by
    apply Int.log_mono_right (abs_pos.mpr h0.ne')
    rw [abs_of_pos h0, abs_of_pos (h0.trans h)]
    exact h.le
  have hr : ulp y = ((2 ^ (Int.log 2 |y| - Int.log 2 |x|).toNat : ℤ) : ℚ) * ulp x := by
    unfold ulp
    push_cast
    rw [← zpow_natCast, ← zpow_add₀ (by norm_num), Int.toNat_of_nonneg (by omega)]
    congr 1
    ring
  rw [hr, ← mul_assoc, ← Int.cast_mul] at hl
  generalize l * 2 ^ (Int.log 2 |y| - Int.log 2 |x|).toNat = l' at hl
  have hkl : k < l' := by
    have : (k : ℚ) * ulp x < (l' : ℚ) * ulp x := by rw [← hk, ← hl]; exact h
    have := lt_of_mul_lt_mul_right this hu.le
    exact_mod_cast this
  have hkl' : (k : ℚ) + 1 ≤ (l' : ℚ) := by exact_mod_cast hkl
  have h1 := lt_ulp x
  rw [abs_of_pos h0] at h1
  have h2 : x + ulp x ≤ y := by
    calc x + ulp x = ((k : ℚ) + 1) * ulp x := by rw [add_mul, one_mul, ← hk]
      _ ≤ (l' : ℚ) * ulp x := mul_le_mul_of_nonneg_right hkl' hu.le
      _ = y := hl.symm
  have h3 : x / 2 ^ 53 < ulp x := by rw [div_lt_iff₀ (by norm_num)]; linarith
  linarith

/-- Rounding down loses at most `2⁻⁵³` of the result. -/
theorem fl_down {z : ℚ} (h : 0 < z) : z ≤ (1 + 1 / 2 ^ 53) * fl z := by
  have h1 := (abs_le.1 (fl_near_ulp z)).1
  have h2 : 2 ^ 52 * ulp z ≤ fl z := by
    rw [← ulp_log]
    apply le_fl (isFloat_zpow _)
    exact (log_le h.ne').trans_eq (abs_of_pos h)
  linarith

/-- Rounding up adds at most `2⁻⁵³ / (1 + 2⁻⁵³)`. -/
theorem fl_up {z : ℚ} (h : 0 < z) : fl z * (1 + 1 / 2 ^ 53) ≤ z * (1 + 2 / 2 ^ 53) := by
  have hu := ulp_pos z
  have h2 := ulp_le h.ne'
  rw [abs_of_pos h] at h2
  by_cases hc : z < 2 ^ 52 * ulp z + ulp z / 2
  · have hfl : fl z = 2 ^ 52 * ulp z := by
      rw [fl_of_ne h.ne']
      have : halfEven (z / ulp z) = 2 ^ 52 := by
        apply halfEven_unique
        left
        have e : z / ulp z - 2 ^ 52 = (z - 2 ^ 52 * ulp z) / ulp z := by field_simp
        have e' : ((2 ^ 52 : ℤ) : ℚ) = 2 ^ 52 := by norm_num
        rw [e', abs_sub_comm, e, abs_div, abs_of_pos hu, div_lt_iff₀ hu, abs_of_nonneg (by linarith)]
        linarith
      rw [this]
      push_cast
      ring
    rw [hfl]
    linarith
  · push Not at hc
    have h1 := (abs_le.1 (fl_near_ulp z)).2
    linarith

/-- Squaring keeps the order of positive floats strictly, rounding included. -/
theorem IsFloat.sq_lt {x y : ℚ} (hx : IsFloat x) (hy : IsFloat y) (h0 : 0 ≤ x) (h : x < y) :
    fl (x * x) < fl (y * y) := by
  rcases h0.eq_or_lt with h0 | h0
  · rw [← h0, mul_zero, fl_zero]
    exact fl_pos (mul_pos (h0 ▸ h) (h0 ▸ h))
  have hg := IsFloat.gap hx hy h0 h
  have hxx : 0 < x * x := mul_pos h0 h0
  have hyy : 0 < y * y := mul_pos (h0.trans h) (h0.trans h)
  by_contra hcon
  push Not at hcon
  have a1 := fl_down hyy
  have a2 := fl_up hxx
  have a3 : (1 + 1 / 2 ^ 53) * fl (y * y) ≤ (1 + 1 / 2 ^ 53) * fl (x * x) :=
    mul_le_mul_of_nonneg_left hcon (by norm_num)
  have a4 : (x * (1 + 1 / 2 ^ 53)) * (x * (1 + 1 / 2 ^ 53)) < y * y :=
    mul_self_lt_mul_self (by positivity) hg
  have a5 : (x * (1 + 1 / 2 ^ 53)) * (x * (1 + 1 / 2 ^ 53)) = x * x * (1 + 2 / 2 ^ 53) + x * x * (1 / 2 ^ 106) := by
    ring
  have : 0 < x * x * (1 / 2 ^ 106) := by positivity
  linarith

end Pointpats.Float64
