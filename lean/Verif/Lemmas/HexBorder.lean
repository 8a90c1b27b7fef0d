import Verif.Lemmas.Hex

/-! # The columns of points on the borders of hexagons -/

namespace Pointpats.Quadrat

open Spec

variable {K : Type} [Field K] [LinearOrder K] [IsStrictOrderedRing K] [FloorRing K]

/-- Height of the centre of the hexagon the code looks at in column `q`, in half heights. -/
def rowOf (s Y : K) (q : ℤ) : ℤ := if q % 2 = 0 then 2 * ⌊(Y + s) / (2 * s)⌋ else 2 * ⌊Y / (2 * s)⌋ + 1

theorem abs_rowOf {s Y : K} (hs : 0 < s) (q : ℤ) : |Y - (rowOf s Y q : K) * s| ≤ s := by
  have h2s : 0 < 2 * s := by positivity
  unfold rowOf
  split
  · have h1 := Int.floor_le ((Y + s) / (2 * s))
    have h2 := Int.lt_floor_add_one ((Y + s) / (2 * s))
    rw [le_div_iff₀ h2s] at h1
    rw [div_lt_iff₀ h2s] at h2
    push_cast
    rw [abs_le]; constructor <;> linarith
  · have h1 := Int.floor_le (Y / (2 * s))
    have h2 := Int.lt_floor_add_one (Y / (2 * s))
    rw [le_div_iff₀ h2s] at h1
    rw [div_lt_iff₀ h2s] at h2
    push_cast
    rw [abs_le]; constructor <;> linarith

omit [IsStrictOrderedRing K] in
theorem rowOf_parity (s Y : K) (q : ℤ) : (rowOf s Y q + q) % 2 = 0 := by
  unfold rowOf
  split <;> omega

theorem rowOf_same {s : K} (hs : 0 < s) {q k : ℤ} (h : (q + k) % 2 = 0) : rowOf s ((k : K) * s) q = k := by
  have h2s : 0 < 2 * s := by positivity
  unfold rowOf
  split
  · have : ⌊((k : K) * s + s) / (2 * s)⌋ = k / 2 := by
      rw [Int.floor_eq_iff, le_div_iff₀ h2s, div_lt_iff₀ h2s]
      have hk : ((k / 2 : ℤ) : K) * 2 = k := by exact_mod_cast (by omega : k / 2 * 2 = k)
      constructor <;> nlinarith
    omega
  · have : ⌊((k : K) * s) / (2 * s)⌋ = (k - 1) / 2 := by
      rw [Int.floor_eq_iff, le_div_iff₀ h2s, div_lt_iff₀ h2s]
      have hk : (((k - 1) / 2 : ℤ) : K) * 2 = k - 1 := by exact_mod_cast (by omega : (k - 1) / 2 * 2 = k - 1)
      constructor <;> nlinarith
    omega

theorem rowOf_other {s : K} (hs : 0 < s) {q k : ℤ} (h : (q + k) % 2 = 1) : rowOf s ((k : K) * s) q = k + 1 := by
  have h2s : 0 < 2 * s := by positivity
  unfold rowOf
  split
  · have : ⌊((k : K) * s + s) / (2 * s)⌋ = (k + 1) / 2 := by
      rw [Int.floor_eq_iff, le_div_iff₀ h2s, div_lt_iff₀ h2s]
      have hk : (((k + 1) / 2 : ℤ) : K) * 2 = k + 1 := by exact_mod_cast (by omega : (k + 1) / 2 * 2 = k + 1)
      constructor <;> nlinarith
    omega
  · have : ⌊((k : K) * s) / (2 * s)⌋ = k / 2 := by
      rw [Int.floor_eq_iff, le_div_iff₀ h2s, div_lt_iff₀ h2s]
      have hk : ((k / 2 : ℤ) : K) * 2 = k := by exact_mod_cast (by omega : k / 2 * 2 = k)
      constructor <;> nlinarith
    omega

/-- The column of a point: that of the vertical band it is in, or one of the two next to a slanted band. -/
theorem hex_column (m : HexagonM K) (hh : 0 < m.h_length) (hs : 0 < m.semi_height) (p : K × K)
    (hy : m.mbb.ymin ≤ p.2) : ∃ q : ℤ,
    ((3 * (q : K) - 1) * m.h_length ≤ 2 * (p.1 - m.mbb.xmin) ∧ 2 * (p.1 - m.mbb.xmin) < (3 * (q : K) + 1) * m.h_length
        ∧ (m.cellIndex p).1 = q)
    ∨ ((3 * (q : K) + 1) * m.h_length ≤ 2 * (p.1 - m.mbb.xmin) ∧ 2 * (p.1 - m.mbb.xmin) < (3 * (q : K) + 2) * m.h_length
        ∧ (m.cellIndex p).1 = if 2 * m.semi_height * m.h_length
            ≤ 2 * m.semi_height * (p.1 - m.mbb.xmin - 3 / 2 * (q : K) * m.h_length)
              + m.h_length * |p.2 - m.mbb.ymin - (rowOf m.semi_height (p.2 - m.mbb.ymin) q : K) * m.semi_height|
          then q + 1 else q) := by
  have h2 : 0 < m.h_length / 2 := by positivity
  have h2s : 0 < 2 * m.semi_height := by positivity
  have ye : truncInt ((p.2 + m.semi_height - m.mbb.ymin) / (2 * m.semi_height))
      = ⌊(p.2 - m.mbb.ymin + m.semi_height) / (2 * m.semi_height)⌋ := by
    unfold truncInt
    rw [if_pos (div_nonneg (by linarith) h2s.le), show p.2 + m.semi_height - m.mbb.ymin = p.2 - m.mbb.ymin + m.semi_height by ring]
  have yo : truncInt ((p.2 - m.mbb.ymin) / (2 * m.semi_height)) = ⌊(p.2 - m.mbb.ymin) / (2 * m.semi_height)⌋ := by
    unfold truncInt
    rw [if_pos (div_nonneg (by linarith) h2s.le)]
  set t : ℤ := ⌊(p.1 - m.mbb.xmin) / (m.h_length / 2)⌋ with ht
  have ht1 : (t : K) * (m.h_length / 2) ≤ p.1 - m.mbb.xmin := by
    have := Int.floor_le ((p.1 - m.mbb.xmin) / (m.h_length / 2))
    rwa [le_div_iff₀ h2] at this
  have ht2 : p.1 - m.mbb.xmin < ((t : K) + 1) * (m.h_length / 2) := by
    have := Int.lt_floor_add_one ((p.1 - m.mbb.xmin) / (m.h_length / 2))
    rwa [div_lt_iff₀ h2] at this
  by_cases h3 : t % 3 ≠ 1
  · refine ⟨(t + 1) / 3, Or.inl ⟨?_, ?_, ?_⟩⟩
    · have h4 : ((3 * ((t + 1) / 3) - 1 : ℤ) : K) ≤ (t : K) := by exact_mod_cast (by omega)
      have := mul_le_mul_of_nonneg_right h4 h2.le
      push_cast at this ⊢
      linarith
    · have h4 : ((t + 1 : ℤ) : K) ≤ ((3 * ((t + 1) / 3) + 1 : ℤ) : K) := by exact_mod_cast (by omega)
      have := mul_le_mul_of_nonneg_right h4 h2.le
      push_cast at this ⊢
      linarith
    · unfold HexagonM.cellIndex
      simp only [← ht, if_pos h3]
  · refine ⟨t / 3, Or.inr ⟨?_, ?_, ?_⟩⟩
    · have h4 : ((3 * (t / 3) + 1 : ℤ) : K) = (t : K) := by exact_mod_cast (by omega)
      push_cast at h4 ⊢
      rw [h4]
      linarith
    · have h4 : ((3 * (t / 3) + 2 : ℤ) : K) = ((t + 1 : ℤ) : K) := by exact_mod_cast (by omega)
      push_cast at h4 ⊢
      rw [h4]
      linarith
    · unfold HexagonM.cellIndex
      simp only [← ht, if_neg h3, ye, yo, hexIndicator_eq hh]
      have hcy : p.2 - (if t / 3 % 2 = 0 then (⌊(p.2 - m.mbb.ymin + m.semi_height) / (2 * m.semi_height)⌋ : K) * 2 * m.semi_height + m.mbb.ymin
            else ((⌊(p.2 - m.mbb.ymin) / (2 * m.semi_height)⌋ : K) * 2 + 1) * m.semi_height + m.mbb.ymin)
          = p.2 - m.mbb.ymin - (rowOf m.semi_height (p.2 - m.mbb.ymin) (t / 3) : K) * m.semi_height := by
        unfold rowOf
        split <;> push_cast <;> ring
      rw [hcy]
      have hiff : 2 * m.semi_height * (m.h_length - (p.1 - ((t / 3 : ℤ) * (m.h_length / 2) * 3 + m.mbb.xmin))) / m.h_length
            - |p.2 - m.mbb.ymin - (rowOf m.semi_height (p.2 - m.mbb.ymin) (t / 3) : K) * m.semi_height| ≤ 0
          ↔ 2 * m.semi_height * m.h_length
            ≤ 2 * m.semi_height * (p.1 - m.mbb.xmin - 3 / 2 * ((t / 3 : ℤ) : K) * m.h_length)
              + m.h_length * |p.2 - m.mbb.ymin - (rowOf m.semi_height (p.2 - m.mbb.ymin) (t / 3) : K) * m.semi_height| := by
        rw [sub_nonpos, div_le_iff₀ hh]
        constructor <;> intro h <;> linarith
      by_cases hle : 2 * m.semi_height * m.h_length
            ≤ 2 * m.semi_height * (p.1 - m.mbb.xmin - 3 / 2 * ((t / 3 : ℤ) : K) * m.h_length)
              + m.h_length * |p.2 - m.mbb.ymin - (rowOf m.semi_height (p.2 - m.mbb.ymin) (t / 3) : K) * m.semi_height|
      · rw [if_pos hle, if_pos (hiff.2 hle)]
      · rw [if_neg hle, if_neg (fun h => hle (hiff.1 h))]

/-- In the band of a horizontal side, the column is the one of the side. -/
theorem column_of_band (m : HexagonM K) (hh : 0 < m.h_length) (hs : 0 < m.semi_height) (p : K × K)
    (hy : m.mbb.ymin ≤ p.2) {c : ℤ} (h1 : (3 * (c : K) - 1) * m.h_length ≤ 2 * (p.1 - m.mbb.xmin))
    (h2 : 2 * (p.1 - m.mbb.xmin) < (3 * (c : K) + 1) * m.h_length) : (m.cellIndex p).1 = c := by
  have aux : ∀ a b : ℤ, (a : K) * m.h_length ≤ 2 * (p.1 - m.mbb.xmin) → 2 * (p.1 - m.mbb.xmin) < (b : K) * m.h_length → a < b := by
    intro a b ha hb
    have := lt_of_mul_lt_mul_right (ha.trans_lt hb) hh.le
    exact_mod_cast this
  obtain ⟨q, ⟨h3, h4, h5⟩ | ⟨h3, h4, -⟩⟩ := hex_column m hh hs p hy
  · have i1 := aux (3 * q - 1) (3 * c + 1) (by push_cast; exact h3) (by push_cast; exact h2)
    have i2 := aux (3 * c - 1) (3 * q + 1) (by push_cast; exact h1) (by push_cast; exact h4)
    rw [h5]; omega
  · have i1 := aux (3 * q + 1) (3 * c + 1) (by push_cast; exact h3) (by push_cast; exact h2)
    have i2 := aux (3 * c - 1) (3 * q + 2) (by push_cast; exact h1) (by push_cast; exact h4)
    omega

/-- A point at the height of a horizontal side of its column is in the band of that side. -/
theorem band_of_column (m : HexagonM K) (hh : 0 < m.h_length) (hs : 0 < m.semi_height) (p : K × K)
    (hy : m.mbb.ymin ≤ p.2) {k : ℤ} (hk : p.2 - m.mbb.ymin = k * m.semi_height) (hpar : ((m.cellIndex p).1 + k) % 2 = 1) :
    (3 * ((m.cellIndex p).1 : K) - 1) * m.h_length ≤ 2 * (p.1 - m.mbb.xmin)
      ∧ 2 * (p.1 - m.mbb.xmin) < (3 * ((m.cellIndex p).1 : K) + 1) * m.h_length := by
  obtain ⟨q, ⟨h3, h4, h5⟩ | ⟨h3, h4, h5⟩⟩ := hex_column m hh hs p hy
  · rw [h5]; exact ⟨h3, h4⟩
  · exfalso
    rcases Int.emod_two_eq (q + k) with hqk | hqk
    · rw [hk, rowOf_same hs hqk, sub_self, abs_zero, mul_zero, add_zero, if_neg] at h5
      · rw [h5] at hpar; omega
      · rw [not_le]
        exact mul_lt_mul_of_pos_left (by linarith) (by positivity)
    · rw [hk, rowOf_other hs hqk, if_pos] at h5
      · rw [h5] at hpar; omega
      · push_cast
        rw [show (k : K) * m.semi_height - (k + 1) * m.semi_height = -m.semi_height by ring, abs_neg, abs_of_pos hs]
        have := mul_le_mul_of_nonneg_left h3 hs.le
        nlinarith

/-- A point on the line through the right ends of the horizontal sides of column `q` goes to the next column exactly at
these ends. -/
theorem column_of_corner (m : HexagonM K) (hh : 0 < m.h_length) (hs : 0 < m.semi_height) (p : K × K)
    (hy : m.mbb.ymin ≤ p.2) {q : ℤ} (hq : 2 * (p.1 - m.mbb.xmin) = (3 * (q : K) + 1) * m.h_length) :
    ((m.cellIndex p).1 = q ∧ ¬ ∃ j : ℤ, p.2 - m.mbb.ymin = j * m.semi_height ∧ (q + j) % 2 = 1)
    ∨ ((m.cellIndex p).1 = q + 1 ∧ ∃ j : ℤ, p.2 - m.mbb.ymin = j * m.semi_height ∧ (q + j) % 2 = 1) := by
  have aux : ∀ a b : ℤ, (a : K) * m.h_length ≤ 2 * (p.1 - m.mbb.xmin) → 2 * (p.1 - m.mbb.xmin) < (b : K) * m.h_length → a < b := by
    intro a b ha hb
    have := lt_of_mul_lt_mul_right (ha.trans_lt hb) hh.le
    exact_mod_cast this
  obtain ⟨q', ⟨h3, h4, h5⟩ | ⟨h3, h4, h5⟩⟩ := hex_column m hh hs p hy
  · have i1 := aux (3 * q + 1) (3 * q' + 1) (by push_cast; exact hq.ge) (by push_cast; exact h4)
    have i2 := aux (3 * q' - 1) (3 * q + 2) (by push_cast; exact h3) (by push_cast; rw [hq]; nlinarith)
    omega
  · have i1 := aux (3 * q + 1) (3 * q' + 2) (by push_cast; exact hq.ge) (by push_cast; exact h4)
    have i2 := aux (3 * q' + 1) (3 * q + 2) (by push_cast; exact h3) (by push_cast; rw [hq]; nlinarith)
    have : q' = q := by omega
    subst this
    have hu : p.1 - m.mbb.xmin - 3 / 2 * (q' : K) * m.h_length = m.h_length / 2 := by linarith
    set r := rowOf m.semi_height (p.2 - m.mbb.ymin) q' with hr
    have habs : |p.2 - m.mbb.ymin - (r : K) * m.semi_height| ≤ m.semi_height := abs_rowOf hs q'
    have hpar : (r + q') % 2 = 0 := rowOf_parity _ _ _
    rw [hu] at h5
    by_cases hcond : 2 * m.semi_height * m.h_length ≤ 2 * m.semi_height * (m.h_length / 2)
        + m.h_length * |p.2 - m.mbb.ymin - (r : K) * m.semi_height|
    · rw [if_pos hcond] at h5
      have heq : |p.2 - m.mbb.ymin - (r : K) * m.semi_height| = m.semi_height := by
        refine le_antisymm habs (le_of_mul_le_mul_left ?_ hh)
        linarith
      refine Or.inr ⟨h5, ?_⟩
      rcases (abs_eq hs.le).1 heq with h | h
      · exact ⟨r + 1, by push_cast; linarith, by omega⟩
      · exact ⟨r - 1, by push_cast; linarith, by omega⟩
    · rw [if_neg hcond] at h5
      refine Or.inl ⟨h5, ?_⟩
      rintro ⟨j, hj, hjp⟩
      apply hcond
      rw [hr, hj, rowOf_other hs hjp]
      push_cast
      rw [show (j : K) * m.semi_height - (j + 1) * m.semi_height = -m.semi_height by ring, abs_neg, abs_of_pos hs]
      linarith

end Pointpats.Quadrat
