import Verif.Lemmas.Hex
import Mathlib.Data.Rat.Floor
import Mathlib.Algebra.BigOperators.Group.List.Lemmas

/-!
# C51, C52, C53: the hexagonal quadrat grid
-/

namespace Pointpats.Props

open Quadrat Spec

variable {K : Type} [Field K] [LinearOrder K] [IsStrictOrderedRing K] [FloorRing K]

/-- **C51 and C52, partial.** `cos30` is the value used for `cos(π/6)`, any positive number. If the
vertical extent of the pattern is not an exact multiple of the half height of a cell, and the
horizontal extent is not exactly `(3k + 1)/2` cell lengths, then the hexagonal grid counts every point
exactly once: there is an assignment of the points to cells of the dictionary, each point lies in the
(closed) hexagon it is assigned to - the hexagon drawn for that cell -, the count of each cell is the
number of points assigned to it, and the counts add up to the number of points.

Missing for the full properties: extents that are such exact multiples; see the refutations below. -/
theorem C51_C52_hexagon_counts_partial (cos30 : K) (hcos : 0 < cos30) (points : List (K × K))
    (hne : points ≠ []) (lh : K) (hlh : 0 < lh) (b : BBox K) (hb : Geometry.bboxPts points = .ok b)
    (hoffy : ∀ k : ℤ, b.ymax - b.ymin ≠ k * (lh * cos30))
    (hoffx : ∀ k : ℤ, 2 * (b.xmax - b.xmin) ≠ (3 * k + 1) * lh) :
    ∃ (m : HexagonM K) (d : Dict) (assign : K × K → ℤ), HexagonM.init cos30 points lh = .ok m
      ∧ m.pointLocationSta = .ok d
      ∧ d.keys.Nodup
      ∧ (∀ p ∈ points, assign p ∈ d.keys
          ∧ InHexagon lh (lh * cos30) (m.cellCenter (assign p)) p)
      ∧ (∀ k, Dict.getD0 k d = (points.filter fun p => assign p = k).length)
      ∧ d.values.sum = points.length := by
  obtain ⟨m, hm, hpts, hmh, hms, F, -⟩ := hex_init hcos hne hlh
  have hmb : m.mbb = b := by
    have := F.bbox; rw [hpts, hb] at this; exact (Except.ok.inj this).symm
  obtain ⟨h1, -⟩ := Geometry.bboxPts_spec hb
  have hs := F.s_pos
  have hh := F.h_pos
  have h2s : 0 < 2 * m.semi_height := by positivity
  have key : ∀ p ∈ points, m.cellId p ∈ m.hexKeys
      ∧ m.cellCenter (m.cellId p) = hexCenter m (m.cellIndex p) := by
    intro p hp
    have hbp := h1 p hp
    rw [← hmb] at hbp
    obtain ⟨-, hc0, hcx, hrow⟩ := hex_assign m hh hs p hbp.1 hbp.2.2.1
    set c := (m.cellIndex p).1 with hc
    set r := (m.cellIndex p).2 with hr
    have hcc : c < m.count_column := by
      by_contra hcon
      push Not at hcon
      have h3 : (m.count_column : K) ≤ (c : K) := by exact_mod_cast hcon
      have h4 : (m.count_column : K) * m.h_length ≤ c * m.h_length :=
        mul_le_mul_of_nonneg_right h3 hh.le
      have h5 := F.cc_ge
      apply hoffx (m.count_column - 1)
      rw [hmb] at hbp h5 hcx
      rw [hmh] at h4 h5 hcx
      push_cast
      linarith [hbp.2.1]
    have hrow0 : 0 ≤ r := by
      rw [hrow]
      split
      · exact Int.floor_nonneg.2 (div_nonneg (by linarith) h2s.le)
      · exact Int.floor_nonneg.2 (div_nonneg (by linarith) h2s.le)
    have hcell : (r.toNat, c.toNat) ∈ m.cells := by
      rw [HexagonM.mem_cells, Int.toNat_of_nonneg hrow0, Int.toNat_of_nonneg hc0]
      by_cases heven : c % 2 = 0
      · rw [if_pos heven] at hrow
        refine ⟨?_, hcc, by omega⟩
        by_contra hcon
        push Not at hcon
        have h3 : (m.count_row_even : K) ≤ (r : K) := by exact_mod_cast hcon
        have h4 : (r : K) * (2 * m.semi_height) ≤ p.2 + m.semi_height - m.mbb.ymin := by
          rw [hrow, ← le_div_iff₀ h2s]; exact Int.floor_le _
        have h5 := mul_le_mul_of_nonneg_right h3 h2s.le
        have h6 := F.cre_ge
        apply hoffy (2 * m.count_row_even - 1)
        rw [← hms, ← hmb]
        push_cast
        linarith [hbp.2.2.2]
      · rw [if_neg heven] at hrow
        have hro : r < m.count_row_odd := by
          by_contra hcon
          push Not at hcon
          have h3 : (m.count_row_odd : K) ≤ (r : K) := by exact_mod_cast hcon
          have h4 : (r : K) * (2 * m.semi_height) ≤ p.2 - m.mbb.ymin := by
            rw [hrow, ← le_div_iff₀ h2s]; exact Int.floor_le _
          have h5 := mul_le_mul_of_nonneg_right h3 h2s.le
          have h6 := F.cro_ge
          apply hoffy (2 * m.count_row_odd)
          rw [← hms, ← hmb]
          push_cast
          linarith [hbp.2.2.2]
        rcases F.rows with h7 | h7
        · exact ⟨by omega, hcc, fun h => h.1 h7⟩
        · exact ⟨by omega, hcc, fun h => by omega⟩
    constructor
    · unfold HexagonM.hexKeys HexagonM.cellId
      refine List.mem_map.2 ⟨_, hcell, ?_⟩
      show ((c.toNat : ℕ) : ℤ) + ((r.toNat : ℕ) : ℤ) * m.count_column = c + r * m.count_column
      rw [Int.toNat_of_nonneg hrow0, Int.toNat_of_nonneg hc0]
    · have i1 : (c + r * m.count_column) % m.count_column = c := by
        rw [Int.add_mul_emod_self_right, Int.emod_eq_of_lt hc0 hcc]
      have i2 : (c + r * m.count_column) / m.count_column = r := by
        rw [Int.add_mul_ediv_right _ _ F.cc_pos.ne', Int.ediv_eq_zero_of_lt hc0 hcc, zero_add]
      unfold HexagonM.cellCenter HexagonM.cellId hexCenter
      rw [← hc, ← hr, i1, i2]
      have : c % 2 = 1 ↔ ¬ c % 2 = 0 := by omega
      simp only [this]
      refine Prod.ext ?_ ?_
      · simp only; ring
      · simp only
        by_cases hcp : c % 2 = 0
        · simp only [hcp, not_true, if_false, if_true]; ring
        · simp only [hcp, not_false_iff, if_false, if_true]; ring
  obtain ⟨d, e1, e2, e3, e4⟩ := Dict.foldlM_incr (fun p => .ok (m.cellId p)) m.cellId m.points
    m.zeroDict (by
      intro p hp
      rw [hpts] at hp
      refine ⟨rfl, ?_⟩
      rw [m.zeroDict_eq, Dict.keys_map_zero]
      exact (key p hp).1)
  have hkeys : d.keys = m.hexKeys := by rw [e2, m.zeroDict_eq, Dict.keys_map_zero]
  refine ⟨m, d, m.cellId, hm, e1, ?_, ?_, ?_, ?_⟩
  · rw [hkeys]; exact m.nodup_hexKeys
  · intro p hp
    rw [hkeys]
    refine ⟨(key p hp).1, ?_⟩
    rw [(key p hp).2, ← hms, ← hmh]
    have hbp := h1 p hp
    rw [← hmb] at hbp
    exact (hex_assign m hh hs p hbp.1 hbp.2.2.1).1
  · intro k
    rw [e4, m.zeroDict_eq, Dict.getD0_map_zero, hpts]; simp
  · rw [e3, m.zeroDict_eq, Dict.values_sum_map_zero, hpts]; omega

/-- Non-vacuity: a concrete pattern off the boundary cases (extents 3 and 5, cells of length 2 and half
height 7/4), and its counts. -/
example : (∀ k : ℤ, (5 : ℚ) - 0 ≠ k * (2 * (7 / 8))) ∧ (∀ k : ℤ, 2 * ((3 : ℚ) - 0) ≠ (3 * k + 1) * 2)
    := by
  constructor
  · intro k h
    have : (20 : ℚ) = 7 * k := by linarith
    have : (20 : ℤ) = 7 * k := by exact_mod_cast this
    omega
  · intro k h
    have : (3 : ℚ) = 3 * k + 1 := by linarith
    have : (3 : ℤ) = 3 * k + 1 := by exact_mod_cast this
    omega

example : Geometry.bboxPts [((0 : ℚ), (0 : ℚ)), (3, 1), (2, 5), (1, 3)] = .ok ⟨0, 0, 3, 5⟩
    ∧ (HexagonM.init (7 / 8 : ℚ) [(0, 0), (3, 1), (2, 5), (1, 3)] 2).bind (·.pointLocationSta)
      = .ok [(0, 1), (1, 1), (2, 1), (3, 1)] := by decide +kernel

/-- **C51 is FALSE of the code**: for every cell length and whatever value is used for `cos(π/6)`, two
points on a vertical line whose distance is half a cell height make the counting raise `KeyError`. -/
theorem C51_hexagon_counts_refuted (cos30 lh : K) (hcos : 0 < cos30) (hlh : 0 < lh) :
    (HexagonM.init cos30 [(0, 0), (0, lh * cos30)] lh).bind (·.pointLocationSta)
      = .error .keyError := by
  obtain ⟨m, hm, hpts, hmh, hms, F, -, hro, hre, hcc⟩ :=
    hex_init hcos (points := [((0 : K), (0 : K)), (0, lh * cos30)]) (by simp) hlh
  have hs : 0 < lh * cos30 := mul_pos hlh hcos
  have hmb : m.mbb = ⟨0, 0, 0, lh * cos30⟩ := by
    have := F.bbox
    rw [hpts] at this
    simp only [Geometry.bboxPts, listMin, listMax, List.map_cons, List.map_nil, List.foldl_cons,
      List.foldl_nil, min_self, max_self, min_eq_left hs.le, max_eq_right hs.le,
      Except.ok.injEq] at this
    exact this.symm
  have h2s : (0 : K) < 2 * (lh * cos30) := by positivity
  rw [hmb] at hro hre hcc
  simp only [sub_zero] at hro hre hcc
  have hcc' : m.count_column = 1 := by
    rw [hcc]
    have : ⌈(0 - lh / 2) / (3 / 2 * lh)⌉ ≤ 0 := by
      rw [Int.ceil_le]; push_cast
      exact div_nonpos_of_nonpos_of_nonneg (by linarith) (by positivity)
    omega
  have hre' : m.count_row_even = 1 := by
    rw [hre, show (lh * cos30 + lh * cos30) / (2 * (lh * cos30)) = ((1 : ℤ) : K) by
      push_cast; rw [← two_mul, div_self h2s.ne']]
    rw [Int.ceil_intCast]; rfl
  have hro' : m.count_row_odd = 1 := by
    rw [hro, Int.ceil_eq_iff]
    push_cast
    rw [show lh * cos30 / (2 * (lh * cos30)) = 1 / 2 by field_simp]
    norm_num
  have hz : m.zeroDict = [(0, 0)] := by
    simp [HexagonM.zeroDict, hcc', hre', hro', Dict.set]
  have hidx0 : m.cellId (0, 0) = 0 := by
    unfold HexagonM.cellId HexagonM.cellIndex
    simp only [hmb, hms, hmh, hcc', sub_zero, zero_div, zero_add, Int.floor_zero, truncInt]
    have : ⌊lh * cos30 / (2 * (lh * cos30))⌋ = 0 := by
      rw [Int.floor_eq_zero_iff, show lh * cos30 / (2 * (lh * cos30)) = 1 / 2 by field_simp]
      norm_num
    rw [this]
    simp
    intro h
    exact absurd h (not_lt.2 (div_nonneg hs.le h2s.le))
  have hidx1 : m.cellId (0, lh * cos30) = 1 := by
    unfold HexagonM.cellId HexagonM.cellIndex
    simp only [hmb, hms, hmh, hcc', sub_zero, zero_div, Int.floor_zero, truncInt]
    rw [show (lh * cos30 + lh * cos30) / (2 * (lh * cos30)) = 1 by rw [← two_mul, div_self h2s.ne']]
    simp
  rw [hm]
  show m.pointLocationSta = _
  unfold HexagonM.pointLocationSta
  rw [hpts, hz]
  simp only [List.foldlM_cons, List.foldlM_nil, hidx0, hidx1]
  rfl

/-- **C52 is FALSE of the code**: for every cell length and value used for `cos(π/6)`, in this pattern
of three points the point `(2 lh, 0)` is counted in a cell whose hexagon, centred at `(0, 2 sh)`, does
not contain it. -/
theorem C52_hexagon_assignment_refuted (cos30 lh : K) (hcos : 0 < cos30) (hlh : 0 < lh) :
    ∃ m : HexagonM K, HexagonM.init cos30 [(0, 0), (2 * lh, 0), (0, 3 / 2 * (lh * cos30))] lh = .ok m
      ∧ m.pointLocationSta = .ok [(0, 1), (1, 0), (2, 2)]
      ∧ m.cellId (2 * lh, 0) = 2
      ∧ m.cellCenter 2 = (0, 2 * (lh * cos30))
      ∧ ¬ InHexagon lh (lh * cos30) (m.cellCenter 2) (2 * lh, 0) := by
  obtain ⟨m, hm, hpts, hmh, hms, F, -, hro, hre, hcc⟩ :=
    hex_init hcos (points := [((0 : K), (0 : K)), (2 * lh, 0), (0, 3 / 2 * (lh * cos30))]) (by simp) hlh
  have hs : 0 < lh * cos30 := mul_pos hlh hcos
  have hmb : m.mbb = ⟨0, 0, 2 * lh, 3 / 2 * (lh * cos30)⟩ := by
    have := F.bbox
    rw [hpts] at this
    have q1 : (0 : K) ≤ 2 * lh := by linarith
    have q2 : (0 : K) ≤ 3 / 2 * (lh * cos30) := by linarith
    simp only [Geometry.bboxPts, listMin, listMax, List.map_cons, List.map_nil, List.foldl_cons,
      List.foldl_nil, min_self, max_self, min_eq_left q1, max_eq_right q1, min_eq_left q2,
      max_eq_right q2, max_eq_left q1, Except.ok.injEq] at this
    exact this.symm
  have h2s : (0 : K) < 2 * (lh * cos30) := by positivity
  rw [hmb] at hro hre hcc
  simp only [sub_zero] at hro hre hcc
  have hcc' : m.count_column = 2 := by
    rw [hcc, show (2 * lh - lh / 2) / (3 / 2 * lh) = ((1 : ℤ) : K) by push_cast; field_simp; norm_num,
      Int.ceil_intCast]
    rfl
  have hre' : m.count_row_even = 2 := by
    have : ⌈(3 / 2 * (lh * cos30) + lh * cos30) / (2 * (lh * cos30))⌉ = 2 := by
      rw [show (3 / 2 * (lh * cos30) + lh * cos30) / (2 * (lh * cos30)) = 5 / 4 by field_simp; norm_num,
        Int.ceil_eq_iff]
      norm_num
    rw [hre, this]; rfl
  have hro' : m.count_row_odd = 1 := by
    rw [hro, show 3 / 2 * (lh * cos30) / (2 * (lh * cos30)) = 3 / 4 by field_simp; norm_num,
      Int.ceil_eq_iff]
    norm_num
  have hz : m.zeroDict = [(0, 0), (1, 0), (2, 0)] := by
    simp [HexagonM.zeroDict, hcc', hre', hro', Dict.set, List.range_succ]
  have half : lh * cos30 / (2 * (lh * cos30)) = 1 / 2 := by field_simp
  have fhalf : ⌊(1 / 2 : K)⌋ = 0 := by rw [Int.floor_eq_zero_iff]; norm_num
  have hidx0 : m.cellId (0, 0) = 0 := by
    unfold HexagonM.cellId HexagonM.cellIndex
    simp only [hmb, hms, hmh, hcc', sub_zero, zero_div, zero_add, Int.floor_zero, truncInt, half, fhalf]
    norm_num
  have hidx1 : m.cellId (2 * lh, 0) = 2 := by
    have e4 : 2 * lh / (lh / 2) = ((4 : ℤ) : K) := by push_cast; field_simp; norm_num
    have hind : hexIndicator lh (lh * cos30) (3 / 2 * lh) (lh * cos30) (2 * lh, 0) ≤ 0 := by
      rw [hexIndicator_eq hlh]
      simp only
      rw [show (0 : K) - lh * cos30 = -(lh * cos30) by ring, abs_neg, abs_of_pos hs,
        show 2 * (lh * cos30) * (lh - (2 * lh - 3 / 2 * lh)) / lh = lh * cos30 by field_simp; ring]
      linarith
    have hind' : hexIndicator lh (lh * cos30) (lh / 2 * 3) (lh * cos30) (2 * lh, 0) ≤ 0 := by
      rw [show lh / 2 * 3 = 3 / 2 * lh by ring]; exact hind
    unfold HexagonM.cellId HexagonM.cellIndex
    simp only [hmb, hms, hmh, hcc', sub_zero, zero_div, zero_add, Int.floor_zero, truncInt, half, fhalf,
      e4, Int.floor_intCast]
    norm_num [hind']
  have hidx2 : m.cellId (0, 3 / 2 * (lh * cos30)) = 2 := by
    unfold HexagonM.cellId HexagonM.cellIndex
    simp only [hmb, hms, hmh, hcc', sub_zero, zero_div, Int.floor_zero, truncInt]
    rw [show (3 / 2 * (lh * cos30) + lh * cos30) / (2 * (lh * cos30)) = 5 / 4 by field_simp; norm_num]
    have : ⌊(5 / 4 : K)⌋ = 1 := by rw [Int.floor_eq_iff]; norm_num
    norm_num [this]
  have hcen : m.cellCenter 2 = (0, 2 * (lh * cos30)) := by
    unfold HexagonM.cellCenter
    simp only [hmb, hms, hmh, hcc']
    norm_num
    ring
  refine ⟨m, hm, ?_, hidx1, hcen, ?_⟩
  · unfold HexagonM.pointLocationSta
    rw [hpts, hz]
    simp only [List.foldlM_cons, List.foldlM_nil, hidx0, hidx1, hidx2]
    rfl
  · rw [hcen]
    rintro ⟨h1, -⟩
    simp only at h1
    rw [show (0 : K) - 2 * (lh * cos30) = -(2 * (lh * cos30)) by ring, abs_neg, abs_of_pos h2s] at h1
    linarith

/-- **C53, exact condition.** For every pattern and cell size the dictionary has
`rows_even * ⌈columns/2⌉ + rows_odd * ⌊columns/2⌋` cells, and the reported number `num` is that number
exactly if the number of columns is even or even and odd columns have equally many rows. -/
theorem C53_hexagon_num_partial (cos30 : K) (hcos : 0 < cos30) (points : List (K × K))
    (hne : points ≠ []) (lh : K) (hlh : 0 < lh) :
    ∃ m : HexagonM K, HexagonM.init cos30 points lh = .ok m
      ∧ (m.zeroDict.length : ℤ)
          = m.count_row_even * ((m.count_column + 1) / 2) + m.count_row_odd * (m.count_column / 2)
      ∧ (m.num = m.zeroDict.length ↔
          (m.count_column % 2 = 0 ∨ m.count_row_even = m.count_row_odd)) := by
  obtain ⟨m, hm, hpts, hmh, hms, F, hnum, -⟩ := hex_init hcos hne hlh
  have hlen : (m.zeroDict.length : ℤ)
      = m.count_row_even * ((m.count_column + 1) / 2) + m.count_row_odd * (m.count_column / 2) := by
    rw [m.zeroDict_eq]
    simp only [List.length_map, HexagonM.hexKeys]
    exact m.length_cells F.cc_pos.le F.cre_pos F.rows
  refine ⟨m, hm, hlen, ?_⟩
  rw [hlen, hnum]
  have hpar : (m.count_column + 1) / 2 = m.count_column / 2 + m.count_column % 2 := by omega
  rw [hpar]
  have hmod : m.count_column % 2 = 0 ∨ m.count_column % 2 = 1 := by omega
  rcases hmod with h | h
  · rw [h]; simp; ring
  · rw [h]
    constructor
    · intro h'
      right
      nlinarith
    · rintro (h' | h')
      · omega
      · rw [h']

/-- Both cases of C53 occur: here `num` is right ... -/
example : ((HexagonM.init (7 / 8 : ℚ) [(0, 0), (3, 1), (2, 5), (1, 3)] 2).map fun m =>
    (m.num, m.zeroDict.length)) = .ok (4, 4) := by decide +kernel

/-- ... and **C53 is FALSE of the code** here: three columns, two rows in the even ones and one in the
odd one are five cells, but `num` is 4. -/
theorem C53_hexagon_num_refuted :
    ((HexagonM.init (7 / 8 : ℚ) [(0, 0), (5, 1), (2, 3)] 2).map fun m =>
      (m.count_column, m.count_row_even, m.count_row_odd, m.num, m.zeroDict.length))
      = .ok (3, 2, 1, 4, 5) := by decide +kernel

end Pointpats.Props
