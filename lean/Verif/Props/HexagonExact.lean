import Verif.Lemmas.HexBorder
import Mathlib.Data.Rat.Floor

/-!
# C51, C52: the points that the hexagonal grid does not count
-/

namespace Pointpats.Props

open Quadrat Spec

variable {K : Type} [Field K] [LinearOrder K] [IsStrictOrderedRing K] [FloorRing K]

set_option linter.unusedSectionVars false

private theorem center_of_id (m : HexagonM K) {c r : ℤ} (h0 : 0 ≤ c) (h1 : c < m.count_column) :
    m.cellCenter (c + r * m.count_column) = hexCenter m (c, r) := by
  have i1 : (c + r * m.count_column) % m.count_column = c := by
    rw [Int.add_mul_emod_self_right, Int.emod_eq_of_lt h0 h1]
  have i2 : (c + r * m.count_column) / m.count_column = r := by
    rw [Int.add_mul_ediv_right _ _ (by omega), Int.ediv_eq_zero_of_lt h0 h1, zero_add]
  unfold HexagonM.cellCenter hexCenter
  rw [i1, i2]
  have : c % 2 = 1 ↔ ¬ c % 2 = 0 := by omega
  simp only [this]
  refine Prod.ext ?_ ?_
  · simp only; ring
  · simp only
    by_cases hcp : c % 2 = 0
    · simp only [hcp, not_true, if_false, if_true]; ring
    · simp only [hcp, not_false_iff, if_false, if_true]; ring

private theorem id_mem_iff (m : HexagonM K) {c r : ℤ} (h0 : 0 ≤ c) (h1 : c < m.count_column) :
    c + r * m.count_column ∈ m.hexKeys ↔ 0 ≤ r ∧ r < m.count_row_even
      ∧ ¬ (m.count_row_even ≠ m.count_row_odd ∧ r = m.count_row_even - 1 ∧ c % 2 = 1) := by
  unfold HexagonM.hexKeys
  rw [List.mem_map]
  constructor
  · rintro ⟨⟨i, j⟩, hij, he⟩
    rw [HexagonM.mem_cells] at hij
    simp only at he
    rw [Int.add_comm (j : ℤ), Int.add_comm c] at he
    obtain ⟨rfl, rfl⟩ := (key_inj (by omega) hij.2.1 h0 h1).1 he
    exact ⟨by omega, hij.1, hij.2.2⟩
  · rintro ⟨h2, h3, h4⟩
    refine ⟨(r.toNat, c.toNat), ?_, ?_⟩
    · rw [HexagonM.mem_cells, Int.toNat_of_nonneg h2, Int.toNat_of_nonneg h0]
      exact ⟨h3, h1, h4⟩
    · simp only
      rw [Int.toNat_of_nonneg h2, Int.toNat_of_nonneg h0]

private theorem key_error (f : K × K → ℤ) (l : List (K × K)) : ∀ d : Dict, (∃ p ∈ l, f p ∉ d.keys) →
    l.foldlM (fun d p => Dict.incr (f p) d) d = .error .keyError := by
  induction l with
  | nil => simp
  | cons a l ih =>
    intro d h
    rw [List.foldlM_cons]
    by_cases ha : f a ∈ d.keys
    · obtain ⟨d', e1, e2, -⟩ := Dict.incr_of_mem ha
      rw [e1]
      refine ih d' ?_
      obtain ⟨p, hp, hpn⟩ := h
      rcases List.mem_cons.1 hp with rfl | hp
      · exact absurd ha hpn
      · exact ⟨p, hp, by rw [e2]; exact hpn⟩
    · rw [Dict.incr_of_not_mem ha]
      rfl

set_option maxHeartbeats 800000 in
/-- **C51 and C52, exactly.** `cos30` is the value used for `cos(π/6)`, any positive number.

* If no event is on the upper border of the bounding box and on the upper side of a hexagon, or on the right border and
  at the upper right corner of a hexagon, then the grid counts every event exactly once, in a cell whose hexagon
  contains it, and the counts add up to the number of events.
* If an event is on such an upper side, the counting fails with a `KeyError`.
* If an event is at such a corner, the counting fails with a `KeyError`, or counts the event in a cell whose hexagon
  does not contain it.

Missing for the full properties: exactly the events of the last two points. -/
theorem C51_C52_exact_partial (cos30 : K) (hcos : 0 < cos30) (points : List (K × K))
    (lh : K) (hlh : 0 < lh) (b : BBox K) (hb : Geometry.bboxPts points = .ok b) :
    ∃ m : HexagonM K, HexagonM.init cos30 points lh = .ok m
      ∧ ((∀ p ∈ points, ¬ OnTopSide lh (lh * cos30) b.xmin b.ymin b.ymax p ∧ ¬ OnRightCorner lh (lh * cos30) b.xmin b.xmax b.ymin b.ymax p) →
          ∃ d, m.pointLocationSta = .ok d ∧ d.keys.Nodup
            ∧ (∀ p ∈ points, m.cellId p ∈ d.keys ∧ InHexagon lh (lh * cos30) (m.cellCenter (m.cellId p)) p)
            ∧ (∀ k, Dict.getD0 k d = (points.filter fun p => m.cellId p = k).length)
            ∧ d.values.sum = points.length)
      ∧ ((∃ p ∈ points, OnTopSide lh (lh * cos30) b.xmin b.ymin b.ymax p) → m.pointLocationSta = .error .keyError)
      ∧ ∀ p ∈ points, OnRightCorner lh (lh * cos30) b.xmin b.xmax b.ymin b.ymax p → m.pointLocationSta = .error .keyError
          ∨ ∃ d, m.pointLocationSta = .ok d
            ∧ (∀ k, Dict.getD0 k d = (points.filter fun p => m.cellId p = k).length)
            ∧ ¬ InHexagon lh (lh * cos30) (m.cellCenter (m.cellId p)) p := by
  have hne : points ≠ [] := by
    rintro rfl
    simp [Geometry.bboxPts] at hb
  obtain ⟨m, hm, hpts, hmh, hms, F, -, hro, hre, hccol⟩ := hex_init hcos hne hlh
  have hmb : m.mbb = b := by
    have := F.bbox; rw [hpts, hb] at this; exact (Except.ok.inj this).symm
  obtain ⟨h1, -⟩ := Geometry.bboxPts_spec hb
  have hs := F.s_pos
  have hh := F.h_pos
  have h2s : 0 < 2 * m.semi_height := by positivity
  rw [← hms] at hro hre
  rw [← hmb] at h1
  refine ⟨m, hm, ?_⟩
  rw [← hms, ← hmh, ← hmb]
  have hzero : m.zeroDict.keys = m.hexKeys := by rw [m.zeroDict_eq, Dict.keys_map_zero]
  -- counting when every key exists
  have count : (∀ p ∈ points, m.cellId p ∈ m.hexKeys) → ∃ d, m.pointLocationSta = .ok d ∧ d.keys = m.hexKeys
      ∧ (∀ k, Dict.getD0 k d = (points.filter fun p => m.cellId p = k).length) ∧ d.values.sum = points.length := by
    intro hk
    obtain ⟨d, e1, e2, e3, e4⟩ := Dict.foldlM_incr (fun p => .ok (m.cellId p)) m.cellId m.points m.zeroDict (by
      intro p hp
      rw [hpts] at hp
      exact ⟨rfl, by rw [hzero]; exact hk p hp⟩)
    refine ⟨d, e1, by rw [e2, hzero], ?_, ?_⟩
    · intro k
      rw [e4, m.zeroDict_eq, Dict.getD0_map_zero, hpts]; simp
    · rw [e3, m.zeroDict_eq, Dict.values_sum_map_zero, hpts]; simp
  have fails : (∃ p ∈ points, m.cellId p ∉ m.hexKeys) → m.pointLocationSta = .error .keyError := by
    intro hk
    have := key_error m.cellId points m.zeroDict (by rw [hzero]; exact hk)
    unfold HexagonM.pointLocationSta
    rw [hpts]
    exact this
  -- the facts about one event
  have facts : ∀ p ∈ points, (0 : ℤ) ≤ (m.cellIndex p).1 ∧ 0 ≤ (m.cellIndex p).2 := by
    intro p hp
    have hbp := h1 p hp
    obtain ⟨-, hc0, -, hrow⟩ := hex_assign m hh hs p hbp.1 hbp.2.2.1
    refine ⟨hc0, ?_⟩
    rw [hrow]
    split <;> exact Int.floor_nonneg.2 (div_nonneg (by linarith) h2s.le)
  refine ⟨fun hgood => ?_, ?_, ?_⟩
  · have key : ∀ p ∈ points, m.cellId p ∈ m.hexKeys
        ∧ InHexagon m.h_length m.semi_height (m.cellCenter (m.cellId p)) p := by
      intro p hp
      have hbp := h1 p hp
      obtain ⟨hin, hc0, hcx, hrow⟩ := hex_assign m hh hs p hbp.1 hbp.2.2.1
      obtain ⟨-, hr0⟩ := facts p hp
      obtain ⟨hntop, hncor⟩ := hgood p hp
      have hband := fun k hk hpar => band_of_column m hh hs p hbp.2.2.1 (k := k) hk hpar
      by_cases hcc : (m.cellIndex p).1 < m.count_column
      · refine ⟨(id_mem_iff m hc0 hcc).2 ⟨hr0, ?_⟩, ?_⟩
        · by_cases heven : (m.cellIndex p).1 % 2 = 0
          · rw [if_pos heven] at hrow
            refine ⟨?_, by omega⟩
            by_contra hcon
            push Not at hcon
            have h3 : (m.count_row_even : K) ≤ ((m.cellIndex p).2 : K) := by exact_mod_cast hcon
            have h4 : ((m.cellIndex p).2 : K) * (2 * m.semi_height) ≤ p.2 + m.semi_height - m.mbb.ymin := by
              rw [hrow, ← le_div_iff₀ h2s]; exact Int.floor_le _
            have h5 := mul_le_mul_of_nonneg_right h3 h2s.le
            have h6 := F.cre_ge
            have e1 : p.2 = m.mbb.ymax := by linarith [hbp.2.2.2]
            have e2 : p.2 - m.mbb.ymin = ((2 * m.count_row_even - 1 : ℤ) : K) * m.semi_height := by
              push_cast; linarith [hbp.2.2.2]
            obtain ⟨b1, b2⟩ := hband _ e2 (by omega)
            refine hntop ⟨e1, (m.cellIndex p).1, 2 * m.count_row_even - 2, by omega, ?_, by linarith, by linarith⟩
            rw [← e1, e2]; push_cast; ring
          · rw [if_neg heven] at hrow
            have hro' : (m.cellIndex p).2 < m.count_row_odd := by
              by_contra hcon
              push Not at hcon
              have h3 : (m.count_row_odd : K) ≤ ((m.cellIndex p).2 : K) := by exact_mod_cast hcon
              have h4 : ((m.cellIndex p).2 : K) * (2 * m.semi_height) ≤ p.2 - m.mbb.ymin := by
                rw [hrow, ← le_div_iff₀ h2s]; exact Int.floor_le _
              have h5 := mul_le_mul_of_nonneg_right h3 h2s.le
              have h6 := F.cro_ge
              have e1 : p.2 = m.mbb.ymax := by linarith [hbp.2.2.2]
              have e2 : p.2 - m.mbb.ymin = ((2 * m.count_row_odd : ℤ) : K) * m.semi_height := by
                push_cast; linarith [hbp.2.2.2]
              obtain ⟨b1, b2⟩ := hband _ e2 (by omega)
              refine hntop ⟨e1, (m.cellIndex p).1, 2 * m.count_row_odd - 1, by omega, ?_, by linarith, by linarith⟩
              rw [← e1, e2]; push_cast; ring
            rcases F.rows with h7 | h7
            · exact ⟨by omega, fun h => h.1 h7⟩
            · exact ⟨by omega, fun h => by omega⟩
        · show InHexagon _ _ (m.cellCenter ((m.cellIndex p).1 + (m.cellIndex p).2 * m.count_column)) p
          rw [center_of_id m hc0 hcc]
          exact hin
      · -- the column beyond the last one
        push Not at hcc
        have h3 : (m.count_column : K) ≤ ((m.cellIndex p).1 : K) := by exact_mod_cast hcc
        have h4 := mul_le_mul_of_nonneg_right h3 hh.le
        have h5 := F.cc_ge
        have e1 : p.1 = m.mbb.xmax := by linarith [hbp.2.1]
        have e2 : 2 * (p.1 - m.mbb.xmin) = (3 * ((m.count_column - 1 : ℤ) : K) + 1) * m.h_length := by
          push_cast; linarith [hbp.2.1]
        rcases column_of_corner m hh hs p hbp.2.2.1 e2 with ⟨hcol, -⟩ | ⟨hcol, j, hj, hpar⟩
        · omega
        · have hcp := F.cc_pos
          have hsmall : ¬ (0 < m.count_column - 1 ∨ p.2 = m.mbb.ymax) := by
            intro hor
            refine hncor ⟨e1, m.count_column - 1, j - 1, by omega, by push_cast; linarith, ?_, hor⟩
            rw [← e1]; push_cast at e2 ⊢; linarith
          push Not at hsmall
          have hc1 : m.count_column = 1 := by omega
          have hcell1 : (m.cellIndex p).1 = 1 := by omega
          rw [hcell1] at hrow
          norm_num at hrow
          have hjr : j = 2 * (m.cellIndex p).2 + 1 := by
            have : (m.cellIndex p).2 = (j - 1) / 2 := by
              rw [hrow, hj, Int.floor_eq_iff, le_div_iff₀ h2s, div_lt_iff₀ h2s]
              have hk : (((j - 1) / 2 : ℤ) : K) * 2 = j - 1 := by
                exact_mod_cast (by omega : (j - 1) / 2 * 2 = j - 1)
              constructor <;> nlinarith
            omega
          have hid : m.cellId p = 0 + ((m.cellIndex p).2 + 1) * m.count_column := by
            show (m.cellIndex p).1 + (m.cellIndex p).2 * m.count_column = _
            rw [hcell1, hc1]; ring
          rw [hid]
          constructor
          · rw [id_mem_iff m le_rfl hcp]
            refine ⟨by omega, ?_, by omega⟩
            have hlt : p.2 < m.mbb.ymax := lt_of_le_of_ne hbp.2.2.2 hsmall.2
            have h6 := F.cre_ge
            rw [hjr] at hj
            push_cast at hj
            have : (((m.cellIndex p).2 + 1 : ℤ) : K) * (2 * m.semi_height) < (m.count_row_even : K) * (2 * m.semi_height) := by
              push_cast; linarith
            exact_mod_cast lt_of_mul_lt_mul_right this h2s.le
          · rw [center_of_id m le_rfl hcp]
            have d1 : p.1 - (hexCenter m (0, (m.cellIndex p).2 + 1)).1 = m.h_length / 2 := by
              rw [hc1] at e2
              simp only [hexCenter]
              push_cast at e2 ⊢
              linarith
            have d2 : p.2 - (hexCenter m (0, (m.cellIndex p).2 + 1)).2 = -m.semi_height := by
              rw [hjr] at hj
              simp only [hexCenter]
              push_cast at hj ⊢
              linarith
            unfold InHexagon
            rw [d1, d2, abs_neg, abs_of_pos hs, abs_of_pos (by positivity)]
            exact ⟨le_rfl, by linarith⟩
    obtain ⟨d, d1, d2, d3, d4⟩ := count (fun p hp => (key p hp).1)
    refine ⟨d, d1, by rw [d2]; exact m.nodup_hexKeys, ?_, d3, d4⟩
    intro p hp
    rw [d2]
    exact key p hp
  · rintro ⟨p, hp, ht, c, i, hpar, hi, hl, hr⟩
    refine fails ⟨p, hp, ?_⟩
    have hbp := h1 p hp
    obtain ⟨-, hc0, hcx, hrow⟩ := hex_assign m hh hs p hbp.1 hbp.2.2.1
    have hcol : (m.cellIndex p).1 = c := column_of_band m hh hs p hbp.2.2.1 (by linarith) (by linarith)
    have hcc : c < m.count_column := by
      have h5 := F.cc_ge
      have : ((3 * c - 1 : ℤ) : K) * m.h_length ≤ ((3 * (m.count_column - 1) + 1 : ℤ) : K) * m.h_length := by
        push_cast; linarith [hbp.2.1]
      have : (3 * c - 1 : ℤ) ≤ 3 * (m.count_column - 1) + 1 := by
        exact_mod_cast le_of_mul_le_mul_right this hh
      omega
    rw [hcol] at hrow hc0
    show (m.cellIndex p).1 + (m.cellIndex p).2 * m.count_column ∉ _
    rw [hcol, id_mem_iff m hc0 hcc]
    have hi0 : 0 ≤ i + 1 := by
      have : (0 : K) ≤ ((i + 1 : ℤ) : K) * m.semi_height := by push_cast; rw [← hi]; linarith [hbp.2.2.1, hbp.2.2.2]
      have := nonneg_of_mul_nonneg_left this hs
      exact_mod_cast this
    have hy : p.2 - m.mbb.ymin = (i + 1) * m.semi_height := by rw [ht]; exact hi
    by_cases heven : c % 2 = 0
    · rw [if_pos heven] at hrow
      have hq : ((i : K) + 2) / 2 = ((i / 2 + 1 : ℤ) : K) := by
        have : ((i / 2 : ℤ) : K) * 2 = i := by exact_mod_cast (by omega : i / 2 * 2 = i)
        push_cast; linarith
      have e1 : (m.cellIndex p).2 = i / 2 + 1 := by
        rw [hrow, show (p.2 + m.semi_height - m.mbb.ymin) / (2 * m.semi_height) = ((i : K) + 2) / 2 by
          rw [show p.2 + m.semi_height - m.mbb.ymin = ((i : K) + 2) * m.semi_height by linarith]
          field_simp, hq, Int.floor_intCast]
      have e2 : m.count_row_even = max 1 (i / 2 + 1) := by
        rw [hre, show (m.mbb.ymax - m.mbb.ymin + m.semi_height) / (2 * m.semi_height) = ((i : K) + 2) / 2 by
          rw [show m.mbb.ymax - m.mbb.ymin + m.semi_height = ((i : K) + 2) * m.semi_height by linarith]
          field_simp, hq, Int.ceil_intCast]
      omega
    · rw [if_neg heven] at hrow
      have hq : ((i : K) + 1) / 2 = (((i + 1) / 2 : ℤ) : K) := by
        have : (((i + 1) / 2 : ℤ) : K) * 2 = i + 1 := by exact_mod_cast (by omega : (i + 1) / 2 * 2 = i + 1)
        linarith
      have e1 : (m.cellIndex p).2 = (i + 1) / 2 := by
        rw [hrow, hy, show ((i : K) + 1) * m.semi_height / (2 * m.semi_height) = ((i : K) + 1) / 2 by
          field_simp, hq, Int.floor_intCast]
      have e2 : m.count_row_odd = (i + 1) / 2 := by
        rw [hro, hi, show ((i : K) + 1) * m.semi_height / (2 * m.semi_height) = ((i : K) + 1) / 2 by
          field_simp, hq, Int.ceil_intCast]
      have := F.rows
      omega
  · rintro p hp ⟨hx, c, i, hpar, hi, hl, hor⟩
    by_cases hall : ∀ p ∈ points, m.cellId p ∈ m.hexKeys
    · right
      obtain ⟨d, d1, d2, d3, d4⟩ := count hall
      refine ⟨d, d1, d3, ?_⟩
      have hbp := h1 p hp
      obtain ⟨-, hc0, hcx, hrow⟩ := hex_assign m hh hs p hbp.1 hbp.2.2.1
      obtain ⟨-, hr0⟩ := facts p hp
      have hc00 : 0 ≤ c := by
        have : (0 : K) ≤ ((3 * c + 1 : ℤ) : K) * m.h_length := by push_cast; linarith [hbp.1]
        have := nonneg_of_mul_nonneg_left this hh
        have : (0 : ℤ) ≤ 3 * c + 1 := by exact_mod_cast this
        omega
      have e2 : 2 * (p.1 - m.mbb.xmin) = (3 * (c : K) + 1) * m.h_length := by rw [hx]; linarith
      have hcol : (m.cellIndex p).1 = c + 1 := by
        rcases column_of_corner m hh hs p hbp.2.2.1 e2 with ⟨-, hno⟩ | ⟨hcol, -⟩
        · exact absurd ⟨i + 1, by push_cast; exact hi, by omega⟩ hno
        · exact hcol
      have hcp := F.cc_pos
      have hccq : m.count_column = c + 1 := by
        rw [hccol, ← hmh, hl, show (3 / 2 * (c : K) * m.h_length + m.h_length / 2 - m.h_length / 2) / (3 / 2 * m.h_length) = (c : K) by
          field_simp; ring, Int.ceil_intCast]
        omega
      have hid : m.cellId p = 0 + ((m.cellIndex p).2 + 1) * m.count_column := by
        show (m.cellIndex p).1 + (m.cellIndex p).2 * m.count_column = _
        rw [hcol, hccq]; ring
      by_cases hpos : 0 < c
      · rw [hid, center_of_id m le_rfl hcp]
        rintro ⟨-, hin⟩
        have hdx : p.1 - (hexCenter m (0, (m.cellIndex p).2 + 1)).1 = p.1 - m.mbb.xmin := by
          simp only [hexCenter]; push_cast; ring
        rw [hdx] at hin
        have hc1 : (1 : K) ≤ (c : K) := by exact_mod_cast hpos
        have hbig : m.h_length < p.1 - m.mbb.xmin := by nlinarith
        rw [abs_of_pos (by linarith)] at hin
        have := mul_lt_mul_of_pos_left hbig h2s
        have := mul_nonneg hh.le (abs_nonneg (p.2 - (hexCenter m (0, (m.cellIndex p).2 + 1)).2))
        linarith
      · exfalso
        have htop : p.2 = m.mbb.ymax := hor.resolve_left hpos
        have hc0' : c = 0 := by omega
        have hk := hall p hp
        rw [hid, id_mem_iff m le_rfl hcp] at hk
        rw [hcol, hc0'] at hrow
        norm_num at hrow
        have hi0 : 0 ≤ i + 1 := by
          have : (0 : K) ≤ ((i + 1 : ℤ) : K) * m.semi_height := by push_cast; rw [← hi]; linarith [hbp.2.2.1]
          have := nonneg_of_mul_nonneg_left this hs
          exact_mod_cast this
        have h2i : ((i / 2 : ℤ) : K) * 2 = i := by exact_mod_cast (by omega : i / 2 * 2 = i)
        have e3 : (m.cellIndex p).2 = i / 2 := by
          rw [hrow, hi, Int.floor_eq_iff, le_div_iff₀ h2s, div_lt_iff₀ h2s]
          have h2is : ((i / 2 : ℤ) : K) * (2 * m.semi_height) = i * m.semi_height := by rw [← h2i]; ring
          constructor <;> linarith
        have e4 : m.count_row_even = max 1 (i / 2 + 1) := by
          rw [hre, ← htop, hi, show (((i : K) + 1) * m.semi_height + m.semi_height) / (2 * m.semi_height) = ((i / 2 + 1 : ℤ) : K) by
            push_cast; field_simp; linarith, Int.ceil_intCast]
        omega
    · left
      push Not at hall
      exact fails hall

/-- A pattern as high as half a hexagon whose upper event is not on the upper side of a hexagon meets the first
condition. -/
example : Geometry.bboxPts [((0 : ℚ), (0 : ℚ)), (1, 1)] = .ok ⟨0, 0, 1, 1⟩
    ∧ ∀ p ∈ [((0 : ℚ), (0 : ℚ)), (1, 1)], ¬ OnTopSide 1 (1 * 1) 0 0 1 p ∧ ¬ OnRightCorner 1 (1 * 1) 0 1 0 1 p := by
  refine ⟨by decide +kernel, ?_⟩
  intro p hp
  constructor
  · rintro ⟨h1, c, i, hpar, hi, hl, hr⟩
    simp only [List.mem_cons, List.not_mem_nil, or_false] at hp
    rcases hp with rfl | rfl
    · norm_num at h1
    · have hi' : i = 0 := by
        have : (i : ℚ) = 0 := by linarith
        exact_mod_cast this
      have a1 : (1 : ℚ) < 3 * (c : ℚ) := by norm_num at hr; linarith
      have a2 : 3 * (c : ℚ) ≤ 3 := by norm_num at hl; linarith
      have b1 : (1 : ℤ) < 3 * c := by exact_mod_cast a1
      have b2 : 3 * c ≤ (3 : ℤ) := by exact_mod_cast a2
      omega
  · rintro ⟨h1, c, i, hpar, hi, hl, hor⟩
    have a1 : 3 * (c : ℚ) = 1 := by linarith
    have b1 : 3 * c = (1 : ℤ) := by exact_mod_cast a1
    omega

/-- An event above the other one at half the height of a hexagon is on an upper side. -/
example : OnTopSide (1 : ℚ) (1 * 1) 0 0 1 (0, 1) := ⟨rfl, 0, 0, by norm_num, by norm_num, by norm_num, by norm_num⟩

/-- An event at twice the side of a hexagon to the right of the first one is on a corner; here it is counted in the
hexagon above the first event. -/
example : OnRightCorner (1 : ℚ) (1 * 1) 0 2 0 (5 / 2) (2, 0) :=
  ⟨rfl, 1, -1, by norm_num, by norm_num, by norm_num, Or.inl one_pos⟩

example : (HexagonM.init 1 [((0 : ℚ), (0 : ℚ)), (2, 0), (0, 5 / 2)] 1).map (fun m => (m.cellId (2, 0), m.cellCenter (m.cellId (2, 0)),
    m.pointLocationSta)) = .ok (2, (0, 2), .ok [(0, 1), (1, 0), (2, 2), (3, 0)]) := by decide +kernel

end Pointpats.Props
