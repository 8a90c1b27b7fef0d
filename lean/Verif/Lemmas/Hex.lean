import Verif.Model.Quadrat
import Verif.Spec.Quadrat
import Verif.Lemmas.Rect

/-! # Helper lemmas for the hexagonal grid -/

namespace Pointpats.Quadrat

open Spec

variable {K : Type} [Field K] [LinearOrder K]

/-- The cells of the hexagonal grid as (row, column) pairs, in dictionary order. -/
def HexagonM.cells (m : HexagonM K) : List (ℕ × ℕ) :=
  (List.range m.count_row_even.toNat).flatMap fun (i : ℕ) =>
    ((List.range m.count_column.toNat).filter fun (j : ℕ) =>
      ¬ (m.count_row_even ≠ m.count_row_odd ∧ (i : ℤ) = m.count_row_even - 1 ∧ (j : ℤ) % 2 = 1)).map
        fun (j : ℕ) => (i, j)

/-- The keys of the hexagonal grid. -/
def HexagonM.hexKeys (m : HexagonM K) : List ℤ :=
  m.cells.map fun c => (c.2 : ℤ) + (c.1 : ℤ) * m.count_column

omit [Field K] [LinearOrder K] in
theorem HexagonM.mem_cells (m : HexagonM K) (i j : ℕ) : (i, j) ∈ m.cells ↔
    (i : ℤ) < m.count_row_even ∧ (j : ℤ) < m.count_column ∧
    ¬ (m.count_row_even ≠ m.count_row_odd ∧ (i : ℤ) = m.count_row_even - 1 ∧ (j : ℤ) % 2 = 1) := by
  simp only [HexagonM.cells, List.mem_flatMap, List.mem_range, List.mem_map, List.mem_filter,
    Prod.mk.injEq]
  constructor
  · rintro ⟨a, ha, b, ⟨hb, hc⟩, rfl, rfl⟩
    exact ⟨by omega, by omega, of_decide_eq_true hc⟩
  · rintro ⟨ha, hb, hc⟩
    exact ⟨i, by omega, j, ⟨by omega, decide_eq_true hc⟩, rfl, rfl⟩

omit [Field K] [LinearOrder K] in
theorem HexagonM.nodup_cells (m : HexagonM K) : m.cells.Nodup := by
  unfold HexagonM.cells
  rw [List.nodup_flatMap]
  constructor
  · intro i _
    exact (List.nodup_range.filter _).map (fun a b h => by simpa using h)
  · refine List.nodup_range.imp ?_
    intro a b hab x hx hx'
    simp only [List.mem_map] at hx hx'
    obtain ⟨_, _, rfl⟩ := hx
    obtain ⟨_, _, h⟩ := hx'
    simp at h
    exact hab h.1.symm

omit [Field K] [LinearOrder K] in
theorem HexagonM.nodup_hexKeys (m : HexagonM K) : m.hexKeys.Nodup := by
  unfold HexagonM.hexKeys
  refine m.nodup_cells.map_on ?_
  rintro ⟨a, b⟩ hx ⟨c, d⟩ hy h
  rw [HexagonM.mem_cells] at hx hy
  simp only at h
  rw [Int.add_comm (b : ℤ), Int.add_comm (d : ℤ)] at h
  have := (key_inj (by omega) hx.2.1 (by omega) hy.2.1).1 h
  simp only [Prod.mk.injEq]
  omega

omit [Field K] [LinearOrder K] in
theorem HexagonM.zeroDict_eq (m : HexagonM K) : m.zeroDict = m.hexKeys.map fun k => (k, 0) := by
  have h1 : m.zeroDict = m.hexKeys.foldl (fun d k => Dict.set k 0 d) [] := by
    unfold HexagonM.zeroDict HexagonM.hexKeys HexagonM.cells
    rw [List.map_flatMap, List.foldl_flatMap]
    congr 1
    funext d i
    simp only [List.foldl_map, List.foldl_filter, List.map_map]
    congr 1
    funext d j
    by_cases h : m.count_row_even ≠ m.count_row_odd ∧ (i : ℤ) = m.count_row_even - 1 ∧ (j : ℤ) % 2 = 1
    · rw [if_pos h]; simp [h]
    · rw [if_neg h]; simp only [h, not_false_eq_true, decide_true, if_true, Function.comp]
  rw [h1, Dict.foldl_set _ _ m.nodup_hexKeys (by simp [Dict.keys])]
  simp

theorem length_filter_even (c : ℕ) :
    ((List.range c).filter fun (j : ℕ) => decide (¬ ((j : ℤ) % 2 = 1))).length = (c + 1) / 2 := by
  induction c with
  | zero => rfl
  | succ c ih =>
    rw [List.range_succ, List.filter_append, List.length_append, ih]
    by_cases h : (c : ℤ) % 2 = 1
    · rw [List.filter_cons_of_neg (by simp [h])]; simp; omega
    · rw [List.filter_cons_of_pos (by simp only [h, not_false_iff, decide_true])]; simp; omega

omit [Field K] [LinearOrder K] in
theorem HexagonM.length_cells (m : HexagonM K) (hc : 0 ≤ m.count_column) (hr : 0 < m.count_row_even)
    (hrows : m.count_row_even = m.count_row_odd ∨ m.count_row_even = m.count_row_odd + 1) :
    (m.cells.length : ℤ)
      = m.count_row_even * ((m.count_column + 1) / 2) + m.count_row_odd * (m.count_column / 2) := by
  unfold HexagonM.cells
  obtain ⟨c, hc⟩ := Int.eq_ofNat_of_zero_le hc
  obtain ⟨r, hr⟩ := Int.eq_ofNat_of_zero_le hr.le
  simp only [List.length_flatMap, List.length_map]
  have hr0 : 0 < (r : ℤ) := by omega
  rw [hr] at hrows
  rw [hc, hr]
  generalize m.count_row_odd = o at *
  simp only [Int.toNat_natCast]
  have hcc : (c : ℤ) = ((c : ℤ) + 1) / 2 + (c : ℤ) / 2 := by omega
  rcases hrows with h7 | h7
  · subst h7
    have : ∀ i : ℕ, ((List.range c).filter fun (j : ℕ) =>
        decide (¬ ((r : ℤ) ≠ (r : ℤ) ∧ (i : ℤ) = (r : ℤ) - 1 ∧ (j : ℤ) % 2 = 1))).length = c := by
      intro i
      rw [List.filter_eq_self.2, List.length_range]
      intro a _
      simp
    simp only [this]
    rw [List.map_const', List.sum_replicate, List.length_range, ← Int.mul_add, ← hcc]
    simp
  · obtain ⟨r', rfl⟩ : ∃ r', r = r' + 1 := ⟨r - 1, by omega⟩
    · have h8 : o = (r' : ℤ) := by push_cast at h7; omega
      subst h8
      have e0 : ∀ i : ℕ, ((List.range c).filter fun (j : ℕ) =>
          decide (¬ (((r' + 1 : ℕ) : ℤ) ≠ (r' : ℤ) ∧ (i : ℤ) = ((r' + 1 : ℕ) : ℤ) - 1
            ∧ (j : ℤ) % 2 = 1))).length = if i = r' then (c + 1) / 2 else c := by
        intro i
        split
        · next h =>
          subst h
          rw [← length_filter_even c]
          congr 1
          apply List.filter_congr
          intro a _
          rw [decide_eq_decide]
          push_cast
          omega
        · next h =>
          rw [List.filter_eq_self.2, List.length_range]
          intro a _
          rw [decide_eq_true_eq]
          push_cast
          omega
      simp only [e0]
      rw [List.range_succ, List.map_append, List.sum_append]
      have e1 : (List.range r').map (fun i => if i = r' then (c + 1) / 2 else c)
          = (List.range r').map (fun _ => c) := by
        apply List.map_congr_left
        intro a ha
        rw [List.mem_range] at ha
        rw [if_neg (by omega)]
      rw [e1, List.map_const', List.sum_replicate, List.length_range]
      simp only [List.map_cons, List.map_nil, List.sum_cons, List.sum_nil, if_true, nsmul_eq_mul, Nat.cast_id]
      push_cast
      have : (r' : ℤ) * (c : ℤ) = (r' : ℤ) * (((c : ℤ) + 1) / 2 + (c : ℤ) / 2) := by rw [← hcc]
      rw [this]
      ring

variable [IsStrictOrderedRing K] [FloorRing K]

/-- The facts about a constructed hexagonal grid that the proofs use. -/
structure HexFacts (m : HexagonM K) : Prop where
  h_pos : 0 < m.h_length
  s_pos : 0 < m.semi_height
  bbox : Geometry.bboxPts m.points = .ok m.mbb
  cc_pos : 0 < m.count_column
  cc_ge : m.mbb.xmax - m.mbb.xmin ≤ 3 / 2 * ((m.count_column : K) - 1) * m.h_length + m.h_length / 2
  cre_pos : 0 < m.count_row_even
  cre_ge : (m.mbb.ymax - m.mbb.ymin) + m.semi_height ≤ (m.count_row_even : K) * (2 * m.semi_height)
  cro_ge : m.mbb.ymax - m.mbb.ymin ≤ (m.count_row_odd : K) * (2 * m.semi_height)
  cro_nonneg : 0 ≤ m.count_row_odd
  rows : m.count_row_even = m.count_row_odd ∨ m.count_row_even = m.count_row_odd + 1

theorem hex_init {cos30 : K} (hcos : 0 < cos30) {points : List (K × K)} (hne : points ≠ [])
    {lh : K} (hlh : 0 < lh) :
    ∃ m, HexagonM.init cos30 points lh = .ok m ∧ m.points = points ∧ m.h_length = lh
      ∧ m.semi_height = lh * cos30 ∧ HexFacts m
      ∧ m.num = m.count_row_odd * (m.count_column / 2 + m.count_column % 2)
          + m.count_row_even * (m.count_column / 2)
      ∧ m.count_row_odd = ⌈(m.mbb.ymax - m.mbb.ymin) / (2 * (lh * cos30))⌉
      ∧ m.count_row_even = max 1 ⌈((m.mbb.ymax - m.mbb.ymin) + lh * cos30) / (2 * (lh * cos30))⌉
      ∧ m.count_column =
          max 1 (1 + ⌈((m.mbb.xmax - m.mbb.xmin) - lh / 2) / (3 / 2 * lh)⌉) := by
  obtain ⟨b, hb⟩ := Geometry.bboxPts_ok hne
  obtain ⟨h1, -⟩ := Geometry.bboxPts_spec hb
  obtain ⟨p, l, rfl⟩ := List.exists_cons_of_ne_nil hne
  have hp := h1 p (by simp)
  have hRx : 0 ≤ b.xmax - b.xmin := by linarith
  have hRy : 0 ≤ b.ymax - b.ymin := by linarith
  have hs : 0 < lh * cos30 := mul_pos hlh hcos
  have h32 : (0 : K) < 3 / 2 * lh := by positivity
  have h2s : (0 : K) < 2 * (lh * cos30) := by positivity
  -- the three counts
  set Rx := b.xmax - b.xmin with hRxdef
  set Ry := b.ymax - b.ymin with hRydef
  set s := lh * cos30 with hsdef
  have ecc : hexCountColumn lh Rx = .ok (max 1 (1 + ⌈(Rx - lh / 2) / (3 / 2 * lh)⌉)) := by
    unfold hexCountColumn
    split
    · next h =>
      have : 0 < ⌈(Rx - lh / 2) / (3 / 2 * lh)⌉ := Int.ceil_pos.2 (div_pos (by linarith) h32)
      simp only [XF.div, h32.ne', if_false, XF.ceil, Except.map]
      rw [max_eq_right (by omega)]
    · next h =>
      have : ⌈(Rx - lh / 2) / (3 / 2 * lh)⌉ ≤ 0 := by
        rw [Int.ceil_le]; push_cast
        exact div_nonpos_of_nonpos_of_nonneg (by linarith) h32.le
      rw [max_eq_left (by omega)]
  have hce : ∀ x : K, 1 + ⌈(x - s) / (2 * s)⌉ = ⌈(x + s) / (2 * s)⌉ := by
    intro x
    rw [show (x + s) / (2 * s) = (x - s) / (2 * s) + 1 by field_simp; ring, Int.ceil_add_one]
    omega
  have ecre : hexCountRowEven s Ry = .ok (max 1 ⌈(Ry + s) / (2 * s)⌉) := by
    unfold hexCountRowEven
    rw [← hce]
    split
    · next h =>
      have : 0 < ⌈(Ry - s) / (2 * s)⌉ := Int.ceil_pos.2 (div_pos (by linarith) h2s)
      simp only [XF.div, h2s.ne', if_false, XF.ceil, Except.map]
      rw [max_eq_right (by omega)]
    · next h =>
      have : ⌈(Ry - s) / (2 * s)⌉ ≤ 0 := by
        rw [Int.ceil_le]; push_cast
        exact div_nonpos_of_nonpos_of_nonneg (by linarith) h2s.le
      rw [max_eq_left (by omega)]
  have ecro : hexCountRowOdd s Ry = .ok ⌈Ry / (2 * s)⌉ := by
    simp only [hexCountRowOdd, XF.div, h2s.ne', if_false, XF.ceil]
  have hinit : HexagonM.init cos30 (p :: l) lh = .ok
      { points := p :: l, mbb := b, h_length := lh, semi_height := s,
        count_column := max 1 (1 + ⌈(Rx - lh / 2) / (3 / 2 * lh)⌉),
        count_row_even := max 1 ⌈(Ry + s) / (2 * s)⌉,
        count_row_odd := ⌈Ry / (2 * s)⌉,
        num := ⌈Ry / (2 * s)⌉ * (max 1 (1 + ⌈(Rx - lh / 2) / (3 / 2 * lh)⌉) / 2
            + max 1 (1 + ⌈(Rx - lh / 2) / (3 / 2 * lh)⌉) % 2)
          + max 1 ⌈(Ry + s) / (2 * s)⌉ * (max 1 (1 + ⌈(Rx - lh / 2) / (3 / 2 * lh)⌉) / 2) } := by
    unfold HexagonM.init
    simp only [computeMbb, hb, bind, Except.bind, pure, Except.pure, ← hRxdef, ← hRydef, ← hsdef,
      ecc, ecre, ecro]
  refine ⟨_, hinit, rfl, rfl, rfl, ?_, rfl, rfl, rfl, rfl⟩
  have hcro0 : 0 ≤ ⌈Ry / (2 * s)⌉ := Int.ceil_nonneg (div_nonneg hRy h2s.le)
  have k1 : ⌈Ry / (2 * s)⌉ ≤ ⌈(Ry + s) / (2 * s)⌉ :=
    Int.ceil_le_ceil (div_le_div_of_nonneg_right (by linarith) h2s.le)
  have k2 : ⌈(Ry + s) / (2 * s)⌉ ≤ ⌈Ry / (2 * s)⌉ + 1 := by
    rw [← Int.ceil_add_one]
    apply Int.ceil_le_ceil
    rw [div_add_one h2s.ne']
    exact div_le_div_of_nonneg_right (by linarith) h2s.le
  have k3 : 0 < ⌈(Ry + s) / (2 * s)⌉ := Int.ceil_pos.2 (div_pos (by linarith) h2s)
  exact
    { h_pos := hlh
      s_pos := hs
      bbox := hb
      cc_pos := by show 0 < max 1 _; omega
      cc_ge := by
        have hle := le_max_right 1 (1 + ⌈(Rx - lh / 2) / (3 / 2 * lh)⌉)
        have h3 : (Rx - lh / 2) / (3 / 2 * lh)
            ≤ ((max 1 (1 + ⌈(Rx - lh / 2) / (3 / 2 * lh)⌉) - 1 : ℤ) : K) :=
          le_trans (Int.le_ceil _) (by exact_mod_cast (by omega))
        rw [div_le_iff₀ h32] at h3
        push_cast at h3 ⊢
        show Rx ≤ _
        linarith
      cre_pos := by show 0 < max 1 _; omega
      cre_ge := by
        have h3 : (Ry + s) / (2 * s) ≤ ((max 1 ⌈(Ry + s) / (2 * s)⌉ : ℤ) : K) :=
          le_trans (Int.le_ceil _) (by exact_mod_cast (le_max_right _ _))
        rw [div_le_iff₀ h2s] at h3
        exact h3
      cro_ge := by
        have h3 := Int.le_ceil (Ry / (2 * s))
        rw [div_le_iff₀ h2s] at h3
        exact h3
      cro_nonneg := hcro0
      rows := by
        show max 1 ⌈(Ry + s) / (2 * s)⌉ = ⌈Ry / (2 * s)⌉
          ∨ max 1 ⌈(Ry + s) / (2 * s)⌉ = ⌈Ry / (2 * s)⌉ + 1
        omega }

/-- The centre of the hexagon in column `c.1`, row `c.2`. -/
def hexCenter (m : HexagonM K) (c : ℤ × ℤ) : K × K :=
  (m.mbb.xmin + 3 / 2 * (c.1 : K) * m.h_length,
   m.mbb.ymin + (if c.1 % 2 = 0 then 2 * (c.2 : K) else 2 * (c.2 : K) + 1) * m.semi_height)

omit [FloorRing K] in
/-- The indicator is the signed distance from the slanted edge, by symmetry in the vertical offset. -/
theorem hexIndicator_eq {h : K} (hh : 0 < h) (s cx cy : K) (p : K × K) :
    hexIndicator h s cx cy p = 2 * s * (h - (p.1 - cx)) / h - |p.2 - cy| := by
  unfold hexIndicator
  by_cases hgt : p.2 > cy
  · simp only [if_pos hgt]
    rw [abs_of_pos (sub_pos.2 hgt), show cx + h - (cx + h / 2) = h / 2 by ring]
    field_simp
    ring
  · have hv0 : p.2 - cy ≤ 0 := by linarith
    simp only [if_neg hgt]
    rw [abs_of_nonpos hv0, show cx + h / 2 - (cx + h) = -(h / 2) by ring]
    field_simp
    ring

omit [FloorRing K] in
/-- If `v` is the vertical offset from the centre of the hexagon in column `c`, then the offset from
the centre of the hexagon in the next column is `s - |v|` in absolute value. -/
theorem next_row_offset {s Y v : K} {e o c : ℤ} (heo : e = o ∨ e = o + 1)
    (he1 : (e : K) * (2 * s) ≤ Y + s) (he2 : Y + s < ((e : K) + 1) * (2 * s))
    (ho1 : (o : K) * (2 * s) ≤ Y) (ho2 : Y < ((o : K) + 1) * (2 * s))
    (hv : v = Y - (if c % 2 = 0 then 2 * (((if c % 2 = 0 then e else o) : ℤ) : K)
      else 2 * (((if c % 2 = 0 then e else o) : ℤ) : K) + 1) * s)
    (hvne : v ≠ 0) (hvs : |v| ≤ s) :
    |Y - (if (c + 1) % 2 = 0 then 2 * (((if (c + 1) % 2 = 0 then e else o) : ℤ) : K)
          else 2 * (((if (c + 1) % 2 = 0 then e else o) : ℤ) : K) + 1) * s| = s - |v| := by
  rw [abs_le] at hvs
  rcases Int.even_or_odd c with hce | hco
  · have c1 : c % 2 = 0 := Int.even_iff.1 hce
    have c2 : ¬ (c + 1) % 2 = 0 := by omega
    simp only [c1, c2, if_true, if_false] at hv ⊢
    rcases lt_or_gt_of_ne hvne with hneg | hpos
    · have : e = o + 1 := by
        rcases heo with h' | h'
        · rw [h'] at hv; exfalso; linarith
        · exact h'
      rw [this] at hv; push_cast at hv
      rw [abs_of_neg hneg, show Y - (2 * (o : K) + 1) * s = v + s by rw [hv]; ring,
        abs_of_nonneg (by linarith)]; ring
    · have : e = o := by
        rcases heo with h' | h'
        · exact h'
        · rw [h'] at hv; push_cast at hv; exfalso; linarith
      rw [this] at hv
      rw [abs_of_pos hpos, show Y - (2 * (o : K) + 1) * s = v - s by rw [hv]; ring,
        abs_of_nonpos (by linarith)]; ring
  · have c1 : ¬ c % 2 = 0 := by rw [Int.odd_iff] at hco; omega
    have c2 : (c + 1) % 2 = 0 := by omega
    simp only [c1, c2, if_true, if_false] at hv ⊢
    rcases lt_or_gt_of_ne hvne with hneg | hpos
    · have : e = o := by
        rcases heo with h' | h'
        · exact h'
        · rw [h'] at he1; push_cast at he1; exfalso; linarith
      rw [this]
      rw [abs_of_neg hneg, show Y - (2 * (o : K)) * s = v + s by rw [hv]; ring,
        abs_of_nonneg (by linarith)]; ring
    · have : e = o + 1 := by
        rcases heo with h' | h'
        · rw [h'] at he2; exfalso; linarith
        · exact h'
      rw [this]; push_cast
      rw [abs_of_pos hpos, show Y - (2 * ((o : K) + 1)) * s = v - s by rw [hv]; ring,
        abs_of_nonpos (by linarith)]; ring

/-- Every point to the right of and above the lower left corner is assigned to a hexagon containing
it, and either its column is centred within half a cell, or the point lies at least on the left of
the next column. -/
theorem hex_assign (m : HexagonM K) (hh : 0 < m.h_length) (hs : 0 < m.semi_height) (p : K × K)
    (hx : m.mbb.xmin ≤ p.1) (hy : m.mbb.ymin ≤ p.2) :
    InHexagon m.h_length m.semi_height (hexCenter m (m.cellIndex p)) p
    ∧ 0 ≤ (m.cellIndex p).1
    ∧ (3 / 2 * ((m.cellIndex p).1 - 1 : K) * m.h_length + m.h_length / 2 ≤ p.1 - m.mbb.xmin)
    ∧ (m.cellIndex p).2 = (if (m.cellIndex p).1 % 2 = 0
        then ⌊(p.2 + m.semi_height - m.mbb.ymin) / (2 * m.semi_height)⌋
        else ⌊(p.2 - m.mbb.ymin) / (2 * m.semi_height)⌋) := by
  obtain ⟨X, hX⟩ : ∃ X, X = p.1 - m.mbb.xmin := ⟨_, rfl⟩
  obtain ⟨Y, hY⟩ : ∃ Y, Y = p.2 - m.mbb.ymin := ⟨_, rfl⟩
  have hX0 : 0 ≤ X := by linarith
  have hY0 : 0 ≤ Y := by linarith
  have h2 : 0 < m.h_length / 2 := by positivity
  have h2s : 0 < 2 * m.semi_height := by positivity
  set h := m.h_length
  set s := m.semi_height
  set t : ℤ := ⌊(p.1 - m.mbb.xmin) / (h / 2)⌋ with ht
  have ht1 : (t : K) * (h / 2) ≤ X := by
    have := Int.floor_le ((p.1 - m.mbb.xmin) / (h / 2))
    rw [le_div_iff₀ h2] at this; rw [hX]; exact this
  have ht2 : X < ((t : K) + 1) * (h / 2) := by
    have := Int.lt_floor_add_one ((p.1 - m.mbb.xmin) / (h / 2))
    rw [div_lt_iff₀ h2] at this; rw [hX]; exact this
  have ht0 : 0 ≤ t := Int.floor_nonneg.2 (div_nonneg (by linarith) h2.le)
  set e : ℤ := ⌊(p.2 + s - m.mbb.ymin) / (2 * s)⌋ with he
  set o : ℤ := ⌊(p.2 - m.mbb.ymin) / (2 * s)⌋ with ho
  have ye : truncInt ((p.2 + s - m.mbb.ymin) / (2 * s)) = e := by
    unfold truncInt; rw [if_pos (div_nonneg (by linarith) h2s.le)]
  have yo : truncInt ((p.2 - m.mbb.ymin) / (2 * s)) = o := by
    unfold truncInt; rw [if_pos (div_nonneg (by linarith) h2s.le)]
  have he1 : (e : K) * (2 * s) ≤ Y + s := by
    have := Int.floor_le ((p.2 + s - m.mbb.ymin) / (2 * s))
    rw [le_div_iff₀ h2s] at this; rw [hY]; linarith
  have he2 : Y + s < ((e : K) + 1) * (2 * s) := by
    have := Int.lt_floor_add_one ((p.2 + s - m.mbb.ymin) / (2 * s))
    rw [div_lt_iff₀ h2s] at this; rw [hY]; linarith
  have ho1 : (o : K) * (2 * s) ≤ Y := by
    have := Int.floor_le ((p.2 - m.mbb.ymin) / (2 * s))
    rw [le_div_iff₀ h2s] at this; rw [hY]; linarith
  have ho2 : Y < ((o : K) + 1) * (2 * s) := by
    have := Int.lt_floor_add_one ((p.2 - m.mbb.ymin) / (2 * s))
    rw [div_lt_iff₀ h2s] at this; rw [hY]; linarith
  -- e and o are neighbours
  have heo : e = o ∨ e = o + 1 := by
    have a1 : o < e + 1 := by
      have : (o : K) < (e : K) + 1 := by
        have : (o : K) * (2 * s) < ((e : K) + 1) * (2 * s) := by linarith
        exact lt_of_mul_lt_mul_right this h2s.le
      exact_mod_cast this
    have a2 : e < o + 2 := by
      have : (e : K) < (o : K) + 2 := by
        have : (e : K) * (2 * s) < ((o : K) + 2) * (2 * s) := by linarith
        exact lt_of_mul_lt_mul_right this h2s.le
      exact_mod_cast this
    omega
  -- membership in a hexagon, from bounds relative to the centre
  have mem : ∀ c : ℤ × ℤ, ∀ dx dy : K, X - 3 / 2 * (c.1 : K) * h = dx →
      Y - (if c.1 % 2 = 0 then 2 * (c.2 : K) else 2 * (c.2 : K) + 1) * s = dy →
      |dy| ≤ s → 2 * s * |dx| + h * |dy| ≤ 2 * s * h → InHexagon h s (hexCenter m c) p := by
    intro c dx dy h1 h2 h3 h4
    have e1 : p.1 - (hexCenter m c).1 = dx := by rw [← h1, hX]; simp only [hexCenter]; ring
    have e2 : p.2 - (hexCenter m c).2 = dy := by rw [← h2, hY]; simp only [hexCenter]; ring
    exact ⟨by rw [e2]; exact h3, by rw [e1, e2]; exact h4⟩
  have hsh : 0 < s * h := mul_pos hs hh
  -- the row assigned to column c and the vertical offset from its centre
  have rowoff : ∀ c : ℤ, |Y - (if c % 2 = 0 then 2 * (((if c % 2 = 0 then e else o) : ℤ) : K)
      else 2 * (((if c % 2 = 0 then e else o) : ℤ) : K) + 1) * s| ≤ s := by
    intro c
    split
    · rw [abs_le]; constructor <;> linarith
    · rw [abs_le]; constructor <;> linarith
  have hcell : m.cellIndex p = (if t % 3 ≠ 1 then ((t + 1) / 3, if (t + 1) / 3 % 2 = 0 then e else o)
      else if hexIndicator h s ((t / 3 : ℤ) * (h / 2) * 3 + m.mbb.xmin)
        (if t / 3 % 2 = 0 then (e : K) * 2 * s + m.mbb.ymin
          else ((o : K) * 2 + 1) * s + m.mbb.ymin) p ≤ 0
      then (t / 3 + 1, if (t / 3 + 1) % 2 = 0 then e else o)
      else (t / 3, if t / 3 % 2 = 0 then e else o)) := by
    unfold HexagonM.cellIndex
    rw [← ye, ← yo]
  rw [hcell]
  by_cases h3 : t % 3 ≠ 1
  · -- the middle band of a column
    rw [if_pos h3]
    set c := (t + 1) / 3 with hc
    have hdx : |X - 3 / 2 * (c : K) * h| ≤ h / 2 := by
      have : t = 3 * c ∨ t = 3 * c - 1 := by omega
      rcases this with h' | h'
      · rw [h'] at ht1 ht2; push_cast at ht1 ht2
        rw [abs_le]; constructor <;> linarith
      · rw [h'] at ht1 ht2; push_cast at ht1 ht2
        rw [abs_le]; constructor <;> linarith
    refine ⟨mem _ _ _ rfl rfl (rowoff c) ?_, by simp only; omega, ?_, ?_⟩
    · have := rowoff c
      nlinarith [abs_nonneg (X - 3 / 2 * (c : K) * h)]
    · simp only
      rw [abs_le] at hdx
      linarith [hdx.1]
    · rfl
  · -- the slanted band between column c and column c + 1
    rw [if_neg h3]
    push Not at h3
    set c := t / 3 with hc
    have htc : t = 3 * c + 1 := by omega
    have hc0 : 0 ≤ c := by omega
    obtain ⟨u, hu⟩ : ∃ u, u = X - 3 / 2 * (c : K) * h := ⟨_, rfl⟩
    have hu1 : h / 2 ≤ u := by rw [htc] at ht1; push_cast at ht1; linarith
    have hu2 : u < h := by rw [htc] at ht2; push_cast at ht2; linarith
    obtain ⟨v, hv⟩ : ∃ v, v = Y - (if c % 2 = 0 then 2 * (((if c % 2 = 0 then e else o) : ℤ) : K)
      else 2 * (((if c % 2 = 0 then e else o) : ℤ) : K) + 1) * s := ⟨_, rfl⟩
    have hvs : |v| ≤ s := by rw [hv]; exact rowoff c
    -- the centre used by the code
    set cx : K := (c : K) * (h / 2) * 3 + m.mbb.xmin with hcx
    set cy : K := (if c % 2 = 0 then (e : K) * 2 * s + m.mbb.ymin
      else ((o : K) * 2 + 1) * s + m.mbb.ymin) with hcy
    have hpx : p.1 - cx = u := by rw [hu, hX, hcx]; ring
    have hpy : p.2 - cy = v := by
      rw [hv, hY, hcy]; split <;> ring
    have hind : hexIndicator h s cx cy p = 2 * s * (h - u) / h - |v| := by
      rw [← hpx, ← hpy]; exact hexIndicator_eq hh s cx cy p
    have hindpos : ∀ r : K, 2 * s * (h - u) / h - r ≤ 0 ↔ 2 * s * h ≤ 2 * s * u + h * r := by
      intro r
      rw [sub_nonpos, div_le_iff₀ hh]
      constructor <;> intro h <;> linarith
    have hucast : 3 / 2 * ((c : K)) * h + u = X := by linarith
    by_cases hle : hexIndicator h s cx cy p ≤ 0
    · -- moved to the next column
      rw [if_pos hle]
      rw [hind, hindpos] at hle
      have hvpos : 0 < |v| := by
        rcases (abs_nonneg v).lt_or_eq with h' | h'
        · exact h'
        · rw [← h'] at hle
          linarith [mul_pos hs (sub_pos.2 hu2)]
      -- vertical offset in the next column
      have hoff : |Y - (if (c + 1) % 2 = 0 then
          2 * (((if (c + 1) % 2 = 0 then e else o) : ℤ) : K)
          else 2 * (((if (c + 1) % 2 = 0 then e else o) : ℤ) : K) + 1) * s| = s - |v| :=
        next_row_offset heo he1 he2 ho1 ho2 hv (abs_pos.1 hvpos) hvs
      refine ⟨mem _ _ _ rfl rfl ?_ ?_, by simp only; omega, ?_, rfl⟩
      · simp only; rw [hoff]; linarith
      · simp only
        rw [hoff]
        have : X - 3 / 2 * ((c + 1 : ℤ) : K) * h = u - 3 / 2 * h := by rw [hu]; push_cast; ring
        rw [this, abs_of_nonpos (by linarith)]
        linarith
      · simp only; push_cast
        rw [hX] at hucast
        linarith
    · rw [if_neg hle]
      rw [hind, hindpos] at hle
      push Not at hle
      refine ⟨mem _ _ _ rfl rfl (rowoff c) ?_, hc0, ?_, rfl⟩
      · simp only
        rw [← hv, ← hu, abs_of_nonneg (by linarith)]
        exact hle.le
      · simp only
        rw [hX] at hucast
        linarith

end Pointpats.Quadrat
