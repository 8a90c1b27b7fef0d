import Verif.Spec.Quadrat
import Verif.Lemmas.Rect
import Mathlib.Data.Rat.Floor

/-!
# C48, C49, C50: the rectangular quadrat grid
-/

namespace Pointpats.Props

open Quadrat Spec

variable {K : Type} [Field K] [LinearOrder K] [IsStrictOrderedRing K] [FloorRing K]

omit [Field K] [IsStrictOrderedRing K] [FloorRing K] in
private theorem extent_pos {points : List (K × K)} (h : PositiveExtent points) {b : BBox K}
    (hb : Geometry.bboxPts points = .ok b) : b.xmin < b.xmax ∧ b.ymin < b.ymax := by
  obtain ⟨h1, -⟩ := Geometry.bboxPts_spec hb
  obtain ⟨⟨p, hp, q, hq, hpq⟩, ⟨r, hr, s, hs, hrs⟩⟩ := h
  exact ⟨lt_of_le_of_lt (h1 p hp).1 (lt_of_lt_of_le hpq (h1 q hq).2.1),
    lt_of_le_of_lt (h1 r hr).2.2.1 (lt_of_lt_of_le hrs (h1 s hs).2.2.2)⟩

omit [Field K] [IsStrictOrderedRing K] [FloorRing K] in
private theorem extent_ne {points : List (K × K)} (h : PositiveExtent points) : points ≠ [] := by
  rintro rfl
  obtain ⟨⟨p, hp, -⟩, -⟩ := h
  simp at hp

private theorem init_spec {points : List (K × K)} (hpos : PositiveExtent points)
    {cc cr : ℤ} {w h : K}
    (hsize : (0 < w ∧ 0 < h) ∨ ((w = 0 ∨ h = 0) ∧ 0 < cc ∧ 0 < cr)) :
    ∃ m W H, RectangleM.init points cc cr w h = .ok m ∧ m.points = points
      ∧ Geometry.bboxPts points = .ok m.mbb
      ∧ m.rectangle_width = .fin W ∧ m.rectangle_height = .fin H ∧ 0 < W ∧ 0 < H
      ∧ 0 < m.count_column ∧ 0 < m.count_row
      ∧ m.num = m.count_column * m.count_row
      ∧ (0 < w → 0 < h → W = w ∧ H = h)
      ∧ (w = 0 ∨ h = 0 → m.count_column = cc ∧ m.count_row = cr)
      ∧ (∀ p ∈ points, m.mbb.xmin ≤ p.1 ∧ (p.1 - m.mbb.xmin) ≤ (m.count_column : K) * W)
      ∧ (∀ p ∈ points, m.mbb.ymin ≤ p.2 ∧ (p.2 - m.mbb.ymin) ≤ (m.count_row : K) * H) := by
  obtain ⟨b, hb⟩ := Geometry.bboxPts_ok (extent_ne hpos)
  obtain ⟨hx, hy⟩ := extent_pos hpos hb
  obtain ⟨h1, -⟩ := Geometry.bboxPts_spec hb
  have hx' : 0 < b.xmax - b.xmin := sub_pos.2 hx
  have hy' : 0 < b.ymax - b.ymin := sub_pos.2 hy
  rcases hsize with ⟨hw, hh⟩ | ⟨h0, hcc, hcr⟩
  · refine ⟨{ points := points, mbb := b, count_column := ⌈(b.xmax - b.xmin) / w⌉,
              count_row := ⌈(b.ymax - b.ymin) / h⌉, rectangle_width := .fin w,
              rectangle_height := .fin h,
              num := ⌈(b.xmax - b.xmin) / w⌉ * ⌈(b.ymax - b.ymin) / h⌉ }, w, h, ?_, ?_⟩
    · simp [RectangleM.init, computeMbb, hb, hw.ne', hh.ne', bind, Except.bind, pure, Except.pure]
    · refine ⟨rfl, hb, rfl, rfl, hw, hh, Int.ceil_pos.2 (div_pos hx' hw),
        Int.ceil_pos.2 (div_pos hy' hh), rfl, fun _ _ => ⟨rfl, rfl⟩, ?_, ?_, ?_⟩
      · rintro (rfl | rfl)
        · exact absurd hw (lt_irrefl _)
        · exact absurd hh (lt_irrefl _)
      · intro p hp
        refine ⟨(h1 p hp).1, ?_⟩
        rw [← div_le_iff₀ hw]
        exact le_trans (div_le_div_of_nonneg_right (by linarith [(h1 p hp).2.1]) hw.le)
          (Int.le_ceil _)
      · intro p hp
        refine ⟨(h1 p hp).2.2.1, ?_⟩
        rw [← div_le_iff₀ hh]
        exact le_trans (div_le_div_of_nonneg_right (by linarith [(h1 p hp).2.2.2]) hh.le)
          (Int.le_ceil _)
  · have hcc' : (0 : K) < (cc : K) := by exact_mod_cast hcc
    have hcr' : (0 : K) < (cr : K) := by exact_mod_cast hcr
    have hnot : ¬ (w ≠ 0 ∧ h ≠ 0) := by
      rintro ⟨a, b⟩; rcases h0 with h0 | h0
      · exact a h0
      · exact b h0
    refine ⟨{ points := points, mbb := b, count_column := cc,
              count_row := cr, rectangle_width := .fin ((b.xmax - b.xmin) / cc),
              rectangle_height := .fin ((b.ymax - b.ymin) / cr),
              num := cc * cr }, (b.xmax - b.xmin) / cc, (b.ymax - b.ymin) / cr, ?_, ?_⟩
    · simp only [RectangleM.init, computeMbb, hb, bind, Except.bind, if_neg hnot, XF.div,
        hcc'.ne', hcr'.ne', if_false, pure, Except.pure]
    · refine ⟨rfl, hb, rfl, rfl, div_pos hx' hcc', div_pos hy' hcr', hcc, hcr, rfl, ?_,
        fun _ => ⟨rfl, rfl⟩, ?_, ?_⟩
      · intro a b'; exact absurd ⟨a.ne', b'.ne'⟩ hnot
      · intro p hp
        refine ⟨(h1 p hp).1, ?_⟩
        rw [mul_div_cancel₀ _ hcc'.ne']
        linarith [(h1 p hp).2.1]
      · intro p hp
        refine ⟨(h1 p hp).2.2.1, ?_⟩
        rw [mul_div_cancel₀ _ hcr'.ne']
        linarith [(h1 p hp).2.2.2]

/-- **C48.** For every pattern with positive extent in both directions, and every positive cell size
or (if no cell size is given) every positive number of columns and rows, the rectangular grid counts
every point: the dictionary has exactly the keys `0, …, num - 1` in this order, `num` is the number of
cells, and the counts add up to the number of points. -/
theorem C48_rectangle_counts_conserve (points : List (K × K)) (hpos : PositiveExtent points)
    (cc cr : ℤ) (w h : K)
    (hsize : (0 < w ∧ 0 < h) ∨ ((w = 0 ∨ h = 0) ∧ 0 < cc ∧ 0 < cr)) :
    ∃ m d, RectangleM.init points cc cr w h = .ok m ∧ m.pointLocationSta = .ok d
      ∧ 0 < m.num ∧ m.num = m.count_column * m.count_row
      ∧ d.keys = (List.range m.num.toNat).map (Nat.cast : ℕ → ℤ)
      ∧ d.values.sum = points.length := by
  obtain ⟨m, W, H, e, hpts, -, hW, hH, hW0, hH0, hc, hr, hnum, -, -, hx, hy⟩ := init_spec hpos hsize
  obtain ⟨d, e1, e2, e3, -⟩ := rect_count m hW hH hW0 hH0 hc hr
    (fun p hp => ⟨(hx p (hpts ▸ hp)).1, by
      rw [div_lt_iff₀ hW0]; nlinarith [(hx p (hpts ▸ hp)).2]⟩)
    (fun p hp => ⟨(hy p (hpts ▸ hp)).1, by
      rw [div_lt_iff₀ hH0]; nlinarith [(hy p (hpts ▸ hp)).2]⟩)
  exact ⟨m, d, e, e1, hnum ▸ mul_pos hc hr, hnum, hnum ▸ e2, hpts ▸ e3⟩

/-- **C49.** Under the same conditions there are a positive cell width `W` and height `H` (the given
ones, or the extent divided by the given counts) such that the count reported for the cell in column
`ix`, row `iy` (key `ix + iy * columns`) is the number of points in that cell of the grid that starts
at the lower left corner of the bounding box; and every point of the pattern lies in exactly one
cell. -/
theorem C49_rectangle_cell_counts (points : List (K × K)) (hpos : PositiveExtent points)
    (cc cr : ℤ) (w h : K)
    (hsize : (0 < w ∧ 0 < h) ∨ ((w = 0 ∨ h = 0) ∧ 0 < cc ∧ 0 < cr)) :
    ∃ m d W H, RectangleM.init points cc cr w h = .ok m ∧ m.pointLocationSta = .ok d
      ∧ Geometry.bboxPts points = .ok m.mbb
      ∧ m.rectangle_width = .fin W ∧ m.rectangle_height = .fin H ∧ 0 < W ∧ 0 < H
      ∧ (0 < w → 0 < h → W = w ∧ H = h)
      ∧ (w = 0 ∨ h = 0 → m.count_column = cc ∧ m.count_row = cr)
      ∧ (∀ ix iy, 0 ≤ ix → ix < m.count_column → 0 ≤ iy → iy < m.count_row →
          Dict.getD0 (ix + iy * m.count_column) d = (points.filter fun p =>
            InRectCell m.mbb.xmin m.mbb.ymin W H m.count_column m.count_row ix iy p).length)
      ∧ (∀ p ∈ points, ∃! c : ℤ × ℤ, 0 ≤ c.1 ∧ c.1 < m.count_column ∧ 0 ≤ c.2 ∧ c.2 < m.count_row
          ∧ InRectCell m.mbb.xmin m.mbb.ymin W H m.count_column m.count_row c.1 c.2 p) := by
  obtain ⟨m, W, H, e, hpts, hb, hW, hH, hW0, hH0, hc, hr, hnum, hg1, hg2, hx, hy⟩ :=
    init_spec hpos hsize
  have hx' : ∀ p ∈ points, (p.1 - m.mbb.xmin) / W < (m.count_column : K) + 1 := fun p hp => by
      rw [div_lt_iff₀ hW0]; nlinarith [(hx p hp).2]
  have hy' : ∀ p ∈ points, (p.2 - m.mbb.ymin) / H < (m.count_row : K) + 1 := fun p hp => by
      rw [div_lt_iff₀ hH0]; nlinarith [(hy p hp).2]
  obtain ⟨d, e1, e2, e3, e4⟩ := rect_count m hW hH hW0 hH0 hc hr
    (fun p hp => ⟨(hx p (hpts ▸ hp)).1, hx' p (hpts ▸ hp)⟩)
    (fun p hp => ⟨(hy p (hpts ▸ hp)).1, hy' p (hpts ▸ hp)⟩)
  -- one coordinate: index equality is cell membership
  have one : ∀ (x x0 S : K) (n i : ℤ), 0 < S → x - x0 ≤ (n : K) * S → (x - x0) / S < (n : K) + 1 →
      i < n → (idx (x - x0) S n = i ↔
        x0 + i * S ≤ x ∧ (x < x0 + (i + 1) * S ∨ (i = n - 1 ∧ x = x0 + (i + 1) * S))) := by
    intro x x0 S n i hS hle hlt hi
    rw [idx_eq_iff hS hlt hi]
    constructor
    · rintro ⟨a, b | ⟨rfl, b⟩⟩
      · exact ⟨by linarith, Or.inl (by linarith)⟩
      · refine ⟨by linarith, ?_⟩
        rcases lt_or_eq_of_le (show x ≤ x0 + (((n - 1 : ℤ) : K) + 1) * S by
          push_cast; linarith) with h' | h'
        · exact Or.inl h'
        · exact Or.inr ⟨rfl, h'⟩
    · rintro ⟨a, b | ⟨rfl, b⟩⟩
      · exact ⟨by linarith, Or.inl (by linarith)⟩
      · exact ⟨by linarith, Or.inr ⟨rfl, by linarith⟩⟩
  have cell : ∀ p ∈ points, ∀ ix iy, ix < m.count_column → iy < m.count_row →
      ((idx (p.1 - m.mbb.xmin) W m.count_column = ix ∧ idx (p.2 - m.mbb.ymin) H m.count_row = iy)
        ↔ InRectCell m.mbb.xmin m.mbb.ymin W H m.count_column m.count_row ix iy p) := by
    intro p hp ix iy hix hiy
    rw [one _ _ _ _ _ hW0 (hx p hp).2 (hx' p hp) hix, one _ _ _ _ _ hH0 (hy p hp).2 (hy' p hp) hiy]
    rfl
  refine ⟨m, d, W, H, e, e1, hb, hW, hH, hW0, hH0, hg1, hg2, ?_, ?_⟩
  · intro ix iy hix hix' hiy hiy'
    rw [e4, hpts]
    congr 1
    apply List.filter_congr
    intro p hp
    have h1 := idx_mem hW0 hc (sub_nonneg.2 (hx p hp).1) (hx' p hp)
    rw [decide_eq_decide, Int.add_comm ix, key_inj h1.1 h1.2 hix hix',
      ← cell p hp ix iy hix' hiy', and_comm]
  · intro p hp
    have h1 := idx_mem hW0 hc (sub_nonneg.2 (hx p hp).1) (hx' p hp)
    have h2 := idx_mem hH0 hr (sub_nonneg.2 (hy p hp).1) (hy' p hp)
    refine ⟨(idx (p.1 - m.mbb.xmin) W m.count_column, idx (p.2 - m.mbb.ymin) H m.count_row),
      ⟨h1.1, h1.2, h2.1, h2.2, (cell p hp _ _ h1.2 h2.2).1 ⟨rfl, rfl⟩⟩, ?_⟩
    rintro ⟨a, b⟩ ⟨ha, ha', hb1, hb', hcell⟩
    obtain ⟨c1, c2⟩ := (cell p hp a b ha' hb').2 hcell
    exact Prod.ext c1.symm c2.symm

/-- **C48, robust to rounding of the cell size.** The counts still add up to the number of points if
the cell width and height carry a relative error `δ` with `(columns + 1) |δ| < 1` (for IEEE doubles
`|δ| ≤ 2⁻⁵³`, so any number of columns below `2⁵²`): no point falls outside the grid although the
last cell boundary computed from the rounded width may differ from the largest coordinate. -/
theorem C48_rectangle_counts_robust_to_rounding (m : RectangleM K)
    (hb : Geometry.bboxPts m.points = .ok m.mbb) (hpos : PositiveExtent m.points)
    (hc : 0 < m.count_column) (hr : 0 < m.count_row) (δ ε : K)
    (hδ : ((m.count_column : K) + 1) * |δ| < 1) (hε : ((m.count_row : K) + 1) * |ε| < 1)
    (hW : m.rectangle_width = .fin ((m.mbb.xmax - m.mbb.xmin) / m.count_column * (1 + δ)))
    (hH : m.rectangle_height = .fin ((m.mbb.ymax - m.mbb.ymin) / m.count_row * (1 + ε))) :
    ∃ d, m.pointLocationSta = .ok d ∧ d.values.sum = m.points.length
      ∧ d.keys = (List.range (m.count_column * m.count_row).toNat).map (Nat.cast : ℕ → ℤ) := by
  obtain ⟨hx, hy⟩ := extent_pos hpos hb
  obtain ⟨h1, -⟩ := Geometry.bboxPts_spec hb
  have aux : ∀ (R δ : K) (n : ℤ), 0 < R → 0 < n → ((n : K) + 1) * |δ| < 1 →
      0 < R / n * (1 + δ) ∧ ∀ x, x ≤ R → x / (R / n * (1 + δ)) < (n : K) + 1 := by
    intro R δ n hR hn hδ
    have hn' : (0 : K) < (n : K) := by exact_mod_cast hn
    have hd : -(|δ|) ≤ δ := neg_abs_le δ
    have hd0 : 0 ≤ |δ| := abs_nonneg δ
    have h1δ : 0 < 1 + δ := by nlinarith
    have hpos' : 0 < R / n * (1 + δ) := mul_pos (div_pos hR hn') h1δ
    refine ⟨hpos', fun x hxR => ?_⟩
    rw [div_lt_iff₀ hpos']
    have : ((n : K) + 1) * (R / n * (1 + δ)) = R / n * (((n : K) + 1) * (1 + δ)) := by ring
    rw [this]
    have hRn : R = R / n * n := by field_simp
    have : (n : K) < ((n : K) + 1) * (1 + δ) := by nlinarith
    calc x ≤ R := hxR
      _ = R / n * n := hRn
      _ < R / n * (((n : K) + 1) * (1 + δ)) := mul_lt_mul_of_pos_left this (div_pos hR hn')
  obtain ⟨w0, w1⟩ := aux _ δ _ (sub_pos.2 hx) hc hδ
  obtain ⟨v0, v1⟩ := aux _ ε _ (sub_pos.2 hy) hr hε
  obtain ⟨d, e1, e2, e3, -⟩ := rect_count m hW hH w0 v0 hc hr
    (fun p hp => ⟨(h1 p hp).1, w1 _ (by linarith [(h1 p hp).2.1])⟩)
    (fun p hp => ⟨(h1 p hp).2.2.1, v1 _ (by linarith [(h1 p hp).2.2.2])⟩)
  exact ⟨d, e1, e3, e2⟩

/-- Non-vacuity of C48/C49/robustness: three points on a 2 x 3 grid; the point at the upper right
corner is counted in the last cell. -/
example : PositiveExtent [((0 : ℚ), (0 : ℚ)), (1, 2), (4, 3)] :=
  ⟨⟨(0, 0), by simp, (1, 2), by simp, by norm_num⟩, ⟨(0, 0), by simp, (1, 2), by simp, by norm_num⟩⟩

example : (RectangleM.init [((0 : ℚ), (0 : ℚ)), (1, 2), (4, 3)] 2 3 0 0).bind (·.pointLocationSta)
    = .ok [(0, 1), (1, 0), (2, 0), (3, 0), (4, 1), (5, 1)] := by decide +kernel

/-- **C50 is FALSE of the code** (refutation, for every input): whatever cell counts or sizes are
asked for, a pattern whose points all have the same `x` makes the counting raise. -/
theorem C50_degenerate_refuted (points : List (K × K)) (hne : points ≠ [])
    (hx : ∀ p ∈ points, ∀ q ∈ points, p.1 = q.1) (cc cr : ℤ) (w h : K) :
    ∃ e, (RectangleM.init points cc cr w h).bind (·.pointLocationSta) = .error e := by
  obtain ⟨b, hb⟩ := Geometry.bboxPts_ok hne
  obtain ⟨h1, ⟨p, hp, hpx⟩, ⟨q, hq, hqx⟩, -⟩ := Geometry.bboxPts_spec hb
  have hR : b.xmax - b.xmin = 0 := by rw [← hpx, ← hqx, hx p hp q hq, sub_self]
  have hempty : ∀ m : RectangleM K, m.count_column ≤ 0 → m.zeroDict = [] := by
    intro m hm
    have : m.count_column.toNat = 0 := by omega
    unfold RectangleM.zeroDict
    rw [this]
    generalize m.count_row.toNat = r
    induction r with
    | zero => rfl
    | succ r ih => rw [List.range_succ, List.foldl_append, ih]; rfl
  have hloop : ∀ m : RectangleM K, m.points = points → m.count_column ≤ 0 →
      ∃ e, m.pointLocationSta = .error e := by
    intro m hm hc
    obtain ⟨p, l, rfl⟩ := List.exists_cons_of_ne_nil hne
    unfold RectangleM.pointLocationSta
    rw [hm, hempty m hc, List.foldlM_cons]
    cases m.cellId p with
    | error e => exact ⟨e, rfl⟩
    | ok c => exact ⟨.keyError, rfl⟩
  by_cases hwh : w ≠ 0 ∧ h ≠ 0
  · have e : RectangleM.init points cc cr w h = .ok
        { points := points, mbb := b, count_column := ⌈(b.xmax - b.xmin) / w⌉,
          count_row := ⌈(b.ymax - b.ymin) / h⌉, rectangle_width := .fin w,
          rectangle_height := .fin h,
          num := ⌈(b.xmax - b.xmin) / w⌉ * ⌈(b.ymax - b.ymin) / h⌉ } := by
      simp only [RectangleM.init, computeMbb, hb, bind, Except.bind, if_pos hwh, pure, Except.pure]
    rw [e]
    exact hloop _ rfl (by simp [hR])
  · have e : RectangleM.init points cc cr w h = .ok
        { points := points, mbb := b, count_column := cc, count_row := cr,
          rectangle_width := XF.div (.fin (b.xmax - b.xmin)) (.fin (cc : K)),
          rectangle_height := XF.div (.fin (b.ymax - b.ymin)) (.fin (cr : K)),
          num := cc * cr } := by
      simp only [RectangleM.init, computeMbb, hb, bind, Except.bind, if_neg hwh, pure, Except.pure]
    rw [e]
    by_cases hcc : cc ≤ 0
    · exact hloop _ rfl hcc
    · have hcc' : (cc : K) ≠ 0 := by
        have : cc ≠ 0 := by omega
        exact_mod_cast this
      obtain ⟨p, l, rfl⟩ := List.exists_cons_of_ne_nil hne
      have hp0 : p.1 - b.xmin = 0 := by
        linarith [(h1 p (by simp)).1, (h1 p (by simp)).2.1]
      have hw : XF.div (.fin (b.xmax - b.xmin)) (.fin (cc : K)) = .fin 0 := by
        simp [XF.div, hcc', hR]
      have hcell : ∀ m : RectangleM K, m.rectangle_width = .fin 0 → p.1 - m.mbb.xmin = 0 →
          ∃ e, m.cellId p = .error e := by
        intro m hmw hmp
        unfold RectangleM.cellId
        simp only [hmw, hmp, XF.floorDiv, if_true, XF.div, lt_irrefl, if_false, clampIndex, XF.eq,
          XF.toInt, bind, Except.bind]
        split <;> exact ⟨_, rfl⟩
      have hrun : ∀ m : RectangleM K, m.points = p :: l → m.rectangle_width = .fin 0 →
          p.1 - m.mbb.xmin = 0 → ∃ e, m.pointLocationSta = .error e := by
        intro m hm1 hm2 hm3
        obtain ⟨e, he⟩ := hcell m hm2 hm3
        refine ⟨e, ?_⟩
        unfold RectangleM.pointLocationSta
        rw [hm1, List.foldlM_cons, he]
        rfl
      exact hrun _ rfl hw hp0

theorem flat_error (points : List (K × K)) (hne : points ≠ [])
    (hy : ∀ p ∈ points, ∀ q ∈ points, p.2 = q.2) (cc cr : ℤ) (w h : K) :
    ∃ e, (RectangleM.init points cc cr w h).bind (·.pointLocationSta) = .error e := by
  obtain ⟨b, hb⟩ := Geometry.bboxPts_ok hne
  obtain ⟨h1, -, -, ⟨p, hp, hpy⟩, ⟨q, hq, hqy⟩⟩ := Geometry.bboxPts_spec hb
  have hR : b.ymax - b.ymin = 0 := by rw [← hpy, ← hqy, hy p hp q hq, sub_self]
  have hloop : ∀ m : RectangleM K, m.points = points → m.count_row ≤ 0 →
      ∃ e, m.pointLocationSta = .error e := by
    intro m hm hc
    have hz : m.zeroDict = [] := by
      have : m.count_row.toNat = 0 := by omega
      unfold RectangleM.zeroDict
      rw [this]
      rfl
    obtain ⟨p, l, rfl⟩ := List.exists_cons_of_ne_nil hne
    unfold RectangleM.pointLocationSta
    rw [hm, hz, List.foldlM_cons]
    cases m.cellId p with
    | error e => exact ⟨e, rfl⟩
    | ok c => exact ⟨.keyError, rfl⟩
  by_cases hwh : w ≠ 0 ∧ h ≠ 0
  · have e : RectangleM.init points cc cr w h = .ok
        { points := points, mbb := b, count_column := ⌈(b.xmax - b.xmin) / w⌉,
          count_row := ⌈(b.ymax - b.ymin) / h⌉, rectangle_width := .fin w,
          rectangle_height := .fin h,
          num := ⌈(b.xmax - b.xmin) / w⌉ * ⌈(b.ymax - b.ymin) / h⌉ } := by
      simp only [RectangleM.init, computeMbb, hb, bind, Except.bind, if_pos hwh, pure, Except.pure]
    rw [e]
    exact hloop _ rfl (by simp [hR])
  · have e : RectangleM.init points cc cr w h = .ok
        { points := points, mbb := b, count_column := cc, count_row := cr,
          rectangle_width := XF.div (.fin (b.xmax - b.xmin)) (.fin (cc : K)),
          rectangle_height := XF.div (.fin (b.ymax - b.ymin)) (.fin (cr : K)),
          num := cc * cr } := by
      simp only [RectangleM.init, computeMbb, hb, bind, Except.bind, if_neg hwh, pure, Except.pure]
    rw [e]
    by_cases hcr : cr ≤ 0
    · exact hloop _ rfl hcr
    · have hcr' : (cr : K) ≠ 0 := by
        have : cr ≠ 0 := by omega
        exact_mod_cast this
      obtain ⟨p, l, rfl⟩ := List.exists_cons_of_ne_nil hne
      have hp0 : p.2 - b.ymin = 0 := by
        linarith [(h1 p (by simp)).2.2.1, (h1 p (by simp)).2.2.2]
      have hw : XF.div (.fin (b.ymax - b.ymin)) (.fin (cr : K)) = .fin 0 := by
        simp [XF.div, hcr', hR]
      have hrun : ∀ m : RectangleM K, m.points = p :: l → m.rectangle_height = .fin 0 →
          p.2 - m.mbb.ymin = 0 → ∃ e, m.pointLocationSta = .error e := by
        intro m hm1 hm2 hm3
        have hcell : ∃ e, m.cellId p = .error e := by
          unfold RectangleM.cellId
          simp only [hm2, hm3, XF.floorDiv, if_true, XF.div, lt_irrefl, if_false, clampIndex, XF.eq,
            XF.toInt, bind, Except.bind]
          exact ⟨_, rfl⟩
        obtain ⟨e, he⟩ := hcell
        refine ⟨e, ?_⟩
        unfold RectangleM.pointLocationSta
        rw [hm1, List.foldlM_cons, he]
        rfl
      exact hrun _ rfl hw hp0

/-- **C50, what holds.** For a positive cell size, or positive numbers of columns and rows, the grid counts all points exactly
if two of them differ in `x` and two in `y`; otherwise the counting raises. -/
theorem C50_counted_partial (points : List (K × K)) (cc cr : ℤ) (w h : K)
    (hsize : (0 < w ∧ 0 < h) ∨ ((w = 0 ∨ h = 0) ∧ 0 < cc ∧ 0 < cr)) :
    ((∃ d, (RectangleM.init points cc cr w h).bind (·.pointLocationSta) = .ok d ∧ d.values.sum = points.length)
      ↔ PositiveExtent points) ∧
    ((∃ e, (RectangleM.init points cc cr w h).bind (·.pointLocationSta) = .error e) ↔ ¬ PositiveExtent points) := by
  have hpos : PositiveExtent points →
      ∃ d, (RectangleM.init points cc cr w h).bind (·.pointLocationSta) = .ok d ∧ d.values.sum = points.length := by
    intro hp
    obtain ⟨m, d, h1, h2, -, -, -, h3⟩ := C48_rectangle_counts_conserve points hp cc cr w h hsize
    exact ⟨d, by rw [h1]; exact h2, h3⟩
  have hneg : ¬ PositiveExtent points →
      ∃ e, (RectangleM.init points cc cr w h).bind (·.pointLocationSta) = .error e := by
    intro hp
    by_cases hne : points = []
    · subst hne
      exact ⟨.valueError, rfl⟩
    · rw [PositiveExtent, not_and_or] at hp
      rcases hp with hp | hp
      · push Not at hp
        exact C50_degenerate_refuted points hne (fun p h1 q h2 => le_antisymm (hp q h2 p h1) (hp p h1 q h2)) cc cr w h
      · push Not at hp
        exact flat_error points hne (fun p h1 q h2 => le_antisymm (hp q h2 p h1) (hp p h1 q h2)) cc cr w h
  refine ⟨⟨fun hd => ?_, hpos⟩, ⟨fun he hp => ?_, hneg⟩⟩
  · by_contra hp
    obtain ⟨e, he⟩ := hneg hp
    obtain ⟨d, hd, -⟩ := hd
    rw [he] at hd
    cases hd
  · obtain ⟨e, he⟩ := he
    obtain ⟨d, hd, -⟩ := hpos hp
    rw [he] at hd
    cases hd

/-- Non-vacuity: both cases occur. -/
example : PositiveExtent [((1 : ℚ), (0 : ℚ)), (2, 2)] ∧ ¬ PositiveExtent [((1 : ℚ), (5 : ℚ)), (2, 5)] := by
  constructor
  · exact ⟨⟨_, List.mem_cons_self, (2, 2), by simp, by norm_num⟩, ⟨_, List.mem_cons_self, (2, 2), by simp, by norm_num⟩⟩
  · rintro ⟨-, p, hp, q, hq, h⟩
    simp only [List.mem_cons, List.not_mem_nil, or_false] at hp hq
    rcases hp with rfl | rfl <;> rcases hq with rfl | rfl <;> simp at h

/-- A concrete degenerate pattern: three points on a vertical line. With default counts the code
raises `ValueError`, with explicit cell sizes `KeyError`. -/
example : (RectangleM.init [((1 : ℚ), (0 : ℚ)), (1, 2), (1, 3)] 3 3 0 0).bind (·.pointLocationSta)
    = .error .valueError := by decide +kernel
example : (RectangleM.init [((1 : ℚ), (0 : ℚ)), (1, 2), (1, 3)] 3 3 1 1).bind (·.pointLocationSta)
    = .error .keyError := by decide +kernel

end Pointpats.Props
