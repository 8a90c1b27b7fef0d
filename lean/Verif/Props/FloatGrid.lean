import Verif.Model.FloatStats
import Verif.Lemmas.Float64
import Verif.Lemmas.Rect
import Verif.Spec.Quadrat
import Mathlib.Tactic.Linarith

/-!
# C91, C92: the rectangular grid in floating point arithmetic
-/

namespace Pointpats.Props

open Quadrat Spec Float64

set_option linter.unusedSectionVars false

/-- The exact grid with the rounded offsets as points. -/
private def shifted (m : RectangleM ℚ) : RectangleM ℚ :=
  { m with points := m.points.map fun p => (fsub p.1 m.mbb.xmin, fsub p.2 m.mbb.ymin)
           mbb := { xmin := 0, ymin := 0, xmax := 0, ymax := 0 } }

private theorem cellId_shifted (m : RectangleM ℚ) (p : ℚ × ℚ) :
    (shifted m).cellId (fsub p.1 m.mbb.xmin, fsub p.2 m.mbb.ymin) = rectCellId m p := by
  simp [RectangleM.cellId, rectCellId, shifted]

private theorem rectCounts_eq (m : RectangleM ℚ) : rectCounts m = (shifted m).pointLocationSta := by
  unfold rectCounts RectangleM.pointLocationSta
  have h : (shifted m).points = m.points.map fun p => (fsub p.1 m.mbb.xmin, fsub p.2 m.mbb.ymin) := rfl
  have hz : (shifted m).zeroDict = m.zeroDict := rfl
  rw [h, hz, List.foldlM_map]
  congr 1
  funext d p
  rw [cellId_shifted]

/-- What the constructor computes, for one coordinate: the extent `R` as rounded, the cell size `W` and the
number of cells `n`, and that the cells cover the extent up to the rounding of one quotient. -/
private structure Axis (lo hi W : ℚ) (n : ℤ) : Prop where
  lt : lo < hi
  size : 0 < W
  cells : 0 < n
  cover : n ≤ 2 ^ 51 → fl (hi - lo) * (1 - 1 / 2 ^ 53) ≤ n * W
  beyond : n ≤ 2 ^ 51 → fl (hi - lo) / W < n + 1

private theorem axis_count {lo hi : ℚ} {n : ℤ} (h : lo < hi) (hn : 0 < n) :
    fl (n : ℚ) ≠ 0 ∧ Axis lo hi (fdiv (fl (hi - lo)) (fl (n : ℚ))) n := by
  have hR : 0 < fl (hi - lo) := fl_pos (by linarith)
  have hn' : (0 : ℚ) < (n : ℚ) := by exact_mod_cast hn
  have hfn : 0 < fl (n : ℚ) := fl_pos hn'
  refine ⟨hfn.ne', h, fl_pos (div_pos hR hfn), hn, ?_, ?_⟩
  all_goals
    intro hb
    have hb' : (n : ℚ) ≤ 2 ^ 51 := by exact_mod_cast hb
    have e : fl (n : ℚ) = n := (isFloat_int (by rw [abs_of_pos hn]; linarith)).fl_eq
    rw [e]
    unfold fdiv
    have h1 := (abs_le.1 (fl_near (fl (hi - lo) / n))).1
    have hq : 0 < fl (hi - lo) / n := div_pos hR hn'
    rw [abs_of_pos hq] at h1
    have e2 : fl (hi - lo) = fl (hi - lo) / n * n := by field_simp
    generalize fl (hi - lo) / n = q at *
    generalize fl q = W at *
    rw [e2]
  · nlinarith
  · have hW : 0 < W := by
      have : q / 2 ^ 53 < q := by rw [div_lt_iff₀ (by norm_num)]; linarith
      linarith
    rw [div_lt_iff₀ hW]
    have : q * (1 - 1 / 2 ^ 53) ≤ W := by linarith
    nlinarith

private theorem axis_size {lo hi w : ℚ} (h : lo < hi) (hw : 0 < w) :
    Axis lo hi w ⌈fdiv (fl (hi - lo)) w⌉ := by
  have hR : 0 < fl (hi - lo) := fl_pos (by linarith)
  have hq : 0 < fl (hi - lo) / w := div_pos hR hw
  refine ⟨h, hw, Int.ceil_pos.2 (fl_pos hq), ?_, ?_⟩
  · intro _
    have h1 := Int.le_ceil (fdiv (fl (hi - lo)) w)
    have h2 := (abs_le.1 (fl_near (fl (hi - lo) / w))).1
    rw [abs_of_pos hq] at h2
    unfold fdiv at *
    have e2 : fl (hi - lo) = fl (hi - lo) / w * w := by field_simp
    generalize fl (hi - lo) / w = q at *
    rw [e2]
    nlinarith
  · intro hb
    by_contra hcon
    push Not at hcon
    have hfl : IsFloat ((⌈fdiv (fl (hi - lo)) w⌉ + 1 : ℤ) : ℚ) := by
      apply isFloat_int
      have : 0 < ⌈fdiv (fl (hi - lo)) w⌉ := Int.ceil_pos.2 (fl_pos hq)
      rw [abs_of_pos (by omega)]
      linarith
    have h1 := le_fl hfl (x := fl (hi - lo) / w) (by push_cast; exact hcon)
    have h2 := Int.le_ceil (fdiv (fl (hi - lo)) w)
    have h3 : ((⌈fdiv (fl (hi - lo)) w⌉ + 1 : ℤ) : ℚ) ≤ (⌈fdiv (fl (hi - lo)) w⌉ : ℚ) := le_trans h1 h2
    push_cast at h3
    linarith

private theorem rectInit_spec {points : List (ℚ × ℚ)} (hpos : PositiveExtent points)
    {cc cr : ℤ} {w h : ℚ}
    (hsize : (0 < w ∧ 0 < h) ∨ ((w = 0 ∨ h = 0) ∧ 0 < cc ∧ 0 < cr)) :
    ∃ m W H, rectInit points cc cr w h = .ok m ∧ m.points = points
      ∧ Geometry.bboxPts points = .ok m.mbb
      ∧ m.rectangle_width = .fin W ∧ m.rectangle_height = .fin H
      ∧ m.num = m.count_column * m.count_row
      ∧ Axis m.mbb.xmin m.mbb.xmax W m.count_column ∧ Axis m.mbb.ymin m.mbb.ymax H m.count_row := by
  have hne : points ≠ [] := by
    rintro rfl
    obtain ⟨⟨p, hp, -⟩, -⟩ := hpos
    simp at hp
  obtain ⟨b, hb⟩ := Geometry.bboxPts_ok hne
  obtain ⟨h1, -⟩ := Geometry.bboxPts_spec hb
  obtain ⟨⟨p, hp, q, hq, hpq⟩, ⟨r, hr, s, hs, hrs⟩⟩ := hpos
  have hx : b.xmin < b.xmax := lt_of_le_of_lt (h1 p hp).1 (lt_of_lt_of_le hpq (h1 q hq).2.1)
  have hy : b.ymin < b.ymax := lt_of_le_of_lt (h1 r hr).2.2.1 (lt_of_lt_of_le hrs (h1 s hs).2.2.2)
  rcases hsize with ⟨hw, hh⟩ | ⟨h0, hcc, hcr⟩
  · have e : rectInit points cc cr w h = .ok
        { points := points, mbb := b, count_column := ⌈fdiv (fl (b.xmax - b.xmin)) w⌉,
          count_row := ⌈fdiv (fl (b.ymax - b.ymin)) h⌉, rectangle_width := .fin w,
          rectangle_height := .fin h,
          num := ⌈fdiv (fl (b.xmax - b.xmin)) w⌉ * ⌈fdiv (fl (b.ymax - b.ymin)) h⌉ } := by
      simp [rectInit, computeMbb, hb, hw.ne', hh.ne', bind, Except.bind, pure, Except.pure, fsub]
    exact ⟨_, w, h, e, rfl, hb, rfl, rfl, rfl, axis_size hx hw, axis_size hy hh⟩
  · obtain ⟨n1, a1⟩ := axis_count hx hcc
    obtain ⟨n2, a2⟩ := axis_count hy hcr
    have hnot : ¬ (w ≠ 0 ∧ h ≠ 0) := by
      rintro ⟨a, b⟩; rcases h0 with h0 | h0
      · exact a h0
      · exact b h0
    have e : rectInit points cc cr w h = .ok
        { points := points, mbb := b, count_column := cc, count_row := cr,
          rectangle_width := .fin (fdiv (fl (b.xmax - b.xmin)) (fl (cc : ℚ))),
          rectangle_height := .fin (fdiv (fl (b.ymax - b.ymin)) (fl (cr : ℚ))),
          num := cc * cr } := by
      simp only [rectInit, computeMbb, hb, bind, Except.bind, if_neg hnot, fdivX, n1, n2, if_false,
        pure, Except.pure, fsub]
    exact ⟨_, _, _, e, rfl, hb, rfl, rfl, rfl, a1, a2⟩

/-- The offset of an event is in the column with index `i` of `n` columns of width `W`, the last one taking
in what is beyond it. -/
private theorem idx_column {o W : ℚ} {n i : ℤ} (hW : 0 < W) (hlt : o / W < (n : ℚ) + 1) (hi : i < n) :
    idx o W n = i ↔ InColumn W n i o := by
  rw [idx_eq_iff hW hlt hi]
  unfold InColumn
  constructor
  · rintro ⟨a, b | ⟨b, -⟩⟩
    · exact ⟨a, Or.inl b⟩
    · exact ⟨a, Or.inr b⟩
  · rintro ⟨a, b | b⟩
    · exact ⟨a, Or.inl b⟩
    · refine ⟨a, Or.inr ⟨b, ?_⟩⟩
      rw [div_lt_iff₀ hW] at hlt
      rw [b]; push_cast; linarith

private theorem offset_le {lo hi W x : ℚ} {n : ℤ} (a : Axis lo hi W n) (hn : n ≤ 2 ^ 51) (h1 : lo ≤ x)
    (h2 : x ≤ hi) : 0 ≤ fsub x lo ∧ fsub x lo / W < (n : ℚ) + 1 := by
  refine ⟨fl_nonneg (by linarith), lt_of_le_of_lt ?_ (a.beyond hn)⟩
  exact div_le_div_of_nonneg_right (fl_mono (by linarith)) a.size.le

/-- **C91.** In floating point arithmetic too, the rectangular grid counts every event exactly once, for every
pattern with positive extent, every cell size and every number of cells, up to `2⁵¹` in each direction. The
count of the cell in column `ix`, row `iy` is the number of events whose rounded offsets from the corner of the
bounding box lie in it; no event is lost beyond the last column or row although the cell size is rounded. -/
theorem C91_float_counts (points : List (ℚ × ℚ)) (hpos : PositiveExtent points)
    (cc cr : ℤ) (w h : ℚ)
    (hsize : (0 < w ∧ 0 < h) ∨ ((w = 0 ∨ h = 0) ∧ 0 < cc ∧ 0 < cr)) :
    ∃ m W H, rectInit points cc cr w h = .ok m ∧ m.rectangle_width = .fin W ∧ m.rectangle_height = .fin H
      ∧ 0 < m.count_column ∧ 0 < m.count_row ∧ m.num = m.count_column * m.count_row
      ∧ (m.count_column ≤ 2 ^ 51 → m.count_row ≤ 2 ^ 51 →
        ∃ d, rectCounts m = .ok d
          ∧ d.keys = (List.range m.num.toNat).map (Nat.cast : ℕ → ℤ)
          ∧ d.values.sum = points.length
          ∧ ∀ ix iy, 0 ≤ ix → ix < m.count_column → 0 ≤ iy → iy < m.count_row →
            Dict.getD0 (ix + iy * m.count_column) d = (points.filter fun p =>
              decide (InColumn W m.count_column ix (fl (p.1 - m.mbb.xmin))
                ∧ InColumn H m.count_row iy (fl (p.2 - m.mbb.ymin)))).length) := by
  obtain ⟨m, W, H, e, hpts, hb, hW, hH, hnum, ax, ay⟩ := rectInit_spec hpos hsize
  obtain ⟨h1, -⟩ := Geometry.bboxPts_spec hb
  refine ⟨m, W, H, e, hW, hH, ax.cells, ay.cells, hnum, fun hcc hcr => ?_⟩
  have ox : ∀ p ∈ points, _ := fun p hp => offset_le ax hcc (h1 p hp).1 (h1 p hp).2.1
  have oy : ∀ p ∈ points, _ := fun p hp => offset_le ay hcr (h1 p hp).2.2.1 (h1 p hp).2.2.2
  obtain ⟨d, e1, e2, e3, e4⟩ := rect_count (shifted m) hW hH ax.size ay.size ax.cells ay.cells
    (by
      intro p hp
      obtain ⟨q, hq, rfl⟩ := List.mem_map.1 hp
      have := ox q (hpts ▸ hq)
      simpa [shifted] using this)
    (by
      intro p hp
      obtain ⟨q, hq, rfl⟩ := List.mem_map.1 hp
      have := oy q (hpts ▸ hq)
      simpa [shifted] using this)
  refine ⟨d, by rw [rectCounts_eq]; exact e1, by rw [hnum]; exact e2, ?_, ?_⟩
  · rw [e3]; simp [shifted, hpts]
  · intro ix iy hix hix' hiy hiy'
    rw [e4]
    simp only [shifted, hpts, List.filter_map, List.length_map]
    congr 1
    apply List.filter_congr
    intro p hp
    have b1 := idx_mem ax.size ax.cells (ox p hp).1 (ox p hp).2
    simp only [Function.comp, sub_zero]
    rw [decide_eq_decide, Int.add_comm ix, key_inj b1.1 b1.2 hix hix', and_comm,
      idx_column ax.size (ox p hp).2 hix', idx_column ay.size (oy p hp).2 hiy']
    rfl

/-- Non-vacuity of C91: the floats nearest to 0.5, 0.9 and 0.6, on a grid of three columns, where the rounded
cell width is too small for the extent and the last event lies beyond the last column. -/
example : rectInit [(fl (5 / 10), fl (5 / 10)), (fl (9 / 10), fl (9 / 10)), (fl (6 / 10), fl (6 / 10))] 3 1 0 0
      = .ok { points := [(fl (5 / 10), fl (5 / 10)), (fl (9 / 10), fl (9 / 10)), (fl (6 / 10), fl (6 / 10))],
              mbb := ⟨fl (5 / 10), fl (5 / 10), fl (9 / 10), fl (9 / 10)⟩, count_column := 3, count_row := 1,
              rectangle_width := .fin (fl (fl (fl (9 / 10) - fl (5 / 10)) / 3)),
              rectangle_height := .fin (fl (fl (9 / 10) - fl (5 / 10))), num := 3 }
    ∧ (rectInit [(fl (5 / 10), fl (5 / 10)), (fl (9 / 10), fl (9 / 10)), (fl (6 / 10), fl (6 / 10))] 3 1 0 0).bind
        rectCounts = .ok [(0, 2), (1, 0), (2, 1)]
    ∧ 3 * fl (fl (fl (9 / 10) - fl (5 / 10)) / 3) < fl (fl (9 / 10) - fl (5 / 10)) := by
  decide +kernel

/-- One coordinate of C92: the bounds drawn for the column of an event contain it up to rounding. -/
private theorem drawn {lo hi W x : ℚ} {n i : ℤ} (a : Axis lo hi W n) (hn : n ≤ 2 ^ 51) (h1 : lo ≤ x)
    (h2 : x ≤ hi) (hi0 : 0 ≤ i) (hc : InColumn W n i (fl (x - lo))) :
    fadd lo (fmul (i : ℚ) W) - (|lo| + (hi - lo) + W) / 2 ^ 49 ≤ x
      ∧ x ≤ fadd (fadd lo (fmul (i : ℚ) W)) W + (|lo| + (hi - lo) + W) / 2 ^ 49 := by
  have hi0' : (0 : ℚ) ≤ (i : ℚ) := by exact_mod_cast hi0
  have hW := a.size
  have hlt := a.lt
  -- the rounded offset and extent
  have e1 := abs_le.1 (fl_near (x - lo))
  rw [abs_of_nonneg (by linarith : 0 ≤ x - lo)] at e1
  have e2 := abs_le.1 (fl_near (hi - lo))
  rw [abs_of_nonneg (by linarith : 0 ≤ hi - lo)] at e2
  have m1 : fl (x - lo) ≤ fl (hi - lo) := fl_mono (by linarith)
  obtain ⟨c1, c2⟩ := hc
  have hiW : 0 ≤ (i : ℚ) * W := mul_nonneg hi0' hW.le
  -- the offset is at most the right edge of its column, up to rounding
  have c3 : fl (x - lo) ≤ (i + 1) * W + fl (hi - lo) / 2 ^ 53 := by
    have hR : 0 < fl (hi - lo) := fl_pos (by linarith)
    rcases c2 with c2 | c2
    · have : 0 < fl (hi - lo) / 2 ^ 53 := by positivity
      linarith
    · have := a.cover hn
      have e : (i : ℚ) + 1 = n := by rw [c2]; push_cast; ring
      rw [e]
      linarith
  -- the drawn bounds
  unfold fadd fmul
  have e3 := abs_le.1 (fl_near ((i : ℚ) * W))
  rw [abs_of_nonneg hiW] at e3
  have e4 := abs_le.1 (fl_near (lo + fl ((i : ℚ) * W)))
  have e5 := abs_le.1 (fl_near (fl (lo + fl ((i : ℚ) * W)) + W))
  have t1 : |lo + fl ((i : ℚ) * W)| ≤ |lo| + fl ((i : ℚ) * W) := by
    have := abs_add_le lo (fl ((i : ℚ) * W))
    rwa [abs_of_nonneg (fl_nonneg hiW)] at this
  have t2 : |fl (lo + fl ((i : ℚ) * W)) + W| ≤ |fl (lo + fl ((i : ℚ) * W))| + W := by
    have := abs_add_le (fl (lo + fl ((i : ℚ) * W))) W
    rwa [abs_of_pos hW] at this
  have t3 : |fl (lo + fl ((i : ℚ) * W))| ≤ |lo + fl ((i : ℚ) * W)| + |lo + fl ((i : ℚ) * W)| / 2 ^ 53 := by
    have := fl_near (lo + fl ((i : ℚ) * W))
    have h := abs_sub_abs_le_abs_sub (fl (lo + fl ((i : ℚ) * W))) (lo + fl ((i : ℚ) * W))
    linarith
  have hl := abs_nonneg lo
  have hl1 := le_abs_self lo
  have hl2 := neg_abs_le lo
  generalize |fl (lo + fl ((i : ℚ) * W)) + W| = T2 at *
  generalize |fl (lo + fl ((i : ℚ) * W))| = T3 at *
  generalize |lo + fl ((i : ℚ) * W)| = T1 at *
  generalize |lo| = A at *
  generalize fl (fl (lo + fl ((i : ℚ) * W)) + W) = X1 at *
  generalize fl (lo + fl ((i : ℚ) * W)) = X0 at *
  generalize fl ((i : ℚ) * W) = P at *
  generalize fl (x - lo) = o at *
  generalize fl (hi - lo) = R at *
  rw [add_mul, one_mul] at c3
  generalize (i : ℚ) * W = Q at *
  norm_num at *
  obtain ⟨e1a, e1b⟩ := e1
  obtain ⟨e2a, e2b⟩ := e2
  obtain ⟨e3a, e3b⟩ := e3
  obtain ⟨e4a, e4b⟩ := e4
  obtain ⟨e5a, e5b⟩ := e5
  constructor <;> linarith

/-- **C92 (partial).** The rectangle drawn for the cell in which an event is counted contains the event up to
rounding: up to `2⁻⁴⁹` times the size of the numbers involved, in both coordinates. -/
theorem C92_float_drawn_cells_partial (points : List (ℚ × ℚ)) (hpos : PositiveExtent points)
    (cc cr : ℤ) (w h : ℚ)
    (hsize : (0 < w ∧ 0 < h) ∨ ((w = 0 ∨ h = 0) ∧ 0 < cc ∧ 0 < cr)) :
    ∃ m W H, rectInit points cc cr w h = .ok m ∧ m.rectangle_width = .fin W ∧ m.rectangle_height = .fin H
      ∧ (m.count_column ≤ 2 ^ 51 → m.count_row ≤ 2 ^ 51 → ∀ p ∈ points,
        ∃ ix iy, 0 ≤ ix ∧ ix < m.count_column ∧ 0 ≤ iy ∧ iy < m.count_row
          ∧ rectCellId m p = .ok (iy * m.count_column + ix)
          ∧ ∀ x0 y0 x1 y1, rectBounds m.mbb W H ix iy = (x0, y0, x1, y1) →
            x0 - (|m.mbb.xmin| + (m.mbb.xmax - m.mbb.xmin) + W) / 2 ^ 49 ≤ p.1
            ∧ p.1 ≤ x1 + (|m.mbb.xmin| + (m.mbb.xmax - m.mbb.xmin) + W) / 2 ^ 49
            ∧ y0 - (|m.mbb.ymin| + (m.mbb.ymax - m.mbb.ymin) + H) / 2 ^ 49 ≤ p.2
            ∧ p.2 ≤ y1 + (|m.mbb.ymin| + (m.mbb.ymax - m.mbb.ymin) + H) / 2 ^ 49) := by
  obtain ⟨m, W, H, e, hpts, hb, hW, hH, hnum, ax, ay⟩ := rectInit_spec hpos hsize
  obtain ⟨h1, -⟩ := Geometry.bboxPts_spec hb
  refine ⟨m, W, H, e, hW, hH, fun hcc hcr p hp => ?_⟩
  obtain ⟨q1, q2, q3, q4⟩ := h1 p hp
  have ox := offset_le ax hcc q1 q2
  have oy := offset_le ay hcr q3 q4
  have b1 := idx_mem ax.size ax.cells ox.1 ox.2
  have b2 := idx_mem ay.size ay.cells oy.1 oy.2
  refine ⟨_, _, b1.1, b1.2, b2.1, b2.2, ?_, ?_⟩
  · rw [← cellId_shifted, cellId_eq (shifted m) hW hH ax.size ay.size ax.cells ay.cells]
    · simp [shifted]
    · exact ox.1
    · exact oy.1
  · intro x0 y0 x1 y1 hbd
    simp only [rectBounds, Prod.mk.injEq] at hbd
    obtain ⟨rfl, rfl, rfl, rfl⟩ := hbd
    have d1 := drawn ax hcc q1 q2 b1.1 ((idx_column ax.size ox.2 b1.2).1 rfl)
    have d2 := drawn ay hcr q3 q4 b2.1 ((idx_column ay.size oy.2 b2.2).1 rfl)
    exact ⟨d1.1, d1.2, d2.1, d2.2⟩

/-- **C92 is FALSE of the code** without the allowance for rounding: of the events at the floats nearest to 0.5,
0.6 and 0.9 on a grid of three columns and one row, the last is counted in the last column, but lies outside the
rectangle drawn for it. -/
theorem C92_float_drawn_cells_refuted :
    ∃ (points : List (ℚ × ℚ)) (p : ℚ × ℚ) (m : RectangleM ℚ) (W H x0 y0 x1 y1 : ℚ),
      (∀ q ∈ points, IsFloat q.1 ∧ IsFloat q.2) ∧ p ∈ points
      ∧ rectInit points 3 1 0 0 = .ok m ∧ m.rectangle_width = .fin W ∧ m.rectangle_height = .fin H
      ∧ rectCellId m p = .ok 2 ∧ rectBounds m.mbb W H 2 0 = (x0, y0, x1, y1)
      ∧ x1 < p.1 := by
  refine ⟨[(fl (5 / 10), fl (5 / 10)), (fl (9 / 10), fl (9 / 10)), (fl (6 / 10), fl (6 / 10))],
    (fl (9 / 10), fl (9 / 10)),
    { points := [(fl (5 / 10), fl (5 / 10)), (fl (9 / 10), fl (9 / 10)), (fl (6 / 10), fl (6 / 10))],
      mbb := ⟨fl (5 / 10), fl (5 / 10), fl (9 / 10), fl (9 / 10)⟩, count_column := 3, count_row := 1,
      rectangle_width := .fin (fl (fl (fl (9 / 10) - fl (5 / 10)) / 3)),
      rectangle_height := .fin (fl (fl (9 / 10) - fl (5 / 10))), num := 3 }, _, _, _, _, _, _, ?_, ?_, ?_, rfl,
      rfl, ?_, rfl, ?_⟩
  · intro q hq
    simp only [List.mem_cons, List.not_mem_nil, or_false] at hq
    rcases hq with rfl | rfl | rfl <;> exact ⟨fl_isFloat _, fl_isFloat _⟩
  · simp
  · decide +kernel
  · decide +kernel
  · decide +kernel

end Pointpats.Props
