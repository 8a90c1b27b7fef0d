import Verif.Model.Quadrat
import Verif.Spec.Quadrat
import Verif.Spec.Drawing
import Verif.Props.RectangleGrid
import Mathlib.Analysis.Convex.Combination
import Mathlib.Analysis.Convex.Segment
import Mathlib.Topology.Order.DenselyOrdered

/-!
# Property C116: the rectangles drawn
-/

set_option linter.unusedSectionVars false

namespace Pointpats.Props

open Quadrat Spec

theorem polygon_rect {x0 y0 x1 y1 : ℝ} (hx : x0 ≤ x1) (hy : y0 ≤ y1) :
    {p | InPolygon (rectCellPolygon (x0, y0, x1, y1)) p} = Set.Icc x0 x1 ×ˢ Set.Icc y0 y1 := by
  have h1 : {v | v ∈ rectCellPolygon (x0, y0, x1, y1)} = ({x0, x1} : Set ℝ) ×ˢ ({y0, y1} : Set ℝ) := by
    ext ⟨a, b⟩
    simp only [Set.mem_prod, Set.mem_insert_iff, Set.mem_singleton_iff]
    show (a, b) ∈ [(x1, y0), (x1, y1), (x0, y1), (x0, y0), (x1, y0)] ↔ _
    simp only [List.mem_cons, List.not_mem_nil, or_false, Prod.mk.injEq]
    tauto
  have h2 : {p | InPolygon (rectCellPolygon (x0, y0, x1, y1)) p} =
      convexHull ℝ {v | v ∈ rectCellPolygon (x0, y0, x1, y1)} := rfl
  rw [h2, h1, convexHull_prod, convexHull_pair, convexHull_pair, segment_eq_Icc hx, segment_eq_Icc hy]

/-- **C116.** For every pattern with positive extent and every choice of positive cell sizes or counts, `RectangleM.plot`
draws rectangles of one size (the given one, or the extent divided by the given counts), each around the place of its number.
They do not overlap and they cover the smallest box that contains the events; if counts are given, they do not extend beyond
it. The numbers count the events in the rectangles. -/
theorem C116_rectangles (points : List (ℝ × ℝ)) (hpos : PositiveExtent points) (cc cr : ℤ) (w h : ℝ)
    (hsize : (0 < w ∧ 0 < h) ∨ ((w = 0 ∨ h = 0) ∧ 0 < cc ∧ 0 < cr)) :
    ∃ m W H cells, RectangleM.init points cc cr w h = .ok m
      ∧ m.rectangle_width = .fin W ∧ m.rectangle_height = .fin H
      ∧ (0 < w → 0 < h → W = w ∧ H = h)
      ∧ m.plotCells W H = .ok cells
      ∧ (∀ x ∈ cells, IsCellRectangle x.1 x.2.1 W H)
      ∧ NoOverlap (cells.map Prod.fst)
      ∧ CoversBox (cells.map Prod.fst) points
      ∧ NumbersCount cells points
      ∧ (w = 0 ∨ h = 0 → ∀ x ∈ cells, ∀ q, InPolygon x.1 q →
          (∃ p ∈ points, p.1 ≤ q.1) ∧ (∃ p ∈ points, q.1 ≤ p.1) ∧ (∃ p ∈ points, p.2 ≤ q.2) ∧ ∃ p ∈ points, q.2 ≤ p.2) := by
  obtain ⟨m, d, W, H, e, e1, hb, hW, hH, hW0, hH0, hg1, hg2, hcnt, hex⟩ :=
    C49_rectangle_cell_counts points hpos cc cr w h hsize
  obtain ⟨hin, ⟨pl, hpl, exl⟩, ⟨pr, hpr, exr⟩, ⟨pd, hpd, eyd⟩, ⟨pu, hpu, eyu⟩⟩ := Geometry.bboxPts_spec hb
  -- the extent of the grid
  have hspan : m.mbb.xmax ≤ m.mbb.xmin + m.count_column * W ∧ m.mbb.ymax ≤ m.mbb.ymin + m.count_row * H
      ∧ 0 < m.count_column ∧ 0 < m.count_row := by
    obtain ⟨c, ⟨c1, c2, c3, c4, hc⟩, -⟩ := hex pr hpr
    obtain ⟨c', ⟨c1', c2', c3', c4', hc'⟩, -⟩ := hex pu hpu
    have k1 : ((c.1 : ℝ) + 1) ≤ m.count_column := by exact_mod_cast c2
    have k2 : ((c'.2 : ℝ) + 1) ≤ m.count_row := by exact_mod_cast c4'
    refine ⟨?_, ?_, by omega, by omega⟩
    · have : pr.1 ≤ m.mbb.xmin + (c.1 + 1) * W := by
        rcases hc.1.2 with h' | h'
        · exact h'.le
        · exact h'.2.le
      nlinarith [mul_le_mul_of_nonneg_right k1 hW0.le]
    · have : pu.2 ≤ m.mbb.ymin + (c'.2 + 1) * H := by
        rcases hc'.2.2 with h' | h'
        · exact h'.le
        · exact h'.2.le
      nlinarith [mul_le_mul_of_nonneg_right k2 hH0.le]
  obtain ⟨sx, sy, hc0, hr0⟩ := hspan
  have hpoly : ∀ ix iy : ℕ, {p | InPolygon (rectCellPolygon (rectCellBounds m.mbb W H ix iy)) p} =
      Set.Icc (m.mbb.xmin + ix * W) (m.mbb.xmin + ix * W + W) ×ˢ Set.Icc (m.mbb.ymin + iy * H) (m.mbb.ymin + iy * H + H) := by
    intro ix iy
    have := polygon_rect (x0 := m.mbb.xmin + ix * W) (x1 := m.mbb.xmin + ix * W + W) (y0 := m.mbb.ymin + iy * H)
      (y1 := m.mbb.ymin + iy * H + H) (by linarith) (by linarith)
    simpa only [rectCellBounds, Int.cast_natCast] using this
  have hmem : ∀ {c : ℤ × (ℝ × ℝ × ℝ × ℝ)}, c ∈ m.iterCells W H ↔ ∃ iy ix : ℕ, iy < m.count_row.toNat ∧
      ix < m.count_column.toNat ∧ c = ((ix : ℤ) + (iy : ℤ) * m.count_column, rectCellBounds m.mbb W H ix iy) := by
    intro c
    simp only [RectangleM.iterCells, List.mem_flatMap, List.mem_range, List.mem_map]
    constructor
    · rintro ⟨iy, h1, ix, h2, rfl⟩
      exact ⟨iy, ix, h1, h2, rfl⟩
    · rintro ⟨iy, ix, h1, h2, rfl⟩
      exact ⟨iy, h1, ix, h2, rfl⟩
  refine ⟨m, W, H, (m.iterCells W H).map fun c => (rectCellPolygon c.2, cellCenterFromBounds c.2, Dict.getD0 c.1 d), e, hW, hH,
    hg1, ?_, ?_, ?_, ?_, ?_, ?_⟩
  · unfold RectangleM.plotCells
    rw [e1]
    rfl
  · intro x hx
    obtain ⟨c, hc, rfl⟩ := List.mem_map.1 hx
    obtain ⟨iy, ix, -, -, rfl⟩ := hmem.1 hc
    simp only [IsCellRectangle, rectCellPolygon, cellCenterFromBounds, rectCellBounds, List.cons.injEq, Prod.mk.injEq, and_true]
    refine ⟨⟨?_, ?_⟩, ⟨?_, ?_⟩, ⟨?_, ?_⟩, ⟨?_, ?_⟩, ?_, ?_⟩ <;> ring
  · -- no overlap
    unfold NoOverlap
    rw [List.map_map, List.pairwise_map]
    have apart : ∀ (a b : ℝ) (i j : ℕ) (S : ℝ), 0 < S → i < j →
        Disjoint (Set.Ioo (a + i * S) (a + i * S + S)) (Set.Ioo (a + j * S) (a + j * S + S)) := by
      intro a b i j S hS hij
      rw [Set.disjoint_left]
      rintro z ⟨-, z2⟩ ⟨z3, -⟩
      have : ((i : ℝ) + 1) ≤ j := by exact_mod_cast hij
      nlinarith [mul_le_mul_of_nonneg_right this hS.le]
    unfold RectangleM.iterCells
    rw [List.pairwise_flatMap]
    constructor
    · intro iy _
      rw [List.pairwise_map]
      refine List.pairwise_lt_range.imp ?_
      intro i j hij
      show Disjoint (interior {p | InPolygon (rectCellPolygon (rectCellBounds m.mbb W H i iy)) p})
        (interior {p | InPolygon (rectCellPolygon (rectCellBounds m.mbb W H j iy)) p})
      rw [hpoly, hpoly, interior_prod_eq, interior_prod_eq, interior_Icc, interior_Icc, interior_Icc]
      exact Set.Disjoint.set_prod_left (apart _ 0 i j W hW0 hij) _ _
    · refine List.pairwise_lt_range.imp ?_
      intro i j hij x hx y hy
      obtain ⟨a, -, rfl⟩ := List.mem_map.1 hx
      obtain ⟨b, -, rfl⟩ := List.mem_map.1 hy
      show Disjoint (interior {p | InPolygon (rectCellPolygon (rectCellBounds m.mbb W H a i)) p})
        (interior {p | InPolygon (rectCellPolygon (rectCellBounds m.mbb W H b j)) p})
      rw [hpoly, hpoly, interior_prod_eq, interior_prod_eq, interior_Icc, interior_Icc, interior_Icc, interior_Icc]
      exact Set.Disjoint.set_prod_right (apart _ 0 i j H hH0 hij) _ _
  · -- covering
    rintro q ⟨a, ha, ha'⟩ ⟨b, hb', hb''⟩ ⟨c, hc, hc'⟩ ⟨f, hf, hf'⟩
    have idx : ∀ (x0 z S : ℝ) (n : ℤ), 0 < S → 0 < n → x0 ≤ z → z ≤ x0 + n * S →
        ∃ i : ℕ, i < n.toNat ∧ x0 + i * S ≤ z ∧ z ≤ x0 + i * S + S := by
      intro x0 z S n hS hn h1 h2
      set k := ⌊(z - x0) / S⌋ with hk
      have k1 : (k : ℝ) * S ≤ z - x0 := (le_div_iff₀ hS).1 (Int.floor_le _)
      have k2 : z - x0 < ((k : ℝ) + 1) * S := (div_lt_iff₀ hS).1 (Int.lt_floor_add_one _)
      have k0 : 0 ≤ k := Int.floor_nonneg.2 (div_nonneg (by linarith) hS.le)
      by_cases hlt : k < n
      · refine ⟨k.toNat, by omega, ?_⟩
        have : ((k.toNat : ℕ) : ℝ) = (k : ℝ) := by exact_mod_cast Int.toNat_of_nonneg k0
        rw [this]
        constructor <;> linarith
      · refine ⟨(n - 1).toNat, by omega, ?_⟩
        have : (((n - 1).toNat : ℕ) : ℝ) = (n : ℝ) - 1 := by
          have h' : (((n - 1).toNat : ℕ) : ℤ) = n - 1 := Int.toNat_of_nonneg (by omega)
          exact_mod_cast h'
        have hge : (n : ℝ) ≤ (k : ℝ) := by exact_mod_cast not_lt.1 hlt
        have := mul_le_mul_of_nonneg_right hge hS.le
        rw [‹(((n - 1).toNat : ℕ) : ℝ) = (n : ℝ) - 1›]
        constructor <;> linarith
    obtain ⟨ix, hix, x1, x2⟩ := idx m.mbb.xmin q.1 W m.count_column hW0 hc0 ((hin a ha).1.trans ha')
      ((hb''.trans (hin b hb').2.1).trans sx)
    obtain ⟨iy, hiy, y1, y2⟩ := idx m.mbb.ymin q.2 H m.count_row hH0 hr0 ((hin c hc).2.2.1.trans hc')
      ((hf'.trans (hin f hf).2.2.2).trans sy)
    refine ⟨_, List.mem_map.2 ⟨_, List.mem_map.2 ⟨_, hmem.2 ⟨iy, ix, hiy, hix, rfl⟩, rfl⟩, rfl⟩, ?_⟩
    show q ∈ {p | InPolygon (rectCellPolygon (rectCellBounds m.mbb W H ix iy)) p}
    rw [hpoly]
    exact ⟨⟨x1, x2⟩, y1, y2⟩
  · -- the numbers
    classical
    have hinj : ∀ ix iy jx jy : ℤ, rectCellPolygon (rectCellBounds m.mbb W H ix iy)
        = rectCellPolygon (rectCellBounds m.mbb W H jx jy) → ix = jx ∧ iy = jy := by
      intro ix iy jx jy he
      simp only [rectCellPolygon, rectCellBounds, List.cons.injEq, Prod.mk.injEq] at he
      obtain ⟨⟨g1, g2⟩, -⟩ := he
      constructor
      · have : (ix : ℝ) = jx := by
          refine mul_right_cancel₀ hW0.ne' ?_
          linarith
        exact_mod_cast this
      · have : (iy : ℝ) = jy := by
          refine mul_right_cancel₀ hH0.ne' ?_
          linarith
        exact_mod_cast this
    choose! c hc hcu using hex
    refine ⟨fun p => rectCellPolygon (rectCellBounds m.mbb W H (c p).1 (c p).2), ?_, ?_⟩
    · intro p hp
      obtain ⟨c1, c2, c3, c4, hin'⟩ := hc p hp
      have ex : (((c p).1.toNat : ℕ) : ℤ) = (c p).1 := Int.toNat_of_nonneg c1
      have ey : (((c p).2.toNat : ℕ) : ℤ) = (c p).2 := Int.toNat_of_nonneg c3
      constructor
      · refine List.mem_map.2 ⟨_, List.mem_map.2 ⟨_, hmem.2 ⟨(c p).2.toNat, (c p).1.toNat, by omega, by omega, rfl⟩, rfl⟩, ?_⟩
        simp only [ex, ey]
      · have : p ∈ {q | InPolygon (rectCellPolygon (rectCellBounds m.mbb W H ((c p).1.toNat : ℕ) ((c p).2.toNat : ℕ))) q} := by
          rw [hpoly]
          have rx : (((c p).1.toNat : ℕ) : ℝ) = ((c p).1 : ℝ) := by exact_mod_cast ex
          have ry : (((c p).2.toNat : ℕ) : ℝ) = ((c p).2 : ℝ) := by exact_mod_cast ey
          rw [rx, ry]
          obtain ⟨⟨h1, h2⟩, h3, h4⟩ := hin'
          refine ⟨⟨h1, ?_⟩, h3, ?_⟩
          · rcases h2 with h2 | h2
            · linarith
            · linarith [h2.2]
          · rcases h4 with h4 | h4
            · linarith
            · linarith [h4.2]
        rw [ex, ey] at this
        exact this
    · intro x hx
      obtain ⟨k, hk, rfl⟩ := List.mem_map.1 hx
      obtain ⟨iy, ix, hiy, hix, rfl⟩ := hmem.1 hk
      simp only
      rw [hcnt ix iy (by omega) (by omega) (by omega) (by omega)]
      congr 1
      refine List.filter_congr fun p hp => ?_
      rw [decide_eq_decide]
      constructor
      · intro hin'
        rw [← hcu p hp (ix, iy) ⟨by omega, by simp only; omega, by omega, by simp only; omega, hin'⟩]
      · intro he
        obtain ⟨g1, g2⟩ := hinj _ _ _ _ he
        rw [← g1, ← g2]
        exact (hc p hp).2.2.2.2
  · intro h0 x hx q hq
    obtain ⟨c, hc, rfl⟩ := List.mem_map.1 hx
    obtain ⟨iy, ix, hiy, hix, rfl⟩ := hmem.1 hc
    have hq' : q ∈ {p | InPolygon (rectCellPolygon (rectCellBounds m.mbb W H ix iy)) p} := hq
    rw [hpoly] at hq'
    obtain ⟨⟨x1, x2⟩, y1, y2⟩ := hq'
    have hfit : m.count_column * W = m.mbb.xmax - m.mbb.xmin ∧ m.count_row * H = m.mbb.ymax - m.mbb.ymin := by
      have hnot : ¬ (w ≠ 0 ∧ h ≠ 0) := by
        rintro ⟨a, b⟩
        rcases h0 with h0 | h0
        · exact a h0
        · exact b h0
      have e' := e
      simp only [RectangleM.init, computeMbb, hb, bind, Except.bind, if_neg hnot, pure, Except.pure, Except.ok.injEq] at e'
      have w1 : XF.div (.fin (m.mbb.xmax - m.mbb.xmin)) (.fin (cc : ℝ)) = .fin W := by
        rw [← hW]
        conv_rhs => rw [← e']
      have w2 : XF.div (.fin (m.mbb.ymax - m.mbb.ymin)) (.fin (cr : ℝ)) = .fin H := by
        rw [← hH]
        conv_rhs => rw [← e']
      obtain ⟨g1, g2⟩ := hg2 h0
      have n1 : (cc : ℝ) ≠ 0 := by
        have : cc ≠ 0 := by omega
        exact_mod_cast this
      have n2 : (cr : ℝ) ≠ 0 := by
        have : cr ≠ 0 := by omega
        exact_mod_cast this
      simp only [XF.div, n1, n2, if_false, XF.fin.injEq] at w1 w2
      rw [g1, g2, ← w1, ← w2]
      constructor <;> field_simp
    have kx : ((ix : ℝ) + 1) ≤ m.count_column := by
      have : ((ix : ℤ) + 1) ≤ m.count_column := by omega
      exact_mod_cast this
    have ky : ((iy : ℝ) + 1) ≤ m.count_row := by
      have : ((iy : ℤ) + 1) ≤ m.count_row := by omega
      exact_mod_cast this
    have := mul_le_mul_of_nonneg_right kx hW0.le
    have := mul_le_mul_of_nonneg_right ky hH0.le
    have : 0 ≤ (ix : ℝ) * W := by positivity
    have : 0 ≤ (iy : ℝ) * H := by positivity
    refine ⟨⟨pl, hpl, ?_⟩, ⟨pr, hpr, ?_⟩, ⟨pd, hpd, ?_⟩, pu, hpu, ?_⟩ <;> linarith

/-- Three events with positive extent, and what is drawn for them (in exact arithmetic). -/
example : PositiveExtent [((0 : ℚ), (0 : ℚ)), (1, 2), (4, 3)] ∧
    (RectangleM.init [((0 : ℚ), (0 : ℚ)), (1, 2), (4, 3)] 2 1 0 0).bind (·.plotCells 2 3) =
      .ok [([(2, 0), (2, 3), (0, 3), (0, 0), (2, 0)], (1, 3 / 2), 2), ([(4, 0), (4, 3), (2, 3), (2, 0), (4, 0)], (3, 3 / 2), 1)] := by
  refine ⟨⟨⟨(0, 0), by simp, (1, 2), by simp, by norm_num⟩, ⟨(0, 0), by simp, (1, 2), by simp, by norm_num⟩⟩, by decide +kernel⟩

end Pointpats.Props
