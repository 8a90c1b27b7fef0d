import Verif.Props.RectangleGrid
import Verif.Props.ChiSquare

/-!
# C82: the quadrat plot shows the count, or the contribution, of the cell it is written into
-/

namespace Pointpats.Props

open Quadrat Spec

variable {K : Type} [Field K] [LinearOrder K] [IsStrictOrderedRing K]

omit [LinearOrder K] [IsStrictOrderedRing K] in
private theorem cast_sum' (l : List ℕ) : ((l.sum : ℕ) : K) = (l.map (Nat.cast : ℕ → K)).sum := by
  induction l with
  | nil => simp
  | cons a l ih => simp [ih]

private theorem zip_fst_sublist {α β : Type} (l : List α) : ∀ l' : List β,
    ((l.zip l').map Prod.fst).Sublist l := by
  induction l with
  | nil => simp
  | cons a l ih => intro l'; cases l' with
    | nil => simp
    | cons b l' => simpa using ih l'

private theorem lookup_reverse_zip {α : Type} (ks : List ℤ) (hn : ks.Nodup) (vs : List α)
    (i : ℕ) (hk : i < ks.length) (hv : i < vs.length) :
    (ks.zip vs).reverse.lookup ks[i] = some vs[i] := by
  have hmem : (ks[i], vs[i]) ∈ (ks.zip vs).reverse := by
    rw [List.mem_reverse, List.mem_iff_getElem]
    exact ⟨i, by simp; omega, by simp⟩
  rw [List.lookup_eq_some_iff]
  obtain ⟨l1, l2, h⟩ := List.append_of_mem hmem
  refine ⟨l1, l2, h, ?_⟩
  have hnd : ((ks.zip vs).reverse.map Prod.fst).Nodup := by
    rw [List.map_reverse, List.nodup_reverse]
    exact hn.sublist (zip_fst_sublist ks vs)
  rw [h] at hnd
  simp only [List.map_append, List.map_cons, List.nodup_append, List.nodup_cons] at hnd
  intro q hq
  simp only [bne_iff_ne, ne_eq]
  intro e
  exact hnd.2.2 q.1 (List.mem_map.2 ⟨q, hq, rfl⟩) ks[i] (by simp) e.symm

omit [IsStrictOrderedRing K] in
private theorem chi2Contrib_length (counts : List K) : (chi2Contrib counts).length = counts.length := by
  unfold chi2Contrib; simp only; split <;> simp

/-- **C82, contributions.** Let `d` be the counts of a grid (distinct cell ids) with `N > 0` points in
`k` cells. Whatever the order in which the grid draws its cells, the value written into each drawn cell
is the chi-square contribution `(n - N/k)² / (N/k)` of that very cell with count `n`, and drawn cells
without a count get `nan`. -/
theorem C82_plot_contributions (d : Dict) (hd : d.keys.Nodup) (hpos : 0 < d.values.sum)
    (plotted : List ℤ) :
    ∃ vals : List (XF K), qstatPlotChi2 d plotted = .ok vals ∧ vals.length = plotted.length
      ∧ (∀ (j i : ℕ) (hj : j < plotted.length) (hi : i < d.length), plotted[j] = (d[i]).1 →
          vals[j]? = some (.fin (((d[i]).2 - (d.values.sum : K) / d.length) ^ 2
            / ((d.values.sum : K) / d.length))))
      ∧ (∀ (j : ℕ) (hj : j < plotted.length), plotted[j] ∉ d.keys → vals[j]? = some .nan) := by
  refine ⟨plottedContrib d.keys (chi2Contrib (d.values.map (Nat.cast : ℕ → K))) plotted, ?_, ?_, ?_, ?_⟩
  · unfold qstatPlotChi2 gridPlotChi2
    simp [plottedContrib]
  · simp [plottedContrib]
  · intro j i hj hi h
    have h2 : i < (chi2Contrib (d.values.map (Nat.cast : ℕ → K))).length := by
      rw [chi2Contrib_length]; simpa [Dict.values] using hi
    have hki : i < d.keys.length := by simpa [Dict.keys] using hi
    have h1 : plotted[j] = d.keys[i] := by rw [h]; simp [Dict.keys]
    rw [plottedContrib, List.getElem?_map, List.getElem?_eq_getElem hj, Option.map_some, h1,
      lookup_reverse_zip _ hd _ i hki h2]
    obtain ⟨-, -, e, -⟩ := C54_chi_square (d.values.map (Nat.cast : ℕ → K))
      (by intro o ho; obtain ⟨n, -, rfl⟩ := List.mem_map.1 ho; exact Nat.cast_nonneg n)
      (by rw [← cast_sum']; exact_mod_cast hpos)
    simp only [e, ← cast_sum']
    simp [Dict.values]
  · intro j hj h
    have : ((d.keys.zip (chi2Contrib (d.values.map (Nat.cast : ℕ → K)))).reverse.lookup plotted[j])
        = none := by
      rw [List.lookup_eq_none_iff]
      rintro ⟨a, b⟩ hab
      have : a ∈ d.keys := (List.of_mem_zip (List.mem_reverse.1 hab)).1
      simp only [bne_iff_ne, ne_eq]
      rintro rfl
      exact h this
    rw [plottedContrib, List.getElem?_map, List.getElem?_eq_getElem hj, Option.map_some, this]
    rfl

variable [FloorRing K]

private theorem getElem?_flatMap_grid {α : Type} (r c : ℕ) (f : ℕ → ℕ → α) (ix iy : ℕ) (hx : ix < c)
    (hy : iy < r) :
    ((List.range r).flatMap fun iy => (List.range c).map fun ix => f iy ix)[ix + iy * c]?
      = some (f iy ix) := by
  induction r with
  | zero => omega
  | succ r ih =>
    rw [List.range_succ, List.flatMap_append]
    have hlen : ((List.range r).flatMap fun iy => (List.range c).map fun ix => f iy ix).length
        = r * c := by simp [List.length_flatMap]
    by_cases h : iy < r
    · rw [List.getElem?_append_left, ih h]
      rw [hlen]
      calc ix + iy * c < c + iy * c := by omega
        _ = (iy + 1) * c := by ring
        _ ≤ r * c := Nat.mul_le_mul_right _ h
    · have : iy = r := by omega
      subst this
      rw [List.getElem?_append_right (by rw [hlen]; omega), hlen]
      simp [hx]

/-- **C82, counts.** For every pattern with positive extent and every choice of positive cell sizes or
counts, the plot of the rectangular grid draws `columns * rows` rectangles. The one at position
`ix + iy * columns` is `[x0 + ix W, x0 + (ix+1) W] x [y0 + iy H, y0 + (iy+1) H]`, where `(x0, y0)` is the
lower left corner of the bounding box of the pattern, and the number written into it is the number of
points in that rectangle (points on a common edge belong to the right or upper cell). -/
theorem C82_rectangle_plot (points : List (K × K)) (hpos : PositiveExtent points)
    (cc cr : ℤ) (w h : K)
    (hsize : (0 < w ∧ 0 < h) ∨ ((w = 0 ∨ h = 0) ∧ 0 < cc ∧ 0 < cr)) :
    ∃ m W H shown, RectangleM.init points cc cr w h = .ok m
      ∧ m.rectangle_width = .fin W ∧ m.rectangle_height = .fin H ∧ 0 < W ∧ 0 < H
      ∧ Geometry.bboxPts points = .ok m.mbb
      ∧ m.plotCounts W H = .ok shown
      ∧ (shown.length : ℤ) = m.count_column * m.count_row
      ∧ ∀ ix iy : ℕ, (ix : ℤ) < m.count_column → (iy : ℤ) < m.count_row →
          shown[ix + iy * m.count_column.toNat]? = some
            ((m.mbb.xmin + ix * W, m.mbb.ymin + iy * H, m.mbb.xmin + (ix + 1) * W,
                m.mbb.ymin + (iy + 1) * H),
              (points.filter fun p => InRectCell m.mbb.xmin m.mbb.ymin W H m.count_column m.count_row
                ix iy p).length) := by
  obtain ⟨m, d, W, H, e, e1, hb, hW, hH, hW0, hH0, -, -, hcnt, hex⟩ :=
    C49_rectangle_cell_counts points hpos cc cr w h hsize
  obtain ⟨⟨p, hp, -⟩, -⟩ := hpos
  obtain ⟨⟨a, b⟩, ⟨ha, ha', hb0, hb', -⟩, -⟩ := hex p hp
  obtain ⟨c, hc⟩ := Int.eq_ofNat_of_zero_le (le_of_lt (lt_of_le_of_lt ha ha'))
  obtain ⟨r, hr⟩ := Int.eq_ofNat_of_zero_le (le_of_lt (lt_of_le_of_lt hb0 hb'))
  refine ⟨m, W, H, _, e, hW, hH, hW0, hH0, hb, by unfold RectangleM.plotCounts; rw [e1]; rfl, ?_, ?_⟩
  · rw [List.length_map, RectangleM.iterCells, hc, hr]
    simp [List.length_flatMap, mul_comm]
  · intro ix iy hix hiy
    have h1 := getElem?_flatMap_grid m.count_row.toNat m.count_column.toNat
      (fun iy ix => ((ix : ℤ) + (iy : ℤ) * m.count_column, rectCellBounds m.mbb W H ix iy))
      ix iy (by omega) (by omega)
    rw [List.getElem?_map, RectangleM.iterCells, h1, Option.map_some,
      hcnt ix iy (by omega) hix (by omega) hiy]
    simp only [rectCellBounds, Option.some.injEq, Prod.mk.injEq, true_and, Int.cast_natCast, and_true]
    constructor <;> ring

/-- Non-vacuity: three points on a 2 x 1 grid. -/
example : (RectangleM.init [((0 : ℚ), (0 : ℚ)), (1, 2), (4, 3)] 2 1 0 0).bind (·.plotCounts 2 3)
    = .ok [((0, 0, 2, 3), 2), ((2, 0, 4, 3), 1)] := by decide +kernel

omit [IsStrictOrderedRing K] in
/-- **C82, hexagons.** Whenever the counting succeeds, the plot of the hexagonal grid draws one hexagon
per cell, centred at the centre of the cell, with the count of that cell written into it. -/
theorem C82_hexagon_plot (m : HexagonM K) (d : Dict) (h : m.pointLocationSta = .ok d)
    (hd : d.keys.Nodup) :
    m.plotCounts = .ok (d.map fun e => (m.cellCenter e.1, e.2)) := by
  have key : ∀ (d : Dict), d.keys.Nodup → ∀ e ∈ d, Dict.getD0 e.1 d = e.2 := by
    intro d
    induction d with
    | nil => simp
    | cons x d ih =>
      intro hn e he
      simp only [Dict.keys, List.map_cons, List.nodup_cons, List.mem_map, not_exists, not_and] at hn
      rcases List.mem_cons.1 he with rfl | he
      · simp [Dict.getD0]
      · have : x.1 ≠ e.1 := fun h' => hn.1 e he h'.symm
        simp only [Dict.getD0, this, if_false]
        exact ih hn.2 e he
  unfold HexagonM.plotCounts
  rw [h]
  show Except.ok _ = _
  simp only [Dict.keys, List.map_map, Except.ok.injEq]
  apply List.map_congr_left
  intro e he
  simp only [Function.comp, key d hd e he]

/-- Non-vacuity of `C82_hexagon_plot` and `C82_plot_contributions`. -/
example : (HexagonM.init (7 / 8 : ℚ) [(0, 0), (3, 1), (2, 5), (1, 3), (0, 0)] 2).bind (·.pointLocationSta)
      = .ok [(0, 2), (1, 1), (2, 1), (3, 1)]
    ∧ (HexagonM.init (7 / 8 : ℚ) [(0, 0), (3, 1), (2, 5), (1, 3), (0, 0)] 2).bind (·.plotCounts)
      = .ok [((0, 0), 2), ((3, 7 / 4), 1), ((0, 7 / 2), 1), ((3, 21 / 4), 1)]
    ∧ qstatPlotChi2 (K := ℚ) [(0, 2), (1, 1), (2, 1), (3, 1)] [0, 1, 2, 3]
      = .ok [.fin (9 / 20), .fin (1 / 20), .fin (1 / 20), .fin (1 / 20)] := by decide +kernel

end Pointpats.Props
