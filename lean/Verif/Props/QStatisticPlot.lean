import Verif.Model.QuadratPlots
import Verif.Props.QuadratPlot
import Verif.Props.HexagonPlot
import Verif.Props.QStatistic
import Verif.Props.QComparable

/-!
# C154: what a `QStatistic` plots
-/

set_option linter.unusedSectionVars false

namespace Pointpats.Props

open Quadrat Random Spec

variable {K : Type} [Field K] [LinearOrder K] [IsStrictOrderedRing K] [FloorRing K]

/-- The attributes of a `QStatistic` are those of the counts of its grid, with and without simulations. -/
private theorem qstat_attributes (cos30 : K) (window : Hull K) (u : ℕ → K) (points : List (K × K)) (grid : GridArg K)
    (realizations : ℤ) (fuel pos pos' : ℕ) (q : QStat K)
    (h : qStatistic cos30 window u points grid realizations fuel pos = some (.ok (q, pos'))) :
    ∃ d simGrid, gridCounts cos30 points grid = .ok (d, simGrid) ∧ q.cell_ids = d.keys
      ∧ q.chi2 = chisquare (Dict.numbers d) ∧ q.chi2_contrib = chi2Contrib (Dict.numbers d) := by
  unfold qStatistic asPointsArray at h
  by_cases hne : points = []
  · simp [hne, Run.fail] at h
  simp only [hne, if_false] at h
  cases hg : gridCounts cos30 points grid with
  | error e => simp [hg, Run.fail] at h
  | ok a =>
    obtain ⟨d, simGrid⟩ := a
    simp only [hg] at h
    refine ⟨d, simGrid, rfl, ?_⟩
    by_cases hR : 0 < realizations
    · simp only [hR, if_true] at h
      by_cases ha : window.area = 0
      · simp [ha, Run.fail] at h
      · simp only [ha, if_false] at h
        cases hp : poisson window u (some ((points.length : K) / window.area)) (.int realizations) fuel pos with
        | none => rw [hp] at h; simp [Run.andThen] at h
        | some r =>
          rw [hp] at h
          cases r with
          | error e => simp [Run.andThen] at h
          | ok a =>
            obtain ⟨reals, p1⟩ := a
            obtain ⟨b, p2, -, h⟩ := Run.andThen_ok.1 h
            cases hs : (List.range realizations.toNat).mapM (simChi2 cos30 simGrid b) with
            | error e => simp [hs, Run.fail] at h
            | ok sims =>
              simp only [hs, Run.ret, Option.some.injEq, Except.ok.injEq, Prod.mk.injEq] at h
              obtain ⟨rfl, -⟩ := h
              exact ⟨rfl, rfl, rfl⟩
    · simp only [hR, if_false, Run.ret, Option.some.injEq, Except.ok.injEq, Prod.mk.injEq] at h
      obtain ⟨rfl, -⟩ := h
      exact ⟨rfl, rfl, rfl⟩

/-- The plot with contributions, for cells drawn in the order of the counts. -/
private theorem plot_chi2 {P : Type} (d : Dict) (hd : d.keys.Nodup) (hpos : 0 < d.values.sum) (q : QStat K)
    (h1 : q.cell_ids = d.keys) (h3 : q.chi2_contrib = chi2Contrib (Dict.numbers d)) (cells : List (ℤ × P))
    (hc : cells.map Prod.fst = d.keys) :
    qstatPlot q (gridPlot cells d) .chi2 = .ok ((cells.map Prod.snd).zip (d.values.map fun n : ℕ =>
      Label.value (.fin (((n : K) - (d.values.sum : K) / d.length) ^ 2 / ((d.values.sum : K) / d.length))))) := by
  obtain ⟨vals, e1, e2, e3, -⟩ := C82_plot_contributions (K := K) d hd hpos d.keys
  have hlen : d.keys.length = d.length := by simp [Dict.keys]
  have hv : vals = d.values.map fun n : ℕ =>
      (.fin (((n : K) - (d.values.sum : K) / d.length) ^ 2 / ((d.values.sum : K) / d.length))) := by
    apply List.ext_getElem?
    intro j
    by_cases hj : j < d.length
    · have := e3 j j (hlen ▸ hj) hj (by simp [Dict.keys])
      rw [this]
      simp [Dict.values, hj]
    · rw [List.getElem?_eq_none (by rw [e2, hlen]; omega), List.getElem?_eq_none (by simp [Dict.values]; omega)]
  have hcl : cells.length = d.keys.length := by rw [← hc]; simp
  unfold qstatPlotChi2 at e1
  simp only [qstatPlot, gridPlot, bind, Except.bind, pure, Except.pure, hc, h1, h3, hcl]
  have e1' : gridPlotChi2 (K := K) d.keys.length (some (plottedContrib d.keys (chi2Contrib (Dict.numbers d)) d.keys)) = .ok vals := e1
  rw [e1', hv]
  simp only [List.map_map, Function.comp_def]

/-- The counts, cell by cell. -/
private theorem values_eq (d : Dict) (hd : d.keys.Nodup) : d.values = d.keys.map fun k => Dict.getD0 k d := by
  have key : ∀ (d : Dict), d.keys.Nodup → ∀ e ∈ d, Dict.getD0 e.1 d = e.2 := by
    intro d
    induction d with
    | nil => simp
    | cons x d ih =>
      intro hn e he
      simp only [Dict.keys, List.map_cons, List.nodup_cons, List.mem_map, not_exists, not_and] at hn
      rcases List.mem_cons.1 he with rfl | he
      · simp [Dict.getD0]
      · have : x.1 ≠ e.1 := fun h' => hn.1 e he h'.symm
        simp only [Dict.getD0, this, if_false]
        exact ih hn.2 e he
  simp only [Dict.values, Dict.keys, List.map_map]
  apply List.map_congr_left
  intro e he
  simp only [Function.comp, key d hd e he]

/-- The statistic is the sum of the contributions. -/
private theorem chi2_sum (d : Dict) (hpos : 0 < d.values.sum) : chisquare (Dict.numbers d : List K)
    = .fin (d.values.map fun n : ℕ => ((n : K) - (d.values.sum : K) / d.length) ^ 2 / ((d.values.sum : K) / d.length)).sum := by
  have hs : (Dict.numbers d : List K).sum = (d.values.sum : K) := by
    unfold Dict.numbers
    generalize d.values = l
    induction l with
    | nil => exact Nat.cast_zero.symm
    | cons a l ih => rw [List.map_cons, List.sum_cons, List.sum_cons, ih, Nat.cast_add]
  have hl : (Dict.numbers d : List K).length = d.length := by simp [Dict.numbers, Dict.values]
  obtain ⟨c, e1, -, e2, -⟩ := C54_chi_square (Dict.numbers d : List K)
    (by intro o ho; obtain ⟨n, -, rfl⟩ := List.mem_map.1 ho; exact Nat.cast_nonneg n)
    (by rw [hs]; exact_mod_cast hpos)
  rw [e1, e2, hs, hl]
  simp only [Dict.numbers, List.map_map, Function.comp_def]

/-- Counting keeps the events. -/
private theorem foldlM_incr_sum {α : Type} (f : α → ℤ) (l : List α) : ∀ (d d' : Dict),
    l.foldlM (fun d a => Dict.incr (f a) d) d = .ok d' → d'.values.sum = d.values.sum + l.length := by
  induction l with
  | nil =>
    intro d d' h
    simp only [List.foldlM_nil, pure, Except.pure, Except.ok.injEq] at h
    rw [h]
    rfl
  | cons a l ih =>
    intro d d' h
    rw [List.foldlM_cons] at h
    cases h1 : Dict.incr (f a) d with
    | error e => rw [h1] at h; cases h
    | ok d1 =>
      rw [h1] at h
      by_cases hk : f a ∈ d.keys
      · obtain ⟨d2, h2, -, h3, -⟩ := Dict.incr_of_mem hk
        rw [h1] at h2
        cases h2
        rw [ih d1 d' h, h3, List.length_cons]
        omega
      · rw [Dict.incr_of_not_mem hk] at h1
        cases h1

private theorem hexInit_points {cos30 : K} {points : List (K × K)} {lh : K} {m : HexagonM K}
    (h : HexagonM.init cos30 points lh = .ok m) : m.points = points := by
  simp only [HexagonM.init, bind, Except.bind, pure, Except.pure] at h
  repeat' split at h
  all_goals first | (cases h; done) | skip
  all_goals
    simp only [Except.ok.injEq] at h
    rw [← h]

/-- **C154, rectangles.** For a `QStatistic` with rectangular cells, with or without simulations: the plot of counts draws the
`columns * rows` cells of the grid with the number of events in each; the plot of contributions draws the same cells, writes
`(n - e)² / e` into a cell with `n` events, where `e` is the mean number per cell, and the numbers written add up to the
statistic. Another value of `show` raises a `ValueError`. -/
theorem C154_rectangles (points : List (K × K)) (hpos : PositiveExtent points) (cc cr : ℤ) (w h : K)
    (hsize : (0 < w ∧ 0 < h) ∨ ((w = 0 ∨ h = 0) ∧ 0 < cc ∧ 0 < cr)) (cos30 : K) (window : Hull K) (u : ℕ → K)
    (realizations : ℤ) (pos pos' : ℕ) (q : QStat K)
    (hq : Returns (fun fuel => qStatistic cos30 window u points (.rectangle cc cr w h) realizations fuel pos) (.ok (q, pos'))) :
    ∃ (m : RectangleM K) (W H : K) (numbers : List ((K × K × K × K) × Label K)) (values : List K),
      RectangleM.init points cc cr w h = .ok m
      ∧ m.rectangle_width = .fin W ∧ m.rectangle_height = .fin H ∧ 0 < W ∧ 0 < H ∧ Geometry.bboxPts points = .ok m.mbb
      ∧ qstatPlot q (m.plot W H) .counts = .ok numbers
      ∧ qstatPlot q (m.plot W H) .chi2 = .ok ((numbers.map Prod.fst).zip (values.map fun v => Label.value (.fin v)))
      ∧ qstatPlot q (m.plot W H) .other = .error .valueError
      ∧ (numbers.length : ℤ) = m.count_column * m.count_row ∧ values.length = numbers.length
      ∧ q.chi2 = .fin values.sum
      ∧ ∀ ix iy n : ℕ, (ix : ℤ) < m.count_column → (iy : ℤ) < m.count_row →
          n = (points.filter fun p => InRectCell m.mbb.xmin m.mbb.ymin W H m.count_column m.count_row ix iy p).length →
          numbers[ix + iy * m.count_column.toNat]? = some
            ((m.mbb.xmin + ix * W, m.mbb.ymin + iy * H, m.mbb.xmin + (ix + 1) * W, m.mbb.ymin + (iy + 1) * H), .count n)
          ∧ values[ix + iy * m.count_column.toNat]? = some
              (((n : K) - points.length / numbers.length) ^ 2 / (points.length / numbers.length)) := by
  obtain ⟨fuel, hq⟩ := hq
  obtain ⟨m, W, H, shown, e0, eW, eH, hW, hH, hb, hs, hlen, hcell⟩ := C82_rectangle_plot points hpos cc cr w h hsize
  obtain ⟨m', d, e0', e1, hn, hnum, hkeys, hsum⟩ := C48_rectangle_counts_conserve points hpos cc cr w h hsize
  obtain rfl : m = m' := by rw [e0] at e0'; exact Except.ok.inj e0'
  obtain ⟨d', sg, hg, a1, a2, a3⟩ := qstat_attributes cos30 window u points _ realizations fuel pos pos' q hq
  obtain rfl : d = d' := by
    simp only [gridCounts, e0, e1, bind, Except.bind, pure, Except.pure, Except.ok.injEq, Prod.mk.injEq] at hg
    exact hg.1
  have hnd : d.keys.Nodup := by rw [hkeys]; exact List.nodup_range.map Nat.cast_injective
  have hpos' : 0 < d.values.sum := by
    obtain ⟨⟨p, hp, -⟩, -⟩ := hpos
    rw [hsum]
    exact List.length_pos_of_mem hp
  have hids : (m.iterCells W H).map Prod.fst = d.keys := by
    have h1 : (m.iterCells W H).map Prod.fst = m.iterCellIds := by
      simp only [RectangleM.iterCells, RectangleM.iterCellIds, List.map_flatMap, List.map_map, Function.comp_def]
    obtain ⟨hc, hr⟩ : 0 ≤ m.count_column ∧ 0 ≤ m.count_row := by
      obtain ⟨m2, d2, W2, H2, e2, -, -, -, -, -, -, -, -, -, hex⟩ := C49_rectangle_cell_counts points hpos cc cr w h hsize
      obtain rfl : m = m2 := by rw [e0] at e2; exact Except.ok.inj e2
      obtain ⟨⟨p, hp, -⟩, -⟩ := hpos
      obtain ⟨c, ⟨k1, k2, k3, k4, -⟩, -⟩ := hex p hp
      exact ⟨k1.trans k2.le, k3.trans k4.le⟩
    rw [h1, iterCellIds_eq m hc hr, hkeys, hnum]
  have hshown : shown = (m.iterCells W H).map fun c => (c.2, Dict.getD0 c.1 d) := by
    simp only [RectangleM.plotCounts, e1, bind, Except.bind, pure, Except.pure, Except.ok.injEq] at hs
    exact hs.symm
  have hvals : d.values = shown.map Prod.snd := by
    rw [values_eq d hnd, ← hids, hshown, List.map_map, List.map_map]
    rfl
  have hplot : m.plot W H = gridPlot (K := K) (m.iterCells W H) d := by
    funext s c
    simp only [RectangleM.plot, e1, bind, Except.bind]
  have hdl : (d.length : K) = shown.length := by
    have : d.values.length = shown.length := by rw [hvals]; simp
    rw [← this]
    simp [Dict.values]
  refine ⟨m, W, H, shown.map fun s => (s.1, .count s.2),
    d.values.map fun n : ℕ => ((n : K) - (d.values.sum : K) / d.length) ^ 2 / ((d.values.sum : K) / d.length),
    e0, eW, eH, hW, hH, hb, ?_, ?_, rfl, by simpa using hlen, by rw [hvals]; simp, by rw [a2, chi2_sum d hpos'], ?_⟩
  · rw [hplot]
    simp only [qstatPlot, gridPlot, bind, Except.bind, pure, Except.pure, hshown, List.map_map, Function.comp_def]
  · rw [hplot, plot_chi2 d hnd hpos' q a1 a3 _ hids, hshown]
    simp only [List.map_map, Function.comp_def]
  · intro ix iy n hix hiy hn'
    have hc := hcell ix iy hix hiy
    rw [← hn'] at hc
    constructor
    · rw [List.getElem?_map, hc]
      rfl
    · rw [List.getElem?_map, hvals, List.getElem?_map, hc, ← hvals, hsum, hdl]
      simp

/-- **C154, hexagons.** For a `QStatistic` with hexagonal cells: the plot of counts draws every hexagon of the grid at its centre
with its number of events, the plot of contributions the same hexagons with `(n - e)² / e`, and the numbers written add up to the
statistic. Another value of `show` raises a `ValueError`. -/
theorem C154_hexagons (points : List (K × K)) (lh cos30 : K) (window : Hull K) (u : ℕ → K)
    (realizations : ℤ) (pos pos' : ℕ) (q : QStat K)
    (hq : Returns (fun fuel => qStatistic cos30 window u points (.hexagon lh) realizations fuel pos) (.ok (q, pos'))) :
    ∃ (m : HexagonM K) (d : Dict), HexagonM.init cos30 points lh = .ok m ∧ m.pointLocationSta = .ok d ∧ d.keys.Nodup
      ∧ d.values.sum = points.length
      ∧ qstatPlot q m.plot .counts = .ok (d.map fun e => (m.cellCenter e.1, .count e.2))
      ∧ qstatPlot q m.plot .chi2 = .ok (d.map fun e => (m.cellCenter e.1,
          .value (.fin (((e.2 : K) - points.length / d.length) ^ 2 / (points.length / d.length)))))
      ∧ qstatPlot q m.plot .other = .error .valueError
      ∧ q.chi2 = .fin (d.map fun e => ((e.2 : K) - points.length / d.length) ^ 2 / (points.length / d.length)).sum := by
  obtain ⟨fuel, hq⟩ := hq
  obtain ⟨d, sg, hg, a1, a2, a3⟩ := qstat_attributes cos30 window u points _ realizations fuel pos pos' q hq
  have hne : points ≠ [] := by
    rintro rfl
    simp [qStatistic, asPointsArray, Run.fail] at hq
  cases e0 : HexagonM.init cos30 points lh with
  | error e => simp [gridCounts, e0, bind, Except.bind] at hg
  | ok m =>
    cases e1 : m.pointLocationSta with
    | error e => simp [gridCounts, e0, e1, bind, Except.bind] at hg
    | ok d' =>
      obtain rfl : d' = d := by
        simp only [gridCounts, e0, e1, bind, Except.bind, pure, Except.pure, Except.ok.injEq, Prod.mk.injEq] at hg
        exact hg.1
      have hnd : d'.keys.Nodup := by rw [pointLocation_keys m d' e1]; exact m.nodup_hexKeys
      have hpts : m.points = points := hexInit_points e0
      have hsum : d'.values.sum = points.length := by
        have h1 := foldlM_incr_sum m.cellId m.points m.zeroDict d' e1
        rw [hpts, m.zeroDict_eq] at h1
        have h2 : (Dict.values (m.hexKeys.map fun k => (k, 0))).sum = 0 := by
          apply List.sum_eq_zero
          intro x hx
          simp only [Dict.values, List.map_map, List.mem_map, Function.comp] at hx
          obtain ⟨-, -, rfl⟩ := hx
          rfl
        rw [h1, h2, Nat.zero_add]
      have hpos' : 0 < d'.values.sum := by rw [hsum]; exact List.length_pos_iff.2 hne
      have hids : (d'.keys.map fun c => (c, m.cellCenter c)).map Prod.fst = d'.keys := by
        rw [List.map_map]; exact List.map_id' _
      have hplot : m.plot = gridPlot (K := K) (d'.keys.map fun c => (c, m.cellCenter c)) d' := by
        funext s c
        simp only [HexagonM.plot, e1, bind, Except.bind]
      refine ⟨m, d', rfl, e1, hnd, hsum, ?_, ?_, rfl, ?_⟩
      · have h1 := C82_hexagon_plot m d' e1 hnd
        simp only [HexagonM.plotCounts, e1, bind, Except.bind, pure, Except.pure, Except.ok.injEq] at h1
        rw [hplot]
        simp only [qstatPlot, gridPlot, bind, Except.bind, pure, Except.pure, Except.ok.injEq, List.map_map, Function.comp_def]
        have h2 := congrArg (List.map fun x : (K × K) × ℕ => (x.1, Label.count (K := K) x.2)) h1
        simpa only [List.map_map, Function.comp_def] using h2
      · rw [hplot, plot_chi2 d' hnd hpos' q a1 a3 _ hids, hsum]
        simp only [List.map_map, Function.comp_def, Dict.keys, Dict.values, List.zip_map']
      · rw [a2, chi2_sum d' hpos', hsum]
        simp only [Dict.values, List.map_map, Function.comp_def]

/-- **C154, the grids themselves.** With `show="chi2"` the grids write the given contributions into their cells, in the order of the
cells, and raise a `ValueError` if there are none or not one for each cell. Another value of `show` than the two raises a
`ValueError`. -/
theorem C154_grids (m : RectangleM K) (W H : K) (d : Dict) (hd : m.pointLocationSta = .ok d) (g : HexagonM K) (e : Dict)
    (he : g.pointLocationSta = .ok e) (contrib : Option (List (XF K))) :
    (m.plot W H .chi2 none = .error .valueError ∧ g.plot .chi2 none = .error .valueError)
    ∧ (m.plot W H .other contrib = .error .valueError ∧ g.plot .other contrib = .error .valueError)
    ∧ (∀ l, l.length ≠ (m.iterCells W H).length → m.plot W H .chi2 (some l) = .error .valueError)
    ∧ (∀ l, l.length ≠ e.length → g.plot .chi2 (some l) = .error .valueError)
    ∧ (∀ l, l.length = (m.iterCells W H).length → (m.plot W H .chi2 (some l)).map Prod.fst
        = .ok (((m.iterCells W H).map Prod.snd).zip (l.map .value)))
    ∧ ∀ l, l.length = e.length → (g.plot .chi2 (some l)).map Prod.fst
        = .ok ((e.map fun x => g.cellCenter x.1).zip (l.map .value)) := by
  have hk : (e.keys.map fun c => (c, g.cellCenter c)).length = e.length := by simp [Dict.keys]
  refine ⟨⟨?_, ?_⟩, ⟨?_, ?_⟩, ?_, ?_, ?_, ?_⟩
  · simp only [RectangleM.plot, hd, bind, Except.bind, gridPlot, gridPlotChi2]
  · simp only [HexagonM.plot, he, bind, Except.bind, gridPlot, gridPlotChi2]
  · simp only [RectangleM.plot, hd, bind, Except.bind, gridPlot]
  · simp only [HexagonM.plot, he, bind, Except.bind, gridPlot]
  · intro l hl
    simp only [RectangleM.plot, hd, bind, Except.bind, gridPlot, gridPlotChi2, ne_eq, hl, not_false_eq_true, if_true]
  · intro l hl
    simp only [HexagonM.plot, he, bind, Except.bind, gridPlot, gridPlotChi2, ne_eq, hk, hl, not_false_eq_true, if_true]
  · intro l hl
    simp only [RectangleM.plot, hd, bind, Except.bind, gridPlot, gridPlotChi2, ne_eq, hl, not_true_eq_false, if_false, pure,
      Except.pure, Except.map]
  · intro l hl
    simp only [HexagonM.plot, he, bind, Except.bind, gridPlot, gridPlotChi2, ne_eq, hk, hl, not_true_eq_false, if_false, pure,
      Except.pure, Except.map]
    simp only [Dict.keys, List.map_map, Function.comp_def]


/-- The hypotheses are met: three events on two rectangular cells, and five on four hexagons, and what is drawn. -/
example :
    PositiveExtent [((0 : ℚ), (0 : ℚ)), (1, 2), (4, 3)]
    ∧ (∃ q, Returns (fun fuel => qStatistic (1 : ℚ) (Hull.ofBBox ⟨0, 0, 4, 3⟩) (fun _ => 0)
           [(0, 0), (1, 2), (4, 3)] (.rectangle 2 1 0 0) 0 fuel 0) (.ok (q, 0))
        ∧ (RectangleM.init [((0 : ℚ), (0 : ℚ)), (1, 2), (4, 3)] 2 1 0 0).bind (fun m => qstatPlot q (m.plot 2 3) .chi2)
          = .ok [((0, 0, 2, 3), .value (.fin (1 / 6))), ((2, 0, 4, 3), .value (.fin (1 / 6)))])
    ∧ ∃ q, Returns (fun fuel => qStatistic (7 / 8 : ℚ) (Hull.ofBBox ⟨0, 0, 4, 5⟩) (fun _ => 0)
        [(0, 0), (3, 1), (2, 5), (1, 3), (0, 0)] (.hexagon 2) 0 fuel 0)
        (.ok (q, 0))
      ∧ (HexagonM.init (7 / 8 : ℚ) [(0, 0), (3, 1), (2, 5), (1, 3), (0, 0)] 2).bind (fun m => qstatPlot q m.plot .chi2)
        = .ok [((0, 0), .value (.fin (9 / 20))), ((3, 7 / 4), .value (.fin (1 / 20))), ((0, 7 / 2), .value (.fin (1 / 20))),
            ((3, 21 / 4), .value (.fin (1 / 20)))] := by
  refine ⟨by unfold PositiveExtent; decide +kernel, ⟨⟨[0, 1], .fin (1 / 3), 1, [.fin (1 / 6), .fin (1 / 6)], none⟩, ⟨0, ?_⟩, ?_⟩,
    ⟨⟨[0, 1, 2, 3], .fin (3 / 5), 3, [.fin (9 / 20), .fin (1 / 20), .fin (1 / 20), .fin (1 / 20)], none⟩, ⟨0, ?_⟩, ?_⟩⟩
  · decide +kernel
  · decide +kernel
  · decide +kernel
  · decide +kernel

end Pointpats.Props
