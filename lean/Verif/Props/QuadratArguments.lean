import Verif.Props.RectangleGrid
import Verif.Props.HexagonGrid
import Verif.Model.QStatistic

/-!
# C136: the arguments of the quadrat grids
-/

namespace Pointpats.Props

open Pointpats Pointpats.Quadrat Pointpats.Spec Pointpats.Random

set_option linter.unusedSectionVars false

variable {K : Type} [Field K] [LinearOrder K] [IsStrictOrderedRing K] [FloorRing K]

/-- A grid without columns or without rows has no cell for the first point. -/
private theorem no_cells {m : RectangleM K} (hne : m.points ≠ []) (h : m.count_column ≤ 0 ∨ m.count_row ≤ 0) :
    ∃ e, m.pointLocationSta = .error e := by
  have hz : m.zeroDict = [] := by
    unfold RectangleM.zeroDict
    rcases h with h | h
    · have : m.count_column.toNat = 0 := by omega
      rw [this]
      generalize m.count_row.toNat = r
      induction r with
      | zero => rfl
      | succ r ih => rw [List.range_succ, List.foldl_append, ih]; rfl
    · have : m.count_row.toNat = 0 := by omega
      rw [this]
      rfl
  obtain ⟨p, l, hpl⟩ := List.exists_cons_of_ne_nil hne
  unfold RectangleM.pointLocationSta
  rw [hpl, hz, List.foldlM_cons]
  cases m.cellId p with
  | error e => exact ⟨e, rfl⟩
  | ok c => exact ⟨.keyError, rfl⟩

private theorem no_cells_bind {m : RectangleM K} {d : Dict} (hd : (Except.ok m : Py (RectangleM K)).bind (·.pointLocationSta) = .ok d)
    (hne : m.points ≠ []) (h : m.count_column ≤ 0 ∨ m.count_row ≤ 0) : False := by
  obtain ⟨e, he⟩ := no_cells hne h
  rw [show (Except.ok m : Py (RectangleM K)).bind (·.pointLocationSta) = m.pointLocationSta from rfl, he] at hd
  cases hd

/-- **C136 (rectangles).** The counts of a rectangular grid are returned exactly if the points have an extent in both directions
and the grid is usable: both sides of a cell positive, or, if one of them is left at zero, a positive number of columns and of
rows. In all other cases an exception is raised. -/
theorem C136_rectangles (points : List (K × K)) (cc cr : ℤ) (w h : K) :
    (∃ d, (RectangleM.init points cc cr w h).bind (·.pointLocationSta) = .ok d)
      ↔ PositiveExtent points ∧ ((0 < w ∧ 0 < h) ∨ ((w = 0 ∨ h = 0) ∧ 0 < cc ∧ 0 < cr)) := by
  constructor
  · rintro ⟨d, hd⟩
    have hsize : (0 < w ∧ 0 < h) ∨ ((w = 0 ∨ h = 0) ∧ 0 < cc ∧ 0 < cr) := by
      by_contra hbad
      by_cases hne : points = []
      · subst hne
        cases hd
      obtain ⟨b, hb⟩ := Geometry.bboxPts_ok hne
      obtain ⟨h1, -⟩ := Geometry.bboxPts_spec hb
      obtain ⟨p, l, rfl⟩ := List.exists_cons_of_ne_nil hne
      have hp := h1 p (by simp)
      have hx : 0 ≤ b.xmax - b.xmin := by linarith [hp.1, hp.2.1]
      have hy : 0 ≤ b.ymax - b.ymin := by linarith [hp.2.2.1, hp.2.2.2]
      push Not at hbad
      by_cases hwh : w ≠ 0 ∧ h ≠ 0
      · have e : RectangleM.init (p :: l) cc cr w h = .ok
            { points := p :: l, mbb := b, count_column := ⌈(b.xmax - b.xmin) / w⌉,
              count_row := ⌈(b.ymax - b.ymin) / h⌉, rectangle_width := .fin w,
              rectangle_height := .fin h,
              num := ⌈(b.xmax - b.xmin) / w⌉ * ⌈(b.ymax - b.ymin) / h⌉ } := by
          simp only [RectangleM.init, computeMbb, hb, bind, Except.bind, if_pos hwh, pure, Except.pure]
        rw [e] at hd
        have hc : ⌈(b.xmax - b.xmin) / w⌉ ≤ 0 ∨ ⌈(b.ymax - b.ymin) / h⌉ ≤ 0 := by
          rcases lt_or_gt_of_ne hwh.1 with hw | hw
          · left
            rw [Int.ceil_le]
            simpa using div_nonpos_of_nonneg_of_nonpos hx hw.le
          · right
            rw [Int.ceil_le]
            simpa using div_nonpos_of_nonneg_of_nonpos hy (hbad.1 hw)
        exact no_cells_bind hd (by simp) hc
      · have e : RectangleM.init (p :: l) cc cr w h = .ok
            { points := p :: l, mbb := b, count_column := cc, count_row := cr,
              rectangle_width := XF.div (.fin (b.xmax - b.xmin)) (.fin (cc : K)),
              rectangle_height := XF.div (.fin (b.ymax - b.ymin)) (.fin (cr : K)),
              num := cc * cr } := by
          simp only [RectangleM.init, computeMbb, hb, bind, Except.bind, if_neg hwh, pure, Except.pure]
        rw [e] at hd
        have hc : cc ≤ 0 ∨ cr ≤ 0 := by
          have hwh' : w = 0 ∨ h = 0 := by by_contra hh; push Not at hh; exact hwh hh
          have := hbad.2 hwh'
          omega
        exact no_cells_bind hd (by simp) hc
    refine ⟨?_, hsize⟩
    by_contra hp
    obtain ⟨e, he⟩ := (C50_counted_partial points cc cr w h hsize).2.2 hp
    rw [he] at hd
    cases hd
  · rintro ⟨hp, hsize⟩
    obtain ⟨d, hd, -⟩ := (C50_counted_partial points cc cr w h hsize).1.2 hp
    exact ⟨d, hd⟩

/-- **C136 (hexagons, what holds).** A side of length zero is refused, and so is a pattern without points; with a positive side
the constructor returns. -/
theorem C136_hexagons_partial (cos30 : K) (hcos : 0 < cos30) (points : List (K × K)) :
    (∃ e, HexagonM.init cos30 points 0 = .error e)
    ∧ (points = [] → ∀ lh, HexagonM.init cos30 points lh = .error .valueError)
    ∧ (points ≠ [] → ∀ lh, 0 < lh → ∃ m, HexagonM.init cos30 points lh = .ok m) := by
  refine ⟨?_, ?_, ?_⟩
  · by_cases hne : points = []
    · subst hne; exact ⟨_, rfl⟩
    obtain ⟨b, hb⟩ := Geometry.bboxPts_ok hne
    have hodd : ∃ e, hexCountRowOdd (0 * cos30) (b.ymax - b.ymin) = .error e := by
      simp only [hexCountRowOdd, XF.div, zero_mul, mul_zero, if_true]
      split <;> (try split) <;> exact ⟨_, rfl⟩
    obtain ⟨e, he⟩ := hodd
    simp only [HexagonM.init, computeMbb, hb, bind, Except.bind, he]
    cases hexCountColumn 0 (b.xmax - b.xmin) with
    | error e => exact ⟨_, rfl⟩
    | ok c =>
      simp only
      cases hexCountRowEven (0 * cos30) (b.ymax - b.ymin) with
      | error e => exact ⟨_, rfl⟩
      | ok c => exact ⟨_, rfl⟩
  · rintro rfl lh
    rfl
  · intro hne lh hlh
    obtain ⟨m, hm, -⟩ := hex_init hcos hne hlh
    exact ⟨m, hm⟩

/-- **C136 is false of hexagons with a negative side.** Every pattern is accepted with a large enough negative side, and all its
points are counted in one hexagon, of which `num` knows nothing. -/
theorem C136_negative_side_refuted (cos30 : K) (hcos : 0 < cos30) (points : List (K × K)) (hne : points ≠ []) :
    ∃ lh < 0, ∃ m d, HexagonM.init cos30 points lh = .ok m ∧ m.num = 0 ∧ m.pointLocationSta = .ok d
      ∧ d = [(0, points.length)] := by
  obtain ⟨b, hb⟩ := Geometry.bboxPts_ok hne
  obtain ⟨h1, -⟩ := Geometry.bboxPts_spec hb
  have hxy : 0 ≤ b.xmax - b.xmin ∧ 0 ≤ b.ymax - b.ymin := by
    obtain ⟨p, l, rfl⟩ := List.exists_cons_of_ne_nil hne
    have hp := h1 p (by simp)
    exact ⟨by linarith [hp.1, hp.2.1], by linarith [hp.2.2.1, hp.2.2.2]⟩
  obtain ⟨L, hL, hLx, hLy⟩ : ∃ L : K, 0 < L ∧ 2 * (b.xmax - b.xmin) < L ∧ b.ymax - b.ymin < L * cos30 := by
    refine ⟨2 * (b.xmax - b.xmin) + (b.ymax - b.ymin) / cos30 + 1, ?_, ?_, ?_⟩
    · have := div_nonneg hxy.2 hcos.le
      linarith [hxy.1]
    · have := div_nonneg hxy.2 hcos.le
      linarith
    · have : (b.ymax - b.ymin) / cos30 * cos30 = b.ymax - b.ymin := div_mul_cancel₀ _ hcos.ne'
      nlinarith [hxy.1, hxy.2]
  have hs : 0 < L * cos30 := mul_pos hL hcos
  have e1 : hexCountColumn (-L) (b.xmax - b.xmin) = .ok 1 := by
    unfold hexCountColumn
    rw [if_pos (by linarith [hxy.1])]
    simp only [XF.div, if_neg (show (3 / 2 * -L : K) ≠ 0 by simp [hL.ne']), XF.ceil, Except.map]
    have : ⌈(b.xmax - b.xmin - -L / 2) / (3 / 2 * -L)⌉ = 0 := by
      rw [Int.ceil_eq_zero_iff, Set.mem_Ioc]
      constructor
      · rw [lt_div_iff_of_neg (by linarith)]; linarith
      · exact div_nonpos_of_nonneg_of_nonpos (by linarith [hxy.1]) (by linarith)
    rw [this]
    rfl
  have e2 : hexCountRowEven (-L * cos30) (b.ymax - b.ymin) = .ok 1 := by
    unfold hexCountRowEven
    rw [if_pos (by linarith [hxy.2])]
    simp only [XF.div, if_neg (show (2 * (-L * cos30) : K) ≠ 0 by simp [hL.ne', hcos.ne']), XF.ceil, Except.map]
    have : ⌈(b.ymax - b.ymin - -L * cos30) / (2 * (-L * cos30))⌉ = 0 := by
      rw [Int.ceil_eq_zero_iff, Set.mem_Ioc]
      constructor
      · rw [lt_div_iff_of_neg (by linarith)]; linarith
      · exact div_nonpos_of_nonneg_of_nonpos (by linarith [hxy.2]) (by linarith)
    rw [this]
    rfl
  have e3 : hexCountRowOdd (-L * cos30) (b.ymax - b.ymin) = .ok 0 := by
    unfold hexCountRowOdd
    simp only [XF.div, if_neg (show (2 * (-L * cos30) : K) ≠ 0 by simp [hL.ne', hcos.ne']), XF.ceil]
    have : ⌈(b.ymax - b.ymin) / (2 * (-L * cos30))⌉ = 0 := by
      rw [Int.ceil_eq_zero_iff, Set.mem_Ioc]
      constructor
      · rw [lt_div_iff_of_neg (by linarith)]; linarith
      · exact div_nonpos_of_nonneg_of_nonpos hxy.2 (by linarith)
    rw [this]
  let m : HexagonM K := ⟨points, b, -L, -L * cos30, 1, 1, 0, 0⟩
  have hinit : HexagonM.init cos30 points (-L) = .ok m := by
    simp only [HexagonM.init, computeMbb, hb, bind, Except.bind, e1, e2, e3, pure, Except.pure]
    rfl
  have hcell : ∀ p ∈ points, m.cellId p = 0 := by
    intro p hp
    have hp := h1 p hp
    have hi : ⌊(p.1 - b.xmin) / (-L / 2)⌋ = 0 ∨ ⌊(p.1 - b.xmin) / (-L / 2)⌋ = -1 := by
      have h1 : ⌊(p.1 - b.xmin) / (-L / 2)⌋ ≤ 0 := by
        have h3 : (p.1 - b.xmin) / (-L / 2) ≤ 0 := div_nonpos_of_nonneg_of_nonpos (by linarith [hp.1]) (by linarith)
        have h4 := (Int.floor_le _).trans h3
        exact_mod_cast h4
      have h2 : -1 ≤ ⌊(p.1 - b.xmin) / (-L / 2)⌋ := by
        rw [Int.le_floor, le_div_iff_of_neg (by linarith)]
        push_cast
        linarith [hp.2.1]
      omega
    have hy : truncInt ((p.2 + -L * cos30 - b.ymin) / (2 * (-L * cos30))) = 0 := by
      unfold truncInt
      have h0 : 0 ≤ (p.2 + -L * cos30 - b.ymin) / (2 * (-L * cos30)) :=
        div_nonneg_of_nonpos (by linarith [hp.2.2.2]) (by linarith)
      rw [if_pos h0, Int.floor_eq_zero_iff, Set.mem_Ico]
      refine ⟨h0, ?_⟩
      rw [div_lt_iff_of_neg (by linarith)]
      linarith [hp.2.2.1]
    have hidx : m.cellIndex p = (0, 0) := by
      unfold HexagonM.cellIndex
      simp only [m, hy]
      rcases hi with hi | hi <;> rw [hi] <;> rfl
    rw [HexagonM.cellId, hidx]
    rfl
  have hz : m.zeroDict = [(0, 0)] := rfl
  refine ⟨-L, by linarith, m, [(0, points.length)], hinit, rfl, ?_, rfl⟩
  unfold HexagonM.pointLocationSta
  rw [hz]
  show points.foldlM _ _ = _
  have hfold : ∀ (l : List (K × K)) (n : ℕ), (∀ p ∈ l, m.cellId p = 0) →
      l.foldlM (fun d p => Dict.incr (m.cellId p) d) [((0 : ℤ), n)] = (.ok [((0 : ℤ), n + l.length)] : Py Dict) := by
    intro l
    induction l with
    | nil => intro n _; rfl
    | cons p l ih =>
      intro n hl
      rw [List.foldlM_cons, hl p (by simp)]
      change (Dict.incr 0 [((0 : ℤ), n)]).bind _ = _
      rw [show Dict.incr 0 [((0 : ℤ), n)] = .ok [((0 : ℤ), n + 1)] from rfl]
      change l.foldlM _ _ = _
      rw [ih (n + 1) fun p hp => hl p (by simp [hp])]
      rw [List.length_cons, Nat.add_assoc, Nat.add_comm 1]
  simpa using hfold points 0 hcell

/-- **C136 (`QStatistic`).** Points are required and the shape must be one of the two names: otherwise a ValueError, whatever the
other arguments are. An unusable rectangular grid is refused by `QStatistic` too. -/
theorem C136_quadrat_test (cos30 : K) (window : Hull K) (u : ℕ → K) (points : List (K × K)) (grid : GridArg K)
    (realizations : ℤ) (fuel pos : ℕ) :
    (points = [] → qStatistic cos30 window u points grid realizations fuel pos = some (.error .valueError))
    ∧ (grid = .other → qStatistic cos30 window u points grid realizations fuel pos = some (.error .valueError))
    ∧ (∀ cc cr w h, grid = .rectangle cc cr w h →
        ¬ (PositiveExtent points ∧ ((0 < w ∧ 0 < h) ∨ ((w = 0 ∨ h = 0) ∧ 0 < cc ∧ 0 < cr))) →
        ∃ e, qStatistic cos30 window u points grid realizations fuel pos = some (.error e)) := by
  have hnil : points = [] → qStatistic cos30 window u points grid realizations fuel pos = some (.error .valueError) := by
    rintro rfl
    rfl
  refine ⟨hnil, ?_, ?_⟩
  · rintro rfl
    by_cases hne : points = []
    · exact hnil hne
    · unfold qStatistic
      simp only [asPointsArray, if_neg hne]
      rfl
  · rintro cc cr w h rfl hbad
    by_cases hne : points = []
    · exact ⟨_, hnil hne⟩
    · have hg : ∃ e, gridCounts cos30 points (.rectangle cc cr w h) = .error e := by
        have hno := (not_congr (C136_rectangles points cc cr w h)).2 hbad
        unfold gridCounts
        simp only [bind]
        cases hm : RectangleM.init points cc cr w h with
        | error e => exact ⟨e, rfl⟩
        | ok m =>
          rw [hm] at hno
          change ¬ ∃ d, m.pointLocationSta = .ok d at hno
          change ∃ e, (m.pointLocationSta).bind _ = _
          cases hd : m.pointLocationSta with
          | error e => exact ⟨e, rfl⟩
          | ok d => exact absurd ⟨d, hd⟩ hno
      obtain ⟨e, he⟩ := hg
      refine ⟨e, ?_⟩
      unfold qStatistic
      simp only [asPointsArray, if_neg hne, he]
      rfl

/-- The cases of C136 are met: three points with usable, and with unusable grids. -/
example : (∃ d, (RectangleM.init [((0 : ℚ), (0 : ℚ)), (5, 1), (2, 3)] 2 2 0 0).bind (·.pointLocationSta) = .ok d)
    ∧ ¬ (∃ d, (RectangleM.init [((0 : ℚ), (0 : ℚ)), (5, 1), (2, 3)] 2 2 1 (-1)).bind (·.pointLocationSta) = .ok d) := by
  have hp : PositiveExtent [((0 : ℚ), (0 : ℚ)), (5, 1), (2, 3)] :=
    ⟨⟨(0, 0), by simp, (5, 1), by simp, by norm_num⟩, ⟨(0, 0), by simp, (5, 1), by simp, by norm_num⟩⟩
  rw [C136_rectangles, C136_rectangles]
  exact ⟨⟨hp, Or.inr ⟨Or.inl rfl, by norm_num, by norm_num⟩⟩, by rintro ⟨-, h | h⟩ <;> norm_num at h⟩

end Pointpats.Props
