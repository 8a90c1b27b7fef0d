import Verif.Spec.Motion
import Verif.Lemmas.MinMax
import Verif.Lemmas.Dict
import Mathlib.Tactic.FieldSimp
import Mathlib.Tactic.Ring
import Mathlib.Tactic.Linarith

/-!
# Lemmas: quadrat counts in other units
-/

namespace Pointpats.Motion

set_option linter.unusedSectionVars false

open Spec Quadrat Random Geometry

variable {K : Type} [Field K] [LinearOrder K] [IsStrictOrderedRing K]

theorem listMin_affine {s : K} (hs : 0 < s) (a x : K) (l : List K) :
    listMin (a + s * x) (l.map fun y => a + s * y) = a + s * listMin x l := by
  unfold listMin
  induction l generalizing x with
  | nil => rfl
  | cons y l ih =>
    simp only [List.map_cons, List.foldl_cons]
    rw [← ih]
    congr 1
    rw [min_add_add_left, ← mul_min_of_nonneg _ _ hs.le]

theorem listMax_affine {s : K} (hs : 0 < s) (a x : K) (l : List K) :
    listMax (a + s * x) (l.map fun y => a + s * y) = a + s * listMax x l := by
  unfold listMax
  induction l generalizing x with
  | nil => rfl
  | cons y l ih =>
    simp only [List.map_cons, List.foldl_cons]
    rw [← ih]
    congr 1
    rw [max_add_add_left, ← mul_max_of_nonneg _ _ hs.le]

/-- The box in other units. -/
def rescaleBox (s t a b : K) (m : BBox K) : BBox K :=
  { xmin := a + s * m.xmin, ymin := b + t * m.ymin, xmax := a + s * m.xmax, ymax := b + t * m.ymax }

theorem bboxPts_rescale {s t : K} (hs : 0 < s) (ht : 0 < t) (a b : K) (l : List (K × K)) :
    bboxPts (l.map (rescale s t a b)) = (bboxPts l).map (rescaleBox s t a b) := by
  cases l with
  | nil => rfl
  | cons p l =>
    have h1 : (l.map (rescale s t a b)).map Prod.fst = (l.map Prod.fst).map fun y => a + s * y := by
      simp [rescale, Function.comp_def]
    have h2 : (l.map (rescale s t a b)).map Prod.snd = (l.map Prod.snd).map fun y => b + t * y := by
      simp [rescale, Function.comp_def]
    simp only [List.map_cons, bboxPts, Except.map, h1, h2, rescaleBox]
    simp only [rescale, listMin_affine hs, listMax_affine hs, listMin_affine ht, listMax_affine ht]

theorem div_scale {s : K} (hs : 0 < s) (x y : K) : XF.div (.fin (s * x)) (.fin (s * y)) = XF.div (.fin x) (.fin y) := by
  have h0 : s * y = 0 ↔ y = 0 := by simp [hs.ne']
  have h1 : 0 < s * x ↔ 0 < x := by simp [hs]
  have h2 : s * x < 0 ↔ x < 0 := ⟨fun h => by nlinarith [hs], fun h => mul_neg_of_pos_of_neg hs h⟩
  simp only [XF.div, h0, h1, h2]
  by_cases hy : y = 0
  · simp [hy]
  · simp [hy, mul_div_mul_left _ _ hs.ne']

variable [FloorRing K]

theorem floorDiv_scale {s : K} (hs : 0 < s) (x w : K) :
    XF.floorDiv (.fin (s * x)) (.fin (s * w)) = XF.floorDiv (.fin x) (.fin w) := by
  have h0 : s * w = 0 ↔ w = 0 := by simp [hs.ne']
  simp only [XF.floorDiv, h0, div_scale hs, mul_div_mul_left _ _ hs.ne']

theorem floorDiv_div_scale {s : K} (hs : 0 < s) (x r n : K) :
    XF.floorDiv (.fin (s * x)) (XF.div (.fin (s * r)) (.fin n)) = XF.floorDiv (.fin x) (XF.div (.fin r) (.fin n)) := by
  have h1 : 0 < s * r ↔ 0 < r := by simp [hs]
  have h2 : ∀ r, s * r < 0 ↔ r < 0 := fun r => ⟨fun h => by nlinarith [hs], fun h => mul_neg_of_pos_of_neg hs h⟩
  have h3 : 0 < s * x ↔ 0 < x := by simp [hs]
  by_cases hn : n = 0
  · simp only [XF.div, hn, if_true, h1, h2]
    split
    · simp only [XF.floorDiv, h2]
    · split
      · simp only [XF.floorDiv, h3]
      · rfl
  · have e : XF.div (.fin (s * r)) (.fin n) = .fin (s * (r / n)) := by simp [XF.div, hn, mul_div_assoc]
    have e' : XF.div (.fin r) (.fin n) = .fin (r / n) := by simp [XF.div, hn]
    rw [e, e', floorDiv_scale hs]

/-- The counts of a rectangular grid depend on the cell ids of the points only. -/

theorem rect_counts_congr (m m' : RectangleM K) (f : K × K → K × K) (hp : m'.points = m.points.map f)
    (hc : m'.count_column = m.count_column) (hr : m'.count_row = m.count_row)
    (hid : ∀ p, m'.cellId (f p) = m.cellId p) : m'.pointLocationSta = m.pointLocationSta := by
  have hz : m'.zeroDict = m.zeroDict := by simp [RectangleM.zeroDict, hc, hr]
  simp only [RectangleM.pointLocationSta, hp, List.foldlM_map, hid, hz]

theorem rect_counts_rescale {s t : K} (hs : 0 < s) (ht : 0 < t) (a b : K) (points : List (K × K)) (nx ny : ℤ) (w h : K)
    (cos30 : K) :
    gridCounts cos30 (points.map (rescale s t a b)) (rescaleGrid s t (.rectangle nx ny w h))
      = (gridCounts cos30 points (.rectangle nx ny w h)).map fun r => (r.1, rescaleGrid s t r.2) := by
  simp only [gridCounts, rescaleGrid, RectangleM.init, computeMbb, bboxPts_rescale hs ht]
  cases hb : bboxPts points with
  | error e => rfl
  | ok m =>
    simp only [Except.map, bind, Except.bind, rescaleBox, pure, Except.pure]
    have hx : a + s * m.xmax - (a + s * m.xmin) = s * (m.xmax - m.xmin) := by ring
    have hy : b + t * m.ymax - (b + t * m.ymin) = t * (m.ymax - m.ymin) := by ring
    have hw : s * w ≠ 0 ↔ w ≠ 0 := by simp [hs.ne']
    have hh : t * h ≠ 0 ↔ h ≠ 0 := by simp [ht.ne']
    simp only [hx, hy, hw, hh]
    by_cases hc : w ≠ 0 ∧ h ≠ 0
    · simp only [hc, if_true, mul_div_mul_left _ _ hs.ne', mul_div_mul_left _ _ ht.ne', ne_eq, not_false_eq_true, and_self]
      have key := rect_counts_congr
        (⟨points, m, ⌈(m.xmax - m.xmin) / w⌉, ⌈(m.ymax - m.ymin) / h⌉, .fin w, .fin h,
          ⌈(m.xmax - m.xmin) / w⌉ * ⌈(m.ymax - m.ymin) / h⌉⟩ : RectangleM K)
        (⟨points.map (rescale s t a b), rescaleBox s t a b m, ⌈(m.xmax - m.xmin) / w⌉, ⌈(m.ymax - m.ymin) / h⌉, .fin (s * w),
          .fin (t * h), ⌈(m.xmax - m.xmin) / w⌉ * ⌈(m.ymax - m.ymin) / h⌉⟩ : RectangleM K) (rescale s t a b) rfl rfl rfl (by
          intro p
          have e1 : a + s * p.1 - (a + s * m.xmin) = s * (p.1 - m.xmin) := by ring
          have e2 : b + t * p.2 - (b + t * m.ymin) = t * (p.2 - m.ymin) := by ring
          simp only [RectangleM.cellId, rescale, rescaleBox, e1, e2, floorDiv_scale hs, floorDiv_scale ht])
      simp only [rescaleBox] at key
      simp only [key]
      generalize RectangleM.pointLocationSta (K := K) _ = r
      cases r <;> simp
    · rw [if_neg hc, if_neg hc]
      have key := rect_counts_congr
        (⟨points, m, nx, ny, XF.div (.fin (m.xmax - m.xmin)) (.fin (nx : K)), XF.div (.fin (m.ymax - m.ymin)) (.fin (ny : K)),
          nx * ny⟩ : RectangleM K)
        (⟨points.map (rescale s t a b), rescaleBox s t a b m, nx, ny, XF.div (.fin (s * (m.xmax - m.xmin))) (.fin (nx : K)),
          XF.div (.fin (t * (m.ymax - m.ymin))) (.fin (ny : K)), nx * ny⟩ : RectangleM K) (rescale s t a b) rfl rfl rfl (by
          intro p
          have e1 : a + s * p.1 - (a + s * m.xmin) = s * (p.1 - m.xmin) := by ring
          have e2 : b + t * p.2 - (b + t * m.ymin) = t * (p.2 - m.ymin) := by ring
          simp only [RectangleM.cellId, rescale, rescaleBox, e1, e2, floorDiv_div_scale hs, floorDiv_div_scale ht])
      simp only [rescaleBox] at key
      simp only [key]
      generalize RectangleM.pointLocationSta (K := K) _ = r
      cases r <;> simp

theorem hexIndicator_scale {s : K} (hs : 0 < s) (a b : K) {h : K} (hh : h ≠ 0) (sh cx cy : K) (p : K × K) :
    hexIndicator (s * h) (s * sh) (a + s * cx) (b + s * cy) (rescale s s a b p) = s * hexIndicator h sh cx cy p := by
  have h0 := hs.ne'
  have hgt : b + s * p.2 > b + s * cy ↔ p.2 > cy := by
    constructor
    · intro h; exact lt_of_mul_lt_mul_left (by linarith) hs.le
    · intro h; linarith [mul_lt_mul_of_pos_left h hs]
  simp only [hexIndicator, rescale, hgt]
  split
  · have d1 : a + s * cx + s * h - (a + s * cx + s * h / 2) = s * h / 2 := by ring
    have d2 : cx + h - (cx + h / 2) = h / 2 := by ring
    rw [d1, d2]
    field_simp
    ring
  · have d1 : a + s * cx + s * h / 2 - (a + s * cx + s * h) = -(s * h / 2) := by ring
    have d2 : cx + h / 2 - (cx + h) = -(h / 2) := by ring
    rw [d1, d2]
    field_simp
    ring

theorem hex_cellIndex_rescale {s : K} (hs : 0 < s) (a b : K) (m m' : HexagonM K) (hm : m'.mbb = rescaleBox s s a b m.mbb)
    (hl : m'.h_length = s * m.h_length) (hsh : m'.semi_height = s * m.semi_height) (h0 : m.h_length ≠ 0) (p : K × K) :
    m'.cellIndex (rescale s s a b p) = m.cellIndex p := by
  have e1 : (rescale s s a b p).1 - m'.mbb.xmin = s * (p.1 - m.mbb.xmin) := by rw [hm]; simp only [rescale, rescaleBox]; ring
  have e2 : (rescale s s a b p).2 - m'.mbb.ymin = s * (p.2 - m.mbb.ymin) := by rw [hm]; simp only [rescale, rescaleBox]; ring
  have e3 : (rescale s s a b p).2 + m'.semi_height - m'.mbb.ymin = s * (p.2 + m.semi_height - m.mbb.ymin) := by
    rw [hm, hsh]; simp only [rescale, rescaleBox]; ring
  have e4 : 2 * m'.semi_height = s * (2 * m.semi_height) := by rw [hsh]; ring
  have e5 : m'.h_length / 2 = s * (m.h_length / 2) := by rw [hl]; ring
  have ex : ∀ k : K, k * (s * (m.h_length / 2)) * 3 + m'.mbb.xmin = a + s * (k * (m.h_length / 2) * 3 + m.mbb.xmin) := by
    intro k; rw [hm]; simp only [rescaleBox]; ring
  have ey : ∀ k : K, k * 2 * m'.semi_height + m'.mbb.ymin = b + s * (k * 2 * m.semi_height + m.mbb.ymin) := by
    intro k; rw [hm, hsh]; simp only [rescaleBox]; ring
  have ey' : ∀ k : K, (k * 2 + 1) * m'.semi_height + m'.mbb.ymin = b + s * ((k * 2 + 1) * m.semi_height + m.mbb.ymin) := by
    intro k; rw [hm, hsh]; simp only [rescaleBox]; ring
  have hite : ∀ (c : Prop) [Decidable c] (x y : K), (if c then b + s * x else b + s * y) = b + s * (if c then x else y) := by
    intro c _ x y; split <;> rfl
  have hsg : ∀ x : K, s * x ≤ 0 ↔ x ≤ 0 := fun x => ⟨fun h => by by_contra hc; push Not at hc; nlinarith [mul_pos hs hc],
    fun h => by nlinarith⟩
  simp only [HexagonM.cellIndex, e1, e2, e3, e4, e5, mul_div_mul_left _ _ hs.ne', ex, ey, ey', hite]
  simp only [hl, hsh, hexIndicator_scale hs a b h0, hsg]

theorem hexCountRowOdd_zero (r : K) : ∃ e, hexCountRowOdd (0 : K) r = .error e := by
  simp only [hexCountRowOdd, XF.div, mul_zero, if_true]
  split
  · exact ⟨_, rfl⟩
  · split <;> exact ⟨_, rfl⟩

theorem hexCountColumn_scale {s : K} (hs : 0 < s) (lh r : K) : hexCountColumn (s * lh) (s * r) = hexCountColumn lh r := by
  have e1 : s * lh / 2 < s * r ↔ lh / 2 < r := by rw [mul_div_assoc]; exact mul_lt_mul_iff_right₀ hs
  have e2 : s * r - s * lh / 2 = s * (r - lh / 2) := by ring
  have e3 : 3 / 2 * (s * lh) = s * (3 / 2 * lh) := by ring
  simp only [hexCountColumn, e1, e2, e3, div_scale hs]

theorem hexCountRowEven_scale {s : K} (hs : 0 < s) (sh r : K) : hexCountRowEven (s * sh) (s * r) = hexCountRowEven sh r := by
  have e1 : s * sh < s * r ↔ sh < r := mul_lt_mul_iff_right₀ hs
  have e2 : s * r - s * sh = s * (r - sh) := by ring
  have e3 : 2 * (s * sh) = s * (2 * sh) := by ring
  simp only [hexCountRowEven, e1, e2, e3, div_scale hs]

theorem hexCountRowOdd_scale {s : K} (hs : 0 < s) (sh r : K) : hexCountRowOdd (s * sh) (s * r) = hexCountRowOdd sh r := by
  have e3 : 2 * (s * sh) = s * (2 * sh) := by ring
  simp only [hexCountRowOdd, e3, div_scale hs]

theorem hex_counts_congr (m m' : HexagonM K) (f : K × K → K × K) (hp : m'.points = m.points.map f)
    (hc : m'.count_column = m.count_column) (he : m'.count_row_even = m.count_row_even)
    (ho : m'.count_row_odd = m.count_row_odd) (hid : ∀ p, m'.cellIndex (f p) = m.cellIndex p) :
    m'.pointLocationSta = m.pointLocationSta := by
  have hz : m'.zeroDict = m.zeroDict := by simp only [HexagonM.zeroDict, hc, he, ho]
  simp only [HexagonM.pointLocationSta, hp, List.foldlM_map, HexagonM.cellId, hid, hz, hc]

theorem hex_counts_rescale {s : K} (hs : 0 < s) (a b : K) (points : List (K × K)) (lh : K) (cos30 : K) :
    gridCounts cos30 (points.map (rescale s s a b)) (rescaleGrid s s (.hexagon lh))
      = (gridCounts cos30 points (.hexagon lh)).map fun r => (r.1, rescaleGrid s s r.2) := by
  simp only [gridCounts, rescaleGrid, HexagonM.init, computeMbb, bboxPts_rescale hs hs]
  cases hb : bboxPts points with
  | error e => rfl
  | ok m =>
    simp only [Except.map, bind, Except.bind, rescaleBox, pure, Except.pure]
    have hx : a + s * m.xmax - (a + s * m.xmin) = s * (m.xmax - m.xmin) := by ring
    have hy : b + s * m.ymax - (b + s * m.ymin) = s * (m.ymax - m.ymin) := by ring
    have e3 : s * lh * cos30 = s * (lh * cos30) := by ring
    simp only [hx, hy, e3, hexCountColumn_scale hs, hexCountRowEven_scale hs, hexCountRowOdd_scale hs]
    cases hexCountColumn lh (m.xmax - m.xmin) with
    | error e => rfl
    | ok cc =>
      cases hexCountRowEven (lh * cos30) (m.ymax - m.ymin) with
      | error e => rfl
      | ok ce =>
        cases ho : hexCountRowOdd (lh * cos30) (m.ymax - m.ymin) with
        | error e => rfl
        | ok co =>
          have h0 : lh ≠ 0 := by
            rintro rfl
            obtain ⟨e, he⟩ := hexCountRowOdd_zero (m.ymax - m.ymin)
            rw [zero_mul, he] at ho
            exact absurd ho (by simp)
          have key := hex_counts_congr
            (⟨points, m, lh, lh * cos30, cc, ce, co, co * (cc / 2 + cc % 2) + ce * (cc / 2)⟩ : HexagonM K)
            (⟨points.map (rescale s s a b), rescaleBox s s a b m, s * lh, s * (lh * cos30), cc, ce, co,
              co * (cc / 2 + cc % 2) + ce * (cc / 2)⟩ : HexagonM K) (rescale s s a b) rfl rfl rfl rfl
            (hex_cellIndex_rescale hs a b _ _ rfl rfl rfl h0)
          simp only [rescaleBox] at key
          simp only [key]
          generalize HexagonM.pointLocationSta (K := K) _ = r
          cases r <;> rfl

/-- The counts of a grid in other units. -/
theorem gridCounts_rescale {s t : K} (hs : 0 < s) (ht : 0 < t) (a b : K) (points : List (K × K)) (grid : GridArg K)
    (cos30 : K) (hg : (∃ lh, grid = .hexagon lh) → s = t) :
    gridCounts cos30 (points.map (rescale s t a b)) (rescaleGrid s t grid)
      = (gridCounts cos30 points grid).map fun r => (r.1, rescaleGrid s t r.2) := by
  cases grid with
  | rectangle nx ny w h => exact rect_counts_rescale hs ht a b points nx ny w h cos30
  | hexagon lh => obtain rfl := hg ⟨lh, rfl⟩; exact hex_counts_rescale hs a b points lh cos30
  | other => rfl

end Pointpats.Motion
