import Verif.Model.Geometry

/-!
# Model of `pointpats/quadrat_statistics.py`

Plotting is modelled only as far as the pairing of cell ids with values is concerned.
-/

namespace Pointpats.Quadrat

variable {K : Type} [Field K] [LinearOrder K]

/-- quadrat_statistics.py:80-85 `_compute_mbb`; NumPy's `min` of an empty array is a `ValueError`. -/
def computeMbb (points : List (K × K)) : Py (BBox K) := Geometry.bboxPts points

section Rect

variable [IsStrictOrderedRing K] [FloorRing K]

/-- The state of a `RectangleM` object. -/
structure RectangleM (K : Type) where
  points : List (K × K)
  mbb : BBox K
  count_column : ℤ
  count_row : ℤ
  rectangle_width : XF K
  rectangle_height : XF K
  num : ℤ
  deriving DecidableEq, Repr

/-- quadrat_statistics.py:176-203 `RectangleM.__init__` on an `(n, 2)` array. The window is not
modelled (it does not enter the computation). A width and a height that are both non-zero take
precedence over the counts. -/
def RectangleM.init (points : List (K × K)) (count_column count_row : ℤ)
    (rectangle_width rectangle_height : K) : Py (RectangleM K) := do
  let mbb ← computeMbb points
  let x_range := mbb.xmax - mbb.xmin
  let y_range := mbb.ymax - mbb.ymin
  if rectangle_width ≠ 0 ∧ rectangle_height ≠ 0 then
    let cc := ⌈x_range / rectangle_width⌉
    let cr := ⌈y_range / rectangle_height⌉
    return { points, mbb, count_column := cc, count_row := cr,
             rectangle_width := .fin rectangle_width,
             rectangle_height := .fin rectangle_height, num := cc * cr }
  else
    return { points, mbb, count_column, count_row,
             rectangle_width := XF.div (.fin x_range) (.fin (count_column : K)),
             rectangle_height := XF.div (.fin y_range) (.fin (count_row : K)),
             num := count_column * count_row }

/-- quadrat_statistics.py:206-210: the dictionary of zero counts, row by row. -/
def RectangleM.zeroDict (m : RectangleM K) : Dict :=
  (List.range m.count_row.toNat).foldl (fun d (i : ℕ) =>
    (List.range m.count_column.toNat).foldl (fun d (j : ℕ) =>
      Dict.set ((j : ℤ) + (i : ℤ) * m.count_column) 0 d) d) []

/-- quadrat_statistics.py:217-220: an index equal to the number of cells is moved to the last
cell. -/
def clampIndex (i : XF K) (count : ℤ) : XF K :=
  if XF.eq i (.fin (count : K)) then XF.sub i (.fin 1) else i

/-- quadrat_statistics.py:214-222: the cell id of one point. -/
def RectangleM.cellId (m : RectangleM K) (p : K × K) : Py ℤ := do
  let index_x := XF.floorDiv (.fin (p.1 - m.mbb.xmin)) m.rectangle_width
  let index_y := XF.floorDiv (.fin (p.2 - m.mbb.ymin)) m.rectangle_height
  let iy ← (clampIndex index_y m.count_row).toInt
  let ix ← (clampIndex index_x m.count_column).toInt
  return iy * m.count_column + ix

/-- quadrat_statistics.py:205-225 `RectangleM.point_location_sta`. -/
def RectangleM.pointLocationSta (m : RectangleM K) : Py Dict :=
  m.points.foldlM (fun d p => do
    let c ← m.cellId p
    Dict.incr c d) m.zeroDict

/-- quadrat_statistics.py:227-232 `_rect_cell_bounds` (x0, y0, x1, y1) for finite cell sizes. -/
def rectCellBounds (mbb : BBox K) (w h : K) (ix iy : ℤ) : K × K × K × K :=
  let x0 := mbb.xmin + (ix : K) * w
  let y0 := mbb.ymin + (iy : K) * h
  (x0, y0, x0 + w, y0 + h)

/-- quadrat_statistics.py:238-245 `_iter_cells`: the cell ids in the order they are plotted. -/
def RectangleM.iterCellIds (m : RectangleM K) : List ℤ :=
  (List.range m.count_row.toNat).flatMap fun (iy : ℕ) =>
    (List.range m.count_column.toNat).map fun (ix : ℕ) => (ix : ℤ) + (iy : ℤ) * m.count_column

/-- quadrat_statistics.py:238-245 `_iter_cells`: cell id and cell bounds in plotting order. The cell
size `w`, `h` is passed as finite numbers; the centre of the cell is not modelled. -/
def RectangleM.iterCells (m : RectangleM K) (w h : K) : List (ℤ × (K × K × K × K)) :=
  (List.range m.count_row.toNat).flatMap fun (iy : ℕ) =>
    (List.range m.count_column.toNat).map fun (ix : ℕ) =>
      ((ix : ℤ) + (iy : ℤ) * m.count_column, rectCellBounds m.mbb w h ix iy)

/-- quadrat_statistics.py:247-276 `RectangleM.plot` with `show="counts"`: the bounds of the rectangles
drawn and the number written into each. -/
def RectangleM.plotCounts (m : RectangleM K) (w h : K) : Py (List ((K × K × K × K) × ℕ)) := do
  let dict_id_count ← m.pointLocationSta
  return (m.iterCells w h).map fun c => (c.2, Dict.getD0 c.1 dict_id_count)

/-- quadrat_statistics.py:234-236 `_rect_cell_polygon`: the ring of `shapely.geometry.box`. -/
def rectCellPolygon (b : K × K × K × K) : List (K × K) :=
  [(b.2.2.1, b.2.1), (b.2.2.1, b.2.2.2), (b.1, b.2.2.2), (b.1, b.2.1), (b.2.2.1, b.2.1)]

/-- quadrat_statistics.py:164-165 `_cell_center_from_bounds`. -/
def cellCenterFromBounds (b : K × K × K × K) : K × K := (1 / 2 * (b.1 + b.2.2.1), 1 / 2 * (b.2.1 + b.2.2.2))

/-- quadrat_statistics.py:238-245, 247-277 `RectangleM.plot` with `show="counts"`: the rings of the polygons drawn, with the
place of the number and the number. -/
def RectangleM.plotCells (m : RectangleM K) (w h : K) : Py (List (List (K × K) × (K × K) × ℕ)) := do
  let dict_id_count ← m.pointLocationSta
  return (m.iterCells w h).map fun c => (rectCellPolygon c.2, cellCenterFromBounds c.2, Dict.getD0 c.1 dict_id_count)

end Rect

section Hex

variable [IsStrictOrderedRing K] [FloorRing K]

/-- The state of a `HexagonM` object. -/
structure HexagonM (K : Type) where
  points : List (K × K)
  mbb : BBox K
  h_length : K
  semi_height : K
  count_column : ℤ
  count_row_even : ℤ
  count_row_odd : ℤ
  num : ℤ
  deriving DecidableEq, Repr

/-- quadrat_statistics.py:320-323: the number of columns. Divisions are by `XF.div` so that a cell size
of zero behaves as in NumPy (overflow or nan in `math.ceil`). -/
def hexCountColumn (lh range_x : K) : Py ℤ :=
  if lh / 2 < range_x then
    (XF.ceil (XF.div (.fin (range_x - lh / 2)) (.fin (3 / 2 * lh)))).map fun temp => 1 + temp
  else .ok 1

/-- quadrat_statistics.py:326-329: the number of rows in even columns. -/
def hexCountRowEven (semi_height range_y : K) : Py ℤ :=
  if semi_height < range_y then
    (XF.ceil (XF.div (.fin (range_y - semi_height)) (.fin (2 * semi_height)))).map fun temp => 1 + temp
  else .ok 1

/-- quadrat_statistics.py:331: the number of rows in odd columns. -/
def hexCountRowOdd (semi_height range_y : K) : Py ℤ :=
  XF.ceil (XF.div (.fin range_y) (.fin (2 * semi_height)))

/-- quadrat_statistics.py:311-335 `HexagonM.__init__`. `cos30` is the value of
`math.cos(math.pi / 6.0)`. -/
def HexagonM.init (cos30 : K) (points : List (K × K)) (lh : K) : Py (HexagonM K) := do
  let mbb ← computeMbb points
  let range_x := mbb.xmax - mbb.xmin
  let range_y := mbb.ymax - mbb.ymin
  let count_column ← hexCountColumn lh range_x
  let semi_height := lh * cos30
  let count_row_even ← hexCountRowEven semi_height range_y
  let count_row_odd ← hexCountRowOdd semi_height range_y
  return { points, mbb, h_length := lh, semi_height, count_column, count_row_even, count_row_odd,
           num := count_row_odd * (count_column / 2 + count_column % 2)
                  + count_row_even * (count_column / 2) }

/-- quadrat_statistics.py:341-349: the dictionary of zero counts; odd columns have no cell in the
last row when the two row counts differ. -/
def HexagonM.zeroDict (m : HexagonM K) : Dict :=
  (List.range m.count_row_even.toNat).foldl (fun d (i : ℕ) =>
    (List.range m.count_column.toNat).foldl (fun d (j : ℕ) =>
      if m.count_row_even ≠ m.count_row_odd ∧ (i : ℤ) = m.count_row_even - 1 ∧ (j : ℤ) % 2 = 1 then d
      else Dict.set ((j : ℤ) + (i : ℤ) * m.count_column) 0 d) d) []

/-- Python's `int()` of a finite float. -/
def truncInt (x : K) : ℤ := if 0 ≤ x then ⌊x⌋ else ⌈x⌉

/-- quadrat_statistics.py:379-395: the sign of this number says on which side of the slanted edge of
the left hexagon the point lies. -/
def hexIndicator (h sh center_x center_y : K) (p : K × K) : K :=
  if p.2 > center_y then
    let x0 := center_x + h; let y0 := center_y
    let x1 := center_x + h / 2; let y1 := center_y + sh;
    -(p.2 - ((y0 - y1) / (x0 - x1) * p.1 + (x0 * y1 - x1 * y0) / (x0 - x1)))
  else
    let x0 := center_x + h / 2; let y0 := center_y - sh
    let x1 := center_x + h; let y1 := center_y
    p.2 - ((y0 - y1) / (x0 - x1) * p.1 + (x0 * y1 - x1 * y0) / (x0 - x1))

/-- quadrat_statistics.py:355-403: column and row index of the hexagon a point is assigned to.
Simplification: finite arithmetic, i.e. `h_length ≠ 0` (the constructor raises otherwise). -/
def HexagonM.cellIndex (m : HexagonM K) (p : K × K) : ℤ × ℤ :=
  let semi_cell_length := m.h_length / 2
  let intercept : ℤ := ⌊(p.1 - m.mbb.xmin) / semi_cell_length⌋
  let y_even := truncInt ((p.2 + m.semi_height - m.mbb.ymin) / (2 * m.semi_height))
  let y_odd := truncInt ((p.2 - m.mbb.ymin) / (2 * m.semi_height))
  if intercept % 3 ≠ 1 then
    let cx := (intercept + 1) / 3
    (cx, if cx % 2 = 0 then y_even else y_odd)
  else
    let cx := intercept / 3
    let center_x := (cx : K) * semi_cell_length * 3 + m.mbb.xmin
    let center_y :=
      if cx % 2 = 0 then (y_even : K) * 2 * m.semi_height + m.mbb.ymin
      else ((y_odd : K) * 2 + 1) * m.semi_height + m.mbb.ymin
    if hexIndicator m.h_length m.semi_height center_x center_y p ≤ 0 then
      (cx + 1, if (cx + 1) % 2 = 0 then y_even else y_odd)
    else (cx, if cx % 2 = 0 then y_even else y_odd)

/-- quadrat_statistics.py:367, 403: the dictionary key of a cell. -/
def HexagonM.cellId (m : HexagonM K) (p : K × K) : ℤ :=
  (m.cellIndex p).1 + (m.cellIndex p).2 * m.count_column

/-- quadrat_statistics.py:337-405 `HexagonM.point_location_sta`. -/
def HexagonM.pointLocationSta (m : HexagonM K) : Py Dict :=
  m.points.foldlM (fun d p => Dict.incr (m.cellId p) d) m.zeroDict

/-- quadrat_statistics.py:430-436: the centre of the cell with the given key, as it is plotted. -/
def HexagonM.cellCenter (m : HexagonM K) (cell_id : ℤ) : K × K :=
  let ix := cell_id % m.count_column
  let iy := cell_id / m.count_column
  ((ix : K) * m.h_length / 2 * 3 + m.mbb.xmin,
   if ix % 2 = 1 then ((iy : K) * 2 + 1) * m.semi_height + m.mbb.ymin
   else (iy : K) * m.semi_height * 2 + m.mbb.ymin)

/-- quadrat_statistics.py:422-440, 442-472 `HexagonM._iter_cells` and `HexagonM.plot` with
`show="counts"`: the centres of the hexagons drawn and the number written into each. -/
def HexagonM.plotCounts (m : HexagonM K) : Py (List ((K × K) × ℕ)) := do
  let dict_id_count ← m.pointLocationSta
  return (Dict.keys dict_id_count).map fun c => (m.cellCenter c, Dict.getD0 c dict_id_count)

/-- quadrat_statistics.py:407-421 `_hex_vertices`; the ring of the polygon made of them at line 439 is the same list. -/
def hexVertices (lh sh : K) (c : K × K) : List (K × K) :=
  [(c.1 + lh, c.2), (c.1 + lh / 2, c.2 + sh), (c.1 - lh / 2, c.2 + sh), (c.1 - lh, c.2), (c.1 - lh / 2, c.2 - sh),
    (c.1 + lh / 2, c.2 - sh), (c.1 + lh, c.2)]

/-- quadrat_statistics.py:423-441, 443-473 `HexagonM.plot` with `show="counts"`: the rings of the polygons drawn, with the
place of the number and the number. -/
def HexagonM.plotCells (m : HexagonM K) : Py (List (List (K × K) × (K × K) × ℕ)) := do
  let dict_id_count ← m.pointLocationSta
  return (Dict.keys dict_id_count).map fun c =>
    (hexVertices m.h_length m.semi_height (m.cellCenter c), m.cellCenter c, Dict.getD0 c dict_id_count)

end Hex

/-! ### Chi-square -/

/-- `scipy.stats.chisquare(f_obs)[0]`: the expected frequency is the mean; an empty array has
an empty sum, zero expectation gives 0/0 = `nan` summands. -/
def chisquare (counts : List K) : XF K :=
  let e := counts.sum / (counts.length : K)
  if counts = [] then .fin 0
  else if e = 0 then .nan
  else .fin (counts.map fun o => (o - e) ^ 2 / e).sum

/-- quadrat_statistics.py:647-651 `chi2_contrib`. -/
def chi2Contrib (counts : List K) : List (XF K) :=
  let expected := counts.sum / (counts.length : K)
  if counts ≠ [] ∧ 0 < expected then counts.map fun o => .fin ((o - expected) ^ 2 / expected)
  else counts.map fun _ => .nan

/-- quadrat_statistics.py:645 `df`. -/
def df (counts : List K) : ℤ := (counts.length : ℤ) - 1

/-- quadrat_statistics.py:683-685 `chi2_r_pvalue`. -/
def chi2RPvalue (chi2 : XF K) (sims : List (XF K)) (realizations : ℕ) : K :=
  (((sims.filter fun s => XF.ge s chi2).length : K) + 1) / ((realizations : K) + 1)

/-- quadrat_statistics.py:693-702: the contributions in plotting order; `none` stands for `nan`
(an id that has no contribution). -/
def plottedContrib (cell_ids : List ℤ) (contrib : List (XF K)) (plotted : List ℤ) : List (XF K) :=
  plotted.map fun c => ((cell_ids.zip contrib).reverse.lookup c).getD .nan

/-- quadrat_statistics.py:278-293, 474-489 `plot(show="chi2", chi2_contrib=...)` of a grid that draws
`ncells` cells: the values written into the cells, in the order the cells are drawn. -/
def gridPlotChi2 (ncells : ℕ) (chi2_contrib : Option (List (XF K))) : Py (List (XF K)) :=
  match chi2_contrib with
  | none => .error .valueError
  | some l => if l.length ≠ ncells then .error .valueError else .ok l

/-- quadrat_statistics.py:692-703 `QStatistic.plot(show="chi2")`: the values written into the cells.
`d` is the dictionary of counts the constructor computed (lines 639-651), `plotted` are the cell ids the
grid draws. -/
def qstatPlotChi2 (d : Dict) (plotted : List ℤ) : Py (List (XF K)) :=
  gridPlotChi2 plotted.length
    (some (plottedContrib d.keys (chi2Contrib (d.values.map (Nat.cast : ℕ → K))) plotted))

end Pointpats.Quadrat
