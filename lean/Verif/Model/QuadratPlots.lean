import Verif.Model.QStatistic

/-!
# Model of the plots of the quadrat classes (`pointpats/quadrat_statistics.py`)

What is written into which cell. Titles, colours and the drawing of the events and of the window are not modelled.
-/

namespace Pointpats.Quadrat

variable {K : Type} [Field K] [LinearOrder K] [IsStrictOrderedRing K] [FloorRing K]

/-- The argument `show`: `"counts"`, `"chi2"` or something else. -/
inductive ShowArg
  | counts
  | chi2
  | other
  deriving DecidableEq, Repr

omit [Field K] [LinearOrder K] [IsStrictOrderedRing K] [FloorRing K] in
/-- What is written into a cell: a number of events or a contribution to the statistic. -/
inductive Label (K : Type)
  | count (n : ℕ)
  | value (v : XF K)
  deriving DecidableEq

/-- quadrat_statistics.py:258-300, 454-496: the part of `plot` the two grids share. The cells are given in the order in which
they are drawn, with their ids. The result is where something is written, what, and the ids. -/
def gridPlot {P : Type} (cells : List (ℤ × P)) (dict_id_count : Dict) (show_ : ShowArg) (chi2_contrib : Option (List (XF K))) :
    Py (List (P × Label K) × List ℤ) :=
  match show_ with
  | .counts => .ok (cells.map fun c => (c.2, .count (Dict.getD0 c.1 dict_id_count)), cells.map Prod.fst)
  | .chi2 => do
      let vals ← gridPlotChi2 cells.length chi2_contrib
      return ((cells.map Prod.snd).zip (vals.map Label.value), cells.map Prod.fst)
  | .other => .error .valueError

/-- quadrat_statistics.py:247-300 `RectangleM.plot`; cells are given by their bounds. The cell size `w`, `h` is passed as finite
numbers. -/
def RectangleM.plot (m : RectangleM K) (w h : K) (show_ : ShowArg) (chi2_contrib : Option (List (XF K))) :
    Py (List ((K × K × K × K) × Label K) × List ℤ) := do
  let dict_id_count ← m.pointLocationSta
  gridPlot (m.iterCells w h) dict_id_count show_ chi2_contrib

/-- quadrat_statistics.py:443-496 `HexagonM.plot`; cells are given by their centres. -/
def HexagonM.plot (m : HexagonM K) (show_ : ShowArg) (chi2_contrib : Option (List (XF K))) :
    Py (List ((K × K) × Label K) × List ℤ) := do
  let dict_id_count ← m.pointLocationSta
  gridPlot ((Dict.keys dict_id_count).map fun c => (c, m.cellCenter c)) dict_id_count show_ chi2_contrib

/-- quadrat_statistics.py:687-705 `QStatistic.plot`; `mrPlot` is the method `plot` of the grid. -/
def qstatPlot {P : Type} (q : QStat K) (mrPlot : ShowArg → Option (List (XF K)) → Py (List (P × Label K) × List ℤ))
    (show_ : ShowArg) : Py (List (P × Label K)) :=
  match show_ with
  | .counts => do
      let (drawn, _) ← mrPlot .counts none
      return drawn
  | .chi2 => do
      let (_, plotted_ids) ← mrPlot .counts none
      let (drawn, _) ← mrPlot .chi2 (some (plottedContrib q.cell_ids q.chi2_contrib plotted_ids))
      return drawn
  | .other => .error .valueError

end Pointpats.Quadrat
