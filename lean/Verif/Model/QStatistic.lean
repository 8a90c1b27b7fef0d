import Verif.Model.Quadrat
import Verif.Model.Random

/-!
# Model of `QStatistic.__init__` (`pointpats/quadrat_statistics.py`)

The observed part and the simulations. The window is a `Hull` (what the sampler uses of a geometry); the
analytical p-value of SciPy is not modelled.
-/

namespace Pointpats.Quadrat

open Random

variable {K : Type} [Field K] [LinearOrder K] [IsStrictOrderedRing K] [FloorRing K]

omit [Field K] [LinearOrder K] [IsStrictOrderedRing K] [FloorRing K] in
/-- The arguments `shape`, `nx`, `ny`, `rectangle_width`, `rectangle_height`, `lh` that matter. -/
inductive GridArg (K : Type)
  | rectangle (nx ny : ℤ) (width height : K)
  | hexagon (lh : K)
  | other

/-- quadrat_statistics.py:71-77 `_as_points_array` of an array of rows. -/
def asPointsArray (rows : List (K × K)) : Py (List (K × K)) :=
  if rows = [] then .error .valueError else .ok rows

/-- quadrat_statistics.py:626-639, 664-676: the counts of a grid over the given points, and the grid the
simulations use (`count_column` and `count_row` of a rectangular grid, `h_length` of a hexagonal one). -/
def gridCounts (cos30 : K) (points : List (K × K)) : GridArg K → Py (Dict × GridArg K)
  | .rectangle nx ny w h => do
      let m ← RectangleM.init points nx ny w h
      let d ← m.pointLocationSta
      return (d, .rectangle m.count_column m.count_row 0 0)
  | .hexagon lh => do
      let m ← HexagonM.init cos30 points lh
      let d ← m.pointLocationSta
      return (d, .hexagon m.h_length)
  | .other => .error .valueError

/-- quadrat_statistics.py:641-643, 678: the counts as numbers. -/
def Dict.numbers (d : Dict) : List K := d.values.map (Nat.cast : ℕ → K)

/-- quadrat_statistics.py:661-663: `_as_points_array(reals[i])`. A row of a two-dimensional array and an
entry of a one-dimensional one are not `(n, 2)` arrays. -/
def simPoints (reals : Squeezed K) (i : ℕ) : Py (List (K × K)) :=
  match reals with
  | .point _ => if i < 2 then .error .valueError else .error .indexError
  | .rows l => if i < l.length then .error .valueError else .error .indexError
  | .cube _ l => match l[i]? with
      | some r => asPointsArray r
      | none => .error .indexError

/-- quadrat_statistics.py:660-679: one pass of the loop, the simulated statistic. -/
def simChi2 (cos30 : K) (grid : GridArg K) (reals : Squeezed K) (i : ℕ) : Py (XF K) := do
  let pts ← simPoints reals i
  let d ← gridCounts cos30 pts grid
  return chisquare (Dict.numbers d.1)

/-- What the constructor stores. -/
structure QStat (K : Type) where
  cell_ids : List ℤ
  chi2 : XF K
  df : ℤ
  chi2_contrib : List (XF K)
  /-- `chi2_realizations` and `chi2_r_pvalue`, present only with simulations -/
  simulated : Option (List (XF K) × K)

/-- quadrat_statistics.py:608-685 `QStatistic.__init__` on an `(n, 2)` array. -/
def qStatistic (cos30 : K) (window : Hull K) (u : ℕ → K) (points : List (K × K)) (grid : GridArg K)
    (realizations : ℤ) (fuel pos : ℕ) : Run (QStat K) :=
  match asPointsArray points with
  | .error e => Run.fail e
  | .ok points =>
  match gridCounts cos30 points grid with
  | .error e => Run.fail e
  | .ok (d, simGrid) =>
      let counts : List K := Dict.numbers d
      let chi2 := chisquare counts
      let base : QStat K :=
        { cell_ids := d.keys, chi2, df := df counts, chi2_contrib := chi2Contrib counts, simulated := none }
      if 0 < realizations then
        if window.area = 0 then Run.fail .zeroDivisionError
        else
          (poisson window u (some ((points.length : K) / window.area)) (.int realizations) fuel pos).andThen
            fun reals pos =>
              match (List.range realizations.toNat).mapM (simChi2 cos30 simGrid reals) with
              | .error e => Run.fail e
              | .ok sims =>
                  Run.ret { base with simulated := some (sims, chi2RPvalue chi2 sims realizations.toNat) } pos
      else Run.ret base pos

end Pointpats.Quadrat
