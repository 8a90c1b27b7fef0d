import Verif.Model.Py
import Mathlib.Data.List.Dedup
import Mathlib.Data.List.Sort

/-!
# Model of `plot_density` (`pointpats/kde.py`)

The density estimators of the libraries are arguments. The result is what is handed to matplotlib's `contour` or
`contourf`: the locations and the values of the density. The imports and the drawing are not modelled.
-/

namespace Pointpats.Kde

variable {K : Type} [Field K] [LinearOrder K]

/-- The argument `data`: an array of rows, or a geopandas object given by its geometries, each with its coordinates
and whether its type is `Point` or `MultiPoint`. -/
inductive Data (K : Type)
  | array (rows : List (K × K))
  | frame (geometries : List (Bool × List (K × K)))

/-- The argument `resolution`. -/
inductive Resolution
  | tuple (sizes : List ℤ)
  | int (n : ℤ)
  | float
  | none
  | other

/-- kde.py:111-118: the coordinates; geometries other than points are refused. -/
def coordinates : Data K → Py (List (K × K))
  | .array rows => .ok rows
  | .frame gs => if gs.all Prod.fst then .ok (gs.flatMap Prod.snd) else .error .valueError

/-- kde.py:136-145: the two sizes of the grid. A float is kept and makes `numpy.linspace` fail with a `TypeError`
later; nothing observable happens in between, so it fails here. -/
def sizes : Resolution → Py (ℤ × ℤ)
  | .tuple [x, y] => .ok (x, y)
  | .tuple _ => .error .valueError
  | .int n => .ok (n, n)
  | .float => .error .typeError
  | .none => .ok (100, 100)
  | .other => .error .valueError

/-- The arguments of `contour`: locations and values, row by row. -/
structure Mesh (K : Type) where
  x : List (List K)
  y : List (List K)
  z : List (List K)

/-- kde.py:120-134, 147-155, with statsmodels: `density` is the estimate of the library. -/
def smMesh (density : List (K × K) → K → K × K → K) (data : List (K × K)) (bandwidth margin : K) (r : Resolution) :
    Py (Mesh K) :=
  match data with
  | [] => .error .valueError
  | p :: ps =>
      let xmax := listMax p.1 (ps.map Prod.fst)
      let xmin := listMin p.1 (ps.map Prod.fst)
      let ymax := listMax p.2 (ps.map Prod.snd)
      let ymin := listMin p.2 (ps.map Prod.snd)
      let x_margin := (xmax - xmin) * margin
      let y_margin := (ymax - ymin) * margin
      do
        let (x_res, y_res) ← sizes r
        let xs ← linspace (xmin - x_margin) (xmax + x_margin) x_res
        let ys ← linspace (ymin - y_margin) (ymax + y_margin) y_res
        return { x := ys.map fun _ => xs
                 y := ys.map fun y => xs.map fun _ => y
                 z := ys.map fun y => xs.map fun x => density (p :: ps) bandwidth (x, y) }

/-- `numpy.unique`. -/
def unique (l : List K) : List K := l.dedup.insertionSort (· ≤ ·)

/-- `points.reshape(n, n).T`, a `ValueError` if the size does not fit. -/
def reshapeT (n : ℤ) (points : List K) : Py (List (List K)) :=
  if n < 0 ∨ (points.length : ℤ) ≠ n * n then .error .valueError
  else .ok ((List.range n.toNat).map fun r => (List.range n.toNat).map fun c => points.getD (c * n.toNat + r) 0)

/-- The axes and the values that are handed to `contour` with `KDEpy`. -/
structure Axes (K : Type) where
  x : List K
  y : List K
  z : List (List K)

/-- kde.py:157-161, with KDEpy: `evaluate` is the answer of the library, the grid and the values on it. A resolution
that is not an integer cannot be passed to `reshape` (`TypeError`). -/
def fftAxes (evaluate : List (K × K) → K → ℤ → List (K × K) × List K) (data : List (K × K)) (bandwidth : K)
    (r : Resolution) : Py (Axes K) :=
  match r with
  | .int n =>
      let (grid, points) := evaluate data bandwidth n
      match reshapeT n points with
      | .error e => .error e
      | .ok z => .ok { x := unique (grid.map Prod.fst), y := unique (grid.map Prod.snd), z }
  | _ => .error .typeError

/-- kde.py:4-170 `plot_density`; `useFFT` is whether a kernel is given. -/
def plotDensity (density : List (K × K) → K → K × K → K)
    (evaluate : List (K × K) → K → ℤ → List (K × K) × List K) (useFFT : Bool) (data : Data K) (bandwidth margin : K)
    (r : Resolution) : Py (Mesh K ⊕ Axes K) :=
  match coordinates data with
  | .error e => .error e
  | .ok pts =>
      if useFFT then (fftAxes evaluate pts bandwidth r).map Sum.inr
      else (smMesh density pts bandwidth margin r).map Sum.inl

end Pointpats.Kde
