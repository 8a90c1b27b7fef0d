import Verif.Model.Knox

/-!
# Model of the inputs of the space-time tests: data frames and `SpaceTimeEvents` (`pointpats/spacetime.py`)
-/

namespace Pointpats.Spacetime

variable {K : Type} [Field K] [LinearOrder K]

/-! ### Data frames -/

/-- The coordinate reference system of a data frame. -/
inductive Crs
  | none | projected | geographic
  deriving DecidableEq, Repr

/-- A geometry: a `Point`, or anything else. -/
inductive Geom (K : Type)
  | point (p : K × K)
  | other
  deriving DecidableEq

/-- A geopandas data frame with a time column: index label, geometry and time of every row, and whether the time column is
stored with a numeric type. Simplification: a time column that is not numeric has no values. -/
structure Frame (K ι : Type) where
  crs : Crs
  numeric : Bool
  rows : List (ι × Geom K × K)

/-- The coordinates of the points. -/
def Geom.point? : Geom K → Option (K × K)
  | .point p => some p
  | .other => Option.none

/-- spacetime.py:1634-1679 `_spacetime_points_to_arrays`: whether the user is warned about the missing reference
system, the coordinates and the times. `numpy.vstack` of no row is a `ValueError`. -/
def pointsToArrays {ι : Type} (f : Frame K ι) : Py (Bool × List (K × K) × List K) :=
  if f.crs = .geographic then .error .valueError
  else
    match f.rows.mapM fun r => r.2.1.point? with
    | none => .error .valueError
    | some s =>
        if f.numeric = false then .error .valueError
        else if f.rows = [] then .error .valueError
        else .ok (decide (f.crs = .none), s, f.rows.map fun r => r.2.2)

/-- spacetime.py:961-1001 `Knox.from_dataframe`; `sballs` and `tballs` are the answers of the index of SciPy for
locations and times. -/
def knoxFromDataframe [FloorRing K] {ι : Type} (poissonCdf : K → XF K → XF K) (sballs : List (K × K) → List (List ℕ))
    (tballs : List K → List (List ℕ)) (f : Frame K ι) (perms : List (List ℕ)) (keep : Bool) : Py (KnoxObject K) :=
  match pointsToArrays f with
  | .error e => .error e
  | .ok (_, s, t) => knoxInit poissonCdf (sballs s) (tballs t) perms keep

/-- spacetime.py:1303-1352 `KnoxLocal.from_dataframe`: the labels are those of the index. -/
def knoxLocalFromDataframe [FloorRing K] {ι : Type} (default : ℕ → ι) (poissonCdf : K → XF K → XF K)
    (hypergeomCdf : ℤ → ℕ → ℕ → ℕ → K) (sballs : List (K × K) → List (List ℕ)) (tballs : List K → List (List ℕ))
    (f : Frame K ι) (gperms perms : List (List ℕ)) (keep : Bool) (order : List (ℕ × ℕ)) : Py (KnoxLocalObject K ι) :=
  match pointsToArrays f with
  | .error e => .error e
  | .ok (_, s, t) => knoxLocalInit default poissonCdf hypergeomCdf true true s t (sballs s) (tballs t) gperms perms keep
      (some (f.rows.map Prod.fst)) order

/-! ### `SpaceTimeEvents` -/

/-- A path: the directory and the parts of the file name between the dots. -/
structure FilePath where
  dir : String
  parts : List String
  deriving DecidableEq

/-- A column of a database: dates, given by their day number, or numbers. -/
inductive Column (K : Type)
  | dates (days : List ℤ)
  | numbers (l : List K)
  deriving DecidableEq

/-- The files that can be opened: the points of shape files and the columns of databases; `examples` is
`libpysal.examples.get_path`. -/
structure Disk (K : Type) where
  shp : FilePath → Option (List (K × K))
  dbf : FilePath → Option (String → Option (Column K))
  examples : List String → Option FilePath

/-- The attributes of `SpaceTimeEvents`: `x`, `y`, `t` are columns of one entry per row. -/
structure STEvents (K : Type) where
  n : ℕ
  x : List K
  y : List K
  space : List (K × K)
  t : Column K
  deriving DecidableEq

/-- The number of entries. -/
def Column.length : Column K → ℕ
  | .dates l => l.length
  | .numbers l => l.length

/-- spacetime.py:141-179: with `infer_timestamp` dates become the days since the first. An empty column makes
`col[0]` fail. -/
def inferTimes : Column K → Py (Column K)
  | .dates [] => .error .indexError
  | .dates (d :: ds) => .ok (.numbers ((d :: ds).map fun e => (((e - (ds.foldl min d)) : ℤ) : K)))
  | .numbers [] => .error .indexError
  | .numbers (a :: l) => .ok (.numbers (a :: l))

/-- spacetime.py:141-179 `SpaceTimeEvents.__init__`. A file or column that is not there raises an exception of the
library (`exception`). Not modelled: the attribute `time`, which is `t` next to a column of ones. -/
def spaceTimeEvents (disk : Disk K) (path : FilePath) (time_col : String) (infer_timestamp : Bool) : Py (STEvents K) :=
  match disk.shp path with
  | none => .error .exception
  | some shp =>
      match disk.examples [path.parts.headD "", "dbf"] with
      | none => .error .exception
      | some p =>
          match disk.dbf p with
          | none => .error .exception
          | some table =>
              match table time_col with
              | none => .error .exception
              | some col =>
                  match (if infer_timestamp then inferTimes col else .ok col) with
                  | .error e => .error e
                  | .ok t =>
                      if t.length ≠ shp.length then .error .valueError
                      else .ok { n := shp.length, x := shp.map Prod.fst, y := shp.map Prod.snd, space := shp, t }

end Pointpats.Spacetime
