import Verif.Model.Window
import Mathlib.Data.List.Dedup

/-!
# Model of `pointpats/pointpattern.py` and `pointpats/util.py`

A `PointPattern` is an object with mutable state: the data frame, the names of the coordinate columns,
the window and the cache of the computed attributes. Methods are state transformers that may raise; the
state reached before an exception is kept, as in Python.

Simplifications: all cells of the data frame are numbers of one ordered field; row labels (the pandas
index) are represented in `Verif.Model.PatternLabels` only; column names are assumed to be different from each other where a lookup
by name takes place (pandas would return several columns otherwise); the minimum of an empty table is
`nan` in pandas and a `ValueError` here.
-/

namespace Pointpats.PointPattern

variable {K : Type} [Field K] [LinearOrder K]

/-- A pandas `DataFrame`: column names and rows. -/
structure Frame (K : Type) where
  names : List String
  rows : List (List K)
  deriving DecidableEq, Repr

/-- The name pointpats generates for a mark: the f-strings in pointpattern.py:78 and 163. -/
def markName (j : ℕ) : String := "mark_" ++ toString j

/-- `df[name]`: the values of a column; a missing name is a `KeyError`. -/
def Frame.col (df : Frame K) (name : String) : Py (List K) :=
  if name ∈ df.names then .ok (df.rows.map fun r => r.getD (df.names.idxOf name) 0)
  else .error .keyError

/-- `df[name] = values`: overwrites the column or appends a new one; a wrong number of values is a
`ValueError`. -/
def Frame.setCol (df : Frame K) (name : String) (values : List K) : Py (Frame K) :=
  if values.length ≠ df.rows.length then .error .valueError
  else if name ∈ df.names then
    .ok { df with rows := List.zipWith (fun r v => r.set (df.names.idxOf name) v) df.rows values }
  else .ok { names := df.names ++ [name]
             rows := List.zipWith (fun r v => r ++ [v]) df.rows values }

/-- `df.drop_duplicates()`: keep the first of equal rows. -/
def dropDuplicates {α : Type} [DecidableEq α] : List α → List α
  | [] => []
  | r :: rs => r :: (dropDuplicates rs).filter fun r' => decide (r' ≠ r)

/-- The value of the `window` attribute: a window, or something that is not one (`set_window` does not
check its argument). -/
inductive Win (K : Type)
  | window (p : Poly K)
  | notAWindow
  deriving DecidableEq, Repr

/-- util.py:5-22: the dictionary `_cache`, one entry per decorated function. (`_cache` missing as an
attribute and an empty dictionary behave the same.) -/
structure Cache (K : Type) where
  mbb : Option (BBox K) := none
  mbbArea : Option K := none
  n : Option ℕ := none
  rot : Option K := none
  lambdaMbb : Option (XF K) := none
  hull : Option (List (K × K)) := none
  lambdaWindow : Option (XF K) := none
  hullArea : Option K := none
  lambdaHull : Option (XF K) := none
  nnd : Option (List K) := none
  minNnd : Option K := none
  maxNnd : Option K := none
  meanNnd : Option K := none
  deriving DecidableEq, Repr

/-- A `PointPattern` object. -/
structure Obj (K : Type) where
  df : Frame K
  coordNames : List String
  x : String
  y : String
  points : List (K × K)
  nMarks : ℤ
  window : Option (Win K)
  cache : Cache K := {}
  deriving DecidableEq, Repr

/-- External functions the attributes call: `centrography.hull` (SciPy's ConvexHull) and the nearest
neighbour distances computed from a KD-tree query. -/
structure Ext (K : Type) where
  hull : List (K × K) → Py (List (K × K))
  nnd : List (K × K) → Py (List K)

/-- A method: reads and changes the object, returns a value or raises. -/
def M (K α : Type) : Type := Obj K → Py α × Obj K

instance : Monad (M K) where
  pure a := fun s => (.ok a, s)
  bind m f := fun s =>
    match m s with
    | (.ok a, s') => f a s'
    | (.error e, s') => (.error e, s')

/-- An exception raised by a pure computation. -/
def lift {α : Type} (v : Py α) : M K α := fun s => (v, s)

/-- util.py:5-22 `cached_property`: return the stored value, or compute and store. A computation that
raises stores nothing. -/
def cached {α : Type} (get : Cache K → Option α) (put : α → Cache K → Cache K) (f : M K α) : M K α :=
  fun s =>
    match get s.cache with
    | some v => (.ok v, s)
    | none =>
        match f s with
        | (.ok v, s') => (.ok v, { s' with cache := put v s'.cache })
        | (.error e, s') => (.error e, s')

/-! ### Construction -/

/-- The outcome of pointpattern.py:72-81: the column names, the coordinate names, and what the lists passed
by the caller as `names` and `coord_names` contain afterwards. -/
structure Names where
  cols : List String
  coords : List String
  namesAfter : Option (List String)
  coordNamesAfter : Option (List String)
  deriving DecidableEq, Repr

/-- pointpattern.py:72-81. In the branch `names is None`, `col_names = coord_names` makes the two
variables the same list object, so appending the mark names to `col_names` also changes the list the
caller passed as `coord_names`. -/
def resolveNames (p : ℕ) (names coordNames : Option (List String)) : Names :=
  match names with
  | some ns =>
      { cols := ns, coords := coordNames.getD (ns.take 2), namesAfter := names
        coordNamesAfter := coordNames }
  | none =>
      let cols := coordNames.getD ["x", "y"]
        ++ (if p > 2 then (List.range' 2 (p - 2)).map fun m => markName (m - 2) else [])
      { cols, coords := cols.take 2, namesAfter := none
        coordNamesAfter := coordNames.map fun _ => cols }

/-- pointpattern.py:65-93 `__init__` on a table with `p` columns. A window of `None` is replaced by
the rectangle of the bounding box; computing it stores `mbb` in the cache. The facade is modelled in `Verif.Model.Facade`. -/
def construct (p : ℕ) (rows : List (List K)) (window : Option (Win K))
    (names coordNames : Option (List String)) : Py (Obj K) :=
  match (resolveNames p names coordNames).coords with
  | [x, y] =>
      if (resolveNames p names coordNames).cols.length ≠ p then .error .valueError
      else do
        let df : Frame K := { names := (resolveNames p names coordNames).cols, rows }
        let xs ← df.col x
        let ys ← df.col y
        let points := xs.zip ys
        let base : Obj K :=
          { df, coordNames := [x, y], x, y, points, nMarks := (p : ℤ) - 2, window }
        match window with
        | some _ => .ok base
        | none => do
            let b ← Geometry.bboxPts points
            .ok { base with
                  window := some (.window (Window.asWindow (Window.polyFromBBox b)))
                  cache := { base.cache with mbb := some b } }
  | _ => .error .valueError

/-! ### Cached attributes -/

/-- pointpattern.py:216-224 `mbb`. -/
def mbb : M K (BBox K) :=
  cached (·.mbb) (fun v c => { c with mbb := some v }) fun s => (Geometry.bboxPts s.points, s)

/-- pointpattern.py:226-233 `mbb_area`. -/
def mbbArea : M K K :=
  cached (·.mbbArea) (fun v c => { c with mbbArea := some v }) do
    let b ← mbb
    pure ((b.xmax - b.xmin) * (b.ymax - b.ymin))

/-- pointpattern.py:235-241 `n`. -/
def n : M K ℕ :=
  cached (·.n) (fun v c => { c with n := some v }) fun s => (.ok s.points.length, s)

/-- pointpattern.py:243-252 `rot`. -/
def rot : M K K :=
  cached (·.rot) (fun v c => { c with rot := some v }) do
    let b ← mbb
    pure (1 / 4 * min (b.xmax - b.xmin) (b.ymax - b.ymin))

/-- pointpattern.py:254-260 `lambda_mbb` (NumPy division). -/
def lambdaMbb : M K (XF K) :=
  cached (·.lambdaMbb) (fun v c => { c with lambdaMbb := some v }) do
    let k ← n
    let a ← mbbArea
    pure (XF.div (.fin (k : K)) (.fin a))

/-- pointpattern.py:262-268 `hull`. -/
def hull (ext : Ext K) : M K (List (K × K)) :=
  cached (·.hull) (fun v c => { c with hull := some v }) fun s => (ext.hull s.points, s)

/-- pointpattern.py:135-146 `get_window`: a missing window is replaced by the bounding rectangle. -/
def getWindow : M K (Win K) := fun s =>
  match s.window with
  | some w => (.ok w, s)
  | none =>
      match mbb s with
      | (.ok b, s') =>
          let w := Win.window (Window.asWindow (Window.polyFromBBox b))
          (.ok w, { s' with window := some w })
      | (.error e, s') => (.error e, s')

/-- The attribute `area` of the object stored as window. -/
def winArea : Win K → Py K
  | .window p => .ok (Window.area p)
  | .notAWindow => .error .attributeError

/-- pointpattern.py:270-294 `lambda_window`. Simplification: division by an area of zero follows NumPy
(Python floats raise `ZeroDivisionError`). -/
def lambdaWindow : M K (XF K) :=
  cached (·.lambdaWindow) (fun v c => { c with lambdaWindow := some v }) do
    let k ← n
    let w ← getWindow
    let a ← lift (winArea w)
    pure (XF.div (.fin (k : K)) (.fin a))

/-- The products `x_i * y_{i+1} - x_{i+1} * y_i` of pointpattern.py:304. -/
def crossTerms (h : List (K × K)) : List K :=
  List.zipWith (fun p q => p.1 * q.2 - q.1 * p.2) h.dropLast h.tail

/-- pointpattern.py:296-305 the area of a ring of hull vertices. -/
def ringArea (h : List (K × K)) : Py K :=
  match h with
  | [] => .error .indexError
  | p :: ps =>
      let h' := if (p :: ps).getLast (by simp) = p then p :: ps else p :: ps ++ [p]
      .ok ((crossTerms h').sum / 2)

/-- pointpattern.py:296-307 `hull_area`. -/
def hullArea (ext : Ext K) : M K K :=
  cached (·.hullArea) (fun v c => { c with hullArea := some v }) do
    let h ← hull ext
    lift (ringArea h)

/-- pointpattern.py:309-315 `lambda_hull`. -/
def lambdaHull (ext : Ext K) : M K (XF K) :=
  cached (·.lambdaHull) (fun v c => { c with lambdaHull := some v }) do
    let k ← n
    let a ← hullArea ext
    pure (XF.div (.fin (k : K)) (.fin a))

/-- pointpattern.py:345-352 `nnd` (one column; the KD-tree query is external). -/
def nnd (ext : Ext K) : M K (List K) :=
  cached (·.nnd) (fun v c => { c with nnd := some v }) fun s => (ext.nnd s.points, s)

/-- `a.min()` of a NumPy vector. -/
def vecMin : List K → Py K
  | [] => .error .valueError
  | a :: l => .ok (listMin a l)

/-- `a.max()` of a NumPy vector. -/
def vecMax : List K → Py K
  | [] => .error .valueError
  | a :: l => .ok (listMax a l)

/-- `a.mean()` of a NumPy vector. Simplification: the mean of an empty vector is `nan` in NumPy. -/
def vecMean : List K → Py K
  | [] => .error .valueError
  | l => .ok (l.sum / (l.length : K))

/-- pointpattern.py:354-360 `min_nnd`. -/
def minNnd (ext : Ext K) : M K K :=
  cached (·.minNnd) (fun v c => { c with minNnd := some v }) do
    let d ← nnd ext
    lift (vecMin d)

/-- pointpattern.py:362-368 `max_nnd`. -/
def maxNnd (ext : Ext K) : M K K :=
  cached (·.maxNnd) (fun v c => { c with maxNnd := some v }) do
    let d ← nnd ext
    lift (vecMax d)

/-- pointpattern.py:370-376 `mean_nnd`. -/
def meanNnd (ext : Ext K) : M K K :=
  cached (·.meanNnd) (fun v c => { c with meanNnd := some v }) do
    let d ← nnd ext
    lift (vecMean d)

/-! ### Other methods -/

/-- pointpattern.py:129-133 `set_window`. -/
def setWindow (w : Option (Win K)) : M K Unit := fun s => (.ok (), { s with window := w })

/-- pointpattern.py:164-166: `zip(..., strict=True)` raises when one of the lists is exhausted
before the other; the columns set before stay set. -/
def addMarksLoop : List String → List (List K) → M K Unit
  | [], [] => pure ()
  | nm :: nms, mk :: mks => fun s =>
      match s.df.setCol nm mk with
      | .ok df' => addMarksLoop nms mks { s with df := df', nMarks := s.nMarks + 1 }
      | .error e => (.error e, s)
  | _, _ => lift (.error .valueError)

/-- pointpattern.py:163: the default names, numbered from `_n_marks + 1`. -/
def defaultMarkNames (nMarks : ℤ) (count : ℕ) : List String :=
  (List.range count).map fun (j : ℕ) => markName (nMarks + 1 + j).toNat

/-- pointpattern.py:160-166 `add_marks`. Simplification: the number in a generated name is taken to be
non-negative (patterns have at least two columns). -/
def addMarks (marks : List (List K)) (markNames : Option (List String)) : M K Unit := fun s =>
  addMarksLoop (markNames.getD (defaultMarkNames s.nMarks marks.length)) marks s

/-- pointpattern.py:521-527 `flip_coordinates`. -/
def flipCoordinates : M K Unit := fun s => (.ok (), { s with x := s.y, y := s.x })

/-- pointpattern.py:192: the locations `plot` draws. -/
def plotted (s : Obj K) : Py (List (K × K)) := do
  let xs ← s.df.col s.x
  let ys ← s.df.col s.y
  pure (xs.zip ys)

/-- pointpattern.py:95-112 `__len__`. -/
def len (s : Obj K) : ℕ := s.df.rows.length

/-- pointpattern.py:114-127 `__contains__`. -/
def contains (s : Obj K) (p : K × K) : Py Bool :=
  match s.df.names with
  | a :: b :: _ => do
      let xs ← s.df.col a
      let ys ← s.df.col b
      pure ((xs.zip ys).any fun q => decide (q.1 = p.1) && decide (q.2 = p.2))
  | _ => .error .indexError

/-- pointpattern.py:450-478 `unique`. The window handed to the new pattern is the *method*
`self.set_window`, which is not a window. -/
def unique (s : Obj K) : Py (Obj K) :=
  construct s.df.names.length (dropDuplicates s.df.rows) (some .notAWindow) (some s.df.names)
    (some s.coordNames)

/-- pointpattern.py:480-519 `superimpose`. -/
def superimpose (s t : Obj K) : Py (Obj K) :=
  if s.df.names ≠ t.df.names ∨ s.coordNames ≠ t.coordNames then .error .typeError
  else construct s.df.names.length (dropDuplicates (s.df.rows ++ t.df.rows)) none (some s.df.names)
    (some s.coordNames)

/-- `numpy.unique` of a column: its different values in increasing order. -/
def npUnique (l : List K) : List K := l.dedup.mergeSort (fun a b => decide (a ≤ b))

/-- pointpattern.py:427-448 `explode`. -/
def explode (s : Obj K) (mark : String) : Py (List (Obj K)) := do
  let c ← s.df.col mark
  (npUnique c).mapM fun v =>
    construct s.df.names.length
      (s.df.rows.filter fun r => decide (r.getD (s.df.names.idxOf mark) 0 = v)) none
      (some s.df.names) (some s.coordNames)

/-- pointpattern.py:322-343 `knn`: `query k` is the answer of `tree.query(tree.data, k)`, one row of
(distance, id) pairs per event; the first column is dropped. -/
def knn {D : Type} (query : ℕ → List (List (D × ℕ))) (k : ℤ) : Py (List (List (D × ℕ))) :=
  if k < 1 then .error .valueError
  else .ok ((query (k.toNat + 1)).map List.tail)

/-- pointpattern.py:396-425 `knn_other`: `query k` is the answer of `tree.query(other.points, k)`. -/
def knnOther {D : Type} (query : ℕ → List (List (D × ℕ))) (k : ℤ) : Py (List (List (D × ℕ))) :=
  if k < 1 then .error .valueError else .ok (query k.toNat)

/-- pointpattern.py:345-350 `_nn_sum`: the one-column distance table of `knn(1)`, written as a vector. -/
def nndFrom {D : Type} (query : ℕ → List (List (D × ℕ))) : Py (List D) :=
  (knn query 1).map fun rows => rows.flatMap fun r => r.map Prod.fst

/-- pointpattern.py:378-394 `find_pairs`: `queryPairs r` is the answer of `tree.query_pairs(r)`. -/
def findPairs {D : Type} (queryPairs : D → List (ℕ × ℕ)) (r : D) : List (ℕ × ℕ) := queryPairs r

/-! ### Histories -/

/-- The attributes that can be read. -/
inductive Attr
  | n | mbb | mbbArea | rot | lambdaMbb | hull | hullArea | lambdaHull | lambdaWindow
  | nnd | minNnd | maxNnd | meanNnd | window
  deriving DecidableEq, Repr

/-- The value of an attribute. -/
inductive Val (K : Type)
  | nat (k : ℕ)
  | box (b : BBox K)
  | num (x : K)
  | xnum (x : XF K)
  | pts (l : List (K × K))
  | vec (l : List K)
  | win (w : Win K)
  deriving DecidableEq, Repr

/-- Apply a function to the result of a method. -/
def mapM' {α β : Type} (g : α → β) (m : M K α) : M K β := fun s =>
  match m s with
  | (.ok a, s') => (.ok (g a), s')
  | (.error e, s') => (.error e, s')

/-- Reading an attribute (the properties of pointpattern.py:146-376). -/
def read (ext : Ext K) : Attr → M K (Val K)
  | .n => mapM' .nat n
  | .mbb => mapM' .box mbb
  | .mbbArea => mapM' .num mbbArea
  | .rot => mapM' .num rot
  | .lambdaMbb => mapM' .xnum lambdaMbb
  | .hull => mapM' .pts (hull ext)
  | .hullArea => mapM' .num (hullArea ext)
  | .lambdaHull => mapM' .xnum (lambdaHull ext)
  | .lambdaWindow => mapM' .xnum lambdaWindow
  | .nnd => mapM' .vec (nnd ext)
  | .minNnd => mapM' .num (minNnd ext)
  | .maxNnd => mapM' .num (maxNnd ext)
  | .meanNnd => mapM' .num (meanNnd ext)
  | .window => mapM' .win getWindow

/-- One public operation on a pattern. -/
inductive Op (K : Type)
  | read (a : Attr)
  | setWindow (w : Option (Win K))
  | addMarks (marks : List (List K)) (names : Option (List String))
  | flip
  deriving DecidableEq, Repr

/-- The object after an operation, whether or not it raised. -/
def step (ext : Ext K) (s : Obj K) : Op K → Obj K
  | .read a => (read ext a s).2
  | .setWindow w => (setWindow w s).2
  | .addMarks m nms => (addMarks m nms s).2
  | .flip => (flipCoordinates s).2

/-- The object after a history of operations. -/
def run (ext : Ext K) (s : Obj K) (ops : List (Op K)) : Obj K := ops.foldl (step ext) s

end Pointpats.PointPattern
