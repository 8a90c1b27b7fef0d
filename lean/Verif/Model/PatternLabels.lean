import Verif.Model.PointPattern

/-!
# Model of the row labels of a `PointPattern` (`pointpats/pointpattern.py`)

The rows of the data frame carry the labels of the pandas index. pandas aligns a `Series` that is stored as a column by these
labels, and a value for a label that the `Series` does not have is `nan`. The labels are integers here.
-/

namespace Pointpats.PointPattern

variable {K : Type} [Field K] [LinearOrder K]

/-- The data frame of a pattern: the rows, each with its label. -/
abbrev LRows (K : Type) : Type := List (ℤ × List (XF K))

omit [Field K] [LinearOrder K] in
/-- The labels of the rows. -/
def LRows.labels (s : LRows K) : List ℤ := s.map Prod.fst

omit [Field K] [LinearOrder K] in
/-- pointpattern.py:69: `pd.DataFrame(points)` of a list or an array numbers the rows. -/
def LRows.ofArray (rows : List (List (XF K))) : LRows K := rows.zipIdx.map fun r => ((r.2 : ℤ), r.1)

omit [Field K] [LinearOrder K] in
/-- pointpattern.py:69: `pd.DataFrame(points)` of a data frame keeps its labels. -/
def LRows.ofFrame (labels : List ℤ) (rows : List (List (XF K))) : LRows K := labels.zip rows

/-- `df.drop_duplicates()`: the labels are not compared. -/
def LRows.dropDuplicates : LRows K → LRows K
  | [] => []
  | r :: rs => r :: (dropDuplicates rs).filter fun r' => decide (r'.2 ≠ r.2)

/-- pointpattern.py:450-478 `unique`: the rows of the new pattern. -/
def LRows.unique (s : LRows K) : LRows K := s.dropDuplicates

/-- pointpattern.py:480-519 `superimpose`: the rows of the new pattern. -/
def LRows.superimpose (s t : LRows K) : LRows K := LRows.dropDuplicates (s ++ t)

/-- pointpattern.py:445-448 `explode`: the rows of the pattern for the value `v` of the column `j`. -/
def LRows.explode (s : LRows K) (j : ℕ) (v : XF K) : LRows K := s.filter fun r => decide (r.2.getD j .nan = v)

/-- A mark: an array or a list, a `Series` with its index, or a single value. -/
inductive MarkArg (K : Type)
  | array (values : List (XF K))
  | series (entries : List (ℤ × XF K))
  | scalar (value : XF K)

/-- pointpattern.py:165 `self.df[name] = mark` for a new name. An array of another length is a `ValueError`. A `Series` with the index of
the frame is stored as it is; another one is aligned, which is a `ValueError` if its index has a label twice. The pattern has one
event or more: an empty data frame would take over the rows of the mark. -/
def LRows.addMark (s : LRows K) : MarkArg K → Py (LRows K)
  | .array values =>
      if values.length ≠ s.length then .error .valueError
      else .ok (List.zipWith (fun r v => (r.1, r.2 ++ [v])) s values)
  | .series entries =>
      if entries.map Prod.fst = s.labels then
        .ok (List.zipWith (fun r v => (r.1, r.2 ++ [v])) s (entries.map Prod.snd))
      else if ¬ (entries.map Prod.fst).Nodup then .error .valueError
      else .ok (s.map fun r => (r.1, r.2 ++ [(entries.lookup r.1).getD .nan]))
  | .scalar value => .ok (s.map fun r => (r.1, r.2 ++ [value]))

end Pointpats.PointPattern
