import Verif.Model.PointPattern

/-!
# Model of the printed description of a pattern

`summary` and the two bound methods of the data frame in `pointpats/pointpattern.py`.
-/

namespace Pointpats.PointPattern

variable {K : Type} [Field K] [LinearOrder K]

/-- pandas `DataFrame.head`, that is `iloc[:k]`: the first `k` rows; a negative `k` leaves out the last
`-k` rows. -/
def Frame.head (df : Frame K) (k : ℤ) : Frame K :=
  { df with rows := if 0 ≤ k then df.rows.take k.toNat else df.rows.take (df.rows.length - (-k).toNat) }

/-- pandas `DataFrame.tail`, that is `iloc[-k:]` and nothing for `k = 0`: the last `k` rows; a negative `k`
leaves out the first `-k` rows. -/
def Frame.tail (df : Frame K) (k : ℤ) : Frame K :=
  { df with rows := if 0 ≤ k then df.rows.drop (df.rows.length - k.toNat) else df.rows.drop (-k).toNat }

/-- pointpattern.py:530-532 `_facade`: `head` is the method of the data frame created in line 69. That object
is changed in place by `add_marks` and never replaced, so the method sees the frame as it is now. -/
def head (k : ℤ) : M K (Frame K) := fun s => (.ok (s.df.head k), s)

/-- pointpattern.py:530-532 `_facade`: `tail`, likewise. -/
def tail (k : ℤ) : M K (Frame K) := fun s => (.ok (s.df.tail k), s)

/-- One printed line: what is printed in it. Simplification: the number or table itself, not its text. -/
inductive Line (K : Type)
  | title
  | points (k : ℕ)
  | rectangle (b : BBox K)
  | area (a : K)
  | intensity (x : XF K)
  | table (f : Frame K)
  deriving DecidableEq, Repr

/-- Print the values of several expressions one after the other: an exception ends the printing, and what was
printed before it stays printed. -/
def printAll : List (M K (Line K)) → Obj K → List (Line K) × Py Unit × Obj K
  | [], s => ([], .ok (), s)
  | m :: ms, s =>
      match m s with
      | (.ok l, s') => let r := printAll ms s'; (l :: r.1, r.2)
      | (.error e, s') => ([], .error e, s')

/-- pointpattern.py:153: the area of the window. -/
def windowArea : M K K := do
  let w ← getWindow
  lift (winArea w)

/-- pointpattern.py:148-158 `summary`: what it prints, whether it raises, and the object afterwards. `head` is
called with its default of five rows. -/
def summary : Obj K → List (Line K) × Py Unit × Obj K :=
  printAll [pure .title, mapM' .points n, mapM' .rectangle mbb, mapM' .area windowArea,
    mapM' .intensity lambdaWindow, mapM' .table (head 5)]

end Pointpats.PointPattern
