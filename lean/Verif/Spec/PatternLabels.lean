import Verif.Model.PatternLabels

/-!
# Specification: the patterns that can be made from arrays, and the marks of events
-/

namespace Pointpats.Spec

open PointPattern

variable {K : Type} [Field K] [LinearOrder K]

/-- The patterns that can be made from arrays with `unique`, `superimpose`, `explode` and `add_marks`. -/
inductive MadeFromArrays : LRows K → Prop
  | array (rows : List (List (XF K))) : MadeFromArrays (.ofArray rows)
  | unique {s : LRows K} : MadeFromArrays s → MadeFromArrays s.unique
  | superimpose {s t : LRows K} : MadeFromArrays s → MadeFromArrays t → MadeFromArrays (s.superimpose t)
  | explode {s : LRows K} (j : ℕ) (v : XF K) : MadeFromArrays s → MadeFromArrays (s.explode j v)
  | mark {s s' : LRows K} (m : MarkArg K) : MadeFromArrays s → s.addMark m = .ok s' → MadeFromArrays s'

/-- `s'` is `s` with one more column: the `j`-th event has the `j`-th of the values, and nothing else is changed. -/
def MarkedInOrder (s : LRows K) (values : List (XF K)) (s' : LRows K) : Prop :=
  s'.length = s.length ∧ values.length = s.length
    ∧ ∀ (j : ℕ) (r : ℤ × List (XF K)) (v : XF K), s[j]? = some r → values[j]? = some v → s'[j]? = some (r.1, r.2 ++ [v])

/-- A `Series` made from a list of values: the labels are `0, 1, 2, …` -/
def defaultIndex (values : List (XF K)) : List (ℤ × XF K) := values.zipIdx.map fun r => ((r.2 : ℤ), r.1)

end Pointpats.Spec
