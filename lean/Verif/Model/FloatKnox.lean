import Verif.Model.FloatStats
import Verif.Model.Spacetime

/-!
# `modified_knox` in floating point arithmetic

The distance matrices are given, so that comparing them with the thresholds is exact. The sums of ones and of products of counts
are integers, exact below `2⁵³`.
-/

namespace Pointpats.Float64

open Spacetime

/-- spacetime.py:599-611, 622-632: the statistic of two Boolean matrices, for two events or more. -/
def fmodifiedKnoxStat (n : ℕ) (timebin spacbin : List (List Bool)) : XF ℚ :=
  let obsstat : ℤ :=
    ((List.zipWith (fun a b => (List.zipWith (fun x y => (x && y)) a b).countP id) timebin spacbin).sum : ℕ) - (n : ℤ)
  let expstat : ℤ := (List.zipWith (· * ·) (columnSumsMinusOne spacbin n) (columnSumsMinusOne timebin n)).sum
  .fin (fdiv (fsub (obsstat : ℚ) (fdiv (expstat : ℚ) ((n : ℚ) - 1))) 2)

/-- spacetime.py:585-644 `modified_knox` from the two distance matrices, with permutations. -/
def fmodifiedKnox (sdistmat tdistmat : List (List ℚ)) (delta tau : ℚ) (perms : List (List ℕ)) : XF ℚ × ℚ :=
  let n := tdistmat.length
  let spacbin := thresholded sdistmat delta
  let stat := fmodifiedKnoxStat n (thresholded tdistmat tau) spacbin
  let dist := perms.map fun p => fmodifiedKnoxStat n (thresholded (shuffleMatrix tdistmat p) tau) spacbin
  (stat, fpvalue (dist.countP fun m => XF.ge m stat) perms.length)

end Pointpats.Float64
