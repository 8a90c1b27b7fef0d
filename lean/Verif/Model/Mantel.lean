import Verif.Model.Spacetime
import Mathlib.Analysis.SpecialFunctions.Pow.Real

/-!
# Model of `mantel` (`pointpats/spacetime.py`) over the reals
-/

namespace Pointpats.Spacetime

noncomputable section

/-- spacetime.py:374-375: the entries of a square matrix below the diagonal, row by row. -/
def trilVec {K : Type} [Zero K] (m : List (List K)) : List K :=
  (List.range m.length).flatMap fun i => (List.range i).map fun j => (m.getD i []).getD j 0

/-- NumPy's `b ** p` for numbers: zero to a negative power is infinite and a negative number to a power that is not an
integer is `nan`. -/
def power (b p : ℝ) : XF ℝ :=
  if b < 0 ∧ (⌊p⌋ : ℝ) ≠ p then .nan
  else if b = 0 ∧ p < 0 then .pinf
  else .fin (b ^ p)

/-- spacetime.py:374-375, 386: `(distances + con) ** pow`. -/
def transformed (con pow : ℝ) (v : List ℝ) : List (XF ℝ) := v.map fun d => power (d + con) pow

/-- The numbers of a vector, if all its entries are numbers. -/
def finites : List (XF ℝ) → Option (List ℝ)
  | [] => some []
  | .fin a :: l => (finites l).map fun v => a :: v
  | _ :: _ => none

/-- The mean of a list. -/
def mean (v : List ℝ) : ℝ := v.sum / v.length

/-- `scipy.stats.pearsonr(x, y)[0]` for numbers: fewer than two values, or different lengths, are a `ValueError`; constant
input gives `nan`. Simplification: SciPy also cuts the result to `[-1, 1]`, which matters only after
rounding. -/
def pearsonr (x y : List ℝ) : Py (XF ℝ) :=
  if x.length ≠ y.length ∨ x.length < 2 then .error .valueError
  else
    let xm := x.map fun a => a - mean x
    let ym := y.map fun b => b - mean y
    let normx := Real.sqrt (xm.map fun a => a ^ 2).sum
    let normy := Real.sqrt (ym.map fun b => b ^ 2).sum
    if normx = 0 ∨ normy = 0 then .ok .nan
    else .ok (.fin (List.zipWith (fun a b => a / normx * (b / normy)) xm ym).sum)

/-- `scipy.stats.pearsonr(x, y)[0]`: the means of vectors with an infinite or undefined entry are not numbers, and the result
is `nan`. -/
def pearsonrX (x y : List (XF ℝ)) : Py (XF ℝ) :=
  match finites x, finites y with
  | some x, some y => pearsonr x y
  | _, _ => if x.length ≠ y.length ∨ x.length < 2 then .error .valueError else .ok .nan

/-- spacetime.py:374-376, 386-387: the statistic of two matrices. -/
def mantelStat (scon spow tcon tpow : ℝ) (timemat distmat : List (List ℝ)) : Py (XF ℝ) :=
  pearsonrX (transformed tcon tpow (trilVec timemat)) (transformed scon spow (trilVec distmat))

/-- spacetime.py:286-398 `mantel`; the p-value is there only with permutations. -/
def mantel (sdist : ℝ × ℝ → ℝ × ℝ → ℝ) (s : List (ℝ × ℝ)) (t : List ℝ) (perms : List (List ℕ))
    (scon spow tcon tpow : ℝ) : Py (XF ℝ × Option ℝ) :=
  let distmat := distanceMatrix sdist s
  let timemat := distanceMatrix (fun a b : ℝ => |a - b|) t
  match mantelStat scon spow tcon tpow timemat distmat with
  | .error e => .error e
  | .ok stat =>
      if perms = [] then .ok (stat, none)
      else
        match perms.mapM (fun p => mantelStat scon spow tcon tpow (shuffleMatrix timemat p) distmat) with
        | .error e => .error e
        | .ok dist => .ok (stat, some (pvalueGe stat dist perms.length))

end

end Pointpats.Spacetime
