import Verif.Model.Centrography

/-!
# `pointpats/centrography.py` with NumPy's special values

`Model/Centrography.lean` leaves out `nan` and the infinities, which NumPy computes for means of empty
arrays, divisions by zero and roots of negative numbers. Here the same functions are modelled with them.
Simplification: exact arithmetic, no signed zero, only the `ndarray` overloads for arrays with two columns.
-/

namespace Pointpats.CentroFloat

open Centrography

section Field

variable {K : Type} [Field K] [LinearOrder K]

/-- IEEE addition. -/
def fpAdd : XF K → XF K → XF K
  | .fin a, .fin b => .fin (a + b)
  | .fin _, .pinf => .pinf
  | .fin _, .ninf => .ninf
  | .pinf, .fin _ => .pinf
  | .ninf, .fin _ => .ninf
  | .pinf, .pinf => .pinf
  | .ninf, .ninf => .ninf
  | _, _ => .nan

/-- IEEE multiplication. -/
def fpMul : XF K → XF K → XF K
  | .fin a, .fin b => .fin (a * b)
  | .fin a, .pinf => if a = 0 then .nan else if 0 < a then .pinf else .ninf
  | .fin a, .ninf => if a = 0 then .nan else if 0 < a then .ninf else .pinf
  | .pinf, .fin a => if a = 0 then .nan else if 0 < a then .pinf else .ninf
  | .ninf, .fin a => if a = 0 then .nan else if 0 < a then .ninf else .pinf
  | .pinf, .pinf => .pinf
  | .pinf, .ninf => .ninf
  | .ninf, .pinf => .ninf
  | .ninf, .ninf => .pinf
  | _, _ => .nan

/-- IEEE `a > b`. -/
def fpGt : XF K → XF K → Bool
  | .nan, _ => false
  | _, .nan => false
  | a, b => !(XF.ge b a)

/-- The sum of floats, from the left, starting with zero. -/
def fpSum (l : List (XF K)) : XF K := l.foldl fpAdd (.fin 0)

/-- `numpy.mean` of a column: `nan` for an empty one (zero divided by zero). -/
def fpMean (l : List K) : XF K := XF.div (.fin l.sum) (.fin (l.length : K))

/-- centrography.py:367-369 `mean_center`. -/
def meanCenterX (points : List (K × K)) : XF K × XF K :=
  (fpMean (points.map Prod.fst), fpMean (points.map Prod.snd))

/-- centrography.py:440-445 `weighted_mean_center`: the weights are divided by their sum and multiplied
with the columns. `np.dot` of a row without entries and a table without rows is a row of zeros. -/
def weightedMeanCenterX (points : List (K × K)) (weights : List K) : Py (XF K × XF K) :=
  let w := weights.map fun x => XF.div (.fin (x * 1)) (.fin weights.sum)
  if w.length ≠ points.length then .error .valueError
  else .ok (fpSum (List.zipWith (fun a p => fpMul a (.fin p.1)) w points),
            fpSum (List.zipWith (fun a p => fpMul a (.fin p.2)) w points))

/-- `numpy.median`: `nan` for an empty array. -/
def fpMedian (l : List K) : XF K := if l.length = 0 then .nan else .fin (median l)

/-- centrography.py:510-516 `manhattan_median`. -/
def manhattanMedianX (points : List (K × K)) : XF K × XF K :=
  (fpMedian (points.map Prod.fst), fpMedian (points.map Prod.snd))

end Field

/-- `numpy.sqrt`: `nan` for negative numbers. -/
noncomputable def fpSqrt : XF ℝ → XF ℝ
  | .fin a => if a < 0 then .nan else .fin (Real.sqrt a)
  | .pinf => .pinf
  | _ => .nan

/-- centrography.py:581-585 `std_distance`. -/
noncomputable def stdDistanceX (points : List (ℝ × ℝ)) : XF ℝ :=
  let n : XF ℝ := .fin points.length
  let m := meanCenterX points
  fpSqrt (fpAdd
    (XF.sub (XF.div (.fin (points.map fun p => p.1 * p.1).sum) n) (fpMul m.1 m.1))
    (XF.sub (XF.div (.fin (points.map fun p => p.2 * p.2).sum) n) (fpMul m.2 m.2)))

/-- centrography.py:721-733: the corrections of one axis, for `n` events. -/
noncomputable def correctX (n : ℕ) (method : EllipseMethod) (crimestatCorr degfreedCorr : Bool)
    (s : XF ℝ) : XF ℝ :=
  match method with
  | .crimestat =>
      fpMul s (XF.div (fpMul (fpSqrt (.fin 2)) (fpSqrt (.fin n))) (fpSqrt (.fin ((n : ℝ) - 2))))
  | .yuill =>
      let s := if crimestatCorr then fpMul s (fpSqrt (.fin 2)) else s
      if degfreedCorr then fpMul s (XF.div (fpSqrt (.fin n)) (fpSqrt (.fin ((n : ℝ) - 2)))) else s

/-- centrography.py:671-742 `ellipse`: major axis, minor axis, angle. The numbers up to the two sums
`term1` and `term2` are finite, because `np.average` refuses weights that sum to zero. -/
noncomputable def ellipseX (points : List (ℝ × ℝ)) (weights : Option (List ℝ)) (method : String)
    (crimestatCorr degfreedCorr : Bool) : Py (XF ℝ × XF ℝ × ℝ) := do
  let method ← parseMethod method
  let x := points.map Prod.fst
  let y := points.map Prod.snd
  let w ← match weights with
    | none => pure (List.replicate points.length (1 : ℝ))
    | some w => if w.length ≠ points.length then throw PyErr.valueError else pure w
  let sumw := w.sum
  let meanx ← average x w
  let meany ← average y w
  let xm := x.map fun a => a - meanx
  let ym := y.map fun a => a - meany
  let xyw := (List.zipWith (· * ·) (List.zipWith (· * ·) xm ym) w).sum
  let x2w := (List.zipWith (· * ·) (xm.map fun a => a ^ 2) w).sum
  let y2w := (List.zipWith (· * ·) (ym.map fun a => a ^ 2) w).sum
  let den := 2 * xyw
  let left := x2w - y2w
  let right := Real.sqrt (left ^ 2 + 4 * xyw ^ 2)
  let theta1 := if den = 0 then 0 else Real.arctan (-(left + right) / den)
  let theta2 := if den = 0 then Real.pi / 2 else Real.arctan (-(left - right) / den)
  let term (θ : ℝ) := (List.zipWith (· * ·) w (List.zipWith (fun a b => (b * Real.cos θ - a * Real.sin θ) ^ 2)
    xm ym)).sum
  let sx := fpSqrt (XF.div (.fin (term theta1)) (.fin sumw))
  let sy := fpSqrt (XF.div (.fin (term theta2)) (.fin sumw))
  let sx := correctX points.length method crimestatCorr degfreedCorr sx
  let sy := correctX points.length method crimestatCorr degfreedCorr sy
  if fpGt sy sx then return (sy, sx, theta1) else return (sx, sy, theta2)

end Pointpats.CentroFloat
