import Mathlib.Data.Int.Log
import Mathlib.Data.Rat.Floor
import Mathlib.Algebra.Order.Field.Power
import Mathlib.Tactic.Linarith
import Mathlib.Tactic.Ring
import Mathlib.Tactic.Positivity
import Mathlib.Tactic.FieldSimp

/-!
# Binary floating point numbers

The other model files compute exactly. Python's `float` and NumPy's `float64` round the result of every
operation to 53 significant binary digits, to the nearest, with ties to an even last digit (IEEE 754). `fl`
is that rounding. Simplifications: the exponent is unbounded, so that there is no overflow, no infinity and
no loss of digits near zero; `nan` only occurs where a definition says so; the two zeros are one.
-/

namespace Pointpats.Float64

/-- Round to the nearest integer, ties to the even one. -/
def halfEven (x : ℚ) : ℤ :=
  if x - ⌊x⌋ < 1 / 2 then ⌊x⌋
  else if 1 / 2 < x - ⌊x⌋ then ⌊x⌋ + 1
  else if ⌊x⌋ % 2 = 0 then ⌊x⌋ else ⌊x⌋ + 1

/-- The spacing of the floating point numbers near `x`. -/
def ulp (x : ℚ) : ℚ := 2 ^ (Int.log 2 |x| - 52)

/-- The floating point number nearest to `x`, ties to even. -/
def fl (x : ℚ) : ℚ := if x = 0 then 0 else (halfEven (x / ulp x) : ℚ) * ulp x

/-- `x` is a floating point number: an integer of at most 53 binary digits times a power of two. -/
def IsFloat (x : ℚ) : Prop := ∃ m e : ℤ, |m| ≤ 2 ^ 53 ∧ x = (m : ℚ) * 2 ^ e

/-- Sum of two floats. -/
def fadd (a b : ℚ) : ℚ := fl (a + b)
/-- Difference of two floats. -/
def fsub (a b : ℚ) : ℚ := fl (a - b)
/-- Product of two floats. -/
def fmul (a b : ℚ) : ℚ := fl (a * b)
/-- Quotient of two floats; the divisor must not be zero. -/
def fdiv (a b : ℚ) : ℚ := fl (a / b)

end Pointpats.Float64
