import Mathlib.Algebra.Order.Floor.Ring
import Mathlib.Algebra.Order.Field.Basic

/-!
# Python and NumPy primitives used by the model

Nothing in this file models a particular line of pointpats; it fixes how Python exceptions, NumPy
floats with their special values, dictionaries and a few array functions are represented.
-/

namespace Pointpats

/-- The Python exceptions that the modelled code can raise. -/
inductive PyErr
  | valueError | typeError | keyError | indexError | assertionError | notImplementedError
  | runtimeError | attributeError | unboundLocalError | overflowError | zeroDivisionError
  | importError
  | exception
  deriving DecidableEq, Repr

/-- A Python computation: a value or an exception. -/
abbrev Py (α : Type _) := Except PyErr α

/-- A NumPy float in exact arithmetic: a number, `inf`, `-inf` or `nan`.
Simplification: no rounding, no signed zero. -/
inductive XF (K : Type)
  | fin (x : K)
  | pinf
  | ninf
  | nan
  deriving DecidableEq, Repr

namespace XF

variable {K : Type} [Field K] [LinearOrder K]

/-- IEEE division. -/
def div : XF K → XF K → XF K
  | fin a, fin b =>
      if b = 0 then (if 0 < a then pinf else if a < 0 then ninf else nan) else fin (a / b)
  | fin _, pinf => fin 0
  | fin _, ninf => fin 0
  | pinf, fin b => if 0 ≤ b then pinf else ninf
  | ninf, fin b => if 0 ≤ b then ninf else pinf
  | _, _ => nan

/-- IEEE subtraction. -/
def sub : XF K → XF K → XF K
  | fin a, fin b => fin (a - b)
  | fin _, pinf => ninf
  | fin _, ninf => pinf
  | pinf, fin _ => pinf
  | ninf, fin _ => ninf
  | pinf, ninf => pinf
  | ninf, pinf => ninf
  | _, _ => nan

/-- IEEE `a >= b` (false as soon as one side is `nan`). -/
def ge : XF K → XF K → Bool
  | nan, _ => false
  | _, nan => false
  | pinf, _ => true
  | _, ninf => true
  | fin a, fin b => decide (b ≤ a)
  | _, _ => false

/-- IEEE `a == b`. -/
def eq : XF K → XF K → Bool
  | fin a, fin b => decide (a = b)
  | pinf, pinf => true
  | ninf, ninf => true
  | _, _ => false

/-- `numpy.isfinite`. -/
def isfinite : XF K → Bool
  | fin _ => true
  | _ => false

variable [IsStrictOrderedRing K] [FloorRing K]

/-- `numpy.floor_divide` (`//`) on floats: division by zero is IEEE division, division by an
infinity is the limit, everything else is the floor of the quotient. -/
def floorDiv : XF K → XF K → XF K
  | fin a, fin b => if b = 0 then div (fin a) (fin b) else fin (⌊a / b⌋ : K)
  | fin a, pinf => fin (if a < 0 then -1 else 0)
  | fin a, ninf => fin (if 0 < a then -1 else 0)
  | _, _ => nan

/-- Python's `int(x)` on a float: truncation; `nan` is a `ValueError`, infinities are an
`OverflowError`. -/
def toInt : XF K → Py ℤ
  | fin a => .ok (if 0 ≤ a then ⌊a⌋ else ⌈a⌉)
  | nan => .error .valueError
  | _ => .error .overflowError

/-- `math.ceil(x)` on a float. -/
def ceil : XF K → Py ℤ
  | fin a => .ok ⌈a⌉
  | nan => .error .valueError
  | _ => .error .overflowError

end XF

/-- A Python `dict` with integer keys and integer counts, as the list of its items in insertion
order. -/
abbrev Dict := List (ℤ × ℕ)

namespace Dict

/-- `d[k] = v`: overwrite in place or append. -/
def set (k : ℤ) (v : ℕ) : Dict → Dict
  | [] => [(k, v)]
  | (k', v') :: d => if k' = k then (k, v) :: d else (k', v') :: set k v d

/-- `d[k] += 1`: a `KeyError` if the key is missing. -/
def incr (k : ℤ) : Dict → Py Dict
  | [] => .error .keyError
  | (k', v') :: d =>
      if k' = k then .ok ((k, v' + 1) :: d)
      else match incr k d with
        | .ok d' => .ok ((k', v') :: d')
        | .error e => .error e

/-- `list(d.keys())`. -/
def keys (d : Dict) : List ℤ := d.map Prod.fst

/-- `list(d.values())`. -/
def values (d : Dict) : List ℕ := d.map Prod.snd

/-- `d.get(k, 0)`. -/
def getD0 (k : ℤ) : Dict → ℕ
  | [] => 0
  | (k', v') :: d => if k' = k then v' else getD0 k d

end Dict

/-- `min` of a non-empty list given as head and tail (`numpy.min`). -/
def listMin {K : Type} [LinearOrder K] (a : K) (l : List K) : K := l.foldl min a

/-- `max` of a non-empty list given as head and tail (`numpy.max`). -/
def listMax {K : Type} [LinearOrder K] (a : K) (l : List K) : K := l.foldl max a

/-- `numpy.linspace(start, stop, num)`; a negative `num` is a `ValueError`. -/
def linspace {K : Type} [Field K] (start stop : K) (num : ℤ) : Py (List K) :=
  if num < 0 then .error .valueError
  else if num = 1 then .ok [start]
  else .ok ((List.range num.toNat).map fun (i : ℕ) =>
    if (i : ℤ) = num - 1 then stop else start + (i : K) * ((stop - start) / ((num : K) - 1)))

end Pointpats
