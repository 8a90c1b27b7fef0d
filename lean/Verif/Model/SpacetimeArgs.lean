import Verif.Model.Spacetime

/-!
# Model of `pointpats/spacetime.py`: places and times of different number

`Verif.Model.Spacetime` takes as many times as places. Here the same functions are given any two arrays; what is added are
the places where NumPy or the neighbour dictionaries notice the difference. (`mantel`, `_knox` and `KnoxLocal` need no
addition: `pearsonr`, `zip(..., strict=True)` and the explicit check are part of their models.)
-/

namespace Pointpats.Spacetime

variable {K : Type} [Field K] [LinearOrder K]

/-- spacetime.py:264, 273: `t_coords[ids[:, 0]] - t_coords[ids[:, 1]]`, where `ids` are pairs of places, is an `IndexError`
when a place has no time. Otherwise spacetime.py:182-283 `knox` goes on. -/
def knoxAny (pairs : List (ℕ × ℕ)) (t : List K) (tau : K) (perms : List (List ℕ)) : Py (KnoxCall K) :=
  if pairs.any fun p => decide (t.length ≤ p.1) || decide (t.length ≤ p.2) then .error .indexError
  else knox pairs t tau perms

/-- spacetime.py:472-474, 493-495: `nns[i]` for every `i` below the number of times is a `KeyError` when there are fewer
places. Otherwise spacetime.py:401-513 `jacquez` goes on; `nnt` and `nns` have one entry per time and per place. -/
def jacquezAny (nnt nns : List (List ℕ)) (nntPerm : List (List (List ℕ))) : Py (ℕ × Option K) :=
  if nns.length < nnt.length then .error .keyError else .ok (jacquez nnt.length nnt nns nntPerm)

/-- NumPy broadcasting of two square arrays with `a` and `b` rows. -/
def broadcastSquare (a b : ℕ) : Py ℕ :=
  if a = b then .ok a else if a = 1 then .ok b else if b = 1 then .ok a else .error .valueError

/-- spacetime.py:591-608: the products of the `(n, n)` arrays of ones with the Boolean matrices, the product of the results,
and `numpy.reshape(spacbin.sum(axis=0) - 1, (n, 1))`. Otherwise spacetime.py:516-644 `modified_knox` goes on. -/
def modifiedKnoxAny (sdist : K × K → K × K → K) (s : List (K × K)) (t : List K) (delta tau : K)
    (perms : List (List ℕ)) : Py (XF K × Option K) := do
  let spacmat ← broadcastSquare t.length s.length
  let _ ← broadcastSquare t.length spacmat
  if s.length ≠ t.length then .error .valueError else pure (modifiedKnox sdist s t delta tau perms)

end Pointpats.Spacetime
