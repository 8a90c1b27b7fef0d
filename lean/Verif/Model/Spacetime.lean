import Verif.Model.Py
import Mathlib.Data.Finset.Basic
import Mathlib.Data.Finset.Card
import Mathlib.Algebra.Order.Ring.Abs

/-!
# Model of the functions of `pointpats/spacetime.py`: `knox`, `jacquez`, `modified_knox`

A set of events is given by the list of its locations and the list of its times (the `(n, 2)` and `(n, 1)`
arrays). Simplifications: both have the same number of rows (see `Verif.Model.SpacetimeArgs`), the number of permutations is not negative, the
warning of `knox` and the reading of shapefiles are left out. `numpy.random.shuffle` and
`numpy.random.permutation` are given by the list of the index permutations they apply, so that a theorem about
all such lists covers every state of the random generator. Spatial index answers and nearest neighbour lists
of SciPy and libpysal are arguments.
-/

namespace Pointpats.Spacetime

variable {K : Type} [Field K] [LinearOrder K]

/-- `numpy.random.shuffle(a)` when the generator chooses the order `p`: entry `i` becomes `a[p[i]]`. -/
def shuffle {α : Type} (default : α) (p : List ℕ) (a : List α) : List α :=
  p.map fun i => a.getD i default

/-- spacetime.py:391-394, 505-508, 637-640 (`numpy.ma.masked_greater_equal`, `count_masked`, p-value):
`(count of simulated >= observed + 1) / (permutations + 1)`. -/
def pvalueGe (stat : XF K) (dist : List (XF K)) (permutations : ℕ) : K :=
  (((dist.countP fun m => XF.ge m stat : ℕ) : K) + 1) / ((permutations : K) + 1)

/-! ### `knox` -/

/-- spacetime.py:264-265: the pairs whose squared time difference is at most `tau * tau`. -/
def timeClose (pairs : List (ℕ × ℕ)) (t : List K) (tau : K) : ℕ :=
  (pairs.map fun p => (t.getD p.1 0 - t.getD p.2 0) ^ 2).countP fun d => decide (d ≤ tau * tau)

/-- spacetime.py:271-274: the loop over permutations; `numpy.random.shuffle(t_coords)` works in place, so
every pass starts from the times of the previous one. Gives the counts and the final times. -/
def knoxLoop (pairs : List (ℕ × ℕ)) (tau : K) : List K → List (List ℕ) → List ℕ × List K
  | t, [] => ([], t)
  | t, p :: ps =>
      let t' := shuffle 0 p t
      let r := knoxLoop pairs tau t' ps
      (timeClose pairs t' tau :: r.1, r.2)

/-- spacetime.py:276-279: the p-value of `knox`. -/
def knoxPvalue (stat : ℕ) (joint : List ℕ) (permutations : ℕ) : K :=
  let larger : ℤ := (joint.countP fun j => decide (stat ≤ j) : ℕ)
  let larger : ℤ := if (permutations : ℤ) - larger < larger then permutations - larger else larger
  ((larger : K) + 1) / ((permutations : K) + 1)

/-- What a call of `knox` gives: the dictionary entries, and the contents of the caller's `t_coords` array
afterwards. -/
structure KnoxCall (K : Type) where
  stat : ℕ
  pvalue : Option K
  t_coords : List K
  deriving DecidableEq, Repr

/-- spacetime.py:182-283 `knox`. `pairs` is the answer of `query_pairs(delta)` in the order in which the set
is listed; without any pair `ids` is one-dimensional and `ids[:, 0]` an `IndexError`. -/
def knox (pairs : List (ℕ × ℕ)) (t : List K) (tau : K) (perms : List (List ℕ)) : Py (KnoxCall K) :=
  if pairs = [] then .error .indexError
  else
    let stat := timeClose pairs t tau
    if perms = [] then .ok { stat, pvalue := none, t_coords := t }
    else
      let r := knoxLoop pairs tau t perms
      .ok { stat, pvalue := some (knoxPvalue stat r.1 perms.length), t_coords := r.2 }

/-! ### Matrices -/

/-- libpysal `cg.distance_matrix` of a list of rows. -/
def distanceMatrix {α : Type} (d : α → α → K) (l : List α) : List (List K) :=
  l.map fun a => l.map fun b => d a b

/-- spacetime.py:647-664 `_shuffle_matrix(x, ids)` when the generator chooses the order `p` for `ids`. -/
def shuffleMatrix (x : List (List K)) (p : List ℕ) : List (List K) :=
  (p.map fun i => x.getD i []).map fun row => p.map fun j => row.getD j 0

/-! ### `jacquez` -/

/-- spacetime.py:472-478, 493-499: the number of common entries of the two neighbour lists of every event. -/
def sharedNeighbours (n : ℕ) (nnt nns : List (List ℕ)) : ℕ :=
  ((List.range n).map fun i => ((nnt.getD i []).toFinset ∩ (nns.getD i []).toFinset).card).sum

/-- spacetime.py:401-513 `jacquez` on `n` events. `nnt` and `nns` are the neighbours of
`KNN.from_array(time, k)` and `KNN.from_array(space, k)`, and `nntPerm` lists the neighbours in time computed
for every permutation of the times. The p-value is there only with permutations. -/
def jacquez (n : ℕ) (nnt nns : List (List ℕ)) (nntPerm : List (List (List ℕ))) : ℕ × Option K :=
  let stat := sharedNeighbours n nnt nns
  if nntPerm = [] then (stat, none)
  else
    let dist := nntPerm.map fun nn => sharedNeighbours n nn nns
    (stat, some (pvalueGe (.fin (stat : K)) (dist.map fun (j : ℕ) => .fin (j : K)) nntPerm.length))

/-! ### `modified_knox` -/

/-- spacetime.py:592-597, 618-619: `matrix <= threshold`. -/
def thresholded (m : List (List K)) (c : K) : List (List Bool) := m.map fun row => row.map fun d => decide (d ≤ c)

/-- spacetime.py:592, 603-604: the column sums of a Boolean matrix, minus one. -/
def columnSumsMinusOne (m : List (List Bool)) (n : ℕ) : List ℤ :=
  (List.range n).map fun j => ((m.countP fun row => row.getD j false : ℕ) : ℤ) - 1

/-- spacetime.py:599-608, 622-632: the statistic of two Boolean matrices; `n - 1` is zero for one event. -/
def modifiedKnoxStat (n : ℕ) (timebin spacbin : List (List Bool)) : XF K :=
  let obsstat : ℤ :=
    ((List.zipWith (fun a b => (List.zipWith (fun x y => (x && y)) a b).countP id) timebin spacbin).sum : ℕ) - (n : ℤ)
  let expstat : ℤ := (List.zipWith (· * ·) (columnSumsMinusOne spacbin n) (columnSumsMinusOne timebin n)).sum
  XF.div (XF.sub (.fin (obsstat : K)) (XF.div (.fin (expstat : K)) (.fin ((n : K) - 1)))) (.fin 2)

/-- spacetime.py:516-644 `modified_knox`. `sdist` is the distance between locations. -/
def modifiedKnox (sdist : K × K → K × K → K) (s : List (K × K)) (t : List K) (delta tau : K)
    (perms : List (List ℕ)) : XF K × Option K :=
  let n := t.length
  let sdistmat := distanceMatrix sdist s
  let tdistmat := distanceMatrix (fun a b : K => |a - b|) t
  let spacbin := thresholded sdistmat delta
  let stat := modifiedKnoxStat n (thresholded tdistmat tau) spacbin
  if perms = [] then (stat, none)
  else
    let dist := perms.map fun p => modifiedKnoxStat n (thresholded (shuffleMatrix tdistmat p) tau) spacbin
    (stat, some (pvalueGe stat dist perms.length))

end Pointpats.Spacetime
