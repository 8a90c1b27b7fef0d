import Verif.Model.Spacetime
import Mathlib.Data.Finset.Union
import Mathlib.Data.Finset.Image
import Mathlib.Data.Finset.Prod
import Mathlib.Data.List.Sort
import Mathlib.Algebra.Order.Floor.Ring

/-!
# Model of `_knox`, `Knox`, `_knox_local`, `KnoxLocal` (`pointpats/spacetime.py`)

The neighbourhoods come from SciPy's `query_ball_tree`, one list per event, in any order and including the
event itself. Python sets are finite sets; where a set is iterated over and the order could matter, the order
is an argument. The cumulative distribution functions of SciPy (Poisson, hypergeometric) are arguments.
`numpy.random.permutation` is given by the list of the permutations it returns.
-/

namespace Pointpats.Spacetime

variable {K : Type} [Field K] [LinearOrder K]

/-! ### `_knox` -/

/-- spacetime.py:751-758: `set(neighbors).difference([i])` for every event. -/
def neighbourSets (ball : List (List ℕ)) : List (Finset ℕ) :=
  (List.range ball.length).map fun i => (ball.getD i []).toFinset.erase i

/-- spacetime.py:761-763, 766-767, 776-777: `np.array([len(neighbors) ...]).sum() / 2`. -/
def halfTotal (sets : List (Finset ℕ)) : K := (((sets.map Finset.card).sum : ℕ) : K) / 2

/-- spacetime.py:779-784: the set of sorted pairs. -/
def stPairs (sets : List (Finset ℕ)) : Finset (ℕ × ℕ) :=
  (Finset.range sets.length).biUnion fun i => (sets.getD i ∅).image fun j => (min i j, max i j)

/-- spacetime.py:832-840: the statistic of one permutation `rids`. -/
def permutedCount (sneighbors tneighbors : List (Finset ℕ)) (rids : List ℕ) : K :=
  (((List.range sneighbors.length).map fun i =>
    ((sneighbors.getD i ∅).filter fun j => rids.getD j 0 ∈ tneighbors.getD (rids.getD i 0) ∅).card).sum : ℕ) / 2

/-- The dictionary `results`; the last entry is `p_value_sim`, `exceedence` and `st_perm`, with
permutations. -/
structure KnoxResults (K : Type) where
  ns : K
  nt : K
  nst : K
  pairs : K
  observed : K × K × K × K
  expected : XF K × XF K × XF K × XF K
  p_value_poisson : XF K
  st_pairs : Finset (ℕ × ℕ)
  sneighbors : List (Finset ℕ)
  tneighbors : List (Finset ℕ)
  stneighbors : List (Finset ℕ)
  sim : Option (K × ℕ × List K)

/-- IEEE addition. -/
def xadd : XF K → XF K → XF K
  | .fin a, .fin b => .fin (a + b)
  | .fin _, .pinf => .pinf
  | .fin _, .ninf => .ninf
  | .pinf, .fin _ => .pinf
  | .ninf, .fin _ => .ninf
  | .pinf, .pinf => .pinf
  | .ninf, .ninf => .ninf
  | _, _ => .nan

/-- spacetime.py:667-850 `_knox`. Tables are given row by row. `zip(..., strict=True)` of neighbourhoods of
different length is a `ValueError`. With fewer than two events `pairs` is zero and the expected count `nan`. -/
def knoxGlobal (poissonCdf : K → XF K → XF K) (sball tball : List (List ℕ)) (perms : List (List ℕ)) :
    Py (KnoxResults K) :=
  let n := sball.length
  let sn := neighbourSets sball
  let tn := neighbourSets tball
  if sn.length ≠ tn.length then .error .valueError
  else
    let ns : K := halfTotal sn
    let nt : K := halfTotal tn
    let st := List.zipWith (· ∩ ·) sn tn
    let nst : K := halfTotal st
    let pairs : K := (n : K) * ((n : K) - 1) / 2
    let enst := XF.div (.fin (ns * nt)) (.fin pairs)
    let ns_ := ns - nst
    let nt_ := nt - nst
    let observed := (nst, ns_, nt_, pairs - nst - ns_ - nt_)
    let e01 := XF.sub (.fin ns) enst
    let e10 := XF.sub (.fin nt) enst
    let e11 := XF.sub (.fin pairs) (xadd (xadd enst e01) e10)
    let sims : List K := perms.map fun rids => permutedCount sn tn rids
    let exceedence := sims.countP fun m => decide (nst ≤ m)
    .ok
      { ns, nt, nst, pairs, observed
        expected := (enst, e01, e10, e11)
        p_value_poisson := XF.sub (.fin 1) (poissonCdf nst enst)
        st_pairs := stPairs st
        sneighbors := sn, tneighbors := tn, stneighbors := st
        sim := if perms = [] then none
          else some (((exceedence : K) + 1) / ((perms.length : K) + 1), exceedence, sims) }

/-! ### `Knox` -/

/-- The attributes of `Knox`. -/
structure KnoxObject (K : Type) where
  nst : ℤ
  statistic_ : ℤ
  p_sim : Option K
  sim : Option (List K)
  p_poisson : XF K
  observed : K × K × K × K
  expected : XF K × XF K × XF K × XF K

/-- Python's `int` of a number. -/
def pyInt [FloorRing K] (x : K) : ℤ := if 0 ≤ x then ⌊x⌋ else ⌈x⌉

/-- spacetime.py:941-960 `Knox.__init__`. -/
def knoxInit [FloorRing K] (poissonCdf : K → XF K → XF K) (sball tball : List (List ℕ)) (perms : List (List ℕ))
    (keep : Bool) : Py (KnoxObject K) := do
  let r ← knoxGlobal poissonCdf sball tball perms
  return { nst := pyInt r.nst
           statistic_ := pyInt r.nst
           p_sim := r.sim.map fun x => x.1
           sim := if keep then r.sim.map fun x => x.2.2 else none
           p_poisson := r.p_value_poisson
           observed := r.observed
           expected := r.expected }

/-! ### `_knox_local` -/

/-- spacetime.py:1034-1037: the loop over `st_pairs`, listed in the order `order`. -/
def localCounts (n : ℕ) (order : List (ℕ × ℕ)) : List ℕ :=
  order.foldl (fun l p => (l.modify p.1 (· + 1)).modify p.2 (· + 1)) (List.replicate n 0)

/-- spacetime.py:1069-1070: the permutation that keeps the focal event:
`rids_i[rids == i] = rids[i]; rids_i[i] = i`. -/
def focalPermutation (rids : List ℕ) (i : ℕ) : List ℕ :=
  (rids.map fun v => if v = i then rids.getD i 0 else v).set i i

/-- spacetime.py:1073-1076: the local statistic of event `i` for the permutation `rids`. -/
def localPermuted (sneighbors tneighbors : List (Finset ℕ)) (rids : List ℕ) (i : ℕ) : ℕ :=
  ((sneighbors.getD i ∅).filter fun j => (focalPermutation rids i).getD j 0 ∈ tneighbors.getD i ∅).card

/-- The values of the column `orientation`. -/
inductive Orientation
  | lead | lag | coincident
  deriving DecidableEq, Repr

/-- spacetime.py:1107-1116. -/
def orientation (t : List K) (focal neighbor : ℕ) : Orientation :=
  if t.getD focal 0 < t.getD neighbor 0 then .lead
  else if t.getD neighbor 0 < t.getD focal 0 then .lag
  else .coincident

/-- spacetime.py:1097-1118: both directions of every pair, sorted by focal and neighbor, with the
orientation. -/
def adjacency (t : List K) (order : List (ℕ × ℕ)) : List (ℕ × ℕ × Orientation) :=
  ((order.flatMap fun p => [(p.1, p.2), (p.2, p.1)]).insertionSort
    (fun a b => a.1 < b.1 ∨ (a.1 = b.1 ∧ a.2 ≤ b.2))).map fun p => (p.1, p.2, orientation t p.1 p.2)

/-- What `_knox_local` adds to the results of `_knox`. -/
structure LocalResults (K : Type) where
  glob : KnoxResults K
  nsti : List ℕ
  /-- `sti_perm`, `exceedence_pvalue`, with permutations -/
  simulated : Option (List (List ℕ) × List K)
  hg_pvalues : List K
  stadjlist : List (ℕ × ℕ × Orientation)

/-- spacetime.py:1004-1119 `_knox_local`. `gperms` are the permutations drawn inside `_knox`, `perms` (as many)
those drawn here; `order` is the order in which the set of pairs is listed. -/
def knoxLocal (poissonCdf : K → XF K → XF K) (hypergeomCdf : ℤ → ℕ → ℕ → ℕ → K) (sball tball : List (List ℕ))
    (t : List K) (gperms perms : List (List ℕ)) (order : List (ℕ × ℕ)) : Py (LocalResults K) :=
  match knoxGlobal poissonCdf sball tball gperms with
  | .error e => .error e
  | .ok g =>
      let n := sball.length
      let nsti := localCounts n order
      let counts := (List.range n).map fun i => perms.map fun rids => localPermuted g.sneighbors g.tneighbors rids i
      let pvalues : List K := (List.range n).map fun i =>
        ((((counts.getD i []).countP fun c => decide (nsti.getD i 0 ≤ c) : ℕ) : K) + 1) / ((perms.length : K) + 1)
      let ntjis := g.tneighbors.map Finset.card
      let hg : List K := (List.range n).map fun i =>
        1 - (ntjis.map fun nt => hypergeomCdf ((nsti.getD i 0 : ℤ) - 1) (n - 1) nt (g.sneighbors.getD i ∅).card).sum
          / (ntjis.length : K)
      .ok { glob := g, nsti
            simulated := if perms = [] then none else some (counts, pvalues)
            hg_pvalues := hg
            stadjlist := adjacency t order }

/-! ### `KnoxLocal` -/

/-- The attributes of `KnoxLocal` that are modelled. -/
structure KnoxLocalObject (K ι : Type) where
  ids : List ι
  times : List K
  nst : ℤ
  p_sim : Option K
  sim : Option (List (List ℕ))
  p_sims : Option (List K)
  sims : Option (List (List ℕ))
  nsti : List ℕ
  p_hypergeom : List K
  adjlist : List (ι × ι × Orientation)
  deriving DecidableEq

/-- spacetime.py:1229-1296 `KnoxLocal.__init__`. Locations are the rows of an `(n, 2)` array; `sIsArray` and
`tIsArray` say whether the arguments are NumPy arrays; without `ids` the labels are the positions (`default`
turns a position into a label). -/
def knoxLocalInit [FloorRing K] {ι : Type} (default : ℕ → ι) (poissonCdf : K → XF K → XF K)
    (hypergeomCdf : ℤ → ℕ → ℕ → ℕ → K) (sIsArray tIsArray : Bool) (s : List (K × K)) (t : List K)
    (sball tball : List (List ℕ)) (gperms perms : List (List ℕ)) (keep : Bool) (ids : Option (List ι))
    (order : List (ℕ × ℕ)) : Py (KnoxLocalObject K ι) :=
  if tIsArray = false then .error .valueError
  else if sIsArray = false then .error .valueError
  else if s.length ≠ t.length then .error .valueError
  else if (ids.map List.length).getD s.length ≠ s.length then .error .valueError
  else
    let labels := ids.getD ((List.range s.length).map default)
    let label := fun i => labels.getD i (default i)
    match knoxLocal poissonCdf hypergeomCdf sball tball t gperms perms order with
    | .error e => .error e
    | .ok r => .ok
        { ids := labels
          times := t
          nst := pyInt r.glob.nst
          p_sim := r.glob.sim.map fun x => x.1
          sim := if keep then r.simulated.map fun x => x.1 else none
          p_sims := r.simulated.map fun x => x.2
          sims := if keep then r.simulated.map fun x => x.1 else none
          nsti := r.nsti
          p_hypergeom := r.hg_pvalues
          adjlist := r.stadjlist.map fun row => (label row.1, label row.2.1, row.2.2) }

/-! ### `hotspots` and the colours of `plot` -/

/-- The argument `inference`. -/
inductive Inference
  | permutation | analytic | other
  deriving DecidableEq, Repr

/-- spacetime.py:1381-1396, 1477-1494: the column of p-values that is used. -/
def pvalueColumn {ι : Type} (o : KnoxLocalObject K ι) : Inference → Py (List K)
  | .permutation => .ok (o.p_sims.getD o.p_hypergeom)
  | .analytic => .ok o.p_hypergeom
  | .other => .error .valueError

/-- A row of the table of hot spots. The geometry is left out here; see `locGeometry`. -/
structure HotRow (K ι : Type) where
  focal : ι
  pvalue : K
  focal_time : K
  neighbor : ι
  orientation : Orientation
  cluster : ℕ
  deriving DecidableEq, Repr

variable {ι : Type} [LinearOrder ι]

/-- The rows of `_gdf`: label, p-value, time. -/
def gdfRows (o : KnoxLocalObject K ι) (p : List K) : List (ι × K × K) := o.ids.zip (p.zip o.times)

/-- spacetime.py:1404-1407: the rows of the adjacency list that touch a significant event. -/
def touching (adj : List (ι × ι × Orientation)) (sig : List ι) : List (ι × ι × Orientation) :=
  adj.filter fun row => decide (row.1 ∈ sig) || decide (row.2.1 ∈ sig)

/-- spacetime.py:1398-1421: the table before the clusters are numbered: significant events and neighbours,
merged with the rows of the adjacency list, one row per focal event (`groupby("focal").first()`), sorted by
label; the p-value, time, neighbour and orientation are the first that is not missing. `none` stands for a table with a
missing value or without rows, which is not modelled. -/
def hotTable (rows : List (ι × K × K)) (adj : List (ι × ι × Orientation)) (crit : K) :
    Option (List (ι × K × K × ι × Orientation)) :=
  let sig := rows.filter fun r => decide (r.2.1 ≤ crit)
  let temp := touching adj (sig.map Prod.fst)
  let table := sig ++ rows.filter fun r => decide (r.1 ∈ temp.map fun row => row.2.1)
  let keys := ((table.map Prod.fst ++ temp.map Prod.fst).dedup).insertionSort (· ≤ ·)
  if keys = [] then none
  else keys.mapM fun k =>
    match table.find? (fun r => decide (r.1 = k)), temp.find? (fun row => decide (row.1 = k)) with
    | some r, some row => some (k, r.2.1, r.2.2, row.2.1, row.2.2)
    | _, _ => none

/-- spacetime.py:1422-1429: the graph with an edge from every row's focal event to its neighbour gets its
connected components numbered (libpysal's `Graph.component_labels`; the numbers are the argument `labels`),
non-significant rows are dropped if asked, and the rows are put in the order of the events. -/
def hotspots (o : KnoxLocalObject K ι) (crit : K) (inference : Inference) (keep_neighbors : Bool)
    (labels : List ℕ) : Py (Option (List (HotRow K ι))) :=
  match pvalueColumn o inference with
  | .error e => .error e
  | .ok p =>
      match hotTable (gdfRows o p) o.adjlist crit with
      | none => .ok none
      | some table =>
          let rows : List (HotRow K ι) := (table.zip labels).map fun x =>
            { focal := x.1.1, pvalue := x.1.2.1, focal_time := x.1.2.2.1, neighbor := x.1.2.2.2.1,
              orientation := x.1.2.2.2.2, cluster := x.2 }
          let rows := if keep_neighbors then rows else rows.filter fun r => decide (r.pvalue ≤ crit)
          .ok (some ((gdfRows o p).flatMap fun g => rows.filter fun r => decide (r.focal = g.1)))

/-- The colours of the points of a plot. -/
inductive Colour
  | focal | neighbor | nonsig
  deriving DecidableEq, Repr

/-- spacetime.py:1476-1499: all points get the colour of non-significant ones, then the neighbours of
significant events theirs, then the significant events theirs. -/
def plotColours (o : KnoxLocalObject K ι) (crit : K) (inference : Inference) : Py (List (ι × Colour)) :=
  match pvalueColumn o inference with
  | .error e => .error e
  | .ok p =>
      let rows := gdfRows o p
      let mask := (rows.filter fun r => decide (r.2.1 ≤ crit)).map Prod.fst
      let neighbors := (o.adjlist.filter fun row => decide (row.1 ∈ mask)).map fun row => row.2.1
      let start := rows.map fun r => (r, Colour.nonsig)
      let step1 := start.map fun (x : (ι × K × K) × Colour) => if x.1.1 ∈ neighbors then (x.1, Colour.neighbor) else x
      let step2 := step1.map fun (x : (ι × K × K) × Colour) => if x.1.2.1 ≤ crit then (x.1, Colour.focal) else x
      .ok (step2.map fun x => (x.1.1, x.2))

end Pointpats.Spacetime
