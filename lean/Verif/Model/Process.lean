import Verif.Model.Random
import Verif.Model.PointPattern

/-!
# Model of `pointpats/process.py`

The global NumPy generator is a stream of numbers in `[0, 1)` with a position, as in `Model/Random.lean`.
`numpy.random.poisson` and `numpy.random.shuffle` are parameters: the drawn counts and the permutations.
The deprecation warning is not modelled.
-/

namespace Pointpats.Process

open Random

variable {K : Type} [Field K] [LinearOrder K]

/-- process.py:27-68 `runif_in_circle`. -/
def runifInCircle (n : ℕ) (radius : K) (center : K × K) (u : ℕ → K) (fuel pos : ℕ) : Run (List (K × K)) :=
  uniformCircle n radius center (fun _ _ => true) u fuel pos

omit [Field K] [LinearOrder K] in
/-- What a row of the result of `realize` unpacks to: an array with one element or a NumPy number. -/
inductive Coord (K : Type)
  | arr1 (x : K)
  | scalar (x : K)
  deriving DecidableEq, Repr

omit [Field K] [LinearOrder K] in
/-- `x[0]`: a NumPy number cannot be indexed (`IndexError`). -/
def Coord.item0 : Coord K → Py K
  | .arr1 x => .ok x
  | .scalar _ => .error .indexError

omit [Field K] [LinearOrder K] in
/-- process.py:147: the list comprehension over the drawn rows. -/
def toPoints : List (Coord K × Coord K) → Py (List (K × K))
  | [] => .ok []
  | (x, y) :: rest => do
      let x ← x.item0
      let y ← y.item0
      let ps ← toPoints rest
      return (x, y) :: ps

omit [Field K] [LinearOrder K] in
/-- process.py:142-151 `PointProcess.draw`: rounds of `realize`, keeping the points in the window, until
there are enough. `sample` is the list collected so far. -/
def draw (contains : K × K → Bool) (realize : ℕ → ℕ → Run (List (Coord K × Coord K))) (n : ℕ) :
    ℕ → ℕ → List (K × K) → Run (List (K × K))
  | fuel, pos, sample =>
      if n ≤ sample.length then Run.ret (sample.take n) pos
      else match fuel with
        | 0 => none
        | fuel + 1 => (realize n pos).andThen fun pnts pos' =>
            match toPoints pnts with
            | .error e => Run.fail e
            | .ok pnts => draw contains realize n fuel pos' (sample ++ Window.filterContained contains pnts)

omit [Field K] [LinearOrder K] in
/-- process.py:112-114: one realisation for every sample, with the sizes in `parameters`; the dictionary
`realizations` is the list of its values, with keys `0, 1, …`. -/
def realizations (contains : K × K → Bool) (realize : ℕ → ℕ → Run (List (Coord K × Coord K))) (fuel : ℕ) :
    List ℕ → ℕ → Run (List (List (K × K)))
  | [], pos => Run.ret [] pos
  | n :: ns, pos => (draw contains realize n fuel pos []).andThen fun l pos' =>
      (realizations contains realize fuel ns pos').andThen fun ls pos'' => Run.ret (l :: ls) pos''

/-- process.py:115-118: with `asPP=True` every realisation becomes a `PointPattern` with the window of the process. The array
of no points has no second axis, so its table has no columns. -/
def asPatterns (window : PointPattern.Win K) : List (List (K × K)) → Py (List (PointPattern.Obj K))
  | [] => .ok []
  | l :: ls => do
      let pp ← PointPattern.construct (if l = [] then 0 else 2) (l.map fun p => [p.1, p.2]) (some window) none none
      let pps ← asPatterns window ls
      return pp :: pps

omit [LinearOrder K] in
/-- process.py:274-294 `PoissonPointProcess.realize`: all `x` are drawn before all `y`. -/
def poissonRealize (bbox : BBox K) (u : ℕ → K) (n pos : ℕ) : Run (List (Coord K × Coord K)) :=
  Run.ret ((List.range n).map fun i =>
    (Coord.arr1 (uniform bbox.xmin bbox.xmax (u (pos + i))),
     Coord.arr1 (uniform bbox.ymin bbox.ymax (u (pos + n + i))))) (pos + 2 * n)

omit [LinearOrder K] in
/-- process.py:252-272 `PoissonPointProcess.setup`: the sizes; `lambdas` are the drawn Poisson counts. -/
def poissonSizes (n samples : ℕ) (conditioning : Bool) (lambdas : List ℕ) : List ℕ :=
  if conditioning then lambdas else List.replicate samples n

omit [LinearOrder K] in
/-- process.py:160-294 `PoissonPointProcess(window, n, samples, conditioning).realizations`. -/
def poissonProcess (bbox : BBox K) (contains : K × K → Bool) (u : ℕ → K) (n samples : ℕ) (conditioning : Bool)
    (lambdas : List ℕ) (fuel pos : ℕ) : Run (List (List (K × K))) :=
  realizations contains (poissonRealize bbox u) fuel (poissonSizes n samples conditioning lambdas) pos

/-- process.py:105-124, 160-294 `PoissonPointProcess(window, n, samples, conditioning, asPP=True).realizations`. `window` is
the window object, `contains` its test for points. -/
def poissonPatterns (window : PointPattern.Win K) (bbox : BBox K) (contains : K × K → Bool) (u : ℕ → K) (n samples : ℕ)
    (conditioning : Bool) (lambdas : List ℕ) (fuel pos : ℕ) : Run (List (PointPattern.Obj K)) :=
  (poissonProcess bbox contains u n samples conditioning lambdas fuel pos).andThen fun ls pos' =>
    match asPatterns window ls with
    | .error e => Run.fail e
    | .ok pps => Run.ret pps pos'

/-- process.py:419-425: `children = int(ceil(n / parents))`; division by zero raises. -/
def numChildren (n parents : ℕ) : Py ℕ :=
  if parents = 0 then .error .zeroDivisionError else .ok ((n + parents - 1) / parents)

/-- process.py:474: the children of every parent, parent after parent. -/
def childrenOf (children : ℕ) (d : K) (u : ℕ → K) (fuel : ℕ) : List (K × K) → ℕ → Run (List (K × K))
  | [], pos => Run.ret [] pos
  | c :: cs, pos => (runifInCircle children d c u fuel pos).andThen fun l pos' =>
      (childrenOf children d u fuel cs pos').andThen fun ls pos'' => Run.ret (l ++ ls) pos''

/-- process.py:451-479 `PoissonClusterPointProcess.realize`: the result is an `(m, 2)` array, so that its rows
unpack to numbers. `shuffle` is what `numpy.random.shuffle` does to the rows. Stacking the children of no
parents is a `ValueError`. -/
def clusterRealize (bbox : BBox K) (u : ℕ → K) (children : ℕ) (d : K) (keep : Bool)
    (shuffle : List (K × K) → List (K × K)) (fuel n pos : ℕ) : Run (List (Coord K × Coord K)) :=
  if children = 0 then Run.fail .zeroDivisionError
  else
    let m := n / children
    let cents := (List.range m).map fun i =>
      (uniform bbox.xmin bbox.xmax (u (pos + i)), uniform bbox.ymin bbox.ymax (u (pos + m + i)))
    if m = 0 then Run.fail .valueError
    else (childrenOf children d u fuel cents (pos + 2 * m)).andThen fun pnts pos' =>
      let res := if keep then cents ++ pnts else pnts
      Run.ret ((shuffle res).map fun p => (Coord.scalar p.1, Coord.scalar p.2)) pos'

/-- process.py:428-449 `PoissonClusterPointProcess.setup`: the sizes. -/
def clusterSizes (n children samples : ℕ) (conditioning : Bool) (lambdas : List ℕ) : List ℕ :=
  if conditioning then lambdas.map (· * children) else List.replicate samples n

/-- process.py:297-479 `PoissonClusterPointProcess(window, n, parents, radius, samples, …).realizations`. -/
def clusterProcess (bbox : BBox K) (contains : K × K → Bool) (u : ℕ → K) (n parents : ℕ) (radius : K)
    (samples : ℕ) (keep conditioning : Bool) (lambdas : List ℕ) (shuffle : List (K × K) → List (K × K))
    (fuel pos : ℕ) : Run (List (List (K × K))) :=
  match numChildren n parents with
  | .error e => Run.fail e
  | .ok children =>
      realizations contains (fun n pos => clusterRealize bbox u children radius keep shuffle fuel n pos) fuel
        (clusterSizes n children samples conditioning lambdas) pos

end Pointpats.Process
