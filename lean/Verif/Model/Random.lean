import Verif.Model.Geometry

/-!
# Model of `pointpats/random.py`

Randomness. A NumPy generator is a stream of numbers `u : ℕ → K` in `[0, 1)` together with the position of
the next draw; every theorem quantifies over the stream. `uniform(lo, hi)` is `lo + (hi - lo) * u`,
`random()` is `u`, and `integers(0, n)` is `⌊u * n⌋`. A generator made from a seed is the stream that a
function `gen : ℕ → ℕ → K` assigns to the seed, from position 0; one made from a generator is that
generator. Simplification: how many bits NumPy consumes per draw is not represented.

Loops that may run forever take a bound `fuel` on the number of their rounds; `none` says that the bound was
reached. `Returns` says that some bound suffices, that is, that the loop ends.
-/

namespace Pointpats.Random

/-- The outcome of a computation that draws random numbers: not finished within the given number of
rounds, an exception, or a value with the next position in the stream. -/
abbrev Run (α : Type) := Option (Py (α × ℕ))

/-- Sequencing of computations. -/
def Run.andThen {α β : Type} (r : Run α) (f : α → ℕ → Run β) : Run β :=
  match r with
  | none => none
  | some (.error e) => some (.error e)
  | some (.ok (a, pos)) => f a pos

/-- A value without drawing. -/
def Run.ret {α : Type} (a : α) (pos : ℕ) : Run α := some (.ok (a, pos))

/-- An exception. -/
def Run.fail {α : Type} (e : PyErr) : Run α := some (.error e)

/-- The computation ends, with this outcome. -/
def Returns {α : Type} (f : ℕ → Option α) (a : α) : Prop := ∃ fuel, f fuel = some a

variable {K : Type} [Field K] [LinearOrder K]

/-- `rng.uniform(lo, hi)` from a raw draw in `[0, 1)`. -/
def uniform (lo hi u : K) : K := lo + (hi - lo) * u

/-- What the samplers use of a hull: `_bbox(hull)`, `_contains(hull, x, y)`, `_area(hull)`, and whether it
is an array (whose area is a NumPy number; the area of a geometry is a Python number). -/
structure Hull (K : Type) where
  bbox : BBox K
  contains : K → K → Bool
  area : K
  isArray : Bool

/-- A bounding box array as hull (geometry.py:58-65, 80-88, 113-123). An `(n, 2)` array is replaced by the
bounding box of its rows (random.py:168-169). -/
def Hull.ofBBox (b : BBox K) : Hull K :=
  { bbox := b, contains := Geometry.containsBBox b, area := Geometry.areaBBox b, isArray := true }

/-! ### `parse_size_and_intensity` -/

/-- The argument `size`: absent, a tuple of integers, an integer, or anything else. -/
inductive SizeArg
  | none
  | tuple (l : List ℤ)
  | int (n : ℤ)
  | other
  deriving DecidableEq, Repr

/-- `n_observations / _area(hull)`: a `ZeroDivisionError` for Python numbers, IEEE division for NumPy
numbers. -/
def divArea (h : Hull K) (n : ℤ) : Py (XF K) :=
  if h.area = 0 ∧ !h.isArray then .error .zeroDivisionError else .ok (XF.div (.fin (n : K)) (.fin h.area))

section Floor

variable [IsStrictOrderedRing K] [FloorRing K]

/-- random.py:71-120 `parse_size_and_intensity`. -/
def parseSizeAndIntensity (h : Hull K) (intensity : Option K) (size : SizeArg) : Py (ℤ × ℤ × XF K) :=
  match size with
  | .none =>
      match intensity with
      | some i => do
          let n_observations ← XF.toInt (.fin (h.area * i))
          return (n_observations, 1, .fin i)
      | Option.none => do
          let i ← divArea h 100
          return (100, 1, i)
  | .tuple [n_observations, n_simulations] =>
      match intensity with
      | Option.none => do
          let i ← divArea h n_observations
          return (n_observations, n_simulations, i)
      | some _ => .error .valueError
  | .tuple _ => .error .valueError
  | .int n =>
      match intensity with
      | some i => do
          let n_observations ← XF.toInt (.fin (i * h.area))
          return (n_observations, n, .fin i)
      | Option.none => do
          let i ← divArea h n
          return (n, 1, i)
  | .other => .error .valueError

/-! ### `squeeze` -/

omit [Field K] [LinearOrder K] [IsStrictOrderedRing K] [FloorRing K] in
/-- The results of `squeeze` on an array of shape `(s, n, 2)`. -/
inductive Squeezed (K : Type)
  /-- shape `(2,)` -/
  | point (p : K × K)
  /-- shape `(m, 2)` -/
  | rows (l : List (K × K))
  /-- shape `(s, n, 2)` -/
  | cube (n : ℕ) (l : List (List (K × K)))
  deriving DecidableEq, Repr

omit [LinearOrder K] [IsStrictOrderedRing K] [FloorRing K] in
/-- `result.squeeze()` for `result` of shape `(s, n, 2)`: the axes of length one are dropped (the last
axis has length two). -/
def squeeze (s n : ℕ) (reps : List (List (K × K))) : Squeezed K :=
  if s = 1 then (if n = 1 then .point (reps.flatten.headD (0, 0)) else .rows reps.flatten)
  else if n = 1 then .rows reps.flatten
  else .cube n reps

omit [Field K] [LinearOrder K] [IsStrictOrderedRing K] [FloorRing K] in
/-- The shape of the array. -/
def Squeezed.shape : Squeezed K → List ℕ
  | .point _ => [2]
  | .rows l => [l.length, 2]
  | .cube n l => [l.length, n, 2]

omit [Field K] [LinearOrder K] [IsStrictOrderedRing K] [FloorRing K] in
/-- The points in the array, in row-major order. -/
def Squeezed.data : Squeezed K → List (K × K)
  | .point p => [p]
  | .rows l => l
  | .cube _ l => l.flatten

omit [Field K] [LinearOrder K] [IsStrictOrderedRing K] [FloorRing K] in
/-- `result[i][j]` for non-negative indices: the first index selects a row or a replication, the second an
observation or a coordinate. -/
def Squeezed.index2 (a : Squeezed K) (i j : ℕ) : Py (K ⊕ (K × K)) :=
  match a with
  | .point _ => .error .indexError
  | .rows l => match l[i]? with
      | some p => match j with
          | 0 => .ok (.inl p.1)
          | 1 => .ok (.inl p.2)
          | _ => .error .indexError
      | none => .error .indexError
  | .cube _ l => match l[i]? with
      | some r => match r[j]? with
          | some p => .ok (.inr p)
          | none => .error .indexError
      | none => .error .indexError

/-! ### Rejection sampling -/

omit [Field K] [LinearOrder K] [IsStrictOrderedRing K] [FloorRing K] in
/-- random.py:179-187, 272-283: `while i_observation < n_observations`: draw a candidate from two
consecutive draws, keep it if it is accepted. -/
def rejection (cand : ℕ → K × K) (accept : K × K → Bool) : ℕ → ℕ → ℕ → Run (List (K × K))
  | _, pos, 0 => Run.ret [] pos
  | 0, _, _ + 1 => none
  | fuel + 1, pos, n + 1 =>
      let c := cand pos
      if accept c then
        (rejection cand accept fuel (pos + 2) n).andThen fun l pos' => Run.ret (c :: l) pos'
      else rejection cand accept fuel (pos + 2) (n + 1)

omit [Field K] [LinearOrder K] [IsStrictOrderedRing K] [FloorRing K] in
/-- random.py:178, 271: `for i_replication in range(n_simulations)`; the body may depend on the number of
the replication. -/
def replications {α : Type} (body : ℕ → ℕ → Run α) : (i s : ℕ) → ℕ → Run (List α)
  | _, 0, pos => Run.ret [] pos
  | i, s + 1, pos => (body i pos).andThen fun l pos' =>
      (replications body (i + 1) s pos').andThen fun ls pos'' => Run.ret (l :: ls) pos''

omit [LinearOrder K] [IsStrictOrderedRing K] [FloorRing K] in
/-- random.py:181-184: a candidate in the bounding box. -/
def boxCandidate (h : Hull K) (u : ℕ → K) (pos : ℕ) : K × K :=
  (uniform h.bbox.xmin h.bbox.xmax (u pos), uniform h.bbox.ymin h.bbox.ymax (u (pos + 1)))

omit [LinearOrder K] [IsStrictOrderedRing K] [FloorRing K] in
/-- random.py:174-187: the array of shape `(s, n, 2)` before squeezing. -/
def poissonReps (h : Hull K) (u : ℕ → K) (n s fuel pos : ℕ) : Run (List (List (K × K))) :=
  replications (fun _ pos => rejection (boxCandidate h u) (fun p => h.contains p.1 p.2) fuel pos n) 0 s pos

/-- random.py:168-188 `poisson`. A negative size cannot be allocated (`ValueError` of `numpy.empty`). -/
def poisson (h : Hull K) (u : ℕ → K) (intensity : Option K) (size : SizeArg) (fuel pos : ℕ) :
    Run (Squeezed K) :=
  match parseSizeAndIntensity h intensity size with
  | .error e => Run.fail e
  | .ok (n, s, _) =>
      if n < 0 ∨ s < 0 then Run.fail .valueError
      else (poissonReps h u n.toNat s.toNat fuel pos).andThen fun reps pos' =>
        Run.ret (squeeze s.toNat n.toNat reps) pos'

/-! ### `normal` -/

omit [Field K] [LinearOrder K] [IsStrictOrderedRing K] [FloorRing K] in
/-- A 2 by 2 array `[[a, b], [c, d]]`. -/
structure M2 (K : Type) where
  a : K
  b : K
  c : K
  d : K
  deriving DecidableEq, Repr

omit [Field K] [LinearOrder K] [IsStrictOrderedRing K] [FloorRing K] in
/-- The argument `cov`: absent, a number, a `(2, 2)` array, an `(m, 2, 2)` array, another array of two or
three dimensions, another array, or anything else. -/
inductive CovArg (K : Type)
  | none
  | num (c : K)
  | mat (m : M2 K)
  | mats (l : List (M2 K))
  | badShape
  | other
  deriving DecidableEq, Repr

omit [LinearOrder K] [IsStrictOrderedRing K] [FloorRing K] in
/-- random.py:274-275: `replication_sd` and `replication_cor`. `(1 / sd) * cov * (1 / sd)` multiplies
column `j` of `cov` twice by `1 / sd[j]`. `root` is the square root. -/
def replicationCor (root : K → K) (m : M2 K) : M2 K :=
  let s0 := root m.a
  let s1 := root m.d
  { a := (1 / s0) * m.a * (1 / s0), b := (1 / s1) * m.b * (1 / s1)
    c := (1 / s0) * m.c * (1 / s0), d := (1 / s1) * m.d * (1 / s1) }

/-- random.py:239-264: the covariance array that the replications use, from the argument. -/
def resolveCov (h : Hull K) (cov : CovArg K) (n_simulations : ℤ) : Py (CovArg K) :=
  let cov := match cov with
    | .none =>
        let width := h.bbox.xmax - h.bbox.xmin
        let height := h.bbox.ymax - h.bbox.ymin
        CovArg.num (max (width / 2) (height / 2) ^ 2)
    | c => c
  match cov with
  | .num sd => .ok (.mat ⟨sd, 0, 0, sd⟩)
  | .mat m => .ok (.mat m)
  | .mats l => if (l.length : ℤ) = n_simulations then .ok (.mats l) else .error .assertionError
  | .badShape => .error .assertionError
  | _ => .error .valueError

omit [LinearOrder K] [IsStrictOrderedRing K] [FloorRing K] in
/-- random.py:273: the covariance of one replication. -/
def CovArg.at : CovArg K → ℕ → M2 K
  | .mat m, _ => m
  | .mats l, i => l.getD i ⟨0, 0, 0, 0⟩
  | _, _ => ⟨0, 0, 0, 0⟩

omit [LinearOrder K] [IsStrictOrderedRing K] [FloorRing K] in
/-- random.py:279-280: a candidate. `mvn cor x y` is the value of `rng.multivariate_normal((0, 0), cor)` for
two raw draws; it is a parameter. -/
def normalCandidate (root : K → K) (mvn : M2 K → K → K → K × K) (center : K × K) (m : M2 K) (u : ℕ → K)
    (pos : ℕ) : K × K :=
  let z := mvn (replicationCor root m) (u pos) (u (pos + 1))
  (center.1 + z.1 * root m.a, center.2 + z.2 * root m.d)

/-- random.py:232-284 `normal`; `center` is the given centre or the centroid of the hull. -/
def normal (h : Hull K) (root : K → K) (mvn : M2 K → K → K → K × K) (center : K × K) (cov : CovArg K)
    (u : ℕ → K) (size : SizeArg) (fuel pos : ℕ) : Run (Squeezed K) :=
  match parseSizeAndIntensity h Option.none size with
  | .error e => Run.fail e
  | .ok (n, s, _) =>
    match resolveCov h cov s with
    | .error e => Run.fail e
    | .ok cov =>
      if n < 0 ∨ s < 0 then Run.fail .valueError
      else (replications (fun i pos => rejection (normalCandidate root mvn center (cov.at i) u)
              (fun p => h.contains p.1 p.2) fuel pos n.toNat) 0 s.toNat pos).andThen fun reps pos' =>
        Run.ret (squeeze s.toNat n.toNat reps) pos'

/-! ### Cluster processes -/

omit [Field K] [LinearOrder K] [IsStrictOrderedRing K] [FloorRing K] in
/-- The sizes of the pieces of `numpy.array_split(a, k)` for `len(a) = n`: the first `n % k` pieces have
one element more than the others. -/
def arraySplitSizes (n k : ℕ) : List ℕ :=
  List.replicate (n % k) (n / k + 1) ++ List.replicate (k - n % k) (n / k)

omit [IsStrictOrderedRing K] [FloorRing K] in
/-- random.py:528-540 and process.py:54-57: one round of `_uniform_circle`: `2 n` draws for `x`, then `2 n`
draws for `y`, of which those in the circle and in the hull are kept. `inHull` is `True` everywhere if there
is no hull. -/
def circleChunk (r : K) (center : K × K) (inHull : K → K → Bool) (u : ℕ → K) (n pos : ℕ) : List (K × K) :=
  ((List.range (2 * n)).map fun i => (uniform (-r) r (u (pos + i)), uniform (-r) r (u (pos + 2 * n + i)))).filter
    fun p => decide (p.1 * p.1 + p.2 * p.2 ≤ r * r) && inHull (p.1 + center.1) (p.2 + center.2)

omit [IsStrictOrderedRing K] [FloorRing K] in
/-- random.py:519-551 `_uniform_circle` and process.py:48-68 `runif_in_circle` (`burn = 2`). The array `good` is represented
by the rows filled so far; `candidates[:need]` is all of them if there are not more than needed. -/
def circleLoop (r : K) (center : K × K) (inHull : K → K → Bool) (u : ℕ → K) (n : ℕ) :
    ℕ → ℕ → List (K × K) → Run (List (K × K))
  | fuel, pos, good =>
      if n ≤ good.length then Run.ret (good.map fun p => (p.1 + center.1, p.2 + center.2)) pos
      else match fuel with
        | 0 => none
        | fuel + 1 =>
            circleLoop r center inHull u n fuel (pos + 4 * n)
              (good ++ (circleChunk r center inHull u n pos).take (n - good.length))

omit [IsStrictOrderedRing K] [FloorRing K] in
/-- random.py:471-551 `_uniform_circle`. -/
def uniformCircle (n : ℕ) (r : K) (center : K × K) (inHull : K → K → Bool) (u : ℕ → K) (fuel pos : ℕ) :
    Run (List (K × K)) :=
  circleLoop r center inHull u n fuel pos []

omit [Field K] [LinearOrder K] [IsStrictOrderedRing K] [FloorRing K] in
/-- The argument `cluster_radius`: absent, an array, a number, or another iterable. -/
inductive RadiusArg (K : Type)
  | none
  | arr (l : List K)
  | num (r : K)
  | otherIterable
  deriving DecidableEq, Repr

omit [LinearOrder K] [IsStrictOrderedRing K] [FloorRing K] in
/-- `scipy.spatial.distance.pdist` of an `(m, 2)` array, in its order; `root` is the square root. -/
def pdist (root : K → K) : List (K × K) → List K
  | [] => []
  | p :: ps => (ps.map fun q => root ((p.1 - q.1) ^ 2 + (p.2 - q.2) ^ 2)) ++ pdist root ps

/-- `rng.integers(100_000)` from a raw draw. -/
def seedDraw (x : K) : ℕ := ⌊x * 100000⌋.toNat

/-- random.py:341-349, 361-363, 365: `cluster_radii` for the seeds of a replication. Without a radius it is
half the smallest distance between seeds (`pdist` of a one-dimensional array and `min` of an empty array are
`ValueError`s); another iterable leaves the variable unbound. -/
def clusterRadii (root : K → K) (radius : RadiusArg K) (n_seeds : ℕ) (seeds : Squeezed K) : Py (List K) :=
  match radius with
  | .arr l => .ok l
  | .num r => .ok (List.replicate n_seeds r)
  | .otherIterable => .error .unboundLocalError
  | .none => match seeds with
      | .rows l => match pdist root l with
          | [] => .error .valueError
          | d :: ds => .ok (List.replicate n_seeds (listMin d ds * (1 / 2)))
      | _ => .error .valueError

omit [IsStrictOrderedRing K] [FloorRing K] in
/-- random.py:366-385: the body of the loop over the clusters: the points of one cluster. For one seed the
squeezed array of seeds is one-dimensional and `seeds[0]` is a number: a cluster of one point becomes that
number in both coordinates, a larger one is a `TypeError` when the centre is unpacked. -/
def clusterPoints (h : Hull K) (u : ℕ → K) (fuel : ℕ) (seeds : Squeezed K) (i : ℕ) (radius : K)
    (n_in_cluster pos : ℕ) : Run (List (K × K)) :=
  match seeds with
  | .rows l => match l[i]? with
      | none => Run.fail .indexError
      | some seed =>
          if n_in_cluster = 1 then Run.ret [seed] pos
          else if n_in_cluster < 1 then Run.fail .exception
          else (uniformCircle (n_in_cluster - 1) radius seed h.contains u fuel pos).andThen fun l pos' =>
            Run.ret (seed :: l) pos'
  | .point p =>
      if n_in_cluster = 1 then Run.ret [(p.1, p.1)] pos
      else if n_in_cluster < 1 then Run.fail .exception
      else Run.fail .typeError
  | .cube _ _ => Run.fail .valueError

omit [IsStrictOrderedRing K] [FloorRing K] in
/-- random.py:365-386: `for i_cluster, radius in enumerate(cluster_radii)`, given the radii with the sizes
of the clusters. -/
def clusterLoop (h : Hull K) (u : ℕ → K) (fuel : ℕ) (seeds : Squeezed K) :
    ℕ → List (K × ℕ) → ℕ → Run (List (List (K × K)))
  | _, [], pos => Run.ret [] pos
  | i, (radius, n_in) :: rest, pos =>
      (clusterPoints h u fuel seeds i radius n_in pos).andThen fun l pos' =>
        (clusterLoop h u fuel seeds (i + 1) rest pos').andThen fun ls pos'' => Run.ret (l :: ls) pos''

/-- random.py:355-386 `cluster_poisson`, up to the reshaping at the end: the replications, each as the list
of its clusters. `numpy.array_split` into no pieces is a `ValueError`. Simplification: `n_seeds` is not
negative. -/
def clusterPoissonReps (h : Hull K) (root : K → K) (gen : ℕ → ℕ → K) (u : ℕ → K) (n s n_seeds : ℕ)
    (radius : RadiusArg K) (fuel pos : ℕ) : Run (List (List (List (K × K)))) :=
  replications (fun i pos' =>
    match poisson h (gen (seedDraw (u (pos + i)))) Option.none (.int n_seeds) fuel 0 with
    | none => none
    | some (.error e) => Run.fail e
    | some (.ok (seeds, _)) =>
        match clusterRadii root radius n_seeds seeds with
        | .error e => Run.fail e
        | .ok radii =>
            if n_seeds = 0 then Run.fail .valueError
            else clusterLoop h u fuel seeds 0 (radii.zip (arraySplitSizes n n_seeds)) pos') 0 s (pos + s)

/-- random.py:338-387 `cluster_poisson`. -/
def clusterPoisson (h : Hull K) (root : K → K) (gen : ℕ → ℕ → K) (u : ℕ → K) (intensity : Option K)
    (size : SizeArg) (n_seeds : ℕ) (radius : RadiusArg K) (fuel pos : ℕ) : Run (Squeezed K) :=
  let badRadii : Bool := match radius with
    | .arr l => decide (l.length ≠ n_seeds)
    | _ => false
  if badRadii then Run.fail .assertionError
  else match parseSizeAndIntensity h intensity size with
  | .error e => Run.fail e
  | .ok (n, s, _) =>
      if n < 0 ∨ s < 0 then Run.fail .valueError
      else (clusterPoissonReps h root gen u n.toNat s.toNat n_seeds radius fuel pos).andThen fun reps pos' =>
        Run.ret (squeeze s.toNat n.toNat (reps.map List.flatten)) pos'

omit [LinearOrder K] [IsStrictOrderedRing K] [FloorRing K] in
/-- random.py:444: `pdist(centers).mean() ** 2`; `pdist` of a one-dimensional array is a `ValueError`.
Simplification: the mean of an empty array is `nan` in NumPy; here it is an error too. -/
def meanSpacingSq (root : K → K) (centers : Squeezed K) : Py K :=
  match centers with
  | .rows l => match pdist root l with
      | [] => .error .valueError
      | ds => .ok ((ds.sum / (ds.length : K)) ^ 2)
  | _ => .error .valueError

omit [Field K] [LinearOrder K] [IsStrictOrderedRing K] [FloorRing K] in
/-- `numpy.vstack((center, candidates))`. -/
def vstackFirst (center : K × K) (candidates : Squeezed K) : Py (List (K × K)) :=
  match candidates with
  | .point p => .ok [center, p]
  | .rows l => .ok (center :: l)
  | .cube _ _ => .error .valueError

/-- random.py:447-466: the loop over the clusters of one replication of `cluster_normal` for at least two
seeds; `seeds` are the draws of `candidate_seeds`, one for every centre. -/
def clusterNormalLoop (h : Hull K) (root : K → K) (mvn : M2 K → K → K → K × K) (gen : ℕ → ℕ → K)
    (cov : CovArg K) (fuel : ℕ) : List ((K × K) × ℕ × ℕ) → Option (Py (List (List (K × K))))
  | [] => some (.ok [])
  | (center, n_in, seed) :: rest =>
      let here : Option (Py (List (K × K))) :=
        if n_in = 1 then some (.ok [center])
        else if n_in < 1 then some (.error .exception)
        else match normal h root mvn center cov (gen seed) (.int ((n_in : ℤ) - 1)) fuel 0 with
          | none => none
          | some (.error e) => some (.error e)
          | some (.ok (candidates, _)) => some (vstackFirst center candidates)
      match here with
      | none => none
      | some (.error e) => some (.error e)
      | some (.ok l) => match clusterNormalLoop h root mvn gen cov fuel rest with
          | none => none
          | some (.error e) => some (.error e)
          | some (.ok ls) => some (.ok (l :: ls))

/-- random.py:441-467: the replications of `cluster_normal`; the variable `cov` is assigned in the first
replication if it was not given, and keeps that value. Besides the clusters, the result lists for every
replication its centres and the covariance used. With one seed the centres are a one-dimensional array:
`vstack` of a number and of rows is a `ValueError`, and the second coordinate has no cluster
(`IndexError`). -/
def clusterNormalReps (h : Hull K) (root : K → K) (mvn : M2 K → K → K → K × K) (gen : ℕ → ℕ → K) (u : ℕ → K)
    (n n_seeds fuel seedPos : ℕ) : (i s : ℕ) → CovArg K → ℕ →
      Run (List (List (K × K) × CovArg K × List (List (K × K))))
  | _, 0, _, pos => Run.ret [] pos
  | i, s + 1, cov, pos =>
      match poisson h (gen (seedDraw (u (seedPos + i)))) Option.none (.int n_seeds) fuel 0 with
      | none => none
      | some (.error e) => Run.fail e
      | some (.ok (centers, _)) =>
          let cov' : Py (CovArg K) := match cov with
            | .none => (meanSpacingSq root centers).map CovArg.num
            | c => .ok c
          match cov' with
          | .error e => Run.fail e
          | .ok cov =>
              if n_seeds = 0 then Run.fail .valueError
              else match centers with
              | .rows l =>
                  let seeds := (List.range n_seeds).map fun j => seedDraw (u (pos + j))
                  match clusterNormalLoop h root mvn gen cov fuel
                      (l.zip ((arraySplitSizes n n_seeds).zip seeds)) with
                  | none => none
                  | some (.error e) => Run.fail e
                  | some (.ok clusters) =>
                      (clusterNormalReps h root mvn gen u n n_seeds fuel seedPos (i + 1) s cov
                          (pos + n_seeds)).andThen fun rest pos' =>
                        Run.ret ((l, cov, clusters) :: rest) pos'
              | .point _ =>
                  if n = 1 then Run.fail .indexError
                  else if n < 1 then Run.fail .exception
                  else Run.fail .valueError
              | .cube _ _ => Run.fail .valueError

/-- random.py:433-468 `cluster_normal`. -/
def clusterNormal (h : Hull K) (root : K → K) (mvn : M2 K → K → K → K × K) (gen : ℕ → ℕ → K) (u : ℕ → K)
    (cov : CovArg K) (size : SizeArg) (n_seeds : ℕ) (fuel pos : ℕ) : Run (Squeezed K) :=
  match parseSizeAndIntensity h Option.none size with
  | .error e => Run.fail e
  | .ok (n, s, _) =>
      if n < 0 ∨ s < 0 then Run.fail .valueError
      else (clusterNormalReps h root mvn gen u n.toNat n_seeds fuel pos 0 s.toNat cov
          (pos + s.toNat)).andThen fun reps pos' =>
        Run.ret (squeeze s.toNat n.toNat (reps.map fun r => r.2.2.flatten)) pos'

/-! ### `strauss` -/

omit [IsStrictOrderedRing K] [FloorRing K] in
/-- random.py:554-558 `_pairwise_count_kdtree` on an `(m, 2)` array: the number of unordered pairs at
distance at most `r` (for `r ≥ 0`). -/
def pairCount (r : K) : List (K × K) → ℕ
  | [] => 0
  | p :: ps => (ps.filter fun q => decide ((p.1 - q.1) ^ 2 + (p.2 - q.2) ^ 2 ≤ r ^ 2)).length + pairCount r ps

omit [Field K] [LinearOrder K] [IsStrictOrderedRing K] [FloorRing K] in
/-- `numpy.vstack([points, new_point])`. -/
def vstackRows (points : List (K × K)) (new : Squeezed K) : Py (List (K × K)) :=
  match new with
  | .point p => .ok (points ++ [p])
  | .rows l => .ok (points ++ l)
  | .cube _ _ => .error .valueError

/-- random.py:661-687: one iteration of the Metropolis-Hastings loop. The exponents are not negative: a
birth does not decrease and a death does not increase the number of pairs. A one-dimensional array `points`
(from squeezing one point) has length two; a KD-tree cannot be built from it (`ValueError`). -/
def straussStep (h : Hull K) (u : ℕ → K) (gamma r : K) (n_observations : ℕ) (fuel : ℕ)
    (points : Squeezed K) (pos : ℕ) : Run (Squeezed K) :=
  let len := match points with
    | .point _ => 2
    | .rows l => l.length
    | .cube _ l => l.length
  -- `len(points) < n_observations or rng.random() < 0.5`
  let birth : Bool := decide (len < n_observations) || decide (u pos < 1 / 2)
  let pos := if len < n_observations then pos else pos + 1
  if birth then
    (poisson h u (some 1) .none fuel pos).andThen fun new_point pos =>
      match points with
      | .rows l => match vstackRows l new_point with
          | .error e => Run.fail e
          | .ok trial_points =>
              let k_old := pairCount r l
              let k_new := pairCount r trial_points
              let ratio := (n_observations : K) * gamma ^ (k_new - k_old) / ((l.length : K) + 1)
              if u pos < min 1 ratio then Run.ret (.rows trial_points) (pos + 1)
              else Run.ret points (pos + 1)
      | _ => Run.fail .valueError
  else if n_observations < len then
    match points with
    | .rows l =>
        let idx := ⌊u pos * (l.length : K)⌋.toNat
        let trial_points := l.eraseIdx idx
        let k_old := pairCount r l
        let k_new := pairCount r trial_points
        let den := (n_observations : K) * gamma ^ (k_old - k_new)
        if den = 0 then Run.fail .runtimeError
        else
          let ratio := (l.length : K) / den
          if u (pos + 1) < min 1 ratio then Run.ret (.rows trial_points) (pos + 2)
          else Run.ret points (pos + 2)
    | _ => Run.fail .valueError
  else Run.ret points pos

/-- random.py:660: `for _ in range(n_iter)`. -/
def straussIter (h : Hull K) (u : ℕ → K) (gamma r : K) (n_observations fuel : ℕ) :
    ℕ → Squeezed K → ℕ → Run (Squeezed K)
  | 0, points, pos => Run.ret points pos
  | k + 1, points, pos => (straussStep h u gamma r n_observations fuel points pos).andThen fun points pos =>
      straussIter h u gamma r n_observations fuel k points pos

omit [LinearOrder K] [IsStrictOrderedRing K] [FloorRing K] in
/-- random.py:689-690: `points[:n_observations]` if there are enough points, as `n_observations` rows. A
one-dimensional array of length two is broadcast. -/
def straussTake (n_observations : ℕ) : Squeezed K → Option (List (K × K))
  | .rows l => if n_observations ≤ l.length then some (l.take n_observations) else none
  | .point p => if n_observations ≤ 2 then
      some (if n_observations = 1 then [(p.1, p.1)] else List.replicate n_observations p) else none
  | .cube _ _ => none

/-- random.py:652-700: `while not found and gen_iter < max_iter` for one replication; the number of
remaining attempts decreases. -/
def straussAttempts (h : Hull K) (u : ℕ → K) (gamma r : K) (n_observations n_iter fuel : ℕ) :
    ℕ → ℕ → Run (List (K × K))
  | 0, _ => Run.fail .runtimeError
  | max_iter + 1, pos =>
      -- `initial_n = int(n_observations * 1.5)`, passed as intensity
      (poisson h u (some ((n_observations * 3 / 2 : ℕ) : K)) .none fuel pos).andThen fun points pos =>
        (straussIter h u gamma r n_observations fuel n_iter points pos).andThen fun points pos =>
          match straussTake n_observations points with
          | some l => Run.ret l pos
          | none => straussAttempts h u gamma r n_observations n_iter fuel max_iter pos

/-- random.py:640-702 `strauss`. -/
def strauss (h : Hull K) (u : ℕ → K) (intensity : Option K) (size : SizeArg) (gamma r : K)
    (n_iter max_iter : ℕ) (fuel pos : ℕ) : Run (Squeezed K) :=
  match parseSizeAndIntensity h intensity size with
  | .error e => Run.fail e
  | .ok (n, s, _) =>
      if n < 0 ∨ s < 0 then Run.fail .valueError
      else (replications (fun _ pos => straussAttempts h u gamma r n.toNat n_iter fuel max_iter pos)
          0 s.toNat pos).andThen fun reps pos' =>
        Run.ret (squeeze s.toNat n.toNat reps) pos'

end Floor

end Pointpats.Random
