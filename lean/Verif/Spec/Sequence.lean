import Verif.Spec.ArrayEvents

/-!
# Specification: calls that follow one another
-/

namespace Pointpats.Spec

open Random MeasureTheory

/-- The calls `fs`, made one after the other with the same generator, of which `pos` numbers have been used, return `as`. A call
is given by what it does with at most so many rounds, with these numbers, from this place on. -/
def OneAfterAnother {K α : Type} (u : ℕ → K) : List (ℕ → (ℕ → K) → ℕ → Run α) → ℕ → List α → Prop
  | [], _, as => as = []
  | f :: fs, pos, as => ∃ a rest pos', as = a :: rest ∧ Returns (fun fuel => f fuel u pos) (.ok (a, pos'))
      ∧ OneAfterAnother u fs pos' rest

/-- The calls of the samplers of `pointpats.random`, each with a hull, of which it is an event that a point lies in it, and with
any other arguments. `mvn` is the library function that makes a pair with a given correlation from two numbers, `gen` gives the
numbers of the generator made from a seed. -/
inductive SamplerCall (root : ℝ → ℝ) (mvn : M2 ℝ → ℝ → ℝ → ℝ × ℝ) (gen : ℕ → ℕ → ℝ) :
    (ℕ → (ℕ → ℝ) → ℕ → Run (Squeezed ℝ)) → Prop
  | poisson (h : Hull ℝ) (hh : MeasurableSet {p : ℝ × ℝ | h.contains p.1 p.2 = true}) (intensity : Option ℝ) (size : SizeArg) :
      SamplerCall root mvn gen fun fuel u pos => Random.poisson h u intensity size fuel pos
  | normal (h : Hull ℝ) (hh : MeasurableSet {p : ℝ × ℝ | h.contains p.1 p.2 = true}) (center : ℝ × ℝ) (cov : CovArg ℝ)
      (size : SizeArg) : SamplerCall root mvn gen fun fuel u pos => Random.normal h root mvn center cov u size fuel pos
  | clusterPoisson (h : Hull ℝ) (hh : MeasurableSet {p : ℝ × ℝ | h.contains p.1 p.2 = true}) (intensity : Option ℝ)
      (size : SizeArg) (n_seeds : ℕ) (radius : RadiusArg ℝ) :
      SamplerCall root mvn gen fun fuel u pos => Random.clusterPoisson h root gen u intensity size n_seeds radius fuel pos
  | clusterNormal (h : Hull ℝ) (hh : MeasurableSet {p : ℝ × ℝ | h.contains p.1 p.2 = true}) (cov : CovArg ℝ) (size : SizeArg)
      (n_seeds : ℕ) : SamplerCall root mvn gen fun fuel u pos => Random.clusterNormal h root mvn gen u cov size n_seeds fuel pos
  | strauss (h : Hull ℝ) (hh : MeasurableSet {p : ℝ × ℝ | h.contains p.1 p.2 = true}) (intensity : Option ℝ) (size : SizeArg)
      (gamma r : ℝ) (n_iter max_iter : ℕ) :
      SamplerCall root mvn gen fun fuel u pos => Random.strauss h u intensity size gamma r n_iter max_iter fuel pos

/-- A cluster: its centre, its radius, and a set for every other point. -/
structure ClusterEvent where
  centre : ℝ × ℝ
  radius : ℝ
  sets : List (Set (ℝ × ℝ))

/-- `cl` lists the clusters that `cluster_poisson` makes in a replication for which it has drawn the integer `k`: the centres
are those that `poisson` gives with the generator made from `k`, the radii are those for these centres, and there are as many
points as the pieces of `numpy.array_split` have. -/
def ClustersOf (h : Hull ℝ) (root : ℝ → ℝ) (gen : ℕ → ℕ → ℝ) (radius : RadiusArg ℝ) (n n_seeds : ℕ) (k : ℕ)
    (cl : List ClusterEvent) : Prop :=
  (∃ q, Returns (fun fuel => poisson h (gen k) none (.int n_seeds) fuel 0) (.ok (.rows (cl.map ClusterEvent.centre), q)))
  ∧ clusterRadii root radius n_seeds (.rows (cl.map ClusterEvent.centre)) = .ok (cl.map ClusterEvent.radius)
  ∧ arraySplitSizes n n_seeds = cl.map fun x => x.sets.length + 1

end Pointpats.Spec
