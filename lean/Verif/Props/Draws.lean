import Verif.Lemmas.Draws
import Mathlib.Data.Rat.Floor

/-!
# C123: random numbers are used in order, each once
-/

namespace Pointpats.Props

open Random Spec Process

set_option linter.unusedSectionVars false

variable {K : Type} [Field K] [LinearOrder K] [IsStrictOrderedRing K] [FloorRing K]

/-- **C123.** Whenever one of the samplers of `pointpats.random` returns, it has used the numbers of its generator in order,
each at most once, and nothing else: whatever the generator has given before, the result is the same if the numbers used are
the same, and what the generator gives afterwards does not matter. (The generators that `cluster_poisson` and `cluster_normal`
make themselves from drawn seeds are functions of those seeds.) -/
theorem C123_random (h : Hull K) (fuel : ℕ) :
    (∀ intensity size, UsesInOrder fun u pos => poisson h u intensity size fuel pos)
    ∧ (∀ root mvn center cov size, UsesInOrder fun u pos => normal h root mvn center cov u size fuel pos)
    ∧ (∀ root gen intensity size n_seeds radius, UsesInOrder fun u pos =>
        clusterPoisson h root gen u intensity size n_seeds radius fuel pos)
    ∧ (∀ root mvn gen cov size n_seeds, UsesInOrder fun u pos =>
        clusterNormal h root mvn gen u cov size n_seeds fuel pos)
    ∧ ∀ intensity size gamma r n_iter max_iter, UsesInOrder fun u pos =>
        strauss h u intensity size gamma r n_iter max_iter fuel pos :=
  ⟨fun _ _ => Draws.poisson_inOrder _ _ _ _, fun _ _ _ _ _ => Draws.normal_inOrder _ _ _ _ _ _ _,
    fun _ _ _ _ _ _ => Draws.clusterPoisson_inOrder _ _ _ _ _ _ _ _,
    fun _ _ _ _ _ _ => Draws.clusterNormal_inOrder _ _ _ _ _ _ _ _,
    fun _ _ _ _ _ _ => Draws.strauss_inOrder _ _ _ _ _ _ _ _⟩

/-- C123 for the point processes of `process.py` and for points in a circle, which use the global generator. -/
theorem C123_process (bbox : BBox K) (contains : K × K → Bool) (fuel n samples : ℕ) (conditioning : Bool) (lambdas : List ℕ) :
    (UsesInOrder fun u pos => poissonProcess bbox contains u n samples conditioning lambdas fuel pos)
    ∧ (∀ parents radius keep shuffle, UsesInOrder fun u pos =>
        clusterProcess bbox contains u n parents radius samples keep conditioning lambdas shuffle fuel pos)
    ∧ ∀ radius center, UsesInOrder fun u pos => runifInCircle n (radius : K) center u fuel pos := by
  refine ⟨?_, ?_, fun _ _ => Draws.uniformCircle_inOrder _ _ _ _ _⟩
  · exact Draws.realizations_inOrder (realize := fun u n pos => poissonRealize bbox u n pos)
      (fun n => Draws.poissonRealize_inOrder bbox n) fuel _
  · intro parents radius keep shuffle
    unfold clusterProcess
    cases numChildren n parents with
    | error e => exact Draws.fail e
    | ok children =>
      exact Draws.realizations_inOrder
        (realize := fun u n pos => clusterRealize bbox u children radius keep shuffle fuel n pos)
        (fun n => Draws.clusterRealize_inOrder bbox children radius keep shuffle fuel n) fuel _

/-- C123 for the simulations of `QStatistic`. -/
theorem C123_quadrat_test (cos30 : K) (window : Hull K) (points : List (K × K)) (grid : Quadrat.GridArg K) (realizations : ℤ)
    (fuel : ℕ) : UsesInOrder fun u pos => Quadrat.qStatistic cos30 window u points grid realizations fuel pos :=
  Draws.qStatistic_inOrder _ _ _ _ _ _

/-- Non-vacuity: a call of `poisson` that returns after a rejected candidate, having used six numbers, and a call of
`cluster_poisson` that returns. -/
example : poisson (K := ℚ) ⟨⟨0, 0, 4, 2⟩, fun x _ => decide (x < 2), 8, false⟩ (fun i => ((3 * i) % 8 : ℕ) / 8) none (.int 2) 9 7
      = some (.ok (.rows [(3 / 2, 3 / 2), (1 / 2, 1)], 13))
    ∧ clusterPoisson (K := ℚ) ⟨⟨0, 0, 4, 2⟩, fun x _ => decide (x < 3), 8, false⟩ id (fun s i => ((s + 5 * i) % 8 : ℕ) / 8)
        (fun i => ((3 * i) % 8 : ℕ) / 8) none (.tuple [5, 1]) 2 (.num 1) 9 3
      = some (.ok (.rows [(2, 1 / 4), (2, -3 / 4), (11 / 4, 0), (0, 5 / 4), (0, 3 / 4)], 16)) := by decide +kernel

/-- The property is not trivial: a computation that looks at the next number without taking it, and one that goes back, do not
have it. -/
example : ¬ UsesInOrder (fun (u : ℕ → ℚ) pos => Run.ret (u pos) pos)
    ∧ ¬ UsesInOrder (fun (u : ℕ → ℚ) pos => Run.ret (u pos) (pos - 1)) := by
  constructor
  · intro h
    obtain ⟨-, h⟩ := h (fun _ => 0) 0 0 0 rfl
    simpa [Run.ret] using h (fun _ => 1) 0 (by simp)
  · intro h
    obtain ⟨h, -⟩ := h (fun _ => 0) 1 0 0 rfl
    omega

end Pointpats.Props
