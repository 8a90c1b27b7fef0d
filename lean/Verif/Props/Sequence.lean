import Verif.Lemmas.StrongMarkov
import Verif.Lemmas.MeasurableSamplers
import Verif.Props.ProcessLaw

/-!
# C147: simulations that follow one another
-/

namespace Pointpats.Props

open Random MeasureTheory ProbabilityTheory Spec MeasurableRun FuelMono StrongMarkov

set_option linter.unusedSectionVars false

theorem samplerCall_regular {root : ℝ → ℝ} {mvn : M2 ℝ → ℝ → ℝ → ℝ × ℝ} (hmvn : ∀ m, Measurable fun z : ℝ × ℝ => mvn m z.1 z.2)
    {gen : ℕ → ℕ → ℝ} {f : ℕ → (ℕ → ℝ) → ℕ → Run (Squeezed ℝ)} (hf : SamplerCall root mvn gen f) : Regular f := by
  cases hf with
  | poisson h hh intensity size =>
    exact ⟨fun _ => Draws.poisson_inOrder _ _ _ _, fun _ _ => poisson_mrun hh _ _ _ _, fun _ _ _ _ => poisson_below _ _ _ _ _ _ _⟩
  | normal h hh center cov size =>
    exact ⟨fun _ => Draws.normal_inOrder _ _ _ _ _ _ _, fun _ _ => normal_mrun hh _ hmvn _ _ _ _ _,
      fun _ _ _ _ => normal_below _ _ _ _ _ _ _ _ _ _⟩
  | clusterPoisson h hh intensity size n_seeds radius =>
    exact ⟨fun _ => Draws.clusterPoisson_inOrder _ _ _ _ _ _ _ _, fun _ _ => clusterPoisson_mrun hh _ _ _ _ _ _ _ _,
      fun _ _ _ _ => clusterPoisson_below _ _ _ _ _ _ _ _ _ _ _⟩
  | clusterNormal h hh cov size n_seeds =>
    exact ⟨fun _ => Draws.clusterNormal_inOrder _ _ _ _ _ _ _ _, fun _ _ => clusterNormal_mrun _ _ _ _ _ _ _ _ _,
      fun _ _ _ _ => clusterNormal_below _ _ _ _ _ _ _ _ _ _ _⟩
  | strauss h hh intensity size gamma r n_iter max_iter =>
    exact ⟨fun _ => Draws.strauss_inOrder _ _ _ _ _ _ _ _, fun _ _ => strauss_mrun hh _ _ _ _ _ _ _ _,
      fun _ _ _ _ => strauss_below _ _ _ _ _ _ _ _ _ _ _⟩

/-- **C147, one outcome.** A call of a sampler has at most one outcome, whatever the number of rounds its loops are given:
for the same arguments and the same numbers of the generator it returns the same array or raises the same error. -/
theorem C147_one_outcome {root : ℝ → ℝ} {mvn : M2 ℝ → ℝ → ℝ → ℝ × ℝ} {gen : ℕ → ℕ → ℝ}
    {f : ℕ → (ℕ → ℝ) → ℕ → Run (Squeezed ℝ)} (hf : SamplerCall root mvn gen f) (u : ℕ → ℝ) (pos : ℕ)
    {r r' : Py (Squeezed ℝ × ℕ)} (h : Returns (fun fuel => f fuel u pos) r) (h' : Returns (fun fuel => f fuel u pos) r') :
    r = r' := by
  refine unique ?_ h h'
  cases hf with
  | poisson h hh intensity size => exact poisson_below _ _ _ _ _
  | normal h hh center cov size => exact normal_below _ _ _ _ _ _ _ _
  | clusterPoisson h hh intensity size n_seeds radius => exact clusterPoisson_below _ _ _ _ _ _ _ _ _
  | clusterNormal h hh cov size n_seeds => exact clusterNormal_below _ _ _ _ _ _ _ _ _
  | strauss h hh intensity size gamma r n_iter max_iter => exact strauss_below _ _ _ _ _ _ _ _ _

/-- **C147.** Let the draws of the generator be independent with a common distribution, and let `calls` be any calls of the
samplers of `pointpats.random`, with any arguments, made one after the other with this generator. The probability that all of
them return, the `i`-th an array in `A_i`, is the product of the probabilities that each of them, made alone with a new
generator, returns an array in `A_i`. So patterns that are simulated one after the other are independent, and the distribution
of a pattern does not depend on what has been simulated before. -/
theorem C147_independent {Ω : Type} [MeasurableSpace Ω] (P : Measure Ω) [IsProbabilityMeasure P] (U : ℕ → Ω → ℝ)
    (law : Measure ℝ) (hU : IndependentDraws P U law) {root : ℝ → ℝ} {mvn : M2 ℝ → ℝ → ℝ → ℝ × ℝ}
    (hmvn : ∀ m, Measurable fun z : ℝ × ℝ => mvn m z.1 z.2) {gen : ℕ → ℕ → ℝ}
    (calls : List (ℕ → (ℕ → ℝ) → ℕ → Run (Squeezed ℝ))) (hcalls : ∀ f ∈ calls, SamplerCall root mvn gen f)
    (A : List (Set (Squeezed ℝ))) (hlen : A.length = calls.length) (hA : ∀ a ∈ A, MeasurableSet a) (pos : ℕ) :
    P {ω | ∃ results, OneAfterAnother (fun i => U i ω) calls pos results ∧ List.Forall₂ (fun r a => r ∈ a) results A}
      = (List.zipWith (fun f a => P {ω | ∃ r pos', Returns (fun fuel => f fuel (fun i => U i ω) 0) (.ok (r, pos')) ∧ r ∈ a})
          calls A).prod := by
  have key := sequence_law hU (fun f hf => samplerCall_regular hmvn (hcalls f hf)) hlen hA pos
  have e1 : {ω | ∃ results, OneAfterAnother (fun i => U i ω) calls pos results ∧ List.Forall₂ (fun r a => r ∈ a) results A}
      = {ω | (fun i => U i ω) ∈ callsIn calls A pos} := by
    ext ω
    exact (mem_sequence (fun i => U i ω) calls A pos).symm
  rw [e1, key]
  congr 2
  funext f a
  congr 1
  ext ω
  simp only [Set.mem_ofPred_eq, endsAt, Returns]
  constructor
  · rintro ⟨q, fuel, r, h, hr⟩; exact ⟨r, q, ⟨fuel, h⟩, hr⟩
  · rintro ⟨r, q, ⟨fuel, h⟩, hr⟩; exact ⟨q, fuel, r, h, hr⟩

/-- That the rows of an array lie in given sets is an event. -/
theorem measurableSet_rows (A : List (Set (ℝ × ℝ))) (hA : ∀ a ∈ A, MeasurableSet a) :
    MeasurableSet {r : Squeezed ℝ | List.Forall₂ (fun p a => p ∈ a) r.data A} :=
  measurable_data (measurableSet_forall₂ A hA)

/-- Non-vacuity: three calls of `poisson` on the unit disc, of which two ask for two points and one for a point in the upper
half plane: there are draws that meet the hypotheses, and the events can be told apart. -/
example : ∃ (P : Measure (ℕ → ℝ)) (_ : IsProbabilityMeasure P), IndependentDraws P (fun i ω => ω i)
      ((volume : Measure ℝ).restrict (Set.Ico 0 1))
    ∧ (∀ size, SamplerCall id (fun _ x y => (x, y)) (fun _ _ => 0) fun fuel u pos =>
        poisson ⟨⟨-1, -1, 1, 1⟩, fun x y => decide (x ^ 2 + y ^ 2 ≤ 1), Real.pi, false⟩ u none size fuel pos)
    ∧ MeasurableSet {r : Squeezed ℝ | List.Forall₂ (fun p a => p ∈ a) r.data [{p : ℝ × ℝ | 0 ≤ p.2}]} := by
  obtain ⟨P, hP, hU⟩ := uniformDraws_exist
  refine ⟨P, hP, hU, fun size => .poisson _ ?_ _ _, measurableSet_rows _ ?_⟩
  · simp only [decide_eq_true_eq]
    exact measurableSet_le ((measurable_fst.pow_const 2).add (measurable_snd.pow_const 2)) measurable_const
  · intro a ha
    rw [List.mem_singleton] at ha
    subst ha
    exact measurableSet_le measurable_const measurable_snd

end Pointpats.Props
