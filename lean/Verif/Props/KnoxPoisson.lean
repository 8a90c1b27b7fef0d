import Verif.Spec.PoissonCdf
import Verif.Props.Knox

/-!
# C165: the analytical p-value of the Knox test
-/

set_option linter.unusedSectionVars false

namespace Pointpats.Props

open Spec Spacetime MeasureTheory ProbabilityTheory

private theorem real_compl (mean : NNReal) (k : ℕ) :
    1 - (poissonMeasure mean).real {x | x ≤ k} = (poissonMeasure mean).real {x | k < x} := by
  have : {x : ℕ | k < x} = {x : ℕ | x ≤ k}ᶜ := by
    ext x
    simp
  rw [this, probReal_compl_eq_one_sub (Set.to_countable _).measurableSet]

/-- The analytical p-value, in terms of the events. -/
private theorem knox_poisson {cdf : ℝ → XF ℝ → XF ℝ} (hcdf : IsPoissonCdf cdf) {sdist : ℝ × ℝ → ℝ × ℝ → ℝ} (hd : IsSpaceDistance sdist)
    (delta tau : ℝ) (E : List (Event ℝ)) (hn : 2 ≤ E.length) (sball tball : List (List ℕ)) (hs : AnswersSpace sdist delta E sball)
    (ht : AnswersTime tau E tball) (perms : List (List ℕ)) (hperm : ∀ p ∈ perms, IsShuffle E.length p) (keep : Bool) :
    ∃ (o : KnoxObject ℝ) (mean : NNReal), knoxInit cdf sball tball perms keep = .ok o
      ∧ (mean : ℝ) = (closePairs (NearSpace sdist delta) E : ℝ) * closePairs (NearTime tau) E
          / ((E.length : ℝ) * ((E.length : ℝ) - 1) / 2)
      ∧ o.expected.1 = .fin (mean : ℝ)
      ∧ o.p_poisson = .fin ((poissonMeasure mean).real {x | closePairs (NearBoth sdist delta tau) E < x}) := by
  obtain ⟨r, hr, h1, h2, h3, h4, -, h6, h7, -⟩ := knoxGlobal_eq cdf hd delta tau E hs ht perms hperm
  have hn2 : (2 : ℝ) ≤ (E.length : ℝ) := by exact_mod_cast hn
  have hP : (0 : ℝ) < (E.length : ℝ) * ((E.length : ℝ) - 1) / 2 := by
    have : (0 : ℝ) < (E.length : ℝ) - 1 := by linarith
    positivity
  have hdiv : XF.div (.fin (r.ns * r.nt)) (.fin r.pairs) = .fin (r.ns * r.nt / r.pairs) := by
    rw [h4]
    simp only [XF.div, if_neg hP.ne']
  have hnn : 0 ≤ r.ns * r.nt / r.pairs := by
    rw [h1, h2, h4]
    exact div_nonneg (by positivity) hP.le
  obtain ⟨mean, hmean⟩ : ∃ mean : NNReal, (mean : ℝ) = r.ns * r.nt / r.pairs := ⟨_, Real.coe_toNNReal _ hnn⟩
  rw [← hmean] at hdiv
  refine ⟨_, mean, by rw [knoxInit, hr]; rfl, ?_, ?_, ?_⟩
  · rw [hmean, h1, h2, h4]
  · change r.expected.1 = _
    rw [h6, hdiv]
  · change r.p_value_poisson = _
    rw [h7, hdiv, h3, hcdf]
    change XF.fin (1 - _) = _
    rw [real_compl]

/-- **C165 (partial).** If the library computes the Poisson distribution function, then with at least two events the analytical p-value
of `Knox` is the probability of **more** close pairs than observed, for a Poisson variable whose mean is the expected count of the
table. So it is the one-sided p-value, the probability of at least as many pairs, less the probability of exactly the observed number.
Missing: that it is the one-sided p-value, which is false, see `C165_poisson_refuted`. -/
theorem C165_poisson_partial {cdf : ℝ → XF ℝ → XF ℝ} (hcdf : IsPoissonCdf cdf) {sdist : ℝ × ℝ → ℝ × ℝ → ℝ} (hd : IsSpaceDistance sdist)
    (delta tau : ℝ) (E : List (Event ℝ)) (hn : 2 ≤ E.length) (sball tball : List (List ℕ)) (hs : AnswersSpace sdist delta E sball)
    (ht : AnswersTime tau E tball) (perms : List (List ℕ)) (hperm : ∀ p ∈ perms, IsShuffle E.length p) (keep : Bool) :
    ∃ (o : KnoxObject ℝ) (mean : NNReal) (p : ℝ), knoxInit cdf sball tball perms keep = .ok o
      ∧ o.expected.1 = .fin (mean : ℝ) ∧ o.p_poisson = .fin p ∧ 0 ≤ p ∧ p ≤ 1
      ∧ p = (poissonMeasure mean).real {x | closePairs (NearBoth sdist delta tau) E < x}
      ∧ p = (poissonMeasure mean).real {x | closePairs (NearBoth sdist delta tau) E ≤ x}
          - (poissonMeasure mean).real {closePairs (NearBoth sdist delta tau) E} := by
  obtain ⟨o, mean, ho, -, he, hp⟩ := knox_poisson hcdf hd delta tau E hn sball tball hs ht perms hperm keep
  refine ⟨o, mean, _, ho, he, hp, measureReal_nonneg, measureReal_le_one, rfl, ?_⟩
  have h : {x : ℕ | closePairs (NearBoth sdist delta tau) E ≤ x}
      = {x : ℕ | closePairs (NearBoth sdist delta tau) E < x} ∪ {closePairs (NearBoth sdist delta tau) E} := by
    ext x
    simp only [Set.mem_ofPred_eq, Set.mem_union, Set.mem_singleton_iff]
    omega
  rw [h, measureReal_union (by simp) (measurableSet_singleton _)]
  ring

/-- **C165 (refuted).** If no two events are close in space, or none in time, the analytical p-value of `Knox` is 0, the strongest
evidence there can be for interaction, although there is no close pair and the probability of at least as many pairs is 1. -/
theorem C165_poisson_refuted {cdf : ℝ → XF ℝ → XF ℝ} (hcdf : IsPoissonCdf cdf) {sdist : ℝ × ℝ → ℝ × ℝ → ℝ} (hd : IsSpaceDistance sdist)
    (delta tau : ℝ) (E : List (Event ℝ)) (hn : 2 ≤ E.length) (sball tball : List (List ℕ)) (hs : AnswersSpace sdist delta E sball)
    (ht : AnswersTime tau E tball) (perms : List (List ℕ)) (hperm : ∀ p ∈ perms, IsShuffle E.length p) (keep : Bool)
    (hno : closePairs (NearSpace sdist delta) E = 0 ∨ closePairs (NearTime tau) E = 0) :
    ∃ (o : KnoxObject ℝ) (mean : NNReal), knoxInit cdf sball tball perms keep = .ok o
      ∧ o.expected.1 = .fin (mean : ℝ) ∧ o.p_poisson = .fin 0
      ∧ (poissonMeasure mean).real {x | closePairs (NearBoth sdist delta tau) E ≤ x} = 1 := by
  obtain ⟨o, mean, ho, hm, he, hp⟩ := knox_poisson hcdf hd delta tau E hn sball tball hs ht perms hperm keep
  have h0 : mean = 0 := by
    rw [← NNReal.coe_eq_zero, hm]
    rcases hno with h | h <;> simp [h]
  have hb : closePairs (NearBoth sdist delta tau) E = 0 := by
    rcases hno with h | h
    · exact Nat.eq_zero_of_le_zero (h ▸ closePairs_mono (fun a b h => h.1) E)
    · exact Nat.eq_zero_of_le_zero (h ▸ closePairs_mono (fun a b h => h.2) E)
  refine ⟨o, mean, ho, he, ?_, ?_⟩
  · rw [hp, hb, ← real_compl, show {x : ℕ | x ≤ 0} = {0} by ext x; simp, poissonMeasure_real_singleton, h0]
    simp
  · rw [hb, show {x : ℕ | 0 ≤ x} = Set.univ by ext x; simp, probReal_univ]

/-- Two events far from each other, at the same time. -/
example {cdf : ℝ → XF ℝ → XF ℝ} (hcdf : IsPoissonCdf cdf) :
    ∃ o : KnoxObject ℝ, knoxInit cdf [[0], [1]] [[0, 1], [0, 1]] [] false = .ok o ∧ o.p_poisson = .fin 0 := by
  have hd : IsSpaceDistance (fun a b : ℝ × ℝ => |a.1 - b.1|) :=
    ⟨fun a b => abs_sub_comm _ _, fun a => by simp, fun a b => abs_nonneg _⟩
  have hsp : AnswersSpace (fun a b : ℝ × ℝ => |a.1 - b.1|) 1 [((0, 0), 3), ((10, 0), 3)] [[0], [1]] := by
    refine ⟨rfl, fun i hi j => ?_⟩
    have : i = 0 ∨ i = 1 := by simp at hi; omega
    rcases this with rfl | rfl
    · simp only [List.getD_cons_zero, List.mem_singleton, NearSpace, ev]
      constructor
      · rintro rfl; simp
      · rintro ⟨h1, h2⟩
        have : j = 0 ∨ j = 1 := by simp at h1; omega
        rcases this with rfl | rfl
        · rfl
        · norm_num at h2
    · simp only [List.getD_cons_succ, List.getD_cons_zero, List.mem_singleton, NearSpace, ev]
      constructor
      · rintro rfl; simp
      · rintro ⟨h1, h2⟩
        have : j = 0 ∨ j = 1 := by simp at h1; omega
        rcases this with rfl | rfl
        · norm_num at h2
        · rfl
  have hti : AnswersTime 1 [((0, 0), (3 : ℝ)), ((10, 0), 3)] [[0, 1], [0, 1]] := by
    refine ⟨rfl, fun i hi j => ?_⟩
    have hi' : i = 0 ∨ i = 1 := by simp at hi; omega
    rcases hi' with rfl | rfl <;>
    · simp only [List.getD_cons_succ, List.getD_cons_zero, List.mem_cons, List.not_mem_nil, or_false, NearTime, ev, List.length_cons,
        List.length_nil]
      constructor
      · rintro (rfl | rfl) <;> norm_num
      · rintro ⟨h1, -⟩; omega
  obtain ⟨o, mean, ho, -, hp, -⟩ := C165_poisson_refuted hcdf hd 1 1 [((0, 0), 3), ((10, 0), 3)] (by simp) [[0], [1]] [[0, 1], [0, 1]] hsp
    hti [] (by simp) false (Or.inl (by simp [closePairs, pairs, NearSpace]))
  exact ⟨o, ho, hp⟩

/-- There is such a distribution function. -/
example : ∃ cdf, IsPoissonCdf cdf := by
  classical
  refine ⟨fun k m => match m with
    | .fin r => .fin ((poissonMeasure r.toNNReal).real {x | (x : ℝ) ≤ k})
    | v => v, fun k mean => ?_⟩
  simp

end Pointpats.Props
