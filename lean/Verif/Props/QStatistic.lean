import Verif.Model.QStatistic
import Verif.Lemmas.PyList
import Verif.Props.RandomPoisson

/-!
# C55: the simulation p-value of `QStatistic`
-/

namespace Pointpats.Props

open Quadrat Random Spec

variable {K : Type} [Field K] [LinearOrder K] [IsStrictOrderedRing K] [FloorRing K]

/-- Number of numbers in the list that are at least `c`; infinite values count as numbers, nan never counts. -/
def countAtLeast (sims : List (XF K)) (c : K) : ℕ :=
  (sims.filter fun s => match s with
    | .fin x => decide (c ≤ x)
    | .pinf => true
    | _ => false).length

omit [Field K] [IsStrictOrderedRing K] [FloorRing K] in
private theorem count_eq (sims : List (XF K)) (c : K) :
    (sims.filter fun s => XF.ge s (.fin c)).length = countAtLeast sims c := by
  unfold countAtLeast
  congr 2
  funext s
  cases s <;> rfl

omit [IsStrictOrderedRing K] in
theorem qstat_ok (cos30 : K) (window : Hull K) (u : ℕ → K) (points : List (K × K)) (grid : GridArg K)
    (realizations : ℤ) (hR : 0 < realizations) (fuel pos pos' : ℕ) (q : QStat K)
    (h : qStatistic cos30 window u points grid realizations fuel pos = some (.ok (q, pos'))) :
    points ≠ [] ∧ window.area ≠ 0 ∧ ∃ d simGrid reals sims,
      gridCounts cos30 points grid = .ok (d, simGrid)
      ∧ poisson window u (some ((points.length : K) / window.area)) (.int realizations) fuel pos = some (.ok (reals, pos'))
      ∧ (List.range realizations.toNat).mapM (simChi2 cos30 simGrid reals) = .ok sims
      ∧ q.chi2 = chisquare (Dict.numbers d)
      ∧ q.simulated = some (sims, chi2RPvalue (chisquare (Dict.numbers d)) sims realizations.toNat) := by
  unfold qStatistic at h
  by_cases hp : points = []
  · simp [asPointsArray, hp, Run.fail] at h
  · rw [asPointsArray, if_neg hp] at h
    simp only at h
    cases hg : gridCounts cos30 points grid with
    | error e => rw [hg] at h; cases h
    | ok dg =>
      obtain ⟨d, simGrid⟩ := dg
      rw [hg] at h
      simp only [if_pos hR] at h
      by_cases ha : window.area = 0
      · rw [if_pos ha] at h; cases h
      · rw [if_neg ha] at h
        obtain ⟨reals, p, h1, h2⟩ := Run.andThen_ok.1 h
        cases hs : (List.range realizations.toNat).mapM (simChi2 cos30 simGrid reals) with
        | error e => rw [hs] at h2; cases h2
        | ok sims =>
          rw [hs] at h2
          simp only [Run.ret_ok] at h2
          obtain ⟨rfl, rfl⟩ := h2
          exact ⟨hp, ha, d, simGrid, reals, sims, rfl, h1, hs, rfl, rfl⟩

/-- **C55, partial.** Whenever the constructor returns with `R ≥ 1` simulations: there are `R` simulated patterns, each with
as many points as the observed pattern, all in the window; the `i`-th simulated statistic is the chi-square statistic of the
counts of the `i`-th pattern on the simulation grid; and, if the observed statistic is a number, the p-value is
`(1 + c) / (R + 1)` where `c ≤ R` is the number of simulated statistics that are at least as large as the observed one. So
it is a multiple of `1 / (R + 1)` between `1 / (R + 1)` and `1`. Missing: the constructor never returns for `R = 1`
(`C55_one_realization_refuted`). -/
theorem C55_pvalue_partial (cos30 : K) (window : Hull K) (u : ℕ → K) (points : List (K × K)) (grid : GridArg K)
    (realizations : ℤ) (hR : 0 < realizations) (pos pos' : ℕ) (q : QStat K)
    (h : Returns (fun fuel => qStatistic cos30 window u points grid realizations fuel pos) (.ok (q, pos'))) :
    ∃ d simGrid patterns sims p,
      gridCounts cos30 points grid = .ok (d, simGrid)
      ∧ q.simulated = some (sims, p)
      ∧ (patterns.length : ℤ) = realizations
      ∧ (sims.length : ℤ) = realizations
      ∧ (∀ pat ∈ patterns, pat.length = points.length ∧ ∀ x ∈ pat, window.contains x.1 x.2 = true)
      ∧ List.Forall₂ (fun pat s => ∃ d', gridCounts cos30 pat simGrid = .ok d'
          ∧ s = chisquare (d'.1.values.map (Nat.cast : ℕ → K))) patterns sims
      ∧ (∀ c, q.chi2 = .fin c → p = ((countAtLeast sims c : K) + 1) / ((realizations : K) + 1))
      ∧ ∃ k : ℕ, 1 ≤ k ∧ (k : ℤ) ≤ realizations + 1 ∧ p = (k : K) / ((realizations : K) + 1) := by
  obtain ⟨fuel, h⟩ := h
  obtain ⟨hne, ha, d, simGrid, reals, sims, hg, hpo, hsims, hchi, hsim⟩ :=
    qstat_ok cos30 window u points grid realizations hR fuel pos pos' q h
  have hparse : parseSizeAndIntensity window (some ((points.length : K) / window.area)) (.int realizations)
      = .ok ((points.length : ℤ), realizations, .fin ((points.length : K) / window.area)) := by
    have e : (points.length : K) / window.area * window.area = ((points.length : ℤ) : K) := by
      rw [div_mul_cancel₀ _ ha]; simp
    have t : XF.toInt (.fin ((points.length : K) / window.area * window.area)) = .ok (points.length : ℤ) := by
      rw [e]
      simp [XF.toInt]
    show (XF.toInt (.fin ((points.length : K) / window.area * window.area)) >>= fun n => _) = _
    rw [t]
    rfl
  obtain ⟨_, _, reps, h1, rfl⟩ := (poisson_ok window u _ _ _ _ _ hparse fuel pos reals pos').1 hpo
  obtain ⟨g1, g2⟩ := poissonReps_lengths _ _ _ _ _ _ _ _ h1
  obtain ⟨l1, l2⟩ := mapM_range_ok _ _ _ hsims
  have hsq : squeeze realizations.toNat (points.length : ℤ).toNat reps = .cube (points.length : ℤ).toNat reps := by
    unfold squeeze
    obtain ⟨b, _, hb⟩ := l2 0 (by omega)
    by_cases e1 : realizations.toNat = 1
    · exfalso
      unfold squeeze at hb
      rw [if_pos e1] at hb
      by_cases e2 : (points.length : ℤ).toNat = 1
      · rw [if_pos e2] at hb
        cases hb
      · rw [if_neg e2] at hb
        unfold simChi2 simPoints at hb
        simp only at hb
        split at hb <;> cases hb
    · rw [if_neg e1]
      by_cases e2 : (points.length : ℤ).toNat = 1
      · exfalso
        unfold squeeze at hb
        rw [if_neg e1, if_pos e2] at hb
        unfold simChi2 simPoints at hb
        simp only at hb
        split at hb <;> cases hb
      · rw [if_neg e2]
  refine ⟨d, simGrid, reps, sims, _, hg, hsim, by omega, by omega, ?_, ?_, ?_, ?_⟩
  · intro pat hpat
    have := g2 pat hpat
    exact ⟨by simpa using this.1, this.2⟩
  · rw [List.forall₂_iff_get]
    refine ⟨by omega, ?_⟩
    intro i hi1 hi2
    obtain ⟨b, hb1, hb2⟩ := l2 i (by omega)
    rw [hsq] at hb2
    have hb1' : sims.get ⟨i, hi2⟩ = b := by
      rw [List.getElem?_eq_getElem hi2] at hb1
      injection hb1
    rw [hb1']
    unfold simChi2 simPoints at hb2
    simp only [List.getElem?_eq_getElem hi1] at hb2
    by_cases hnil : reps[i] = []
    · rw [asPointsArray, if_pos hnil] at hb2
      cases hb2
    · rw [asPointsArray, if_neg hnil] at hb2
      change (gridCounts cos30 reps[i] simGrid >>= fun d => _) = _ at hb2
      cases hd' : gridCounts cos30 reps[i] simGrid with
      | error e => rw [hd'] at hb2; cases hb2
      | ok d' =>
        rw [hd'] at hb2
        cases hb2
        exact ⟨d', rfl, rfl⟩
  · intro c hc
    rw [hchi] at hc
    unfold chi2RPvalue
    rw [hc, count_eq]
    have : ((realizations.toNat : ℕ) : K) = (realizations : K) := by
      rw [← Int.cast_natCast, Int.toNat_of_nonneg hR.le]
    rw [this]
  · refine ⟨(sims.filter fun s => XF.ge s (chisquare (Dict.numbers d))).length + 1, by omega, ?_, ?_⟩
    · have := List.length_filter_le (fun s => XF.ge s (chisquare (Dict.numbers d) : XF K)) sims
      push_cast
      omega
    · unfold chi2RPvalue
      have : ((realizations.toNat : ℕ) : K) = (realizations : K) := by
        rw [← Int.cast_natCast, Int.toNat_of_nonneg hR.le]
      rw [this]
      push_cast
      rfl

omit [IsStrictOrderedRing K] [FloorRing K] in
/-- **C55, order.** The p-value does not depend on the order of the simulated statistics. -/
theorem C55_pvalue_perm (c : XF K) (sims sims' : List (XF K)) (h : sims.Perm sims') (R : ℕ) :
    chi2RPvalue c sims R = chi2RPvalue c sims' R := by
  unfold chi2RPvalue
  rw [(h.filter _).length_eq]

omit [FloorRing K] in
/-- **C55, monotone.** A larger observed statistic has a p-value that is not larger. -/
theorem C55_pvalue_antitone (c c' : K) (h : c ≤ c') (sims : List (XF K)) (R : ℕ) :
    chi2RPvalue (.fin c') sims R ≤ chi2RPvalue (.fin c) sims R := by
  unfold chi2RPvalue
  have h1 : (sims.filter fun s => XF.ge s (.fin c')).length ≤ (sims.filter fun s => XF.ge s (.fin c)).length := by
    apply List.Sublist.length_le
    apply List.monotone_filter_right
    intro s hs
    cases s with
    | fin x =>
      simp only [XF.ge, decide_eq_true_eq] at hs ⊢
      exact le_trans h hs
    | pinf => rfl
    | ninf => exact absurd hs (by simp [XF.ge])
    | nan => exact absurd hs (by simp [XF.ge])
  have h2 : ((sims.filter fun s => XF.ge s (.fin c')).length : K) ≤ ((sims.filter fun s => XF.ge s (.fin c)).length : K) :=
    by exact_mod_cast h1
  apply div_le_div_of_nonneg_right _ (by positivity)
  linarith

/-- **C55, refuted.** With one realization the constructor never returns a statistic, for any points, window, grid and draws;
neither does it for a pattern of one point, with any number of realizations. -/
theorem C55_one_realization_refuted (cos30 : K) (window : Hull K) (u : ℕ → K) (points : List (K × K)) (grid : GridArg K)
    (realizations : ℤ) (hR : 0 < realizations) (h1 : realizations = 1 ∨ points.length = 1) (pos pos' : ℕ) (q : QStat K) :
    ¬ Returns (fun fuel => qStatistic cos30 window u points grid realizations fuel pos) (.ok (q, pos')) := by
  rintro ⟨fuel, h⟩
  obtain ⟨hne, ha, d, simGrid, reals, sims, hg, hpo, hsims, hchi, hsim⟩ :=
    qstat_ok cos30 window u points grid realizations hR fuel pos pos' q h
  have hparse : parseSizeAndIntensity window (some ((points.length : K) / window.area)) (.int realizations)
      = .ok ((points.length : ℤ), realizations, .fin ((points.length : K) / window.area)) := by
    have e : (points.length : K) / window.area * window.area = ((points.length : ℤ) : K) := by
      rw [div_mul_cancel₀ _ ha]; simp
    have t : XF.toInt (.fin ((points.length : K) / window.area * window.area)) = .ok (points.length : ℤ) := by
      rw [e]
      simp [XF.toInt]
    show (XF.toInt (.fin ((points.length : K) / window.area * window.area)) >>= fun n => _) = _
    rw [t]
    rfl
  obtain ⟨_, _, reps, h2, rfl⟩ := (poisson_ok window u _ _ _ _ _ hparse fuel pos reals pos').1 hpo
  obtain ⟨l1, l2⟩ := mapM_range_ok _ _ _ hsims
  obtain ⟨b, _, hb⟩ := l2 0 (by omega)
  unfold squeeze at hb
  have fin : ∀ x : Squeezed K, (∀ n l, x ≠ .cube n l) → simChi2 cos30 simGrid x 0 ≠ .ok b := by
    intro x hx hb
    unfold simChi2 simPoints at hb
    cases x with
    | point p => cases hb
    | rows l =>
      simp only at hb
      split at hb <;> cases hb
    | cube n l => exact hx n l rfl
  refine fin _ ?_ hb
  intro n l
  by_cases e1 : realizations.toNat = 1
  · rw [if_pos e1]
    split <;> simp
  · have e2 : (points.length : ℤ).toNat = 1 := by omega
    rw [if_neg e1, if_pos e2]
    simp

/-- Non-vacuity: four points on a 2 by 2 grid with two simulations, neither of which has a statistic as large as the
observed one. With one simulation the same call raises a `ValueError`. -/
example : (qStatistic (K := ℚ) (1 / 2) (Hull.ofBBox ⟨0, 0, 1, 1⟩) (fun i => ((i * i * i % 11 : ℕ) : ℚ) / 12)
    [(0, 0), (1, 1), (1 / 4, 1 / 4), (1 / 8, 1 / 4)] (.rectangle 2 2 0 0) 2 20 0).map
      (fun r => r.toOption.map fun x => (x.1.chi2, x.1.simulated))
    = some (some (.fin 6, some ([.fin 2, .fin 4], 1 / 3))) := by decide +kernel
example : (qStatistic (K := ℚ) (1 / 2) (Hull.ofBBox ⟨0, 0, 1, 1⟩) (fun i => ((i * i * i % 11 : ℕ) : ℚ) / 12)
    [(0, 0), (1, 1), (1 / 4, 1 / 4), (1 / 8, 1 / 4)] (.rectangle 2 2 0 0) 1 20 0).map
      (fun r => match r with | .error e => some e | .ok _ => none)
    = some (some .valueError) := by decide +kernel

end Pointpats.Props
