import Verif.Lemmas.MonteCarlo
import Mathlib.MeasureTheory.Constructions.Pi
import Mathlib.MeasureTheory.Measure.Real

/-!
# Monte Carlo p-values of independent patterns with the same distribution

As `Exchangeable.level`, without the restriction to countably many values.
-/

set_option linter.unusedSectionVars false

namespace Pointpats

open MeasureTheory Finset

variable {Ω A : Type} [MeasurableSpace Ω] [MeasurableSpace A] {μ : Measure Ω} [IsProbabilityMeasure μ] {L : Type} [LinearOrder L]

/-- Renumbering independent objects with the same distribution changes no probability. -/
theorem iid_renumber {m : ℕ} {Z : Fin m → Ω → A} (hZ : ∀ j, Measurable (Z j)) {ν : Measure A} [IsProbabilityMeasure ν]
    (hlaw : ∀ B : Fin m → Set A, (∀ j, MeasurableSet (B j)) → μ {ω | ∀ j, Z j ω ∈ B j} = ∏ j, ν (B j))
    (σ : Equiv.Perm (Fin m)) {S : Set (Fin m → A)} (hS : MeasurableSet S) :
    μ {ω | (fun j => Z (σ j) ω) ∈ S} = μ {ω | (fun j => Z j ω) ∈ S} := by
  have hm : ∀ τ : Equiv.Perm (Fin m), Measurable fun ω j => Z (τ j) ω := fun τ => measurable_pi_lambda _ fun j => hZ (τ j)
  have key : ∀ τ : Equiv.Perm (Fin m), (Measure.pi fun _ : Fin m => ν) = μ.map fun ω j => Z (τ j) ω := by
    intro τ
    refine Measure.pi_eq fun B hB => ?_
    rw [Measure.map_apply (hm τ) (MeasurableSet.univ_pi hB)]
    have e : (fun ω j => Z (τ j) ω) ⁻¹' Set.univ.pi B = {ω | ∀ j, Z j ω ∈ B (τ.symm j)} := by
      ext ω
      simp only [Set.mem_preimage, Set.mem_pi, Set.mem_univ, true_imp_iff, Set.mem_ofPred_eq]
      constructor
      · intro h j
        have := h (τ.symm j)
        rwa [Equiv.apply_symm_apply] at this
      · intro h j
        have := h (τ j)
        rwa [Equiv.symm_apply_apply] at this
    rw [e, hlaw _ fun j => hB _]
    exact Equiv.prod_comp τ.symm fun j => ν (B j)
  have h1 := key σ
  rw [key 1] at h1
  have h2 := congrArg (fun M => M S) h1
  rw [Measure.map_apply (hm 1) hS, Measure.map_apply (hm σ) hS] at h2
  exact h2.symm

/-- The first of `R + 1` independent objects with the same distribution has one of the `k` largest values with probability at
most `k / (R + 1)`. -/
theorem iid_rank_le {R : ℕ} {Z : Fin (R + 1) → Ω → A} (hZ : ∀ j, Measurable (Z j)) {ν : Measure A} [IsProbabilityMeasure ν]
    (hlaw : ∀ B : Fin (R + 1) → Set A, (∀ j, MeasurableSet (B j)) → μ {ω | ∀ j, Z j ω ∈ B j} = ∏ j, ν (B j))
    (T : A → L) (hT : MeasurableSet {p : A × A | T p.1 ≤ T p.2}) (k : ℕ) :
    ((R : ENNReal) + 1) * μ {ω | (univ.filter fun j => T (Z 0 ω) ≤ T (Z j ω)).card ≤ k} ≤ k := by
  have hS : ∀ i : Fin (R + 1), MeasurableSet {x : Fin (R + 1) → A | (univ.filter fun j => T (x i) ≤ T (x j)).card ≤ k} := by
    intro i
    have hpair : ∀ j, MeasurableSet {x : Fin (R + 1) → A | T (x i) ≤ T (x j)} := fun j =>
      (show Measurable fun x : Fin (R + 1) → A => (x i, x j) from (measurable_pi_apply i).prodMk (measurable_pi_apply j)) hT
    have hf : Measurable fun x : Fin (R + 1) → A => ∑ j, Set.indicator {x : Fin (R + 1) → A | T (x i) ≤ T (x j)} (fun _ => (1 : ℕ)) x :=
      Finset.measurable_sum _ fun j _ => measurable_const.indicator (hpair j)
    have e : {x : Fin (R + 1) → A | (univ.filter fun j => T (x i) ≤ T (x j)).card ≤ k}
        = {x | ∑ j, Set.indicator {x : Fin (R + 1) → A | T (x i) ≤ T (x j)} (fun _ => (1 : ℕ)) x ≤ k} := by
      ext x
      simp only [Set.mem_ofPred_eq, Finset.card_filter, Set.indicator]
    rw [e]
    exact hf (MeasurableSet.of_discrete (s := Set.Iic k))
  set E : Fin (R + 1) → Set Ω := fun i => {ω | (univ.filter fun j => T (Z i ω) ≤ T (Z j ω)).card ≤ k} with hE
  have hsym : ∀ i, μ (E i) = μ (E 0) := by
    intro i
    have := iid_renumber hZ hlaw (Equiv.swap 0 i) (hS 0)
    simp only [Set.mem_ofPred_eq] at this
    rw [hE]
    simp only
    rw [← this]
    congr 1
    ext ω
    simp only [Set.mem_ofPred_eq, Equiv.swap_apply_left]
    have hc : (univ.filter fun j => T (Z i ω) ≤ T (Z j ω)).card
        = (univ.filter fun j => T (Z i ω) ≤ T (Z (Equiv.swap 0 i j) ω)).card := by
      refine card_bij' (fun j _ => Equiv.swap 0 i j) (fun j _ => Equiv.swap 0 i j) ?_ ?_ ?_ ?_ <;> simp
    rw [hc]
  have hm : Measurable fun ω j => Z j ω := measurable_pi_lambda _ hZ
  have hmeas : ∀ i, MeasurableSet (E i) := fun i => hm (hS i)
  have hsum : ∑ i, μ (E i) ≤ k := by
    calc ∑ i, μ (E i) = ∑ i, ∫⁻ ω, (E i).indicator 1 ω ∂μ := by
          refine Finset.sum_congr rfl fun i _ => ?_
          rw [lintegral_indicator_one (hmeas i)]
      _ = ∫⁻ ω, ∑ i, (E i).indicator 1 ω ∂μ := by
          rw [lintegral_finsetSum]
          exact fun i _ => measurable_one.indicator (hmeas i)
      _ ≤ ∫⁻ _, (k : ENNReal) ∂μ := by
          refine lintegral_mono fun ω => ?_
          have h1 : (∑ i, (E i).indicator (1 : Ω → ENNReal) ω)
              = ((univ.filter fun i => (univ.filter fun j => T (Z i ω) ≤ T (Z j ω)).card ≤ k).card : ENNReal) := by
            rw [card_filter, Nat.cast_sum]
            refine Finset.sum_congr rfl fun i _ => ?_
            simp only [Set.indicator, hE, Set.mem_ofPred_eq, Pi.one_apply]
            split_ifs <;> simp
          simp only
          rw [h1]
          exact_mod_cast rank_card_le (fun i => T (Z i ω)) k
      _ = k := by simp
  rw [Finset.sum_congr rfl (fun i _ => hsym i)] at hsum
  simpa using hsum

/-- **Level of a Monte Carlo p-value** of independent objects with the same distribution. -/
theorem iid_level {R : ℕ} {Z : Fin (R + 1) → Ω → A} (hZ : ∀ j, Measurable (Z j)) {ν : Measure A} [IsProbabilityMeasure ν]
    (hlaw : ∀ B : Fin (R + 1) → Set A, (∀ j, MeasurableSet (B j)) → μ {ω | ∀ j, Z j ω ∈ B j} = ∏ j, ν (B j))
    (T : A → L) (hT : MeasurableSet {p : A × A | T p.1 ≤ T p.2}) (α : ℚ) (hα : 0 ≤ α) :
    μ.real {ω | ((((List.ofFn fun i : Fin R => T (Z i.succ ω)).countP (fun x => decide (T (Z 0 ω) ≤ x)) : ℕ) : ℚ) + 1)
      / ((R : ℚ) + 1) ≤ α} ≤ α := by
  have hR : (0 : ℚ) < (R : ℚ) + 1 := by positivity
  set k := ⌊α * ((R : ℚ) + 1)⌋₊ with hk
  have hset : {ω | ((((List.ofFn fun i : Fin R => T (Z i.succ ω)).countP (fun x => decide (T (Z 0 ω) ≤ x)) : ℕ) : ℚ) + 1)
      / ((R : ℚ) + 1) ≤ α} = {ω | (univ.filter fun j => T (Z 0 ω) ≤ T (Z j ω)).card ≤ k} := by
    ext ω
    simp only [Set.mem_ofPred_eq]
    rw [rank_count (fun j => T (Z j ω)), div_le_iff₀ hR, hk, Nat.le_floor_iff (by positivity)]
    push_cast
    rfl
  rw [hset]
  have h1 := iid_rank_le hZ hlaw T hT k
  have h2 : ((R : ℝ) + 1) * μ.real {ω | (univ.filter fun j => T (Z 0 ω) ≤ T (Z j ω)).card ≤ k} ≤ (k : ℝ) := by
    have := ENNReal.toReal_mono (by simp) h1
    rw [ENNReal.toReal_mul] at this
    have e : ((R : ENNReal) + 1).toReal = (R : ℝ) + 1 := by
      rw [ENNReal.toReal_add (by simp) (by simp)]; simp
    rw [e] at this
    simpa [Measure.real] using this
  have h3 : (k : ℝ) ≤ (α : ℝ) * ((R : ℝ) + 1) := by
    have : (k : ℚ) ≤ α * ((R : ℚ) + 1) := Nat.floor_le (by positivity)
    exact_mod_cast this
  have hR' : (0 : ℝ) < (R : ℝ) + 1 := by positivity
  nlinarith

end Pointpats
