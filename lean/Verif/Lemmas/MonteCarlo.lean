import Verif.Spec.Exchangeable
import Verif.Lemmas.Level
import Mathlib.MeasureTheory.Integral.Lebesgue.Countable
import Mathlib.Data.Set.Countable

/-!
# Monte Carlo p-values of exchangeable values
-/

set_option linter.unusedSectionVars false

namespace Pointpats

open Spec MeasureTheory Finset

variable {Ω A : Type} [MeasurableSpace Ω] {μ : Measure Ω} {m : ℕ} {X : Fin m → Ω → A}

private def values (X : Fin m → Ω → A) : Set (Fin m → A) := Set.univ.pi fun _ => ⋃ j, Set.range (X j)

private theorem values_countable (h : Exchangeable μ X) : (values X).Countable :=
  Set.countable_univ_pi fun _ => Set.countable_iUnion h.countable

private theorem mem_values (σ : Fin m → Fin m) (ω : Ω) : (fun j => X (σ j) ω) ∈ values X := by
  intro j _
  exact Set.mem_iUnion.2 ⟨σ j, ⟨ω, rfl⟩⟩

private theorem event_eq (σ : Fin m → Fin m) (S : Set (Fin m → A)) :
    {ω | (fun j => X (σ j) ω) ∈ S} = ⋃ x ∈ S ∩ values X, {ω | ∀ j, X (σ j) ω = x j} := by
  ext ω
  simp only [Set.mem_ofPred_eq, Set.mem_iUnion, exists_prop]
  constructor
  · intro hω
    exact ⟨_, ⟨hω, mem_values σ ω⟩, fun j => rfl⟩
  · rintro ⟨x, ⟨hx, -⟩, hj⟩
    have : (fun j => X (σ j) ω) = x := funext hj
    rwa [this]

private theorem atom_measurable (h : Exchangeable μ X) (σ : Fin m → Fin m) (x : Fin m → A) :
    MeasurableSet {ω | ∀ j, X (σ j) ω = x j} := by
  have : {ω | ∀ j, X (σ j) ω = x j} = ⋂ j, {ω | X (σ j) ω = x j} := by ext; simp
  rw [this]
  exact MeasurableSet.iInter fun j => h.measurable (σ j) (x j)

theorem Spec.Exchangeable.event_measurable (h : Exchangeable μ X) (σ : Fin m → Fin m) (S : Set (Fin m → A)) :
    MeasurableSet {ω | (fun j => X (σ j) ω) ∈ S} := by
  rw [event_eq]
  exact MeasurableSet.biUnion ((values_countable h).mono Set.inter_subset_right) fun x _ => atom_measurable h σ x

private theorem event_measure (h : Exchangeable μ X) (σ : Fin m → Fin m) (S : Set (Fin m → A)) :
    μ {ω | (fun j => X (σ j) ω) ∈ S} = ∑' x : ↥(S ∩ values X), μ {ω | ∀ j, X (σ j) ω = x.1 j} := by
  rw [event_eq, measure_biUnion ((values_countable h).mono Set.inter_subset_right)]
  · intro x _ y _ hxy
    refine Set.disjoint_left.2 ?_
    intro ω h1 h2
    exact hxy (funext fun j => (h1 j).symm.trans (h2 j))
  · exact fun x _ => atom_measurable h σ x

/-- Renumbering exchangeable objects changes no probability. -/
theorem Spec.Exchangeable.event (h : Exchangeable μ X) (σ : Equiv.Perm (Fin m)) (S : Set (Fin m → A)) :
    μ {ω | (fun j => X (σ j) ω) ∈ S} = μ {ω | (fun j => X j ω) ∈ S} := by
  rw [event_measure h σ]
  refine Eq.trans ?_ (event_measure h id S).symm
  congr 1
  funext x
  exact h.renumber σ x.1

variable {L : Type} [LinearOrder L]

/-- The first of `R + 1` exchangeable values is among the `k` largest with probability at most `k / (R + 1)`. -/
theorem Spec.Exchangeable.rank_le [IsProbabilityMeasure μ] {R : ℕ} {X : Fin (R + 1) → Ω → A} (h : Exchangeable μ X) (T : A → L) (k : ℕ) :
    ((R : ENNReal) + 1) * μ {ω | (univ.filter fun j => T (X 0 ω) ≤ T (X j ω)).card ≤ k} ≤ k := by
  set E : Fin (R + 1) → Set Ω := fun i => {ω | (univ.filter fun j => T (X i ω) ≤ T (X j ω)).card ≤ k} with hE
  have hsym : ∀ i, μ (E i) = μ (E 0) := by
    intro i
    have := h.event (Equiv.swap 0 i) {x | (univ.filter fun j => T (x 0) ≤ T (x j)).card ≤ k}
    simp only [Set.mem_ofPred_eq] at this
    rw [hE]
    simp only
    rw [← this]
    congr 1
    ext ω
    simp only [Set.mem_ofPred_eq, Equiv.swap_apply_left]
    have hc : (univ.filter fun j => T (X i ω) ≤ T (X j ω)).card
        = (univ.filter fun j => T (X i ω) ≤ T (X (Equiv.swap 0 i j) ω)).card := by
      refine card_bij' (fun j _ => Equiv.swap 0 i j) (fun j _ => Equiv.swap 0 i j) ?_ ?_ ?_ ?_ <;> simp
    rw [hc]
  have hmeas : ∀ i, MeasurableSet (E i) := fun i =>
    h.event_measurable id {x | (univ.filter fun j => T (x i) ≤ T (x j)).card ≤ k}
  have hsum : ∑ i, μ (E i) ≤ k := by
    calc ∑ i, μ (E i) = ∑ i, ∫⁻ ω, (E i).indicator 1 ω ∂μ := by
          refine Finset.sum_congr rfl fun i _ => ?_
          rw [lintegral_indicator_one (hmeas i)]
      _ = ∫⁻ ω, ∑ i, (E i).indicator 1 ω ∂μ := by
          rw [lintegral_finsetSum]
          exact fun i _ => measurable_one.indicator (hmeas i)
      _ ≤ ∫⁻ _, (k : ENNReal) ∂μ := by
          refine lintegral_mono fun ω => ?_
          have h1 : (∑ i, (E i).indicator (1 : Ω → ENNReal) ω)
              = ((univ.filter fun i => (univ.filter fun j => T (X i ω) ≤ T (X j ω)).card ≤ k).card : ENNReal) := by
            rw [card_filter, Nat.cast_sum]
            refine Finset.sum_congr rfl fun i _ => ?_
            simp only [Set.indicator, hE, Set.mem_ofPred_eq, Pi.one_apply]
            split_ifs <;> simp
          simp only
          rw [h1]
          exact_mod_cast rank_card_le (fun i => T (X i ω)) k
      _ = k := by simp
  rw [Finset.sum_congr rfl (fun i _ => hsym i)] at hsum
  simpa using hsum

/-- The rank in terms of the list of the other values. -/
theorem rank_count {R : ℕ} (v : Fin (R + 1) → L) :
    (univ.filter fun j => v 0 ≤ v j).card
      = (List.ofFn fun i : Fin R => v i.succ).countP (fun x => decide (v 0 ≤ x)) + 1 := by
  classical
  rw [Fin.card_filter_univ_succ, if_pos (le_refl _)]
  congr 1
  rw [List.ofFn_eq_map, List.countP_map, List.countP_eq_length_filter]
  rw [← List.toFinset_card_of_nodup ((List.nodup_finRange R).filter _)]
  congr 1
  ext i
  simp [Function.comp_apply]

/-- **Level of a Monte Carlo p-value.** -/
theorem Spec.Exchangeable.level [IsProbabilityMeasure μ] {R : ℕ} {X : Fin (R + 1) → Ω → A} (h : Exchangeable μ X) (T : A → L)
    (α : ℚ) (hα : 0 ≤ α) :
    μ.real {ω | ((((List.ofFn fun i : Fin R => T (X i.succ ω)).countP (fun x => decide (T (X 0 ω) ≤ x)) : ℕ) : ℚ) + 1)
      / ((R : ℚ) + 1) ≤ α} ≤ α := by
  have hR : (0 : ℚ) < (R : ℚ) + 1 := by positivity
  set k := ⌊α * ((R : ℚ) + 1)⌋₊ with hk
  have hset : {ω | ((((List.ofFn fun i : Fin R => T (X i.succ ω)).countP (fun x => decide (T (X 0 ω) ≤ x)) : ℕ) : ℚ) + 1)
      / ((R : ℚ) + 1) ≤ α} = {ω | (univ.filter fun j => T (X 0 ω) ≤ T (X j ω)).card ≤ k} := by
    ext ω
    simp only [Set.mem_ofPred_eq]
    rw [rank_count (fun j => T (X j ω)), div_le_iff₀ hR, hk, Nat.le_floor_iff (by positivity)]
    push_cast
    rfl
  rw [hset]
  have h1 := h.rank_le T k
  have h2 : ((R : ℝ) + 1) * μ.real {ω | (univ.filter fun j => T (X 0 ω) ≤ T (X j ω)).card ≤ k} ≤ (k : ℝ) := by
    have := ENNReal.toReal_mono (by simp) h1
    rw [ENNReal.toReal_mul] at this
    have e : ((R : ENNReal) + 1).toReal = (R : ℝ) + 1 := by
      rw [ENNReal.toReal_add (by simp) (by simp)]; simp
    rw [e] at this
    simpa [Measure.real] using this
  have h3 : (k : ℝ) ≤ (α : ℝ) * ((R : ℝ) + 1) := by
    have : (k : ℚ) ≤ α * ((R : ℚ) + 1) := Nat.floor_le (by positivity)
    exact_mod_cast this
  have hR' : (0 : ℝ) < (R : ℝ) + 1 := by positivity
  nlinarith

end Pointpats
