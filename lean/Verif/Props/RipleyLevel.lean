import Verif.Props.DistanceTests
import Verif.Lemmas.MonteCarlo
import Mathlib.MeasureTheory.Measure.Dirac
import Mathlib.MeasureTheory.Measure.Real

/-!
# C107: the level of the p-values of `f_test`, `g_test`, `j_test`, `k_test`, `l_test`
-/

set_option linter.unusedSectionVars false

namespace Pointpats.Props

open Spec Geometry Random DistStats MeasureTheory

variable {K : Type} [Field K] [LinearOrder K] [IsStrictOrderedRing K] [FloorRing K]

/-- The value of a curve at place `i` (0 where it is no number). -/
def valueAt (i : ℕ) (c : List (XF K)) : K :=
  match c[i]? with
  | some (.fin x) => x
  | _ => 0

private theorem count_at_least {R : ℕ} (C : Fin (R + 1) → List (XF K)) (i : ℕ) (v : Fin (R + 1) → K)
    (hv : ∀ j, (C j)[i]? = some (.fin (v j))) :
    curvesAtLeast (List.ofFn fun j : Fin R => C j.succ) i (.fin (v 0))
      = (List.ofFn fun j : Fin R => v j.succ).countP (fun x => decide (v 0 ≤ x)) := by
  unfold curvesAtLeast
  rw [← List.countP_eq_length_filter, List.ofFn_eq_map, List.ofFn_eq_map, List.countP_map, List.countP_map]
  congr 1
  funext j
  simp only [Function.comp_apply, List.getD_eq_getElem?_getD, hv j.succ, Option.getD_some]
  rfl

private theorem count_complement {R : ℕ} (v : Fin (R + 1) → K) (hinj : Function.Injective v) :
    (List.ofFn fun j : Fin R => v j.succ).countP (fun x => decide (v 0 ≤ x))
      + (List.ofFn fun j : Fin R => OrderDual.toDual (v j.succ)).countP (fun x => decide (OrderDual.toDual (v 0) ≤ x)) = R := by
  rw [List.ofFn_eq_map, List.ofFn_eq_map, List.countP_map, List.countP_map]
  have h := List.length_eq_countP_add_countP (l := List.finRange R) (fun j => decide (v 0 ≤ v j.succ))
  rw [List.length_finRange] at h
  refine Eq.trans ?_ h.symm
  congr 1
  refine List.countP_congr ?_
  intro j _
  have hne : v 0 ≠ v j.succ := fun e => by
    have := hinj e
    exact absurd this (Fin.succ_ne_zero j).symm
  simp only [Function.comp_apply, decide_eq_true_eq, OrderDual.toDual_le_toDual, not_le]
  exact ⟨fun h => lt_of_le_of_ne h hne.symm, le_of_lt⟩

/-- **C107, what holds.** If the observed curve and the `R` simulated curves are exchangeable and their values at place `i` are
different numbers, the p-value at this place is at most `α` with probability at most `2 α + 1 / (R + 1)`. Missing: the bound
`α` (`C107_level_refuted`), and curves with equal values (`C63_first_pvalue_refuted`: then the p-value is always 0). -/
theorem C107_ripley_level_partial {Ω : Type} [MeasurableSpace Ω] (μ : Measure Ω) [IsProbabilityMeasure μ]
    (lib : Lib K) (num : Num K) (call : Call) (u : Ω → ℕ → K) (gen : Ω → ℕ → ℕ → K) (coordinates : Ω → List (K × K))
    (support : SupportArg K) (distances : Ω → TestDist K) (metric : MetricArg) (hullArg : Ω → HullArg K) (edge : Bool)
    (R : ℕ) (hR : 0 < R) (C : Fin (R + 1) → Ω → List (XF K)) (hC : Exchangeable μ C) (r : Ω → TestResult K)
    (hr : ∀ ω, ∃ pos', Returns (fun fuel => ripleyTest lib num call (u ω) (gen ω) (coordinates ω) support (distances ω) metric
      (hullArg ω) edge true R fuel) (.ok (r ω, pos')))
    (hobs : ∀ ω, (r ω).statistic = C 0 ω)
    (hsim : ∀ ω, (r ω).simulations = some (List.ofFn fun j : Fin R => C j.succ ω))
    (i : ℕ) (v : Fin (R + 1) → Ω → K) (hv : ∀ j ω, (C j ω)[i]? = some (.fin (v j ω)))
    (hties : ∀ ω, Function.Injective fun j => v j ω) (α : ℚ) (hα : 0 ≤ α) :
    μ.real {ω | ∃ p, (r ω).pvalue[i]? = some (.fin p) ∧ p ≤ (α : K)} ≤ 2 * α + 1 / ((R : ℝ) + 1) := by
  have hvT : ∀ j ω, valueAt i (C j ω) = v j ω := by
    intro j ω
    unfold valueAt
    rw [hv]
  have hpos : (0 : ℚ) < (R : ℚ) + 1 := by positivity
  have l1 := hC.level (valueAt i) α hα
  have l2 := hC.level (fun c => OrderDual.toDual (valueAt i c)) (α + 1 / ((R : ℚ) + 1)) (by positivity)
  have hsub : {ω | ∃ p, (r ω).pvalue[i]? = some (.fin p) ∧ p ≤ (α : K)} ⊆
      {ω | ((((List.ofFn fun j : Fin R => valueAt i (C j.succ ω)).countP (fun x => decide (valueAt i (C 0 ω) ≤ x)) : ℕ) : ℚ) + 1)
        / ((R : ℚ) + 1) ≤ α}
      ∪ {ω | ((((List.ofFn fun j : Fin R => OrderDual.toDual (valueAt i (C j.succ ω))).countP
          (fun x => decide (OrderDual.toDual (valueAt i (C 0 ω)) ≤ x)) : ℕ) : ℚ) + 1)
        / ((R : ℚ) + 1) ≤ α + 1 / ((R : ℚ) + 1)} := by
    rintro ω ⟨p, hp, hle⟩
    obtain ⟨pos', h⟩ := hr ω
    obtain ⟨sims, h1, -, -, h2⟩ := C63_pvalue_partial lib num call (u ω) (gen ω) (coordinates ω) support (distances ω) metric
      (hullArg ω) edge R (by exact_mod_cast hR) (r ω) pos' h
    rw [hsim] at h1
    cases h1
    obtain ⟨p', hp', hpe, -, -⟩ := h2 i (.fin (v 0 ω)) (by rw [hobs, hv])
    rw [hp] at hp'
    cases hp'
    rw [count_at_least (fun j => C j ω) i (fun j => v j ω) (fun j => hv j ω)] at hpe
    have hcomp := count_complement (fun j => v j ω) (hties ω)
    set c := (List.ofFn fun j : Fin R => v j.succ ω).countP (fun x => decide (v 0 ω ≤ x)) with hc
    set c' := (List.ofFn fun j : Fin R => OrderDual.toDual (v j.succ ω)).countP
      (fun x => decide (OrderDual.toDual (v 0 ω) ≤ x)) with hc'
    have hcR : ((R : ℤ) : K) - c = (c' : K) := by
      rw [← hcomp]; push_cast; ring
    rw [hcR] at hpe
    simp only [Set.mem_union, Set.mem_ofPred_eq, hvT]
    rw [hpe] at hle
    rcases min_le_iff.1 hle with hle | hle
    · left
      rw [← Rat.cast_le (K := K)]
      push_cast at hle ⊢
      exact hle
    · right
      rw [← hc', add_div]
      refine add_le_add ?_ (le_refl _)
      rw [← Rat.cast_le (K := K)]
      push_cast at hle ⊢
      exact hle
  refine le_trans (measureReal_mono hsub) (le_trans (measureReal_union_le _ _) ?_)
  refine le_trans (add_le_add l1 l2) (le_of_eq ?_)
  push_cast
  ring

/-- Three events that are far from each other, and three of which two are close. -/
def farEvents : List (ℚ × ℚ) := [(0, 0), (1 / 2, 0), (0, 1 / 2)]
@[inherit_doc farEvents] def nearEvents : List (ℚ × ℚ) := [(0, 0), (1 / 8, 0), (1 / 2, 1 / 2)]

/-- The draws by which the unit square yields these points. -/
def drawsOf (l : List (ℚ × ℚ)) (i : ℕ) : ℚ :=
  if i % 2 = 0 then (l.getD (i / 2) (0, 0)).1 else (l.getD (i / 2) (0, 0)).2

/-- The curves of the two patterns. -/
def coinCurves (j : Fin 2) (ω : Bool) : List (XF ℚ) :=
  if (decide (j = 0)) = ω then [.fin 0, .fin 0, .fin 1] else [.fin 0, .fin (2 / 3), .fin 1]

/-- A fair coin. -/
noncomputable def coin : Measure Bool := (2⁻¹ : ENNReal) • (Measure.dirac true + Measure.dirac false)

instance : IsProbabilityMeasure coin := ⟨by
  simp only [coin, Measure.smul_apply, Measure.add_apply, measure_univ, smul_eq_mul]
  rw [one_add_one_eq_two, ENNReal.inv_mul_cancel (by simp) (by simp)]⟩

theorem coin_not (S : Set Bool) : coin ((fun b => !b) ⁻¹' S) = coin S := by
  simp only [coin, Measure.smul_apply, Measure.add_apply, Measure.dirac_apply' _ MeasurableSet.of_discrete, smul_eq_mul]
  rw [add_comm]
  congr 2

theorem coinCurves_exchangeable : Exchangeable coin coinCurves := by
  refine ⟨fun j => (Set.finite_range _).countable, fun j a => MeasurableSet.of_discrete, ?_⟩
  intro σ x
  have hσ : σ = 1 ∨ σ = Equiv.swap 0 1 := by revert σ; decide
  rcases hσ with rfl | rfl
  · rfl
  · rw [← coin_not]
    congr 1
    ext ω
    simp only [Set.mem_preimage, Set.mem_ofPred_eq]
    refine forall_congr' fun j => ?_
    have : coinCurves (Equiv.swap 0 1 j) (!ω) = coinCurves j ω := by revert j ω; decide +kernel
    rw [this]

/-- **C107 is false of the code.** A coin decides which of two patterns is observed and which is simulated. The curves are
exchangeable and their values at the second distance differ. The p-value there should be at most 0 with probability 0; it is
0 with probability `1/2`. -/
theorem C107_level_refuted :
    ∃ (lib : Lib ℚ) (num : Num ℚ) (gen : Bool → ℕ → ℕ → ℚ) (coordinates : Bool → List (ℚ × ℚ)) (r : Bool → TestResult ℚ),
      lib.Correct ∧ (∀ ω k, IsDraws (gen ω k)) ∧ Exchangeable coin coinCurves
      ∧ (∀ ω, ∃ pos', Returns (fun fuel => ripleyTest lib num .G (fun _ => 0) (gen ω) (coordinates ω) (.array [0, 1 / 4, 1]) .none
          (.metric (.name "euclidean")) (.ndarray [4] [0, 0, 1, 1]) false true 1 fuel) (.ok (r ω, pos')))
      ∧ (∀ ω, (r ω).statistic = coinCurves 0 ω)
      ∧ (∀ ω, (r ω).simulations = some (List.ofFn fun j : Fin 1 => coinCurves j.succ ω))
      ∧ (∀ ω, Function.Injective fun j => valueAt 1 (coinCurves j ω))
      ∧ coin.real {ω | ∃ p, (r ω).pvalue[1]? = some (.fin p) ∧ p ≤ 0} = 1 / 2 := by
  have hrun : ∀ ω : Bool, ∃ r pos', ripleyTest sortLib ratNum .G (fun _ => 0)
      (fun _ => drawsOf (if ω then nearEvents else farEvents)) (if ω then farEvents else nearEvents) (.array [0, 1 / 4, 1]) .none
      (.metric (.name "euclidean")) (.ndarray [4] [0, 0, 1, 1]) false true 1 10 = some (.ok (r, pos'))
      ∧ decide (r.statistic = coinCurves 0 ω ∧ r.simulations = some [coinCurves 1 ω]
          ∧ r.pvalue[1]? = some (.fin (if ω then 0 else 1 / 2))) = true := by
    intro ω
    exact of_checkRun (by revert ω; decide +kernel)
  choose r pos' h1 h2 using hrun
  refine ⟨sortLib, ratNum, fun ω _ => drawsOf (if ω then nearEvents else farEvents), fun ω => if ω then farEvents else nearEvents,
    r, sortLib_correct, ?_, coinCurves_exchangeable, fun ω => ⟨pos' ω, 10, h1 ω⟩, ?_, ?_, ?_, ?_⟩
  · intro ω k i
    have key : ∀ l : List (ℚ × ℚ), (∀ p ∈ l, (0 ≤ p.1 ∧ p.1 < 1) ∧ 0 ≤ p.2 ∧ p.2 < 1) → 0 ≤ drawsOf l i ∧ drawsOf l i < 1 := by
      intro l hl
      have : (0 ≤ (l.getD (i / 2) (0, 0)).1 ∧ (l.getD (i / 2) (0, 0)).1 < 1)
          ∧ 0 ≤ (l.getD (i / 2) (0, 0)).2 ∧ (l.getD (i / 2) (0, 0)).2 < 1 := by
        rw [List.getD_eq_getElem?_getD]
        cases he : l[i / 2]? with
        | none => simp
        | some p => exact hl p (List.mem_of_getElem? he)
      unfold drawsOf
      split
      · exact this.1
      · exact this.2
    refine key _ ?_
    cases ω <;> decide +kernel
  · intro ω; exact (of_decide_eq_true (h2 ω)).1
  · intro ω
    rw [(of_decide_eq_true (h2 ω)).2.1]
    simp [List.ofFn_succ]
  · intro ω a b hab
    revert hab a b ω
    decide +kernel
  · have hset : {ω | ∃ p, (r ω).pvalue[1]? = some (.fin p) ∧ p ≤ 0} = {true} := by
      ext ω
      simp only [Set.mem_ofPred_eq, (of_decide_eq_true (h2 ω)).2.2, Set.mem_singleton_iff]
      cases ω with
      | true => simp
      | false => simp only [Option.some.injEq, XF.fin.injEq]; norm_num
    rw [hset, Measure.real, coin]
    simp

end Pointpats.Props
