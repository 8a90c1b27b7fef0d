import Verif.Props.PopulationLevel
import Mathlib.MeasureTheory.Function.SpecialFunctions.Basic
import Mathlib.MeasureTheory.Constructions.BorelSpace.Order

/-!
# C153 for `mantel`: its level for random events
-/

set_option linter.unusedSectionVars false

namespace Pointpats.Props

open Spec Spacetime Population MeasureTheory ProbabilityTheory

/-- The correlation of the transformed distances. -/
private noncomputable def corr (sdist : ℝ × ℝ → ℝ × ℝ → ℝ) (scon spow tcon tpow : ℝ) (E : List (Event ℝ)) : ℝ :=
  sumProducts (mantelPairs sdist scon spow tcon tpow E)
    / (Real.sqrt (sumSquares ((mantelPairs sdist scon spow tcon tpow E).map Prod.fst))
      * Real.sqrt (sumSquares ((mantelPairs sdist scon spow tcon tpow E).map Prod.snd)))

private theorem mantel_corr (sdist : ℝ × ℝ → ℝ × ℝ → ℝ) (scon spow tcon tpow : ℝ) (E : List (Event ℝ)) (r : ℝ)
    (h : mantel sdist (E.map Prod.fst) (E.map Prod.snd) [] scon spow tcon tpow = .ok (.fin r, none)) :
    r = corr sdist scon spow tcon tpow E := by
  classical
  rw [mantel_nil, pearsonr_pairs] at h
  split_ifs at h <;> cases h
  rfl

private theorem sum_measurable {Z ι : Type} [MeasurableSpace Z] (l : List ι) (F : ι → Z → ℝ) (hF : ∀ i, Measurable (F i)) :
    Measurable fun z => (l.map fun i => F i z).sum := by
  induction l with
  | nil => simp
  | cons a l ih =>
    simp only [List.map_cons, List.sum_cons]
    exact (hF a).add ih

private theorem corr_measurable {sdist : ℝ × ℝ → ℝ × ℝ → ℝ} (hm : Measurable fun p : (ℝ × ℝ) × (ℝ × ℝ) => sdist p.1 p.2)
    (scon spow tcon tpow : ℝ) (n : ℕ) : Measurable fun z : Fin n → Event ℝ => corr sdist scon spow tcon tpow (List.ofFn z) := by
  let F : Fin n × Fin n → (Fin n → Event ℝ) → ℝ := fun q z => (|(z q.2).2 - (z q.1).2| + tcon) ^ tpow
  let G : Fin n × Fin n → (Fin n → Event ℝ) → ℝ := fun q z => (sdist (z q.2).1 (z q.1).1 + scon) ^ spow
  have hev : ∀ i, Measurable fun z : Fin n → Event ℝ => z i := fun i => measurable_pi_apply i
  have hF : ∀ q, Measurable (F q) := fun q =>
    ((continuous_abs.measurable.comp ((measurable_snd.comp (hev q.2)).sub (measurable_snd.comp (hev q.1)))).add_const _).pow_const _
  have hG : ∀ q, Measurable (G q) := fun q =>
    ((hm.comp ((measurable_fst.comp (hev q.2)).prodMk (measurable_fst.comp (hev q.1)))).add_const _).pow_const _
  set l := pairs (List.finRange n) with hl
  have hp : ∀ z : Fin n → Event ℝ, mantelPairs sdist scon spow tcon tpow (List.ofFn z) = l.map fun q => (F q z, G q z) := by
    intro z
    rw [mantelPairs, List.ofFn_eq_map, pairs_map, List.map_map]
    rfl
  have hmean : ∀ H : Fin n × Fin n → (Fin n → Event ℝ) → ℝ, (∀ q, Measurable (H q)) →
      Measurable fun z => mean (l.map fun q => H q z) := by
    intro H hH
    simp only [mean, List.length_map]
    exact (sum_measurable l H hH).div_const _
  have hsq : ∀ H : Fin n × Fin n → (Fin n → Event ℝ) → ℝ, (∀ q, Measurable (H q)) →
      Measurable fun z => sumSquares (l.map fun q => H q z) := by
    intro H hH
    simp only [sumSquares, List.map_map, Function.comp_def]
    exact sum_measurable l (fun q z => (H q z - mean (l.map fun q => H q z)) ^ 2) fun q => ((hH q).sub (hmean H hH)).pow_const 2
  simp only [corr, hp, sumProducts, List.map_map, Function.comp_def]
  refine Measurable.div (sum_measurable l (fun q z => (F q z - mean (l.map fun q => F q z)) * (G q z - mean (l.map fun q => G q z)))
    fun q => ((hF q).sub (hmean F hF)).mul ((hG q).sub (hmean G hG))) ?_
  exact (Real.continuous_sqrt.measurable.comp (hsq F hF)).mul (Real.continuous_sqrt.measurable.comp (hsq G hG))

/-- **C153, mantel.** For random events without space-time interaction and random shuffles, the probability that `mantel` reports a
number as statistic and a p-value of at most `α` is at most `α`. -/
theorem C153_mantel {Ω : Type} [MeasurableSpace Ω] (P : Measure Ω) [IsProbabilityMeasure P] {n R : ℕ} (hn : 3 ≤ n)
    (X : Fin n → Ω → Event ℝ) (hX : NoInteraction P X) (q : Ω → Fin R → Equiv.Perm (Fin n)) (hq : UniformShuffles P X q) (hR : 0 < R)
    {sdist : ℝ × ℝ → ℝ × ℝ → ℝ} (hm : Measurable fun p : (ℝ × ℝ) × (ℝ × ℝ) => sdist p.1 p.2) (scon spow tcon tpow : ℝ) (α : ℝ)
    (hα : 0 ≤ α) :
    P.real {ω | ∃ r p, mantel sdist (List.ofFn fun i => (X i ω).1) (List.ofFn fun i => (X i ω).2) (shuffleLists (q ω))
      scon spow tcon tpow = .ok (.fin r, some p) ∧ p ≤ α} ≤ α := by
  set f : List (Event ℝ) → ℝ := corr sdist scon spow tcon tpow with hf
  refine le_trans (measureReal_mono ?_) (population_level P hX hq
    (fun E Q => (((Q.map fun q => f (retime q E)).countP (fun x => decide (f E ≤ x)) : ℕ) + 1 : ℝ) / ((R : ℝ) + 1) ≤ α) ?_ α ?_)
  · rintro ω ⟨r, p, hp, hle⟩
    have hl : (List.ofFn fun i => X i ω).length = n := List.length_ofFn
    have hlen : (shuffleLists (q ω)).length = R := by simp [shuffleLists]
    have := mantel_rank sdist scon spow tcon tpow f (mantel_corr sdist scon spow tcon tpow) (List.ofFn fun i => X i ω) (by rw [hl]; exact hn)
      (shuffleLists (q ω)) (by
        rw [hl]
        intro p hp
        obtain ⟨i, rfl⟩ := (List.mem_ofFn' _ _).1 hp
        exact isShuffle_permList _)
      (List.length_pos_iff_ne_nil.1 (by rw [hlen]; exact hR)) r p (by simpa [List.map_ofFn, Function.comp_def] using hp)
    rw [this, hlen] at hle
    exact hle
  · intro a
    have hc := corr_measurable hm scon spow tcon tpow n
    have hb : ∀ k : Fin R, Measurable fun z : Fin n → Event ℝ =>
        if f (List.ofFn z) ≤ f (List.ofFn (rearrange (a k) z)) then (1 : ℝ) else 0 := fun k =>
      Measurable.ite (measurableSet_le hc (hc.comp (rearrange_measurable (a k)))) measurable_const measurable_const
    have hcount : ∀ z : Fin n → Event ℝ,
        ((((shuffleLists a).map fun q => f (retime q (List.ofFn z))).countP (fun x => decide (f (List.ofFn z) ≤ x)) : ℕ) : ℝ)
          = ((List.finRange R).map fun k => if f (List.ofFn z) ≤ f (List.ofFn (rearrange (a k) z)) then (1 : ℝ) else 0).sum := by
      intro z
      simp only [shuffleLists, List.ofFn_eq_map (n := R), List.map_map, ofFn_rearrange]
      generalize List.finRange R = l
      induction l with
      | nil => simp
      | cons k l ih =>
        simp only [List.map_cons, List.sum_cons, List.countP_cons, Function.comp_apply, decide_eq_true_eq, Nat.cast_add, ih, Nat.cast_ite,
          Nat.cast_one, Nat.cast_zero, add_comm]
    simp only [hcount]
    exact measurableSet_le (((sum_measurable _ _ hb).add_const _).div_const _) measurable_const
  · rintro E rfl
    exact events_level f E R α hα

/-- Non-vacuity: twenty events, uniform on the unit square, at independent uniform times, and 99 random shuffles. `mantel` with
its default constants reports a p-value of at most `1/20` for a number with probability at most `1/20`. -/
example : ∃ (Ω : Type) (_ : MeasurableSpace Ω) (P : Measure Ω) (_ : IsProbabilityMeasure P) (X : Fin 20 → Ω → Event ℝ)
    (q : Ω → Fin 99 → Equiv.Perm (Fin 20)), NoInteraction P X ∧ UniformShuffles P X q
    ∧ P.real {ω | ∃ r p, mantel (fun a b => |a.1 - b.1| + |a.2 - b.2|) (List.ofFn fun i => (X i ω).1) (List.ofFn fun i => (X i ω).2)
        (shuffleLists (q ω)) 1 (-1) 1 (-1) = .ok (.fin r, some p) ∧ p ≤ 1 / 20} ≤ 1 / 20 := by
  have hv : volume (Set.Icc 0 1 ×ˢ Set.Icc 0 1 : Set (ℝ × ℝ)) = 1 := by
    rw [Measure.volume_eq_prod, Measure.prod_prod, Real.volume_Icc]
    norm_num
  obtain ⟨P, hP, hX, hU, hXU⟩ := completelyRandom_exists 20 (W := Set.Icc 0 1 ×ˢ Set.Icc 0 1) (by rw [hv]; norm_num) (by rw [hv]; norm_num)
  have hN : NoInteraction P fun (i : Fin 20) ω => (ω.1 i, ω.2 i) := by
    refine noInteraction_of_independent P (fun i ω => ω.1 i) (fun i ω => ω.2 i) hX.measurable (fun i => hU.measurable i)
      (hU.independent.precomp Fin.val_injective) (fun i j => by rw [hU.distribution, hU.distribution]) ?_
    exact hXU.comp (φ := id) (ψ := fun u (i : Fin 20) => u i) measurable_id (measurable_pi_lambda _ fun i => measurable_pi_apply _)
  obtain ⟨_, P', hP', h1, h2⟩ := uniformShuffles_exist P 99 _ hN
  refine ⟨_, _, P', hP', _, _, h1, h2, ?_⟩
  exact C153_mantel P' (by norm_num) _ h1 _ h2 (by norm_num) (by fun_prop) _ _ _ _ _ (by norm_num)

end Pointpats.Props
