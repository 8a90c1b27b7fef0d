import Verif.Lemmas.Csr

/-!
# Completely random events, and patterns drawn by separate generators
-/

set_option linter.unusedSectionVars false

namespace Pointpats.Csr

open Random Spec MeasureTheory ProbabilityTheory MeasurableRun

variable {Ω : Type} [MeasurableSpace Ω] {P : Measure Ω} [IsProbabilityMeasure P]

/-- The observed pattern, then the patterns that the generators draw. -/
noncomputable def streamPatterns {n : ℕ} (X : Fin n → Ω → ℝ × ℝ) (R : ℕ) (D : ℕ → Ω → List (ℝ × ℝ)) :
    Fin (R + 1) → Ω → (Fin n → ℝ × ℝ) :=
  Fin.cons (fun ω i => X i ω) fun j ω i => (D j ω).getD i default

/-- Observed events that are completely random, and the patterns that independent generators draw, are independent patterns with
the same distribution. -/
theorem streamPatterns_law {gen : ℕ → ℕ → Ω → ℝ} (hgen : IndependentGenerators P gen ((volume : Measure ℝ).restrict (Set.Ico 0 1)))
    {h : Hull ℝ} {hull : Set (ℝ × ℝ)} (hhull : ∀ x y, h.contains x y = true ↔ (x, y) ∈ hull) (hmeas : MeasurableSet hull)
    (hbox : ∀ p ∈ hull, h.bbox.xmin ≤ p.1 ∧ p.1 ≤ h.bbox.xmax ∧ h.bbox.ymin ≤ p.2 ∧ p.2 ≤ h.bbox.ymax)
    (harea : volume hull ≠ 0) {intensity : Option ℝ} {size : SizeArg} {n : ℕ} {i : XF ℝ}
    (hp : parseSizeAndIntensity h intensity size = .ok (n, ((1 : ℕ) : ℤ), i)) (pos : ℕ)
    {X : Fin n → Ω → ℝ × ℝ} (hX : CompletelyRandom P X hull) (hXU : IndepFun (fun ω i => X i ω) (fun ω j k => gen j k ω) P) (R : ℕ) :
    (∀ j, Measurable (streamPatterns X R (fun j ω => drawn h intensity size pos fun k => gen j k ω) j))
    ∧ ∀ B : Fin (R + 1) → Set (Fin n → ℝ × ℝ), (∀ j, MeasurableSet (B j)) →
      P {ω | ∀ j, streamPatterns X R (fun j ω => drawn h intensity size pos fun k => gen j k ω) j ω ∈ B j}
        = ∏ j, (Measure.pi fun _ : Fin n => uniformLaw hull) (B j) := by
  have hh : MeasurableHull h := by
    have hset : {p : ℝ × ℝ | h.contains p.1 p.2 = true} = hull := by
      ext p; exact hhull p.1 p.2
    unfold MeasurableHull
    rw [hset]; exact hmeas
  have hfin : volume hull ≠ ⊤ := by
    refine ne_top_of_le_ne_top ?_ (measure_mono (t := Set.Icc h.bbox.xmin h.bbox.xmax ×ˢ Set.Icc h.bbox.ymin h.bbox.ymax) ?_)
    · rw [Measure.volume_eq_prod, Measure.prod_prod, Real.volume_Icc, Real.volume_Icc]
      exact ENNReal.mul_ne_top ENNReal.ofReal_ne_top ENNReal.ofReal_ne_top
    · intro p hp
      obtain ⟨h1, h2, h3, h4⟩ := hbox p hp
      exact ⟨⟨h1, h2⟩, ⟨h3, h4⟩⟩
  have := uniformLaw_prob harea hfin
  have hD := drawn_measurable hh intensity size pos
  have hUm : ∀ j, Measurable fun ω k => gen j k ω := fun j => measurable_pi_lambda _ (hgen.draws j).measurable
  have hent : ∀ k : ℕ, Measurable fun u => (drawn h intensity size pos u).getD k default := fun k => (measurable_getD k).comp hD
  have hZ : ∀ j, Measurable (streamPatterns X R (fun j ω => drawn h intensity size pos fun k => gen j k ω) j) := by
    intro j
    refine Fin.cases ?_ (fun j => ?_) j
    · exact measurable_pi_lambda _ hX.measurable
    · exact measurable_pi_lambda _ fun i => (hent i).comp (hUm j)
  refine ⟨hZ, joint_law hZ fun A hA => ?_⟩
  -- the draws that put the points of one pattern into given sets
  set S : Fin R → Set (ℕ → ℝ) := fun j => {u | ∀ i : Fin n, (drawn h intensity size pos u).getD i default ∈ A j.succ i} with hS
  have hSm : ∀ j, MeasurableSet (S j) := by
    intro j
    have : S j = ⋂ i : Fin n, {u | (drawn h intensity size pos u).getD i default ∈ A j.succ i} := by ext; simp [hS]
    rw [this]
    exact .iInter fun i => hent i (hA _ _)
  have e : {ω | ∀ j i, streamPatterns X R (fun j ω => drawn h intensity size pos fun k => gen j k ω) j ω i ∈ A j i}
      = ((fun ω i => X i ω) ⁻¹' {x | ∀ i, x i ∈ A 0 i}) ∩ ((fun ω j k => gen j k ω) ⁻¹' {u | ∀ j : Fin R, u j ∈ S j}) := by
    ext ω
    simp only [Set.mem_ofPred_eq, Set.mem_inter_iff, Set.mem_preimage, Fin.forall_fin_succ (n := R), streamPatterns, Fin.cons_zero,
      Fin.cons_succ, hS]
  have m1 : MeasurableSet {x : Fin n → ℝ × ℝ | ∀ i, x i ∈ A 0 i} := by
    have : {x : Fin n → ℝ × ℝ | ∀ i, x i ∈ A 0 i} = Set.univ.pi (A 0) := by ext; simp [Set.mem_pi]
    rw [this]
    exact MeasurableSet.univ_pi (hA 0)
  have m2 : MeasurableSet {u : ℕ → ℕ → ℝ | ∀ j : Fin R, u j ∈ S j} := by
    have : {u : ℕ → ℕ → ℝ | ∀ j : Fin R, u j ∈ S j} = ⋂ j : Fin R, (fun u => u j) ⁻¹' S j := by ext; simp
    rw [this]
    exact .iInter fun j => (measurable_pi_apply (j : ℕ)) (hSm j)
  rw [e, hXU.measure_inter_preimage_eq_mul _ _ m1 m2, Fin.prod_univ_succ]
  congr 1
  · have e1 : (fun ω i => X i ω) ⁻¹' {x | ∀ i, x i ∈ A 0 i} = ⋂ i ∈ Finset.univ, X i ⁻¹' A 0 i := by
      ext ω; simp
    rw [e1, hX.independent.measure_inter_preimage_eq_mul Finset.univ fun i _ => hA 0 i]
    refine Finset.prod_congr rfl fun i _ => ?_
    rw [uniformLaw_apply hull (hA 0 i)]
    exact hX.uniform i _ (hA 0 i)
  · have hind : iIndepFun (fun (j : Fin R) ω k => gen j k ω) P := hgen.independent.precomp Fin.val_injective
    have e2 : (fun ω j k => gen j k ω) ⁻¹' {u | ∀ j : Fin R, u j ∈ S j}
        = ⋂ j ∈ Finset.univ, (fun ω k => gen (j : Fin R) k ω) ⁻¹' S j := by
      ext ω; simp
    rw [e2, hind.measure_inter_preimage_eq_mul Finset.univ fun j _ => hSm j]
    refine Finset.prod_congr rfl fun j _ => ?_
    have := drawn_law (hgen.draws j) hhull hmeas hbox harea hp pos (fun k => A j.succ ⟨k, by have := k.2; omega⟩) fun k => hA _ _
    refine Eq.trans (congrArg P ?_) (this.trans ?_)
    · ext ω
      simp only [hS, Set.mem_preimage, Set.mem_ofPred_eq]
      exact ⟨fun hk k => hk ⟨k, by have := k.2; omega⟩, fun hk i => hk ⟨i, by have := i.2; omega⟩⟩
    · exact Fintype.prod_equiv (finCongr (Nat.one_mul n)) _ _ fun k => rfl

end Pointpats.Csr
