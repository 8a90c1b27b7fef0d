import Verif.Spec.Csr
import Verif.Lemmas.MonteCarlo
import Verif.Lemmas.MeasurableCounts
import Verif.Props.Sequence
import Verif.Props.PoissonLaw
import Mathlib.MeasureTheory.Constructions.Pi
import Mathlib.Logic.Equiv.Fin.Basic

/-!
# Observed and simulated events that are completely random
-/

set_option linter.unusedSectionVars false

namespace Pointpats.Csr

open Random Spec MeasureTheory ProbabilityTheory MeasurableRun StrongMarkov MeasurableCounts Props

/-- The uniform distribution on a region. -/
noncomputable def uniformLaw (W : Set (ℝ × ℝ)) : Measure (ℝ × ℝ) := (volume W)⁻¹ • volume.restrict W

theorem uniformLaw_apply (W : Set (ℝ × ℝ)) {a : Set (ℝ × ℝ)} (ha : MeasurableSet a) : uniformLaw W a = volume (a ∩ W) / volume W := by
  rw [uniformLaw, Measure.smul_apply, smul_eq_mul, Measure.restrict_apply ha, ENNReal.div_eq_inv_mul]

theorem uniformLaw_prob {W : Set (ℝ × ℝ)} (h0 : volume W ≠ 0) (h1 : volume W ≠ ⊤) : IsProbabilityMeasure (uniformLaw W) :=
  ⟨by rw [uniformLaw_apply W .univ, Set.univ_inter, ENNReal.div_self h0 h1]⟩

variable {Ω : Type} [MeasurableSpace Ω] {P : Measure Ω} [IsProbabilityMeasure P]

/-- Patterns whose points are independent with distribution `u`: the patterns are independent with the product distribution. -/
theorem joint_law {u : Measure (ℝ × ℝ)} [IsProbabilityMeasure u] {m n : ℕ} {Z : Fin m → Ω → (Fin n → ℝ × ℝ)}
    (hZ : ∀ j, Measurable (Z j))
    (hbox : ∀ A : Fin m → Fin n → Set (ℝ × ℝ), (∀ j i, MeasurableSet (A j i)) →
      P {ω | ∀ j i, Z j ω i ∈ A j i} = ∏ j, ∏ i, u (A j i))
    (B : Fin m → Set (Fin n → ℝ × ℝ)) (hB : ∀ j, MeasurableSet (B j)) :
    P {ω | ∀ j, Z j ω ∈ B j} = ∏ j, (Measure.pi fun _ : Fin n => u) (B j) := by
  have hm : Measurable fun ω j => Z j ω := measurable_pi_lambda _ hZ
  have key : (Measure.pi fun _ : Fin m => Measure.pi fun _ : Fin n => u) = P.map fun ω j => Z j ω := by
    refine Measure.pi_eq_generateFrom (C := fun _ => Set.pi Set.univ '' Set.pi Set.univ fun _ : Fin n => {s : Set (ℝ × ℝ) | MeasurableSet s})
      (fun _ => generateFrom_pi) (fun _ => isPiSystem_pi) (fun _ => ⟨fun _ => Set.univ, fun _ => ?_, fun _ => ?_, ?_⟩) ?_
    · exact ⟨fun _ => Set.univ, fun _ _ => by simp, by simp⟩
    · exact measure_lt_top _ _
    · exact Set.iUnion_const _
    · intro s hs
      choose A hA1 hA2 using hs
      have hA : ∀ j i, MeasurableSet (A j i) := fun j i => hA1 j i trivial
      rw [Measure.map_apply hm (MeasurableSet.univ_pi fun j => by
        rw [← hA2 j]; exact MeasurableSet.univ_pi (hA j))]
      have : (fun ω j => Z j ω) ⁻¹' Set.univ.pi s = {ω | ∀ j i, Z j ω i ∈ A j i} := by
        ext ω
        simp [← hA2, Set.mem_pi]
      rw [this, hbox A hA]
      refine Finset.prod_congr rfl fun j _ => ?_
      rw [← hA2 j, Measure.pi_pi]
  have : {ω | ∀ j, Z j ω ∈ B j} = (fun ω j => Z j ω) ⁻¹' Set.univ.pi B := by
    ext ω
    simp [Set.mem_pi]
  rw [this, ← Measure.map_apply hm (MeasurableSet.univ_pi hB), ← key, Measure.pi_pi]

/-- Functions with countably many values of such patterns are exchangeable. -/
theorem exchangeable_of_law {A C : Type} [MeasurableSpace A] [Countable C] {m : ℕ} {Z : Fin m → Ω → A} (hZ : ∀ j, Measurable (Z j))
    {ν : Measure A} (hlaw : ∀ B : Fin m → Set A, (∀ j, MeasurableSet (B j)) → P {ω | ∀ j, Z j ω ∈ B j} = ∏ j, ν (B j))
    {code : A → C} (hcode : Disc code) : Exchangeable P fun j ω => code (Z j ω) := by
  refine ⟨fun j => Set.to_countable _, fun j c => hZ j (hcode c), fun σ x => ?_⟩
  have h1 := hlaw (fun j => {a | code a = x j}) fun j => hcode _
  have h2 := hlaw (fun j => {a | code a = x (σ.symm j)}) fun j => hcode _
  have e : {ω | ∀ j, code (Z (σ j) ω) = x j} = {ω | ∀ j, Z j ω ∈ {a | code a = x (σ.symm j)}} := by
    ext ω
    simp only [Set.mem_ofPred_eq]
    constructor
    · intro h j
      have := h (σ.symm j)
      rwa [Equiv.apply_symm_apply] at this
    · intro h j
      have := h (σ j)
      rwa [Equiv.symm_apply_apply] at this
  rw [e, h2]
  refine Eq.trans ?_ h1.symm
  exact Fintype.prod_equiv σ.symm _ _ fun j => rfl

open Classical in
/-- The entries of the array that `poisson` returns, if it does. -/
noncomputable def drawn (h : Hull ℝ) (intensity : Option ℝ) (size : SizeArg) (pos : ℕ) (u : ℕ → ℝ) : List (ℝ × ℝ) :=
  if hr : ∃ r pos', Returns (fun fuel => poisson h u intensity size fuel pos) (.ok (r, pos')) then hr.choose.data else []

theorem drawn_eq {h : Hull ℝ} (hh : MeasurableHull h) {intensity : Option ℝ} {size : SizeArg} {pos pos' : ℕ} {u : ℕ → ℝ} {r : Squeezed ℝ}
    (hr : Returns (fun fuel => poisson h u intensity size fuel pos) (.ok (r, pos'))) : drawn h intensity size pos u = r.data := by
  have hex : ∃ r pos', Returns (fun fuel => poisson h u intensity size fuel pos) (.ok (r, pos')) := ⟨r, pos', hr⟩
  rw [drawn, dif_pos hex]
  obtain ⟨q, hq⟩ := hex.choose_spec
  have := C147_one_outcome (root := fun x => x) (mvn := fun _ _ _ => 0) (gen := fun _ _ => 0)
    (.poisson h hh intensity size) u pos hr hq
  cases this
  rfl

/-- That `poisson` returns an array in a given set is an event. -/
theorem returns_measurable {h : Hull ℝ} (hh : MeasurableHull h) (intensity : Option ℝ) (size : SizeArg) (pos : ℕ)
    {B : Set (Squeezed ℝ)} (hB : MeasurableSet B) :
    MeasurableSet {u | ∃ r pos', Returns (fun fuel => poisson h u intensity size fuel pos) (.ok (r, pos')) ∧ r ∈ B} := by
  have hreg : Regular fun fuel u pos => poisson h u intensity size fuel pos :=
    samplerCall_regular (root := fun x => x) (mvn := fun _ _ _ => 0) (gen := fun _ _ => 0) (fun _ => measurable_const)
      (.poisson h hh intensity size)
  have : {u | ∃ r pos', Returns (fun fuel => poisson h u intensity size fuel pos) (.ok (r, pos')) ∧ r ∈ B}
      = ⋃ q, endsAt (fun fuel u pos => poisson h u intensity size fuel pos) B pos q := by
    ext u
    simp only [Set.mem_ofPred_eq, Set.mem_iUnion, endsAt, Returns]
    constructor
    · rintro ⟨r, q, ⟨fuel, h⟩, hr⟩; exact ⟨q, fuel, r, h, hr⟩
    · rintro ⟨q, fuel, r, h, hr⟩; exact ⟨r, q, ⟨fuel, h⟩, hr⟩
  rw [this]
  exact .iUnion fun q => endsAt_measurable hreg hB _ _

theorem drawn_measurable {h : Hull ℝ} (hh : MeasurableHull h) (intensity : Option ℝ) (size : SizeArg) (pos : ℕ) :
    Measurable (drawn h intensity size pos) := by
  intro A hA
  have hret := fun B hB => returns_measurable hh intensity size pos (B := B) hB
  have e : drawn h intensity size pos ⁻¹' A
      = {u | ∃ r pos', Returns (fun fuel => poisson h u intensity size fuel pos) (.ok (r, pos')) ∧ r ∈ Squeezed.data ⁻¹' A}
        ∪ ({u | ∃ r pos', Returns (fun fuel => poisson h u intensity size fuel pos) (.ok (r, pos')) ∧ r ∈ Set.univ}ᶜ
          ∩ {_u | ([] : List (ℝ × ℝ)) ∈ A}) := by
    ext u
    simp only [Set.mem_preimage, Set.mem_union, Set.mem_ofPred_eq, Set.mem_inter_iff, Set.mem_compl_iff, Set.mem_univ, and_true]
    by_cases hex : ∃ r pos', Returns (fun fuel => poisson h u intensity size fuel pos) (.ok (r, pos'))
    · obtain ⟨r, q, hr⟩ := hex
      rw [drawn_eq hh hr]
      constructor
      · intro hA'; exact Or.inl ⟨r, q, hr, hA'⟩
      · rintro (⟨r', q', hr', hA'⟩ | ⟨hno, -⟩)
        · rw [← drawn_eq hh hr, drawn_eq hh hr']; exact hA'
        · exact absurd ⟨r, q, hr⟩ hno
    · rw [drawn, dif_neg hex]
      constructor
      · intro hA'; exact Or.inr ⟨hex, hA'⟩
      · rintro (⟨r', q', hr', -⟩ | ⟨-, hA'⟩)
        · exact absurd ⟨r', q', hr'⟩ hex
        · exact hA'
  rw [e]
  exact (hret _ (measurable_data hA)).union ((hret _ .univ).compl.inter (MeasurableSet.const _))

/-- The law of the entries of the array. -/
theorem drawn_law {U : ℕ → Ω → ℝ} (hU : IndependentDraws P U ((volume : Measure ℝ).restrict (Set.Ico 0 1)))
    {h : Hull ℝ} {hull : Set (ℝ × ℝ)} (hhull : ∀ x y, h.contains x y = true ↔ (x, y) ∈ hull) (hmeas : MeasurableSet hull)
    (hbox : ∀ p ∈ hull, h.bbox.xmin ≤ p.1 ∧ p.1 ≤ h.bbox.xmax ∧ h.bbox.ymin ≤ p.2 ∧ p.2 ≤ h.bbox.ymax)
    (harea : volume hull ≠ 0) {intensity : Option ℝ} {size : SizeArg} {n s : ℕ} {i : XF ℝ}
    (hp : parseSizeAndIntensity h intensity size = .ok (n, s, i)) (pos : ℕ) (A : Fin (s * n) → Set (ℝ × ℝ))
    (hA : ∀ k, MeasurableSet (A k)) :
    P {ω | ∀ k : Fin (s * n), (drawn h intensity size pos fun i => U i ω).getD k default ∈ A k} = ∏ k, uniformLaw hull (A k) := by
  have hh : MeasurableHull h := by
    have hset : {p : ℝ × ℝ | h.contains p.1 p.2 = true} = hull := by
      ext p; exact hhull p.1 p.2
    unfold MeasurableHull
    rw [hset]; exact hmeas
  have h1 := C108_poisson_uniform P U hU h hull hhull hmeas hbox harea intensity size n s i hp pos (List.ofFn A)
    (by rw [List.length_ofFn, Nat.mul_comm]) (by
      intro a ha
      obtain ⟨k, rfl⟩ := (List.mem_ofFn' _ _).1 ha
      exact hA k)
  have h2 := C108_poisson_returns P U hU h hull hhull hmeas hbox harea intensity size n s i hp pos
  have e : {ω | ∃ r pos', Returns (fun fuel => poisson h (fun i => U i ω) intensity size fuel pos) (.ok (r, pos'))
        ∧ List.Forall₂ (fun p a => p ∈ a) r.data (List.ofFn A)}
      = {ω | ∃ r pos', Returns (fun fuel => poisson h (fun i => U i ω) intensity size fuel pos) (.ok (r, pos'))}
        ∩ {ω | ∀ k : Fin (s * n), (drawn h intensity size pos fun i => U i ω).getD k default ∈ A k} := by
    ext ω
    simp only [Set.mem_ofPred_eq, Set.mem_inter_iff]
    have key : ∀ r pos', Returns (fun fuel => poisson h (fun i => U i ω) intensity size fuel pos) (.ok (r, pos')) →
        (List.Forall₂ (fun p a => p ∈ a) r.data (List.ofFn A)
          ↔ ∀ k : Fin (s * n), (drawn h intensity size pos fun i => U i ω).getD k default ∈ A k) := by
      intro r pos' hr
      rw [drawn_eq hh hr]
      have hlen : r.data.length = s * n := by
        obtain ⟨fuel, hr⟩ := hr
        obtain ⟨-, -, reps, g1, rfl⟩ := (poisson_ok h _ intensity size n s i hp fuel pos _ _).1 hr
        obtain ⟨g2, g3⟩ := poissonReps_lengths _ _ _ _ _ _ _ _ g1
        rw [squeeze_data _ _ _ g2 fun rep hrep => (g3 rep hrep).1, List.length_flatten,
          List.map_congr_left (g := fun _ => n) fun rep hrep => (g3 rep hrep).1]
        simp [g2]
      rw [List.forall₂_iff_get]
      constructor
      · rintro ⟨-, hget⟩ k
        have := hget k.1 (by omega) (by simp)
        rw [List.getD_eq_getElem _ _ (by omega)]
        simpa using this
      · intro hk
        refine ⟨by simp [hlen], fun j h1 h2 => ?_⟩
        have := hk ⟨j, by omega⟩
        rw [List.getD_eq_getElem _ _ h1] at this
        simpa using this
    constructor
    · rintro ⟨r, q, hr, hf⟩
      exact ⟨⟨r, q, hr⟩, (key r q hr).1 hf⟩
    · rintro ⟨⟨r, q, hr⟩, hf⟩
      exact ⟨r, q, hr, (key r q hr).2 hf⟩
  rw [e] at h1
  have hae : ∀ᵐ ω ∂P, ω ∈ {ω | ∃ r pos', Returns (fun fuel => poisson h (fun i => U i ω) intensity size fuel pos) (.ok (r, pos'))} := by
    refine (mem_ae_iff_prob_eq_one ?_).2 h2
    have hm : Measurable fun ω i => U i ω := measurable_pi_lambda _ hU.measurable
    have := hm (returns_measurable hh intensity size pos (B := Set.univ) .univ)
    simp only [Set.mem_univ, and_true] at this
    exact this
  have hcut : P {ω | ∀ k : Fin (s * n), (drawn h intensity size pos fun i => U i ω).getD k default ∈ A k}
      = P ({ω | ∃ r pos', Returns (fun fuel => poisson h (fun i => U i ω) intensity size fuel pos) (.ok (r, pos'))}
        ∩ {ω | ∀ k : Fin (s * n), (drawn h intensity size pos fun i => U i ω).getD k default ∈ A k}) := by
    refine measure_congr ?_
    filter_upwards [hae] with ω hω
    exact propext ⟨fun hx => ⟨hω, hx⟩, fun hx => hx.2⟩
  rw [hcut, h1, List.map_ofFn, List.prod_ofFn]
  exact Finset.prod_congr rfl fun k _ => (uniformLaw_apply hull (hA k)).symm

/-- The observed pattern, then the simulated ones. -/
noncomputable def allPatterns {n : ℕ} (X : Fin n → Ω → ℝ × ℝ) (R : ℕ) (D : Ω → List (ℝ × ℝ)) : Fin (R + 1) → Ω → (Fin n → ℝ × ℝ) :=
  Fin.cons (fun ω i => X i ω) fun j ω i => (D ω).getD (finProdFinEquiv (j, i)) default

/-- Observed events that are completely random, and simulated ones, are independent patterns with the same distribution. -/
theorem allPatterns_law {U : ℕ → Ω → ℝ} (hU : IndependentDraws P U ((volume : Measure ℝ).restrict (Set.Ico 0 1)))
    {h : Hull ℝ} {hull : Set (ℝ × ℝ)} (hhull : ∀ x y, h.contains x y = true ↔ (x, y) ∈ hull) (hmeas : MeasurableSet hull)
    (hbox : ∀ p ∈ hull, h.bbox.xmin ≤ p.1 ∧ p.1 ≤ h.bbox.xmax ∧ h.bbox.ymin ≤ p.2 ∧ p.2 ≤ h.bbox.ymax)
    (harea : volume hull ≠ 0) {intensity : Option ℝ} {size : SizeArg} {n s : ℕ} {i : XF ℝ}
    (hp : parseSizeAndIntensity h intensity size = .ok (n, s, i)) (pos : ℕ)
    {X : Fin n → Ω → ℝ × ℝ} (hX : CompletelyRandom P X hull) (hXU : IndepFun (fun ω i => X i ω) (fun ω i => U i ω) P) :
    (∀ j, Measurable (allPatterns X s (fun ω => drawn h intensity size pos fun i => U i ω) j))
    ∧ ∀ B : Fin (s + 1) → Set (Fin n → ℝ × ℝ), (∀ j, MeasurableSet (B j)) →
      P {ω | ∀ j, allPatterns X s (fun ω => drawn h intensity size pos fun i => U i ω) j ω ∈ B j}
        = ∏ j, (Measure.pi fun _ : Fin n => uniformLaw hull) (B j) := by
  have hh : MeasurableHull h := by
    have hset : {p : ℝ × ℝ | h.contains p.1 p.2 = true} = hull := by
      ext p; exact hhull p.1 p.2
    unfold MeasurableHull
    rw [hset]; exact hmeas
  have hfin : volume hull ≠ ⊤ := by
    refine ne_top_of_le_ne_top ?_ (measure_mono (t := Set.Icc h.bbox.xmin h.bbox.xmax ×ˢ Set.Icc h.bbox.ymin h.bbox.ymax) ?_)
    · rw [Measure.volume_eq_prod, Measure.prod_prod, Real.volume_Icc, Real.volume_Icc]
      exact ENNReal.mul_ne_top ENNReal.ofReal_ne_top ENNReal.ofReal_ne_top
    · intro p hp
      obtain ⟨h1, h2, h3, h4⟩ := hbox p hp
      exact ⟨⟨h1, h2⟩, ⟨h3, h4⟩⟩
  have := uniformLaw_prob harea hfin
  have hD := drawn_measurable hh intensity size pos
  have hUm : Measurable fun ω i => U i ω := measurable_pi_lambda _ hU.measurable
  have hent : ∀ k : ℕ, Measurable fun u => (drawn h intensity size pos u).getD k default := fun k => (measurable_getD k).comp hD
  have hZ : ∀ j, Measurable (allPatterns X s (fun ω => drawn h intensity size pos fun i => U i ω) j) := by
    intro j
    refine Fin.cases ?_ (fun j => ?_) j
    · exact measurable_pi_lambda _ hX.measurable
    · exact measurable_pi_lambda _ fun i => (hent _).comp hUm
  refine ⟨hZ, joint_law hZ fun A hA => ?_⟩
  have e : {ω | ∀ j i, allPatterns X s (fun ω => drawn h intensity size pos fun i => U i ω) j ω i ∈ A j i}
      = ((fun ω i => X i ω) ⁻¹' {x | ∀ i, x i ∈ A 0 i})
        ∩ ((fun ω i => U i ω) ⁻¹' {u | ∀ k : Fin (s * n), (drawn h intensity size pos u).getD k default
            ∈ A (finProdFinEquiv.symm k).1.succ (finProdFinEquiv.symm k).2}) := by
    ext ω
    simp only [Set.mem_ofPred_eq, Set.mem_inter_iff, Set.mem_preimage, Fin.forall_fin_succ (n := s), allPatterns, Fin.cons_zero, Fin.cons_succ]
    refine and_congr Iff.rfl ⟨fun hk k => ?_, fun hk j i => ?_⟩
    · have := hk (finProdFinEquiv.symm k).1 (finProdFinEquiv.symm k).2
      rwa [Prod.mk.eta, Equiv.apply_symm_apply] at this
    · have := hk (finProdFinEquiv (j, i))
      rwa [Equiv.symm_apply_apply] at this
  have m1 : MeasurableSet {x : Fin n → ℝ × ℝ | ∀ i, x i ∈ A 0 i} := by
    have : {x : Fin n → ℝ × ℝ | ∀ i, x i ∈ A 0 i} = Set.univ.pi (A 0) := by ext; simp [Set.mem_pi]
    rw [this]
    exact MeasurableSet.univ_pi (hA 0)
  have m2 : MeasurableSet {u | ∀ k : Fin (s * n), (drawn h intensity size pos u).getD k default
            ∈ A (finProdFinEquiv.symm k).1.succ (finProdFinEquiv.symm k).2} := by
    have : {u | ∀ k : Fin (s * n), (drawn h intensity size pos u).getD k default
            ∈ A (finProdFinEquiv.symm k).1.succ (finProdFinEquiv.symm k).2}
        = ⋂ k : Fin (s * n), {u | (drawn h intensity size pos u).getD k default
            ∈ A (finProdFinEquiv.symm k).1.succ (finProdFinEquiv.symm k).2} := by ext; simp
    rw [this]
    exact .iInter fun k => hent k (hA _ _)
  rw [e, hXU.measure_inter_preimage_eq_mul _ _ m1 m2, Fin.prod_univ_succ]
  congr 1
  · have e1 : (fun ω i => X i ω) ⁻¹' {x | ∀ i, x i ∈ A 0 i} = ⋂ i ∈ Finset.univ, X i ⁻¹' A 0 i := by
      ext ω; simp
    rw [e1, hX.independent.measure_inter_preimage_eq_mul Finset.univ fun i _ => hA 0 i]
    refine Finset.prod_congr rfl fun i _ => ?_
    rw [uniformLaw_apply hull (hA 0 i)]
    exact hX.uniform i _ (hA 0 i)
  · have := drawn_law hU hhull hmeas hbox harea hp pos
      (fun k => A (finProdFinEquiv.symm k).1.succ (finProdFinEquiv.symm k).2) fun k => hA _ _
    refine Eq.trans this ?_
    rw [← Fintype.prod_prod_type' (f := fun (j : Fin s) (i : Fin n) => uniformLaw hull (A j.succ i))]
    exact Fintype.prod_equiv finProdFinEquiv.symm _ _ fun k => rfl

end Pointpats.Csr
