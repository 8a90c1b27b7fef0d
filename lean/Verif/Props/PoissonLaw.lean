import Verif.Props.RandomPoisson
import Verif.Lemmas.RejectionLaw
import Mathlib.MeasureTheory.Measure.Lebesgue.Basic
import Mathlib.Probability.Independence.InfinitePi

/-!
# C108: `poisson` draws independent points, uniform on the hull
-/

set_option linter.unusedSectionVars false

namespace Pointpats.Props

open Random Spec MeasureTheory ProbabilityTheory

section Law

variable {K : Type} [Field K] [LinearOrder K] [IsStrictOrderedRing K] [FloorRing K]

/-- What `poisson` returns are the first accepted candidates. -/
theorem poisson_firstAccepted (h : Hull K) (u : ℕ → K) (intensity : Option K) (size : SizeArg) (n s : ℤ) (i : XF K)
    (hp : parseSizeAndIntensity h intensity size = .ok (n, s, i)) (hn : 0 ≤ n) (hs : 0 ≤ s) (pos : ℕ)
    (Q : List (K × K) → Prop) :
    (∃ r pos', Returns (fun fuel => poisson h u intensity size fuel pos) (.ok (r, pos')) ∧ Q r.data) ↔
      ∃ l m, FirstAccepted (candidateAt h u pos) (fun p => h.contains p.1 p.2) (n * s).toNat l m ∧ Q l := by
  constructor
  · rintro ⟨r, pos', hr, hQ⟩
    obtain ⟨_, _, m, _, hF⟩ := C40_poisson h u intensity size n s i hp pos r pos' hr
    exact ⟨_, m, hF, hQ⟩
  · rintro ⟨l, m, hF, hQ⟩
    have e : (n * s).toNat = n.toNat * s.toNat := Int.toNat_mul hn hs
    rw [e] at hF
    have h1 := rejection_complete (boxCandidate h u) (fun p => h.contains p.1 p.2) m pos _ l hF
    obtain ⟨reps, rfl, h2⟩ := replications_cut _ _ _ _ 0 _ _ _ _ h1
    refine ⟨squeeze s.toNat n.toNat reps, pos + 2 * m, ⟨m,
      (poisson_ok h u intensity size n s i hp m pos _ _).2 ⟨hn, hs, reps, h2, rfl⟩⟩, ?_⟩
    obtain ⟨g1, g2⟩ := poissonReps_lengths _ _ _ _ _ _ _ _ h2
    rw [squeeze_data s.toNat n.toNat reps g1 (fun rep hrep => (g2 rep hrep).1)]
    exact hQ

end Law

/-- The candidate in the bounding box made from two draws. -/
def boxPoint (b : BBox ℝ) (x : ℝ × ℝ) : ℝ × ℝ := (b.xmin + (b.xmax - b.xmin) * x.1, b.ymin + (b.ymax - b.ymin) * x.2)

theorem measurable_boxPoint (b : BBox ℝ) : Measurable (boxPoint b) := by
  unfold boxPoint
  fun_prop

/-- Two independent draws from `[0, 1)` give a uniform point of the box. -/
theorem boxPoint_law (b : BBox ℝ) (hx : b.xmin < b.xmax) (hy : b.ymin < b.ymax) :
    ∃ c : ENNReal, c ≠ 0 ∧ c ≠ ⊤ ∧
    (((volume : Measure ℝ).restrict (Set.Ico 0 1)).prod ((volume : Measure ℝ).restrict (Set.Ico 0 1))).map (boxPoint b)
      = c • (volume : Measure (ℝ × ℝ)).restrict (Set.Icc b.xmin b.xmax ×ˢ Set.Icc b.ymin b.ymax) := by
  have key : ∀ lo hi : ℝ, lo < hi → ∃ c : ENNReal, c ≠ 0 ∧ c ≠ ⊤ ∧
      ((volume : Measure ℝ).restrict (Set.Ico 0 1)).map (fun x => lo + (hi - lo) * x)
        = c • (volume : Measure ℝ).restrict (Set.Icc lo hi) := by
    intro lo hi h
    have hw : 0 < hi - lo := sub_pos.2 h
    refine ⟨ENNReal.ofReal |(hi - lo)⁻¹|, ?_, ENNReal.ofReal_ne_top, ?_⟩
    · rw [Ne, ENNReal.ofReal_eq_zero, not_le]
      exact abs_pos.2 (inv_ne_zero hw.ne')
    · have hpre : (fun x => lo + (hi - lo) * x) ⁻¹' Set.Ico lo hi = Set.Ico 0 1 := by
        ext x
        simp only [Set.mem_preimage, Set.mem_Ico]
        constructor
        · rintro ⟨h1, h2⟩
          refine ⟨?_, ?_⟩
          · by_contra hn
            push Not at hn
            nlinarith
          · by_contra hn
            push Not at hn
            nlinarith
        · rintro ⟨h1, h2⟩
          exact ⟨by nlinarith, by nlinarith⟩
      have hm : Measurable fun x : ℝ => lo + (hi - lo) * x := by fun_prop
      rw [← hpre, ← Measure.restrict_map hm measurableSet_Ico]
      have : (fun x : ℝ => lo + (hi - lo) * x) = (fun x => lo + x) ∘ (fun x => (hi - lo) * x) := rfl
      rw [this, ← Measure.map_map (by fun_prop) (by fun_prop), Real.map_volume_mul_left hw.ne', Measure.map_smul,
        (measurePreserving_add_left volume lo).map_eq, Measure.restrict_smul, Measure.restrict_congr_set Ico_ae_eq_Icc]
  obtain ⟨c, c0, c1, hc⟩ := key b.xmin b.xmax hx
  obtain ⟨d, d0, d1, hd⟩ := key b.ymin b.ymax hy
  refine ⟨c * d, mul_ne_zero c0 d0, ENNReal.mul_ne_top c1 d1, ?_⟩
  have e : boxPoint b = Prod.map (fun x => b.xmin + (b.xmax - b.xmin) * x) (fun x => b.ymin + (b.ymax - b.ymin) * x) := rfl
  rw [e, ← Measure.map_prod_map _ _ (by fun_prop) (by fun_prop), hc, hd, Measure.prod_smul_left, Measure.prod_smul_right,
    Measure.prod_restrict, smul_smul]
  rfl

/-- **C108.** Let the draws of the generator be independent and uniform on `[0, 1)`, and let the arguments of `poisson` resolve
to `n` points in `s` replications in a hull of positive area inside its bounding box. Then the probability that `poisson`
returns, with its `k`-th point in the set `A_k` for all `k < n s`, is the product over `k` of the shares
`area (A_k ∩ hull) / area hull`: the points are independent of each other and uniformly distributed on the hull. -/
theorem C108_poisson_uniform {Ω : Type} [MeasurableSpace Ω] (P : Measure Ω) [IsProbabilityMeasure P] (U : ℕ → Ω → ℝ)
    (hU : IndependentDraws P U ((volume : Measure ℝ).restrict (Set.Ico 0 1)))
    (h : Hull ℝ) (hull : Set (ℝ × ℝ)) (hhull : ∀ x y, h.contains x y = true ↔ (x, y) ∈ hull) (hmeas : MeasurableSet hull)
    (hbox : ∀ p ∈ hull, h.bbox.xmin ≤ p.1 ∧ p.1 ≤ h.bbox.xmax ∧ h.bbox.ymin ≤ p.2 ∧ p.2 ≤ h.bbox.ymax)
    (harea : volume hull ≠ 0)
    (intensity : Option ℝ) (size : SizeArg) (n s : ℕ) (i : XF ℝ)
    (hp : parseSizeAndIntensity h intensity size = .ok (n, s, i)) (pos : ℕ)
    (A : List (Set (ℝ × ℝ))) (hlen : A.length = n * s) (hA : ∀ a ∈ A, MeasurableSet a) :
    P {ω | ∃ r pos', Returns (fun fuel => poisson h (fun i => U i ω) intensity size fuel pos) (.ok (r, pos'))
        ∧ List.Forall₂ (fun p a => p ∈ a) r.data A}
      = (A.map fun a => volume (a ∩ hull) / volume hull).prod := by
  have hset : {p : ℝ × ℝ | h.contains p.1 p.2 = true} = hull := by
    ext p
    exact hhull p.1 p.2
  -- the bounding box has positive sides
  have hsides : h.bbox.xmin < h.bbox.xmax ∧ h.bbox.ymin < h.bbox.ymax := by
    by_contra hcon
    refine harea (measure_mono_null (t := Set.Icc h.bbox.xmin h.bbox.xmax ×ˢ Set.Icc h.bbox.ymin h.bbox.ymax) ?_ ?_)
    · intro p hp
      obtain ⟨h1, h2, h3, h4⟩ := hbox p hp
      exact ⟨⟨h1, h2⟩, ⟨h3, h4⟩⟩
    · rw [Measure.volume_eq_prod, Measure.prod_prod, Real.volume_Icc, Real.volume_Icc]
      rw [not_and_or, not_lt, not_lt] at hcon
      rcases hcon with hc | hc
      · rw [ENNReal.ofReal_of_nonpos (by linarith), zero_mul]
      · rw [ENNReal.ofReal_of_nonpos (p := h.bbox.ymax - h.bbox.ymin) (by linarith), mul_zero]
  obtain ⟨c, c0, c1, hc⟩ := boxPoint_law h.bbox hsides.1 hsides.2
  have hcand := indepCandidates_of_pairs hU (fun k => pos + 2 * k) (fun k => pos + 2 * k + 1) (fun k => by omega)
    (fun k l hkl => ⟨by omega, by omega, by omega⟩) (boxPoint h.bbox) (measurable_boxPoint _)
  rw [hc] at hcand
  have hvol : ∀ a : Set (ℝ × ℝ), MeasurableSet a →
      (c • (volume : Measure (ℝ × ℝ)).restrict (Set.Icc h.bbox.xmin h.bbox.xmax ×ˢ Set.Icc h.bbox.ymin h.bbox.ymax)) (a ∩ hull)
        = c * volume (a ∩ hull) := by
    intro a ha
    rw [Measure.smul_apply, smul_eq_mul, Measure.restrict_apply (ha.inter hmeas)]
    congr 2
    refine Set.inter_eq_left.2 ?_
    rintro p ⟨-, hp⟩
    obtain ⟨h1, h2, h3, h4⟩ := hbox p hp
    exact ⟨⟨h1, h2⟩, ⟨h3, h4⟩⟩
  have hvol' : (c • (volume : Measure (ℝ × ℝ)).restrict (Set.Icc h.bbox.xmin h.bbox.xmax ×ˢ Set.Icc h.bbox.ymin h.bbox.ymax)) hull
        = c * volume hull := by
    have := hvol Set.univ MeasurableSet.univ
    rwa [Set.univ_inter] at this
  have key := hcand.firstAccepted (accept := fun p => h.contains p.1 p.2) (by rw [hset]; exact hmeas)
    (by rw [hset, hvol']; exact mul_ne_zero c0 harea) A hA
  rw [hset, hvol'] at key
  have hev : {ω | ∃ r pos', Returns (fun fuel => poisson h (fun i => U i ω) intensity size fuel pos) (.ok (r, pos'))
        ∧ List.Forall₂ (fun p a => p ∈ a) r.data A}
      = {ω | ∃ l m, FirstAccepted (fun k => boxPoint h.bbox (U (pos + 2 * k) ω, U (pos + 2 * k + 1) ω))
          (fun p => h.contains p.1 p.2) A.length l m ∧ List.Forall₂ (fun p a => p ∈ a) l A} := by
    ext ω
    have := poisson_firstAccepted h (fun i => U i ω) intensity size n s i hp (by omega) (by omega) pos
      (fun l => List.Forall₂ (fun p a => p ∈ a) l A)
    rw [show ((n : ℤ) * s).toNat = A.length by rw [hlen]; exact_mod_cast Int.toNat_natCast (n * s)] at this
    exact this
  rw [hev, key]
  congr 1
  refine List.map_congr_left fun a ha => ?_
  rw [hvol a (hA a ha), ENNReal.mul_div_mul_left _ _ c0 c1]

/-- **C108, termination.** Under the same hypotheses `poisson` returns with probability one. -/
theorem C108_poisson_returns {Ω : Type} [MeasurableSpace Ω] (P : Measure Ω) [IsProbabilityMeasure P] (U : ℕ → Ω → ℝ)
    (hU : IndependentDraws P U ((volume : Measure ℝ).restrict (Set.Ico 0 1)))
    (h : Hull ℝ) (hull : Set (ℝ × ℝ)) (hhull : ∀ x y, h.contains x y = true ↔ (x, y) ∈ hull) (hmeas : MeasurableSet hull)
    (hbox : ∀ p ∈ hull, h.bbox.xmin ≤ p.1 ∧ p.1 ≤ h.bbox.xmax ∧ h.bbox.ymin ≤ p.2 ∧ p.2 ≤ h.bbox.ymax)
    (harea : volume hull ≠ 0)
    (intensity : Option ℝ) (size : SizeArg) (n s : ℕ) (i : XF ℝ)
    (hp : parseSizeAndIntensity h intensity size = .ok (n, s, i)) (pos : ℕ) :
    P {ω | ∃ r pos', Returns (fun fuel => poisson h (fun i => U i ω) intensity size fuel pos) (.ok (r, pos'))} = 1 := by
  have key := C108_poisson_uniform P U hU h hull hhull hmeas hbox harea intensity size n s i hp pos
    (List.replicate (n * s) Set.univ) (by simp) (by
      intro a ha
      rw [(List.mem_replicate.1 ha).2]
      exact MeasurableSet.univ)
  have hfin : volume hull ≠ ⊤ := by
    refine ne_top_of_le_ne_top ?_ (measure_mono (t := Set.Icc h.bbox.xmin h.bbox.xmax ×ˢ Set.Icc h.bbox.ymin h.bbox.ymax) ?_)
    · rw [Measure.volume_eq_prod, Measure.prod_prod, Real.volume_Icc, Real.volume_Icc]
      exact ENNReal.mul_ne_top ENNReal.ofReal_ne_top ENNReal.ofReal_ne_top
    · intro p hp
      obtain ⟨h1, h2, h3, h4⟩ := hbox p hp
      exact ⟨⟨h1, h2⟩, ⟨h3, h4⟩⟩
  rw [List.map_replicate, List.prod_replicate, Set.univ_inter, ENNReal.div_self harea hfin, one_pow] at key
  refine le_antisymm prob_le_one ?_
  rw [← key]
  refine measure_mono ?_
  rintro ω ⟨r, pos', h1, -⟩
  exact ⟨r, pos', h1⟩

/-- Non-vacuity: there are independent uniform draws. -/
theorem uniformDraws_exist : ∃ (P : Measure (ℕ → ℝ)) (_ : IsProbabilityMeasure P),
    IndependentDraws P (fun i ω => ω i) ((volume : Measure ℝ).restrict (Set.Ico 0 1)) := by
  have : IsProbabilityMeasure ((volume : Measure ℝ).restrict (Set.Ico 0 1)) := ⟨by simp⟩
  refine ⟨Measure.infinitePi fun _ => (volume : Measure ℝ).restrict (Set.Ico 0 1), inferInstance, ?_, ?_, ?_⟩
  · exact fun i => measurable_pi_apply i
  · exact iIndepFun_infinitePi (X := fun _ x => x) (fun _ => measurable_id)
  · intro i
    exact Measure.infinitePi_map_eval _ i

/-- Non-vacuity: a triangle, half of its bounding box, meets the hypotheses on the hull; the probability that each of two points
in the triangle lies in the left half of the box is the square of the share of the triangle there. -/
noncomputable def triangleHull : Hull ℝ :=
  { bbox := ⟨0, 0, 1, 1⟩, contains := fun x y => decide (0 ≤ x ∧ 0 ≤ y ∧ x + y ≤ 1), area := 1 / 2, isArray := false }

example : ∃ (P : Measure (ℕ → ℝ)) (_ : IsProbabilityMeasure P),
    P {ω | ∃ r pos', Returns (fun fuel => poisson triangleHull ω none (.int 2) fuel 0) (.ok (r, pos'))
        ∧ List.Forall₂ (fun p a => p ∈ a) r.data [{p | p.1 ≤ 1 / 2}, {p | p.1 ≤ 1 / 2}]}
      = ([{p | p.1 ≤ 1 / 2}, {p : ℝ × ℝ | p.1 ≤ 1 / 2}].map fun a =>
          volume (a ∩ {p : ℝ × ℝ | 0 ≤ p.1 ∧ 0 ≤ p.2 ∧ p.1 + p.2 ≤ 1}) / volume {p : ℝ × ℝ | 0 ≤ p.1 ∧ 0 ≤ p.2 ∧ p.1 + p.2 ≤ 1}).prod := by
  obtain ⟨P, hP, hU⟩ := uniformDraws_exist
  refine ⟨P, hP, C108_poisson_uniform P _ hU triangleHull {p : ℝ × ℝ | 0 ≤ p.1 ∧ 0 ≤ p.2 ∧ p.1 + p.2 ≤ 1} ?_ ?_ ?_ ?_ none (.int 2)
    2 1 (.fin 4) ?_ 0 _ rfl ?_⟩
  · intro x y
    simp [triangleHull]
  · refine MeasurableSet.inter (measurableSet_le measurable_const measurable_fst)
      (MeasurableSet.inter (measurableSet_le measurable_const measurable_snd) (measurableSet_le (measurable_fst.add measurable_snd) measurable_const))
  · rintro p ⟨h1, h2, h3⟩
    refine ⟨h1, ?_, h2, ?_⟩ <;> simp only [triangleHull] <;> linarith
  · intro h0
    have := measure_mono_null (s := Set.Icc (0 : ℝ) (1 / 2) ×ˢ Set.Icc (0 : ℝ) (1 / 2)) (by
      rintro ⟨x, y⟩ ⟨⟨h1, h2⟩, ⟨h3, h4⟩⟩
      refine ⟨h1, h3, ?_⟩
      simp only at *
      linarith) h0
    rw [Measure.volume_eq_prod, Measure.prod_prod, Real.volume_Icc] at this
    norm_num at this
  · simp [parseSizeAndIntensity, divArea, triangleHull, XF.div]
    norm_num
  · intro a ha
    simp only [List.mem_cons, List.not_mem_nil, or_false, or_self] at ha
    rw [ha]
    exact measurableSet_le measurable_fst measurable_const

end Pointpats.Props
