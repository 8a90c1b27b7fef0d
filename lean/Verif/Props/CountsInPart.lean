import Verif.Props.SimulatedWindow

/-!
# The number of simulated points in a part of the region (C195)
-/

set_option linter.unusedSectionVars false

namespace Pointpats.Props

open Random Spec Geometry Csr MeasureTheory ProbabilityTheory

private theorem countP_sum {α : Type} (q : α → Bool) (l : List α) : l.countP q = (l.map fun a => if q a = true then 1 else 0).sum := by
  induction l with
  | nil => rfl
  | cons a l ih => rw [List.countP_cons, List.map_cons, List.sum_cons, ← ih, add_comm]

section Count

variable {Ω : Type} [MeasurableSpace Ω] {P : Measure Ω} [IsProbabilityMeasure P] {W : Set (ℝ × ℝ)} {n : ℕ} {X : Fin n → Ω → ℝ × ℝ}

open Classical in
private theorem count_law (hX : CompletelyRandom P X W) {A : Set (ℝ × ℝ)} (hA : MeasurableSet A) (k : ℕ) :
    P.real {ω | (Finset.univ.filter fun j => X j ω ∈ A).card = k}
      = n.choose k * (volume (A ∩ W) / volume W).toReal ^ k * (1 - (volume (A ∩ W) / volume W).toReal) ^ (n - k) := by
  set p := (volume (A ∩ W) / volume W).toReal with hp
  have hin : ∀ j, P.real (X j ⁻¹' A) = p := fun j => by
    rw [measureReal_def, hp, ← hX.uniform j A hA]; rfl
  have hout : ∀ j, P.real (X j ⁻¹' Aᶜ) = 1 - p := fun j => by
    rw [Set.preimage_compl, probReal_compl_eq_one_sub (hX.measurable j hA), hin j]
  have hset : ∀ S : Finset (Fin n), {ω | (Finset.univ.filter fun j => X j ω ∈ A) = S}
      = ⋂ j ∈ (Finset.univ : Finset (Fin n)), X j ⁻¹' (if j ∈ S then A else Aᶜ) := by
    intro S
    ext ω
    simp only [Set.mem_ofPred_eq, Finset.mem_univ, Set.iInter_true, Set.mem_iInter, Set.mem_preimage, Finset.ext_iff, Finset.mem_filter,
      true_and]
    refine forall_congr' fun j => ?_
    by_cases hj : j ∈ S <;> simp [hj]
  have hmeas : ∀ S : Finset (Fin n), MeasurableSet {ω | (Finset.univ.filter fun j => X j ω ∈ A) = S} := by
    intro S
    rw [hset S]
    refine Finset.measurableSet_biInter _ fun j _ => hX.measurable j ?_
    split_ifs
    · exact hA
    · exact hA.compl
  have hone : ∀ S : Finset (Fin n), P.real {ω | (Finset.univ.filter fun j => X j ω ∈ A) = S} = p ^ S.card * (1 - p) ^ (n - S.card) := by
    intro S
    rw [hset S, measureReal_def, hX.independent.measure_inter_preimage_eq_mul _ (by
      intro j _
      split_ifs
      · exact hA
      · exact hA.compl), ENNReal.toReal_prod]
    have : ∀ j, (P (X j ⁻¹' (if j ∈ S then A else Aᶜ))).toReal = if j ∈ S then p else 1 - p := by
      intro j
      split_ifs
      · exact hin j
      · exact hout j
    rw [Finset.prod_congr rfl fun j _ => this j, Finset.prod_ite, Finset.prod_const, Finset.prod_const]
    congr 2
    · simp
    · rw [Finset.filter_not, Finset.card_sdiff_of_subset (Finset.filter_subset _ _)]
      simp
  have hunion : {ω | (Finset.univ.filter fun j => X j ω ∈ A).card = k}
      = ⋃ S ∈ Finset.powersetCard k (Finset.univ : Finset (Fin n)), {ω | (Finset.univ.filter fun j => X j ω ∈ A) = S} := by
    ext ω
    simp [Finset.mem_powersetCard]
  rw [hunion, measureReal_biUnion_finset (by
      intro S _ T _ hST
      refine Set.disjoint_left.2 fun ω h1 h2 => hST ?_
      rw [Set.mem_ofPred_eq] at h1 h2
      rw [← h1, ← h2]) fun S _ => hmeas S,
    Finset.sum_congr rfl fun S hS => by rw [hone S, (Finset.mem_powersetCard.1 hS).2], Finset.sum_const, Finset.card_powersetCard,
    Finset.card_univ, Fintype.card_fin, nsmul_eq_mul, mul_assoc]

open Classical in
private theorem count_mean (hX : CompletelyRandom P X W) {A : Set (ℝ × ℝ)} (hA : MeasurableSet A) :
    Integrable (fun ω => ((Finset.univ.filter fun j => X j ω ∈ A).card : ℝ)) P
    ∧ ∫ ω, ((Finset.univ.filter fun j => X j ω ∈ A).card : ℝ) ∂P = n * (volume (A ∩ W) / volume W).toReal := by
  have he : ∀ ω, ((Finset.univ.filter fun j => X j ω ∈ A).card : ℝ) = ∑ j, (X j ⁻¹' A).indicator (fun _ => (1 : ℝ)) ω := by
    intro ω
    rw [Finset.card_filter]
    push_cast
    refine Finset.sum_congr rfl fun j _ => ?_
    simp [Set.indicator_apply]
  have hi : ∀ j, Integrable ((X j ⁻¹' A).indicator fun _ => (1 : ℝ)) P := fun j =>
    (integrable_const (1 : ℝ)).indicator (hX.measurable j hA)
  simp_rw [he]
  refine ⟨integrable_finsetSum _ fun j _ => hi j, ?_⟩
  rw [integral_finsetSum _ fun j _ => hi j]
  have : ∀ j, ∫ ω, (X j ⁻¹' A).indicator (fun _ => (1 : ℝ)) ω ∂P = (volume (A ∩ W) / volume W).toReal := by
    intro j
    rw [integral_indicator_const _ (hX.measurable j hA), measureReal_def, ← hX.uniform j A hA]
    simp
    rfl
  rw [Finset.sum_congr rfl fun j _ => this j]
  simp

end Count

/-- **C195.** Let `poisson` draw `N` points from a region, with independent draws that are uniform on `[0, 1)`, and let `part` be another
region. With probability one it returns, and the number of points that `contains(part, …)` accepts has the binomial distribution with
`N` trials, whose chance of success is the area of what the regions have in common divided by the area of the region; that is
`area(part) / area(region)` if the part lies in the region. Its expectation is `N` times that chance. -/
theorem C195_binomial {Ω : Type} [MeasurableSpace Ω] (P : Measure Ω) [IsProbabilityMeasure P] (U : ℕ → Ω → ℝ)
    (hU : IndependentDraws P U ((volume : Measure ℝ).restrict (Set.Ico 0 1))) (region part : Region ℝ)
    (hregion : IsConvexRegion region) (hpart : IsConvexRegion part) (b b' : BBox ℝ) (hb : region.bounds = .ok b)
    (hb' : part.bounds = .ok b') (intensity : Option ℝ) (size : SizeArg) (n s : ℕ) (i : XF ℝ)
    (hp : parseSizeAndIntensity (region.toHull b) intensity size = .ok (n, s, i)) (pos : ℕ) :
    ∃ (count : Ω → ℕ) (p : ℝ), p = (volume (pointsOf part ∩ pointsOf region)).toReal / region.area
      ∧ (pointsOf part ⊆ pointsOf region → p = part.area / region.area)
      ∧ (∀ᵐ ω ∂P, ∃ r pos', Returns (fun fuel => poisson (region.toHull b) (fun i => U i ω) intensity size fuel pos) (.ok (r, pos'))
          ∧ r.data.countP (fun e => part.contains e.1 e.2) = count ω)
      ∧ (∀ k, P.real {ω | count ω = k} = (s * n).choose k * p ^ k * (1 - p) ^ (s * n - k))
      ∧ Integrable (fun ω => (count ω : ℝ)) P ∧ ∫ ω, (count ω : ℝ) ∂P = (s * n : ℕ) * p := by
  classical
  obtain ⟨X, hX, hret⟩ := C191_completely_random P U hU region hregion b hb intensity size n s i hp pos
  obtain ⟨hmeas, -⟩ := region_facts part hpart b' hb'
  have harea := (convexRegion_facts hregion hb).2.1
  refine ⟨fun ω => (Finset.univ.filter fun j => X j ω ∈ pointsOf part).card, _, rfl, ?_, ?_, ?_, ?_⟩
  · intro hsub
    rw [Set.inter_eq_left.2 hsub, (convexRegion_facts hpart hb').2.1]
  · filter_upwards [hret] with ω hω
    obtain ⟨r, pos', hr, hd⟩ := hω
    refine ⟨r, pos', hr, ?_⟩
    rw [hd, countP_sum, List.map_ofFn, List.sum_ofFn, Finset.card_filter]
    refine Finset.sum_congr rfl fun j _ => ?_
    have hiff : X j ω ∈ pointsOf part ↔ part.contains (X j ω).1 (X j ω).2 = true := Iff.rfl
    simp only [Function.comp, hiff]
  · intro k
    rw [count_law hX hmeas k, harea, ENNReal.toReal_div]
  · have := count_mean hX hmeas
    rw [ENNReal.toReal_div, ← harea] at this
    exact this

/-- **C196.** Let `poisson` draw `N` points from a region, with independent draws that are uniform on `[0, 1)`, and let `x` be a location and
`d` a distance. With probability one it returns. The probability that every returned point is `d` or more away from `x` is
`(1 - π d² / area(region)) ^ N` if the disc of radius `d` round `x` lies in the region, and at least that for every `x` and `d` with
`π d² ≤ area(region)`. -/
theorem C196_empty_disc {Ω : Type} [MeasurableSpace Ω] (P : Measure Ω) [IsProbabilityMeasure P] (U : ℕ → Ω → ℝ)
    (hU : IndependentDraws P U ((volume : Measure ℝ).restrict (Set.Ico 0 1))) (region : Region ℝ)
    (hregion : IsConvexRegion region) (b : BBox ℝ) (hb : region.bounds = .ok b) (intensity : Option ℝ) (size : SizeArg) (n s : ℕ) (i : XF ℝ)
    (hp : parseSizeAndIntensity (region.toHull b) intensity size = .ok (n, s, i)) (pos : ℕ) (x : ℝ × ℝ) (d : ℝ) (hd : 0 ≤ d) :
    ∃ far : Set Ω, MeasurableSet far
      ∧ (∀ᵐ ω ∂P, ∃ r pos', Returns (fun fuel => poisson (region.toHull b) (fun i => U i ω) intensity size fuel pos) (.ok (r, pos'))
          ∧ (ω ∈ far ↔ ∀ e ∈ r.data, d ≤ Real.sqrt ((x.1 - e.1) ^ 2 + (x.2 - e.2) ^ 2)))
      ∧ ((∀ e : ℝ × ℝ, Real.sqrt ((x.1 - e.1) ^ 2 + (x.2 - e.2) ^ 2) < d → region.contains e.1 e.2 = true) →
          P.real far = (1 - Real.pi * d ^ 2 / region.area) ^ (s * n))
      ∧ (Real.pi * d ^ 2 ≤ region.area → (1 - Real.pi * d ^ 2 / region.area) ^ (s * n) ≤ P.real far) := by
  classical
  obtain ⟨X, hX, hret⟩ := C191_completely_random P U hU region hregion b hb intensity size n s i hp pos
  have harea := (convexRegion_facts hregion hb).2.1
  have hvol := PairLaw.volume_disc x hd
  set A : Set (ℝ × ℝ) := {q | PairLaw.planeDist x q < d} with hA
  have hmeas : MeasurableSet A := by
    refine measurableSet_lt ?_ measurable_const
    unfold PairLaw.planeDist
    fun_prop
  have hlaw := count_law hX hmeas 0
  rw [Nat.choose_zero_right, pow_zero, Nat.sub_zero, ENNReal.toReal_div, ← harea] at hlaw
  simp only [Nat.cast_one, one_mul] at hlaw
  have hdisc : (volume A).toReal = Real.pi * d ^ 2 := by
    rw [hvol, ENNReal.toReal_ofReal (by positivity)]
  have hpos : 0 < region.area := by
    rw [harea]
    obtain ⟨-, hbox, h0, -⟩ := region_facts region hregion b hb
    refine ENNReal.toReal_pos h0 ?_
    have hcompact : IsCompact (Set.Icc b.xmin b.xmax ×ˢ Set.Icc b.ymin b.ymax) := isCompact_Icc.prod isCompact_Icc
    refine ne_top_of_le_ne_top hcompact.measure_lt_top.ne (measure_mono fun q hq => ?_)
    obtain ⟨e1, e2, e3, e4⟩ := hbox q hq
    exact ⟨⟨e1, e2⟩, ⟨e3, e4⟩⟩
  have hfar : {ω | (Finset.univ.filter fun j => X j ω ∈ A).card = 0} = ⋂ j, X j ⁻¹' Aᶜ := by
    ext ω
    simp [Finset.filter_eq_empty_iff]
  refine ⟨{ω | (Finset.univ.filter fun j => X j ω ∈ A).card = 0}, ?_, ?_, ?_, ?_⟩
  · rw [hfar]
    exact MeasurableSet.iInter fun j => hX.measurable j hmeas.compl
  · filter_upwards [hret] with ω hω
    obtain ⟨r, pos', hr, hd'⟩ := hω
    refine ⟨r, pos', hr, ?_⟩
    have hmem : (Finset.univ.filter fun j => X j ω ∈ A).card = 0 ↔ ω ∈ ⋂ j, X j ⁻¹' Aᶜ := by rw [← hfar]; rfl
    rw [hmem, hd']
    simp only [Set.mem_iInter, Set.mem_preimage, Set.mem_compl_iff, hA, Set.mem_ofPred_eq, not_lt, List.mem_ofFn, forall_exists_index,
      forall_apply_eq_imp_iff]
    rfl
  · intro hsub
    have : A ∩ pointsOf region = A := Set.inter_eq_left.2 fun q hq => hsub q hq
    rw [hlaw, this, hdisc]
  · intro hle
    rw [hlaw]
    have h1 : (volume (A ∩ pointsOf region)).toReal ≤ Real.pi * d ^ 2 := by
      rw [← hdisc]
      exact ENNReal.toReal_mono (by rw [hvol]; exact ENNReal.ofReal_ne_top) (measure_mono Set.inter_subset_left)
    refine pow_le_pow_left₀ ?_ ?_ _
    · rw [sub_nonneg, div_le_one hpos]; exact hle
    · have := div_le_div_of_nonneg_right h1 hpos.le
      linarith

/-- The disc of radius one round the centre of the square of side two lies in it. -/
example : ∀ e : ℝ × ℝ, Real.sqrt ((1 - e.1) ^ 2 + (1 - e.2) ^ 2) < 1 → (Region.bbox ⟨(0 : ℝ), 0, 2, 2⟩).contains e.1 e.2 = true := by
  intro e he
  rw [Real.sqrt_lt' one_pos] at he
  have h : e ∈ pointsOf (.bbox ⟨(0 : ℝ), 0, 2, 2⟩) := by
    rw [(C187_box _ (by norm_num) (by norm_num)).1]
    refine ⟨?_, ?_, ?_, ?_⟩ <;> simp only <;> nlinarith [sq_nonneg (1 - e.1), sq_nonneg (1 - e.2)]
  exact h

/-- The hypotheses are met by any number of points in the unit square and its left half, where the chance is one half. -/
example (n : ℕ) : ∃ (P : Measure (ℕ → ℝ)) (_ : IsProbabilityMeasure P), IndependentDraws P (fun i ω => ω i) ((volume : Measure ℝ).restrict (Set.Ico 0 1))
    ∧ IsConvexRegion (.bbox ⟨0, 0, 1, 1⟩) ∧ IsConvexRegion (.bbox ⟨0, 0, 1 / 2, 1⟩)
    ∧ (Region.bbox ⟨(0 : ℝ), 0, 1, 1⟩).bounds = .ok ⟨0, 0, 1, 1⟩ ∧ (Region.bbox ⟨(0 : ℝ), 0, 1 / 2, 1⟩).bounds = .ok ⟨0, 0, 1 / 2, 1⟩
    ∧ (∃ i, parseSizeAndIntensity ((Region.bbox ⟨(0 : ℝ), 0, 1, 1⟩).toHull ⟨0, 0, 1, 1⟩) none (.int n) = .ok (n, (1 : ℕ), i))
    ∧ pointsOf (.bbox ⟨0, 0, 1 / 2, 1⟩) ⊆ pointsOf (.bbox ⟨0, 0, 1, 1⟩)
    ∧ (Region.bbox ⟨(0 : ℝ), 0, 1 / 2, 1⟩).area / (Region.bbox ⟨(0 : ℝ), 0, 1, 1⟩).area = 1 / 2 := by
  obtain ⟨P, hP, hU⟩ := uniformDraws_exist
  have ha : (Region.bbox ⟨(0 : ℝ), 0, 1, 1⟩).area = 1 := by norm_num [Region.area, areaBBox]
  have ha' : (Region.bbox ⟨(0 : ℝ), 0, 1 / 2, 1⟩).area = 1 / 2 := by norm_num [Region.area, areaBBox]
  refine ⟨P, hP, hU, .inr (.inr ⟨_, rfl, by norm_num, by norm_num⟩), .inr (.inr ⟨_, rfl, by norm_num, by norm_num⟩), rfl, rfl,
    ⟨.fin n, ?_⟩, ?_, by rw [ha, ha']; norm_num⟩
  · simp [parseSizeAndIntensity, divArea, Region.toHull, ha, XF.div]
  · rw [(C187_box _ (by norm_num) (by norm_num)).1, (C187_box _ (by norm_num) (by norm_num)).1]
    rintro q ⟨h1, h2, h3, h4⟩
    exact ⟨h1, h2.trans (by norm_num), h3, h4⟩

end Pointpats.Props
