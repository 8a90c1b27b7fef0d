import Verif.Props.QLevel
import Verif.Lemmas.Csr
import Verif.Props.RectangleGrid

/-!
# C150: the simulated quadrat test under complete spatial randomness
-/

set_option linter.unusedSectionVars false

namespace Pointpats.Props

open Quadrat Random Spec MeasureTheory ProbabilityTheory MeasurableRun MeasurableCounts Csr

/-- The entry of a pattern in the list of all points. -/
theorem flatten_getD {α : Type} {n : ℕ} (d : α) : ∀ (reps : List (List α)), (∀ l ∈ reps, l.length = n) → ∀ j (hj : j < reps.length) i,
    i < n → reps.flatten.getD (i + n * j) d = reps[j].getD i d := by
  intro reps
  induction reps with
  | nil => intro _ j hj; simp at hj
  | cons l reps ih =>
    intro hl j hj i hi
    have h0 : l.length = n := hl l (by simp)
    cases j with
    | zero =>
      rw [List.flatten_cons, Nat.mul_zero, Nat.add_zero, List.getD_append _ _ _ _ (by omega)]
      rfl
    | succ j =>
      rw [List.flatten_cons, List.getD_append_right _ _ _ _ (by rw [h0, Nat.mul_succ]; omega)]
      have : i + n * (j + 1) - l.length = i + n * j := by rw [h0, Nat.mul_succ]; omega
      rw [this, ih (fun l' hl' => hl l' (by simp [hl'])) j (by simpa using hj) i hi]
      rfl

/-- The statistic as a function of the counts. -/
private noncomputable def statOf : Py Dict → ℝ
  | .ok d => match chisquare (Dict.numbers d : List ℝ) with
      | .fin c => c
      | _ => 0
  | .error _ => 0

private theorem patternChi2_counts (cos30 : ℝ) (grid : GridArg ℝ) (pat : List (ℝ × ℝ)) :
    patternChi2 cos30 grid pat = statOf (countsOf cos30 grid pat) := by
  unfold patternChi2 countsOf
  cases gridCounts cos30 pat grid with
  | error e => rfl
  | ok r =>
    obtain ⟨d, g⟩ := r
    simp only [Except.map, statOf]
    cases chisquare (Dict.numbers d : List ℝ) <;> rfl

/-- If the test reports a p-value, `poisson` has returned an array with three axes. -/
private theorem simulated_cube {cos30 : ℝ} {grid : GridArg ℝ} {reals : Squeezed ℝ} {R : ℕ} (hR : 0 < R) {sims : List (XF ℝ)}
    (h : (List.range R).mapM (simChi2 cos30 grid reals) = .ok sims) : ∃ n l, reals = .cube n l := by
  obtain ⟨-, h2⟩ := mapM_range_ok _ _ _ h
  obtain ⟨b, -, hb⟩ := h2 0 hR
  cases reals with
  | point p => simp [simChi2, simPoints, bind, Except.bind] at hb
  | rows l =>
    unfold simChi2 simPoints at hb
    simp only at hb
    split_ifs at hb <;> cases hb
  | cube n l => exact ⟨n, l, rfl⟩

/-- The patterns in the array that `poisson` returns. -/
private theorem simulated_patterns {Ω : Type} {U : ℕ → Ω → ℝ} {window : Hull ℝ} (hh : MeasurableHull window) {intensity : Option ℝ}
    {size : SizeArg} {n R : ℕ} {X : Fin n → Ω → ℝ × ℝ} {ω : Ω} {fuel pos pos' : ℕ} {reals : Squeezed ℝ} {reps : List (List (ℝ × ℝ))}
    (hpo : poisson window (fun i => U i ω) intensity size fuel pos = some (.ok (reals, pos'))) (hreals : reals = .cube n reps)
    (hl1 : reps.length = R) (hl2 : ∀ l ∈ reps, l.length = n) :
    reps = List.ofFn fun j : Fin R =>
      List.ofFn (allPatterns X R (fun ω => drawn window intensity size pos fun i => U i ω) j.succ ω) := by
  have hdata : (drawn window intensity size pos fun i => U i ω) = reps.flatten := by
    rw [drawn_eq hh ⟨fuel, hpo⟩, hreals]
    rfl
  refine List.ext_getElem (by simp [hl1]) fun j h1 h2 => ?_
  rw [List.getElem_ofFn]
  have hlen := hl2 reps[j] (List.getElem_mem h1)
  refine List.ext_getElem (by simp [hlen]) fun i h3 h4 => ?_
  rw [List.getElem_ofFn]
  simp only [allPatterns, Fin.cons_succ, hdata]
  have := flatten_getD (default : ℝ × ℝ) reps hl2 j h1 i (by omega)
  rw [List.getD_eq_getElem _ _ h3] at this
  exact this.symm

private theorem mapM_exists {α β : Type} (f : α → Py β) : ∀ l : List α, (∀ a ∈ l, ∃ b, f a = .ok b) → ∃ bs, l.mapM f = .ok bs := by
  intro l
  induction l with
  | nil => intro _; exact ⟨[], rfl⟩
  | cons a l ih =>
    intro h
    obtain ⟨b, hb⟩ := h a (by simp)
    obtain ⟨bs, hbs⟩ := ih fun a' ha' => h a' (by simp [ha'])
    exact ⟨b :: bs, by rw [List.mapM_cons, hb, hbs]; rfl⟩

private theorem mapM_range_exists {β : Type} (f : ℕ → Py β) (n : ℕ) (h : ∀ j < n, ∃ b, f j = .ok b) :
    ∃ bs, (List.range n).mapM f = .ok bs :=
  mapM_exists f _ fun a ha => h a (List.mem_range.1 ha)

/-- **C150.** Let the observed events be completely random in the window, and let the draws of the generator be independent of
each other and of the observed events, and uniform on `[0, 1)`. Let the window have positive area and lie in its bounding box,
and let the numbers of columns and rows of the rectangles, or the side of the hexagons, be given. Then the probability that
`QStatistic` reports a simulated p-value of at most `α` is at most `α`. -/
theorem C150_quadrat_csr_level {Ω : Type} [MeasurableSpace Ω] (P : Measure Ω) [IsProbabilityMeasure P]
    (U : ℕ → Ω → ℝ) (hU : IndependentDraws P U ((volume : Measure ℝ).restrict (Set.Ico 0 1)))
    (window : Hull ℝ) (W : Set (ℝ × ℝ)) (hW : ∀ x y, window.contains x y = true ↔ (x, y) ∈ W) (hmeas : MeasurableSet W)
    (hbox : ∀ p ∈ W, window.bbox.xmin ≤ p.1 ∧ p.1 ≤ window.bbox.xmax ∧ window.bbox.ymin ≤ p.2 ∧ p.2 ≤ window.bbox.ymax)
    (harea : volume W ≠ 0)
    {n : ℕ} (X : Fin n → Ω → ℝ × ℝ) (hX : CompletelyRandom P X W) (hXU : IndepFun (fun ω i => X i ω) (fun ω i => U i ω) P)
    (cos30 : ℝ) (grid : GridArg ℝ) (hgrid : GivenQuadrats grid) (R : ℕ) (hR : 0 < R) (pos : ℕ) (α : ℚ) (hα : 0 ≤ α) :
    P.real {ω | ∃ q pos' sims p,
      Returns (fun fuel => qStatistic cos30 window (fun i => U i ω) (List.ofFn fun i => X i ω) grid R fuel pos) (.ok (q, pos'))
      ∧ q.simulated = some (sims, p) ∧ p ≤ (α : ℝ)} ≤ α := by
  have hα' : (0 : ℝ) ≤ α := by exact_mod_cast hα
  by_cases hok : window.area = 0 ∨ n = 0
  · refine le_trans (le_of_eq ?_) hα'
    rw [measureReal_def]
    have : {ω | ∃ q pos' sims p,
      Returns (fun fuel => qStatistic cos30 window (fun i => U i ω) (List.ofFn fun i => X i ω) grid R fuel pos) (.ok (q, pos'))
      ∧ q.simulated = some (sims, p) ∧ p ≤ (α : ℝ)} = ∅ := by
      refine Set.eq_empty_of_forall_notMem ?_
      rintro ω ⟨q, pos', sims, p, ⟨fuel, hq⟩, -, -⟩
      obtain ⟨hne, ha, -⟩ := qstat_ok _ _ _ _ _ _ (by exact_mod_cast hR) _ _ _ _ hq
      rcases hok with h | rfl
      · exact ha h
      · exact hne (by simp)
    rw [this]
    simp
  push Not at hok
  obtain ⟨ha, hn⟩ := hok
  have hh : MeasurableHull window := by
    have hset : {p : ℝ × ℝ | window.contains p.1 p.2 = true} = W := by
      ext p; exact hW p.1 p.2
    unfold MeasurableHull
    rw [hset]; exact hmeas
  set intensity : Option ℝ := some ((n : ℝ) / window.area) with hi
  have hp : parseSizeAndIntensity window intensity (.int R) = .ok ((n : ℤ), (R : ℤ), .fin ((n : ℝ) / window.area)) := by
    simp only [parseSizeAndIntensity, hi, div_mul_cancel₀ _ ha, XF.toInt, Nat.cast_nonneg, if_true, Int.floor_natCast]
    rfl
  obtain ⟨hZm, hZl⟩ := allPatterns_law hU hW hmeas hbox harea hp pos hX hXU
  set Z := allPatterns X R (fun ω => drawn window intensity (.int R) pos fun i => U i ω) with hZ
  have hcode : Disc fun x : Fin n → ℝ × ℝ => countsOf cos30 grid (List.ofFn x) := by
    have := counts_disc (X := Fin n → ℝ × ℝ) cos30 grid hgrid (List.ofFn fun i x => x i) (by
      intro g hg
      obtain ⟨i, rfl⟩ := (List.mem_ofFn' _ _).1 hg
      exact measurable_pi_apply i)
    simpa only [List.map_ofFn, Function.comp_def] using this
  have hex := exchangeable_of_law hZm hZl hcode
  refine le_trans (measureReal_mono ?_) (hex.level statOf α hα)
  rintro ω ⟨q, pos', sims, p, ⟨fuel, hq⟩, hs, hpα⟩
  obtain ⟨-, -, d, simGrid, reals, sims', -, hpo, hsims, -, -⟩ := qstat_ok _ _ _ _ _ _ (by exact_mod_cast hR) _ _ _ _ hq
  rw [Int.toNat_natCast] at hsims
  rw [List.length_ofFn] at hpo
  obtain ⟨n', l, hcube⟩ := simulated_cube hR hsims
  obtain ⟨-, -, reps, hreps, hsq⟩ := (poisson_ok window _ _ _ _ _ _ hp fuel pos reals pos').1 hpo
  rw [Int.toNat_natCast, Int.toNat_natCast] at hreps hsq
  obtain ⟨hl1, hl2⟩ := poissonReps_lengths _ _ _ _ _ _ _ _ hreps
  have hreals : reals = .cube n reps := by
    rw [hsq] at hcube ⊢
    unfold squeeze at hcube ⊢
    split_ifs at hcube ⊢
    rfl
  have hpat := simulated_patterns hh (X := X) hpo hreals hl1 fun l hl => (hl2 l hl).1
  rw [← hZ] at hpat
  have key := pvalue_rank (cos30 := cos30) (window := window) (u := fun i => U i ω) hgrid (points := List.ofFn fun i => X i ω)
    (patterns := reps) (pos := pos) (pos' := pos') (fuel := fuel) (by omega)
    (by
      intro fuel' reals' pos'' h
      rw [List.length_ofFn, hl1] at h
      rw [List.length_ofFn]
      have := poisson_det h hpo
      cases this
      exact hreals) (q := q) (sims := sims) (p := p)
    (by rw [hl1]; exact hq) hs
  rw [key, hl1] at hpα
  rw [hpat, List.map_ofFn] at hpα
  simp only [Set.mem_ofPred_eq]
  rw [← Rat.cast_le (K := ℝ)]
  push_cast
  have e0 : Z 0 ω = fun i => X i ω := rfl
  simp only [← patternChi2_counts, e0]
  exact hpα

/-- Independent points that are uniform on a region have different coordinates. -/
private theorem apart {W : Set (ℝ × ℝ)} [IsProbabilityMeasure (uniformLaw W)] {n : ℕ} {i j : Fin n} (hij : i ≠ j) :
    (Measure.pi fun _ : Fin n => uniformLaw W) {x | (x i).1 = (x j).1 ∨ (x i).2 = (x j).2} = 0 := by
  have hind : IndepFun (fun x : Fin n → ℝ × ℝ => x i) (fun x => x j) (Measure.pi fun _ : Fin n => uniformLaw W) :=
    (iIndepFun_pi (X := fun _ x => x) (μ := fun _ : Fin n => uniformLaw W) fun _ => measurable_id.aemeasurable).indepFun hij
  have hmap := (indepFun_iff_map_prod_eq_prod_map_map (measurable_pi_apply i).aemeasurable
    (measurable_pi_apply j).aemeasurable).1 hind
  rw [(measurePreserving_eval _ i).map_eq, (measurePreserving_eval _ j).map_eq] at hmap
  have hnull : ∀ c : ℝ, uniformLaw W {b | c = b.1} = 0 ∧ uniformLaw W {b | c = b.2} = 0 := by
    intro c
    have h1 : {b : ℝ × ℝ | c = b.1} = {c} ×ˢ Set.univ := by ext b; simp [eq_comm]
    have h2 : {b : ℝ × ℝ | c = b.2} = Set.univ ×ˢ {c} := by ext b; simp [eq_comm]
    have hac : uniformLaw W ≪ volume := (Measure.smul_absolutelyContinuous).trans Measure.restrict_le_self.absolutelyContinuous
    refine ⟨hac ?_, hac ?_⟩
    · rw [h1, Measure.volume_eq_prod, Measure.prod_prod]; simp
    · rw [h2, Measure.volume_eq_prod, Measure.prod_prod]; simp
  have hm : MeasurableSet {z : (ℝ × ℝ) × (ℝ × ℝ) | z.1.1 = z.2.1 ∨ z.1.2 = z.2.2} :=
    (measurableSet_eq_fun (measurable_fst.comp measurable_fst) (measurable_fst.comp measurable_snd)).union
      (measurableSet_eq_fun (measurable_snd.comp measurable_fst) (measurable_snd.comp measurable_snd))
  have key : (Measure.pi fun _ : Fin n => uniformLaw W).map (fun x => (x i, x j)) {z | z.1.1 = z.2.1 ∨ z.1.2 = z.2.2} = 0 := by
    rw [hmap, Measure.measure_prod_null hm]
    refine Filter.Eventually.of_forall fun a => ?_
    have : Prod.mk a ⁻¹' {z : (ℝ × ℝ) × (ℝ × ℝ) | z.1.1 = z.2.1 ∨ z.1.2 = z.2.2} = {b | a.1 = b.1} ∪ {b | a.2 = b.2} := rfl
    beta_reduce
    rw [this]
    exact measure_union_null (hnull a.1).1 (hnull a.2).2
  rw [Measure.map_apply ((measurable_pi_apply i).prodMk (measurable_pi_apply j)) hm] at key
  exact key

/-- **C150, the test reports a p-value.** If there are at least two events, at least two simulations, and at least one column and
one row, then under the same hypotheses `QStatistic` returns with a simulated p-value with probability one. -/
theorem C150_quadrat_csr_reports {Ω : Type} [MeasurableSpace Ω] (P : Measure Ω) [IsProbabilityMeasure P]
    (U : ℕ → Ω → ℝ) (hU : IndependentDraws P U ((volume : Measure ℝ).restrict (Set.Ico 0 1)))
    (window : Hull ℝ) (W : Set (ℝ × ℝ)) (hW : ∀ x y, window.contains x y = true ↔ (x, y) ∈ W) (hmeas : MeasurableSet W)
    (hbox : ∀ p ∈ W, window.bbox.xmin ≤ p.1 ∧ p.1 ≤ window.bbox.xmax ∧ window.bbox.ymin ≤ p.2 ∧ p.2 ≤ window.bbox.ymax)
    (harea : volume W ≠ 0) (ha : window.area ≠ 0)
    {n : ℕ} (hn : 2 ≤ n) (X : Fin n → Ω → ℝ × ℝ) (hX : CompletelyRandom P X W)
    (hXU : IndepFun (fun ω i => X i ω) (fun ω i => U i ω) P)
    (cos30 : ℝ) (nx ny : ℤ) (hx : 0 < nx) (hy : 0 < ny) (w h : ℝ) (hwh : w = 0 ∨ h = 0) (R : ℕ) (hR : 2 ≤ R) (pos : ℕ) :
    P {ω | ∃ q pos' sims p,
      Returns (fun fuel => qStatistic cos30 window (fun i => U i ω) (List.ofFn fun i => X i ω) (.rectangle nx ny w h) R fuel pos)
        (.ok (q, pos')) ∧ q.simulated = some (sims, p)} = 1 := by
  have hh : MeasurableHull window := by
    have hset : {p : ℝ × ℝ | window.contains p.1 p.2 = true} = W := by
      ext p; exact hW p.1 p.2
    unfold MeasurableHull
    rw [hset]; exact hmeas
  have hfin : volume W ≠ ⊤ := by
    refine ne_top_of_le_ne_top ?_ (measure_mono
      (t := Set.Icc window.bbox.xmin window.bbox.xmax ×ˢ Set.Icc window.bbox.ymin window.bbox.ymax) ?_)
    · rw [Measure.volume_eq_prod, Measure.prod_prod, Real.volume_Icc, Real.volume_Icc]
      exact ENNReal.mul_ne_top ENNReal.ofReal_ne_top ENNReal.ofReal_ne_top
    · intro p hp
      obtain ⟨h1, h2, h3, h4⟩ := hbox p hp
      exact ⟨⟨h1, h2⟩, ⟨h3, h4⟩⟩
  have := uniformLaw_prob harea hfin
  set intensity : Option ℝ := some ((n : ℝ) / window.area) with hi
  have hp : parseSizeAndIntensity window intensity (.int R) = .ok ((n : ℤ), (R : ℤ), .fin ((n : ℝ) / window.area)) := by
    simp only [parseSizeAndIntensity, hi, div_mul_cancel₀ _ ha, XF.toInt, Nat.cast_nonneg, if_true, Int.floor_natCast]
    rfl
  obtain ⟨hZm, hZl⟩ := allPatterns_law hU hW hmeas hbox harea hp pos hX hXU
  set Z := allPatterns X R (fun ω => drawn window intensity (.int R) pos fun i => U i ω) with hZ
  let i0 : Fin n := ⟨0, by omega⟩
  let i1 : Fin n := ⟨1, by omega⟩
  have hij : i0 ≠ i1 := by simp [i0, i1]
  have hbadm : MeasurableSet {x : Fin n → ℝ × ℝ | (x i0).1 = (x i1).1 ∨ (x i0).2 = (x i1).2} :=
    (measurableSet_eq_fun (measurable_pi_apply i0).fst (measurable_pi_apply i1).fst).union
      (measurableSet_eq_fun (measurable_pi_apply i0).snd (measurable_pi_apply i1).snd)
  have hgood : ∀ᵐ ω ∂P, ∀ j, ¬ ((Z j ω i0).1 = (Z j ω i1).1 ∨ (Z j ω i0).2 = (Z j ω i1).2) := by
    refine ae_all_iff.2 fun j => ?_
    rw [ae_iff]
    have h1 := hZl (Function.update (fun _ => Set.univ) j {x | (x i0).1 = (x i1).1 ∨ (x i0).2 = (x i1).2}) (by
      intro j'
      by_cases hj : j' = j
      · subst hj; rw [Function.update_self]; exact hbadm
      · rw [Function.update_of_ne hj]; exact .univ)
    rw [Finset.prod_eq_zero (Finset.mem_univ j) (by rw [Function.update_self]; exact apart hij)] at h1
    refine measure_mono_null ?_ h1
    intro ω hω
    simp only [Set.mem_ofPred_eq, not_not] at hω ⊢
    intro j'
    by_cases hj : j' = j
    · subst hj; rw [Function.update_self]; exact hω
    · rw [Function.update_of_ne hj]; trivial
  have hret := C108_poisson_returns P U hU window W hW hmeas hbox harea intensity (.int R) n R _ hp pos
  have hae : ∀ᵐ ω ∂P, ω ∈ {ω | ∃ r pos', Returns (fun fuel => poisson window (fun i => U i ω) intensity (.int R) fuel pos)
      (.ok (r, pos'))} := by
    refine (mem_ae_iff_prob_eq_one ?_).2 hret
    have hm : Measurable fun ω i => U i ω := measurable_pi_lambda _ hU.measurable
    have := hm (returns_measurable hh intensity (.int R) pos (B := Set.univ) .univ)
    simp only [Set.mem_univ, and_true] at this
    exact this
  -- points with different coordinates are counted
  have hext : ∀ x : Fin n → ℝ × ℝ, ¬ ((x i0).1 = (x i1).1 ∨ (x i0).2 = (x i1).2) → PositiveExtent (List.ofFn x) := by
    intro x hx
    push Not at hx
    have m0 : x i0 ∈ List.ofFn x := (List.mem_ofFn' _ _).2 ⟨i0, rfl⟩
    have m1 : x i1 ∈ List.ofFn x := (List.mem_ofFn' _ _).2 ⟨i1, rfl⟩
    constructor
    · rcases lt_or_gt_of_ne hx.1 with h | h
      · exact ⟨_, m0, _, m1, h⟩
      · exact ⟨_, m1, _, m0, h⟩
    · rcases lt_or_gt_of_ne hx.2 with h | h
      · exact ⟨_, m0, _, m1, h⟩
      · exact ⟨_, m1, _, m0, h⟩
  have hcount : ∀ (w h : ℝ), (w = 0 ∨ h = 0) → ∀ pts : List (ℝ × ℝ), PositiveExtent pts →
      ∃ d, gridCounts cos30 pts (.rectangle nx ny w h) = .ok (d, .rectangle nx ny 0 0) := by
    intro w h hwh pts hpts
    obtain ⟨m, d, e1, e2, -⟩ := C48_rectangle_counts_conserve pts hpts nx ny w h (Or.inr ⟨hwh, hx, hy⟩)
    have hcols : m.count_column = nx ∧ m.count_row = ny := by
      unfold RectangleM.init at e1
      cases hb : computeMbb pts with
      | error e => rw [hb] at e1; cases e1
      | ok b =>
        rw [hb] at e1
        change (if w ≠ 0 ∧ h ≠ 0 then _ else _) = _ at e1
        rw [if_neg (by tauto)] at e1
        cases e1
        exact ⟨rfl, rfl⟩
    refine ⟨d, ?_⟩
    unfold gridCounts
    simp only [e1]
    change (m.pointLocationSta >>= fun d => _) = _
    rw [e2, hcols.1, hcols.2]
    rfl
  refine le_antisymm prob_le_one ?_
  rw [← measure_univ (μ := P)]
  refine measure_mono_ae ?_
  filter_upwards [hgood, hae] with ω h1 h2 _
  obtain ⟨reals, pos', fuel, hpo⟩ := h2
  obtain ⟨-, -, reps, hreps, hsq⟩ := (poisson_ok window _ _ _ _ _ _ hp fuel pos reals pos').1 hpo
  rw [Int.toNat_natCast, Int.toNat_natCast] at hreps hsq
  obtain ⟨hl1, hl2⟩ := poissonReps_lengths _ _ _ _ _ _ _ _ hreps
  have hreals : reals = .cube n reps := by
    rw [hsq]
    unfold squeeze
    rw [if_neg (by omega), if_neg (by omega)]
  have hpat := simulated_patterns hh (X := X) hpo hreals hl1 fun l hl => (hl2 l hl).1
  obtain ⟨d, hd⟩ := hcount w h hwh _ (hext (Z 0 ω) (h1 0))
  have hsim : ∃ sims, (List.range R).mapM (simChi2 cos30 (.rectangle nx ny 0 0) reals) = .ok sims := by
    refine mapM_range_exists _ _ fun j hj => ?_
    obtain ⟨d', hd'⟩ := hcount 0 0 (Or.inl rfl) _ (hext (Z (Fin.succ ⟨j, hj⟩) ω) (h1 _))
    refine ⟨chisquare (Dict.numbers d'), ?_⟩
    have hget : reps[j]? = some (List.ofFn (Z (Fin.succ ⟨j, hj⟩) ω)) := by
      rw [hpat, List.getElem?_ofFn, dif_pos hj]
    have hne : List.ofFn (Z (Fin.succ ⟨j, hj⟩) ω) ≠ [] := by
      intro h0
      have := congrArg List.length h0
      simp at this
      omega
    unfold simChi2 simPoints
    rw [hreals]
    simp only [hget, asPointsArray, if_neg hne]
    change (gridCounts cos30 _ _ >>= fun d => _) = _
    rw [hd']
    rfl
  obtain ⟨sims, hsims⟩ := hsim
  refine ⟨⟨d.keys, chisquare (Dict.numbers d), df (Dict.numbers d : List ℝ), chi2Contrib (Dict.numbers d),
    some (sims, chi2RPvalue (chisquare (Dict.numbers d : List ℝ)) sims R)⟩, pos', sims, _, ⟨fuel, ?_⟩, rfl⟩
  have hne : (List.ofFn fun i => X i ω) ≠ [] := by
    intro h0
    have := congrArg List.length h0
    simp at this
    omega
  unfold qStatistic
  have hd0 : gridCounts cos30 (List.ofFn fun i => X i ω) (.rectangle nx ny w h) = .ok (d, .rectangle nx ny 0 0) := hd
  simp only [asPointsArray, if_neg hne, hd0]
  rw [if_pos (by exact_mod_cast (show 0 < R by omega)), if_neg ha, List.length_ofFn, Run.andThen_ok]
  refine ⟨reals, pos', hpo, ?_⟩
  rw [Int.toNat_natCast, hsims]
  rfl

/-- Non-vacuity: there are completely random events and independent uniform draws that are independent of them. -/
theorem completelyRandom_exists (n : ℕ) {W : Set (ℝ × ℝ)} (h0 : volume W ≠ 0) (h1 : volume W ≠ ⊤) :
    ∃ (P : Measure ((Fin n → ℝ × ℝ) × (ℕ → ℝ))) (_ : IsProbabilityMeasure P),
      CompletelyRandom P (fun i ω => ω.1 i) W
      ∧ IndependentDraws P (fun i ω => ω.2 i) ((volume : Measure ℝ).restrict (Set.Ico 0 1))
      ∧ IndepFun (fun ω i => ω.1 i) (fun ω i => ω.2 i) P := by
  have hu := uniformLaw_prob h0 h1
  have : IsProbabilityMeasure ((volume : Measure ℝ).restrict (Set.Ico 0 1)) := ⟨by simp⟩
  set ν : Measure (Fin n → ℝ × ℝ) := Measure.pi fun _ => uniformLaw W with hν
  set D : Measure (ℕ → ℝ) := Measure.infinitePi fun _ => (volume : Measure ℝ).restrict (Set.Ico 0 1) with hD
  have hfst : (ν.prod D).map Prod.fst = ν := measurePreserving_fst.map_eq
  have hsnd : (ν.prod D).map Prod.snd = D := measurePreserving_snd.map_eq
  have e1 : ∀ i, (ν.prod D).map (fun ω => ω.1 i) = uniformLaw W := by
    intro i
    have : (fun ω : (Fin n → ℝ × ℝ) × (ℕ → ℝ) => ω.1 i) = (fun x => x i) ∘ Prod.fst := rfl
    rw [this, ← Measure.map_map (measurable_pi_apply i) measurable_fst, hfst]
    exact (measurePreserving_eval _ i).map_eq
  have e2 : ∀ i, (ν.prod D).map (fun ω => ω.2 i) = (volume : Measure ℝ).restrict (Set.Ico 0 1) := by
    intro i
    have : (fun ω : (Fin n → ℝ × ℝ) × (ℕ → ℝ) => ω.2 i) = (fun x => x i) ∘ Prod.snd := rfl
    rw [this, ← Measure.map_map (measurable_pi_apply i) measurable_snd, hsnd]
    exact Measure.infinitePi_map_eval _ i
  refine ⟨ν.prod D, inferInstance, ⟨fun i => (measurable_pi_apply i).comp measurable_fst, ?_, ?_⟩,
    ⟨fun i => (measurable_pi_apply i).comp measurable_snd, ?_, e2⟩, indepFun_prod (X := id) (Y := id) measurable_id measurable_id⟩
  · rw [iIndepFun_iff_map_fun_eq_pi_map (f := fun i (ω : (Fin n → ℝ × ℝ) × (ℕ → ℝ)) => ω.1 i) fun i => ((measurable_pi_apply i).comp measurable_fst).aemeasurable]
    simp only [e1]
    exact hfst
  · intro i a ha
    have hm : Measurable fun ω : (Fin n → ℝ × ℝ) × (ℕ → ℝ) => ω.1 i := (measurable_pi_apply i).comp measurable_fst
    rw [← uniformLaw_apply W ha, ← e1 i, Measure.map_apply hm ha]
    rfl
  · rw [iIndepFun_iff_map_fun_eq_infinitePi_map₀' (X := fun i (ω : (Fin n → ℝ × ℝ) × (ℕ → ℝ)) => ω.2 i) fun i => ((measurable_pi_apply i).comp measurable_snd).aemeasurable]
    simp only [e2]
    exact hsnd

/-- Non-vacuity: fifty completely random events in a triangle, of which three by two rectangles and 99 simulations are asked for.
The test reports a p-value with probability one, and one of at most `1/20` with probability at most `1/20`. -/
example : ∃ (P : Measure ((Fin 50 → ℝ × ℝ) × (ℕ → ℝ))) (_ : IsProbabilityMeasure P),
    CompletelyRandom P (fun i ω => ω.1 i) {p : ℝ × ℝ | 0 ≤ p.1 ∧ 0 ≤ p.2 ∧ p.1 + p.2 ≤ 1}
    ∧ P {ω | ∃ q pos' sims p, Returns (fun fuel => qStatistic (1 / 2) triangleHull ω.2 (List.ofFn ω.1) (.rectangle 3 2 0 0) 99 fuel 0)
        (.ok (q, pos')) ∧ q.simulated = some (sims, p)} = 1
    ∧ P.real {ω | ∃ q pos' sims p, Returns (fun fuel => qStatistic (1 / 2) triangleHull ω.2 (List.ofFn ω.1) (.rectangle 3 2 0 0) 99 fuel 0)
        (.ok (q, pos')) ∧ q.simulated = some (sims, p) ∧ p ≤ ((1 / 20 : ℚ) : ℝ)} ≤ ((1 / 20 : ℚ) : ℝ) := by
  have hW : ∀ x y, triangleHull.contains x y = true ↔ (x, y) ∈ {p : ℝ × ℝ | 0 ≤ p.1 ∧ 0 ≤ p.2 ∧ p.1 + p.2 ≤ 1} := by
    intro x y
    simp [triangleHull]
  have hm : MeasurableSet {p : ℝ × ℝ | 0 ≤ p.1 ∧ 0 ≤ p.2 ∧ p.1 + p.2 ≤ 1} :=
    MeasurableSet.inter (measurableSet_le measurable_const measurable_fst)
      (MeasurableSet.inter (measurableSet_le measurable_const measurable_snd) (measurableSet_le (measurable_fst.add measurable_snd) measurable_const))
  have hb : ∀ p ∈ {p : ℝ × ℝ | 0 ≤ p.1 ∧ 0 ≤ p.2 ∧ p.1 + p.2 ≤ 1}, triangleHull.bbox.xmin ≤ p.1 ∧ p.1 ≤ triangleHull.bbox.xmax
      ∧ triangleHull.bbox.ymin ≤ p.2 ∧ p.2 ≤ triangleHull.bbox.ymax := by
    rintro p ⟨h1, h2, h3⟩
    refine ⟨h1, ?_, h2, ?_⟩ <;> simp only [triangleHull] <;> linarith
  have h0 : volume {p : ℝ × ℝ | 0 ≤ p.1 ∧ 0 ≤ p.2 ∧ p.1 + p.2 ≤ 1} ≠ 0 := by
    intro h0
    have := measure_mono_null (s := Set.Icc (0 : ℝ) (1 / 2) ×ˢ Set.Icc (0 : ℝ) (1 / 2)) (by
      rintro ⟨x, y⟩ ⟨⟨h1, h2⟩, ⟨h3, h4⟩⟩
      refine ⟨h1, h3, ?_⟩
      simp only at *
      linarith) h0
    rw [Measure.volume_eq_prod, Measure.prod_prod, Real.volume_Icc] at this
    norm_num at this
  have h1 : volume {p : ℝ × ℝ | 0 ≤ p.1 ∧ 0 ≤ p.2 ∧ p.1 + p.2 ≤ 1} ≠ ⊤ := by
    refine ne_top_of_le_ne_top ?_ (measure_mono (t := Set.Icc (0 : ℝ) 1 ×ˢ Set.Icc (0 : ℝ) 1) ?_)
    · rw [Measure.volume_eq_prod, Measure.prod_prod, Real.volume_Icc]
      exact ENNReal.mul_ne_top ENNReal.ofReal_ne_top ENNReal.ofReal_ne_top
    · rintro p ⟨h1, h2, h3⟩
      exact ⟨⟨h1, by linarith⟩, ⟨h2, by linarith⟩⟩
  obtain ⟨P, hP, hX, hU, hXU⟩ := completelyRandom_exists 50 h0 h1
  refine ⟨P, hP, hX, ?_, ?_⟩
  · exact C150_quadrat_csr_reports P _ hU triangleHull _ hW hm hb h0 (by norm_num [triangleHull]) (by omega) _ hX hXU (1 / 2) 3 2
      (by norm_num) (by norm_num) 0 0 (Or.inl rfl) 99 (by omega) 0
  · exact C150_quadrat_csr_level P _ hU triangleHull _ hW hm hb h0 _ hX hXU (1 / 2) (.rectangle 3 2 0 0)
      (Or.inl ⟨3, 2, 0, 0, rfl, Or.inl rfl⟩) 99 (by omega) 0 (1 / 20) (by norm_num)

end Pointpats.Props
