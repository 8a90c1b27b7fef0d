import Verif.Props.StraussLaw

/-!
# C46, C144: `strauss` ends with probability one
-/

set_option linter.unusedSectionVars false

namespace Pointpats.Props

open Random Spec MeasureTheory ProbabilityTheory

section Ends

/-- A computation that takes a bound ends, and larger bounds do not change the result. -/
structure Settles {α : Type} (f : ℕ → Run α) : Prop where
  mono : ∀ {a b}, a ≤ b → RunLe (f a) (f b)
  ends : ∃ fuel res, f fuel = some res

theorem Settles.const {α : Type} (x : Py (α × ℕ)) : Settles fun _ => (some x : Run α) := ⟨fun _ => RunLe.refl _, 0, x, rfl⟩

theorem Settles.andThen {α β : Type} {f : ℕ → Run α} {g : ℕ → α → ℕ → Run β} (hf : Settles f)
    (hg : ∀ x pos, Settles fun fuel => g fuel x pos) : Settles fun fuel => (f fuel).andThen (g fuel) := by
  refine ⟨fun hab => RunLe.andThen (hf.mono hab) fun x pos => (hg x pos).mono hab, ?_⟩
  obtain ⟨a, res, ha⟩ := hf.ends
  cases res with
  | error e => exact ⟨a, .error e, by rw [ha]; rfl⟩
  | ok y =>
    obtain ⟨b, res, hb⟩ := (hg y.1 y.2).ends
    refine ⟨max a b, res, ?_⟩
    rw [hf.mono (le_max_left a b) _ ha]
    exact (hg y.1 y.2).mono (le_max_right a b) _ hb

theorem Settles.ite {α : Type} {c : Prop} [Decidable c] {f g : ℕ → Run α} (hf : Settles f) (hg : Settles g) :
    Settles fun fuel => if c then f fuel else g fuel := by
  by_cases h : c
  · simpa [h] using hf
  · simpa [h] using hg

theorem Settles.returns {α : Type} {f : ℕ → Run α} (hf : Settles f) : ∃ res, Returns f res := by
  obtain ⟨fuel, res, h⟩ := hf.ends
  exact ⟨res, fuel, h⟩

variable {K : Type} [Field K] [LinearOrder K] [IsStrictOrderedRing K] [FloorRing K]

/-- If the embedded calls of `poisson` end, so does `strauss`. -/
theorem strauss_settles (h : Hull K) (u : ℕ → K) (hpo : ∀ (i : K) (pos : ℕ), 0 ≤ i → ∃ fuel res, poisson h u (some i) .none fuel pos = some res)
    (intensity : Option K) (size : SizeArg) (gamma r : K) (n_iter max_iter pos : ℕ) :
    Settles fun fuel => strauss h u intensity size gamma r n_iter max_iter fuel pos := by
  have hp : ∀ (i : K) (pos : ℕ), 0 ≤ i → Settles fun fuel => poisson h u (some i) .none fuel pos := fun i pos hi =>
    ⟨fun hab => poisson_le h u _ _ hab pos, hpo i pos hi⟩
  have hstep : ∀ n x pos, Settles fun fuel => straussStep h u gamma r n fuel x pos := by
    intro n x pos
    refine ⟨fun hab => straussStep_le h u gamma r n hab x pos, ?_⟩
    have hbirth : ∀ pos (g : Squeezed K → ℕ → Run (Squeezed K)), (∀ a p, ∃ res, g a p = some res) →
        ∃ fuel res, (poisson h u (some 1) .none fuel pos).andThen g = some res := by
      intro pos g hg
      exact ((hp 1 pos zero_le_one).andThen (g := fun _ => g) fun a p => by
        obtain ⟨res, e⟩ := hg a p
        rw [e]
        exact Settles.const res).ends
    unfold straussStep
    simp only
    generalize (if _ < n then pos else pos + 1) = q
    generalize (decide (_ < n) || decide (u pos < 1 / 2)) = c
    cases c with
    | true =>
      simp only [if_true]
      refine hbirth q _ fun a p => ?_
      cases x with
      | point _ => exact ⟨_, rfl⟩
      | cube _ _ => exact ⟨_, rfl⟩
      | rows l =>
        simp only
        split
        · exact ⟨_, rfl⟩
        · split <;> exact ⟨_, rfl⟩
    | false =>
      refine ⟨0, ?_⟩
      simp only [Bool.false_eq_true, if_false]
      cases x with
      | point _ => simp only; split <;> exact ⟨_, rfl⟩
      | cube _ _ => simp only; split <;> exact ⟨_, rfl⟩
      | rows l =>
        simp only
        split
        · split
          · exact ⟨_, rfl⟩
          · split <;> exact ⟨_, rfl⟩
        · exact ⟨_, rfl⟩
  have hiter : ∀ n k x pos, Settles fun fuel => straussIter h u gamma r n fuel k x pos := by
    intro n k
    induction k with
    | zero => intro x pos; exact Settles.const _
    | succ k ih =>
      intro x pos
      exact (hstep n x pos).andThen (g := fun fuel x pos => straussIter h u gamma r n fuel k x pos) fun x pos => ih x pos
  have hatt : ∀ n a pos, Settles fun fuel => straussAttempts h u gamma r n n_iter fuel a pos := by
    intro n a
    induction a with
    | zero => intro pos; exact Settles.const _
    | succ a ih =>
      intro pos
      refine (hp _ pos (Nat.cast_nonneg _)).andThen (g := fun fuel points pos =>
        (straussIter h u gamma r n fuel n_iter points pos).andThen fun points pos =>
          match straussTake n points with
          | some l => Run.ret l pos
          | none => straussAttempts h u gamma r n n_iter fuel a pos) fun x pos => ?_
      refine (hiter n n_iter x pos).andThen (g := fun fuel points pos =>
          match straussTake n points with
          | some l => Run.ret l pos
          | none => straussAttempts h u gamma r n n_iter fuel a pos) fun x pos => ?_
      cases straussTake n x with
      | some l => exact Settles.const _
      | none => exact ih pos
  have hrep : ∀ n s i pos, Settles fun fuel =>
      replications (fun _ pos => straussAttempts h u gamma r n n_iter fuel max_iter pos) i s pos := by
    intro n s
    induction s with
    | zero => intro i pos; exact Settles.const _
    | succ s ih =>
      intro i pos
      refine (hatt n max_iter pos).andThen (g := fun fuel l pos' =>
        (replications (fun _ pos => straussAttempts h u gamma r n n_iter fuel max_iter pos) (i + 1) s pos').andThen fun ls pos'' =>
          Run.ret (l :: ls) pos'') fun l pos' => ?_
      exact (ih (i + 1) pos').andThen (g := fun _ ls pos'' => Run.ret (l :: ls) pos'') fun ls pos'' => Settles.const _
  unfold strauss
  cases parseSizeAndIntensity h intensity size with
  | error e => exact Settles.const _
  | ok y =>
    simp only
    refine Settles.ite (Settles.const _) ?_
    exact (hrep _ _ 0 pos).andThen (g := fun _ reps pos' => Run.ret (squeeze y.2.1.toNat y.1.toNat reps) pos') fun _ _ => Settles.const _

end Ends

/-- Almost surely every embedded call of `poisson` ends, wherever it starts. -/
theorem poisson_surely {Ω : Type} [MeasurableSpace Ω] (P : Measure Ω) [IsProbabilityMeasure P] (U : ℕ → Ω → ℝ)
    (hU : IndependentDraws P U ((volume : Measure ℝ).restrict (Set.Ico 0 1)))
    (h : Hull ℝ) (ha : 0 ≤ h.area) (hull : Set (ℝ × ℝ)) (hhull : ∀ x y, h.contains x y = true ↔ (x, y) ∈ hull)
    (hmeas : MeasurableSet hull)
    (hbox : ∀ p ∈ hull, h.bbox.xmin ≤ p.1 ∧ p.1 ≤ h.bbox.xmax ∧ h.bbox.ymin ≤ p.2 ∧ p.2 ≤ h.bbox.ymax)
    (harea : volume hull ≠ 0) :
    ∃ E : Set Ω, P Eᶜ = 0 ∧ ∀ ω ∈ E, ∀ (i : ℝ) (pos : ℕ), 0 ≤ i →
      ∃ fuel res, poisson h (fun j => U j ω) (some i) .none fuel pos = some res := by
  -- the number of points is all that matters of the intensity
  let R : ℕ → ℕ → Set Ω := fun m pos => {ω | ∃ l k, FirstAccepted (candidateAt h (fun j => U j ω) pos) (fun p => h.contains p.1 p.2) m l k}
  have hint : ∀ (i : ℝ), 0 ≤ i → parseSizeAndIntensity h (some i) .none = .ok (((⌊h.area * i⌋.toNat : ℕ) : ℤ), ((1 : ℕ) : ℤ), .fin i) := by
    intro i hi
    have e : parseSizeAndIntensity h (some i) .none
      = .ok ((if 0 ≤ h.area * i then ⌊h.area * i⌋ else ⌈h.area * i⌉), 1, .fin i) := rfl
    rw [e, if_pos (mul_nonneg ha hi), Int.toNat_of_nonneg (Int.floor_nonneg.2 (mul_nonneg ha hi))]
    rfl
  have hR : ∀ m pos, P (R m pos)ᶜ = 0 := by
    intro m pos
    obtain ⟨g1, g2, -⟩ := acceptedShare_box h hull hhull hmeas hbox harea
    have hcand := indepCandidates_of_pairs hU (fun k => pos + 2 * k) (fun k => pos + 2 * k + 1) (fun k => by omega)
      (fun k l hkl => ⟨by omega, by omega, by omega⟩) (boxPoint h.bbox) (measurable_boxPoint _)
    have key := hcand.firstAccepted (accept := fun p => h.contains p.1 p.2) g1 g2 (List.replicate m Set.univ) (by
      intro a ha
      rw [(List.mem_replicate.1 ha).2]
      exact MeasurableSet.univ)
    have hl : IsProbabilityMeasure ((volume : Measure ℝ).restrict (Set.Ico 0 1)) := ⟨by simp⟩
    have hν : IsProbabilityMeasure ((((volume : Measure ℝ).restrict (Set.Ico 0 1)).prod
        ((volume : Measure ℝ).restrict (Set.Ico 0 1))).map (boxPoint h.bbox)) :=
      Measure.isProbabilityMeasure_map (measurable_boxPoint _).aemeasurable
    rw [List.map_replicate, List.prod_replicate, Set.univ_inter, ENNReal.div_self g2 (measure_ne_top _ _), one_pow,
      List.length_replicate] at key
    refine measure_mono_null (t := {ω | ∃ l k, FirstAccepted (fun k => boxPoint h.bbox (U (pos + 2 * k) ω, U (pos + 2 * k + 1) ω))
        (fun p => h.contains p.1 p.2) m l k ∧ List.Forall₂ (fun p a => p ∈ a) l (List.replicate m Set.univ)}ᶜ) ?_ ?_
    · intro ω hω hcon
      apply hω
      obtain ⟨l, k, hF, -⟩ := hcon
      exact ⟨l, k, hF⟩
    · have hnull := (prob_compl_eq_zero_iff₀ (μ := P) (s := {ω | ∃ l k, FirstAccepted (fun k => boxPoint h.bbox (U (pos + 2 * k) ω, U (pos + 2 * k + 1) ω))
        (fun p => h.contains p.1 p.2) m l k ∧ List.Forall₂ (fun p a => p ∈ a) l (List.replicate m Set.univ)}) ?_).2 key
      · exact hnull
      · have := hcand.firstAccepted_measurable (accept := fun p => h.contains p.1 p.2) g1 (List.replicate m Set.univ) (by
          intro a ha
          rw [(List.mem_replicate.1 ha).2]
          exact MeasurableSet.univ)
        rw [List.length_replicate] at this
        exact this.nullMeasurableSet
  refine ⟨⋂ m, ⋂ pos, R m pos, ?_, ?_⟩
  · simp only [Set.compl_iInter]
    exact measure_iUnion_null fun m => measure_iUnion_null fun pos => hR m pos
  · intro ω hω i pos hi
    have hω := Set.mem_iInter.1 (Set.mem_iInter.1 hω ⌊h.area * i⌋.toNat) pos
    obtain ⟨l, k, hF⟩ := hω
    have := (poisson_firstAccepted h (fun j => U j ω) (some i) .none _ _ _ (hint i hi) (by omega) (by omega) pos (fun _ => True)).2
      ⟨l, k, by rw [Nat.cast_one, mul_one, Int.toNat_natCast]; exact hF, trivial⟩
    obtain ⟨r, pos', ⟨fuel, hf⟩, -⟩ := this
    exact ⟨fuel, _, hf⟩

/-- **C46, termination.** In every hull of positive area, and with independent uniform draws, `strauss` ends with probability one:
with a result or with an exception. -/
theorem C46_strauss_ends_surely {Ω : Type} [MeasurableSpace Ω] (P : Measure Ω) [IsProbabilityMeasure P] (U : ℕ → Ω → ℝ)
    (hU : IndependentDraws P U ((volume : Measure ℝ).restrict (Set.Ico 0 1)))
    (h : Hull ℝ) (ha : 0 ≤ h.area) (hull : Set (ℝ × ℝ)) (hhull : ∀ x y, h.contains x y = true ↔ (x, y) ∈ hull)
    (hmeas : MeasurableSet hull)
    (hbox : ∀ p ∈ hull, h.bbox.xmin ≤ p.1 ∧ p.1 ≤ h.bbox.xmax ∧ h.bbox.ymin ≤ p.2 ∧ p.2 ≤ h.bbox.ymax)
    (harea : volume hull ≠ 0)
    (intensity : Option ℝ) (size : SizeArg) (gamma r : ℝ) (n_iter max_iter pos : ℕ) :
    ∀ᵐ ω ∂P, ∃ res, Returns (fun fuel => strauss h (fun i => U i ω) intensity size gamma r n_iter max_iter fuel pos) res := by
  obtain ⟨E, hE, hall⟩ := poisson_surely P U hU h ha hull hhull hmeas hbox harea
  filter_upwards [measure_eq_zero_iff_ae_notMem.1 hE] with ω hω
  exact (strauss_settles h (fun i => U i ω) (hall ω (not_not.1 hω)) intensity size gamma r n_iter max_iter pos).returns

/-- **C144, all hulls.** If the initial patterns are not too small, see `C46_strauss_succeeds`, then `strauss` returns with
probability one and its points are independent and uniform on the hull. -/
theorem C144_hull {Ω : Type} [MeasurableSpace Ω] (P : Measure Ω) [IsProbabilityMeasure P] (U : ℕ → Ω → ℝ)
    (hU : IndependentDraws P U ((volume : Measure ℝ).restrict (Set.Ico 0 1)))
    (h : Hull ℝ) (ha : 0 ≤ h.area) (hull : Set (ℝ × ℝ)) (hhull : ∀ x y, h.contains x y = true ↔ (x, y) ∈ hull)
    (hmeas : MeasurableSet hull)
    (hbox : ∀ p ∈ hull, h.bbox.xmin ≤ p.1 ∧ p.1 ≤ h.bbox.xmax ∧ h.bbox.ymin ≤ p.2 ∧ p.2 ≤ h.bbox.ymax)
    (harea : volume hull ≠ 0)
    (intensity : Option ℝ) (size : SizeArg) (r : ℝ) (n_iter max_iter : ℕ) (hmax : 1 ≤ max_iter) (n s : ℕ) (i : XF ℝ)
    (hp : parseSizeAndIntensity h intensity size = .ok (n, s, i)) (hn : 1 ≤ n)
    (k : ℤ) (hk : IsTrunc (h.area * ((n * 3 / 2 : ℕ) : ℝ)) k) (h2 : 2 ≤ k) (hnk : n ≤ k) (pos : ℕ)
    (A : List (Set (ℝ × ℝ))) (hlen : A.length = n * s) (hA : ∀ a ∈ A, MeasurableSet a) :
    P {ω | ∃ x pos', Returns (fun fuel => strauss h (fun i => U i ω) intensity size 1 r n_iter max_iter fuel pos) (.ok (x, pos'))
        ∧ List.Forall₂ (fun p a => p ∈ a) x.data A}
      = (A.map fun a => volume (a ∩ hull) / volume hull).prod := by
  have hm : ¬ IsTrunc (h.area * ((n * 3 / 2 : ℕ) : ℝ)) 1 := by
    intro h1
    have hpos : 0 ≤ h.area * ((n * 3 / 2 : ℕ) : ℝ) := mul_nonneg ha (Nat.cast_nonneg _)
    obtain ⟨_, h4⟩ := h1.1 hpos
    obtain ⟨h5, _⟩ := hk.1 hpos
    have : (2 : ℝ) ≤ k := by exact_mod_cast h2
    push_cast at h4
    linarith
  rw [C144_uniform_partial P U hU h ha hull hhull hmeas hbox harea intensity size r n_iter max_iter n s i hp hm pos A hlen hA]
  have hone : P {ω | ∃ x pos', Returns (fun fuel => strauss h (fun i => U i ω) intensity size 1 r n_iter max_iter fuel pos)
      (.ok (x, pos'))} = 1 := by
    refine le_antisymm prob_le_one ?_
    have : P Set.univ ≤ P {ω | ∃ x pos', Returns (fun fuel => strauss h (fun i => U i ω) intensity size 1 r n_iter max_iter fuel pos)
        (.ok (x, pos'))} := by
      refine measure_mono_ae ?_
      filter_upwards [C46_strauss_ends_surely P U hU h ha hull hhull hmeas hbox harea intensity size 1 r n_iter max_iter pos] with ω hω
      intro _
      obtain ⟨res, hres⟩ := hω
      cases res with
      | ok y => exact ⟨y.1, y.2, hres⟩
      | error e =>
        exact absurd hres ((C46_strauss_succeeds h ha (fun i => U i ω) intensity size 1 r one_pos n_iter max_iter hmax n s i hp
          (by exact_mod_cast hn) (by omega) k (by simpa using hk) h2 hnk pos).1 e)
    rwa [measure_univ] at this
  rw [hone, one_mul]

/-- Non-vacuity: a triangle of area 2. -/
noncomputable def largeTriangle : Hull ℝ :=
  { bbox := ⟨0, 0, 2, 2⟩, contains := fun x y => decide (0 ≤ x ∧ 0 ≤ y ∧ x + y ≤ 2), area := 2, isArray := false }

/-- The probability that both of two points in the triangle are in its left half. -/
example : ∃ (P : Measure (ℕ → ℝ)) (_ : IsProbabilityMeasure P),
    P {ω | ∃ x pos', Returns (fun fuel => strauss largeTriangle ω none (.int 2) 1 (1 / 10) 100 10 fuel 0) (.ok (x, pos'))
        ∧ List.Forall₂ (fun p a => p ∈ a) x.data [{p | p.1 ≤ 1}, {p | p.1 ≤ 1}]}
      = ([{p | p.1 ≤ 1}, {p : ℝ × ℝ | p.1 ≤ 1}].map fun a =>
          volume (a ∩ {p : ℝ × ℝ | 0 ≤ p.1 ∧ 0 ≤ p.2 ∧ p.1 + p.2 ≤ 2}) / volume {p : ℝ × ℝ | 0 ≤ p.1 ∧ 0 ≤ p.2 ∧ p.1 + p.2 ≤ 2}).prod := by
  obtain ⟨P, hP, hU⟩ := uniformDraws_exist
  refine ⟨P, hP, C144_hull P _ hU largeTriangle (by norm_num [largeTriangle]) {p : ℝ × ℝ | 0 ≤ p.1 ∧ 0 ≤ p.2 ∧ p.1 + p.2 ≤ 2} ?_ ?_ ?_ ?_
    none (.int 2) (1 / 10) 100 10 (by norm_num) 2 1 (.fin 1) ?_ (by norm_num) 6 ?_ (by norm_num) (by norm_num) 0 _ rfl ?_⟩
  · intro x y
    simp [largeTriangle]
  · refine MeasurableSet.inter (measurableSet_le measurable_const measurable_fst)
      (MeasurableSet.inter (measurableSet_le measurable_const measurable_snd) (measurableSet_le (measurable_fst.add measurable_snd) measurable_const))
  · rintro p ⟨h1, h2, h3⟩
    refine ⟨h1, ?_, h2, ?_⟩ <;> simp only [largeTriangle] <;> linarith
  · intro h0
    have := measure_mono_null (s := Set.Icc (0 : ℝ) 1 ×ˢ Set.Icc (0 : ℝ) 1) (by
      rintro ⟨x, y⟩ ⟨⟨h1, h2⟩, ⟨h3, h4⟩⟩
      refine ⟨h1, h3, ?_⟩
      simp only at *
      linarith) h0
    rw [Measure.volume_eq_prod, Measure.prod_prod, Real.volume_Icc] at this
    norm_num at this
  · simp [parseSizeAndIntensity, divArea, largeTriangle, XF.div]
  · constructor <;> intro h <;> norm_num [largeTriangle] at *
  · intro a ha
    simp only [List.mem_cons, List.not_mem_nil, or_false, or_self] at ha
    rw [ha]
    exact measurableSet_le measurable_fst measurable_const

end Pointpats.Props
