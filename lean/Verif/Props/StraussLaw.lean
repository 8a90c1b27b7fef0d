import Verif.Lemmas.StraussBlind

/-!
# C144: without interaction `strauss` draws independent points, uniform on the hull
-/

set_option linter.unusedSectionVars false

namespace Pointpats.Props

open Random Spec MeasureTheory ProbabilityTheory

section Fuel

variable {K : Type} [Field K] [LinearOrder K] [IsStrictOrderedRing K] [FloorRing K]

/-- What has ended has the same result with a larger bound. -/
def RunLe {α : Type} (a b : Run α) : Prop := ∀ x, a = some x → b = some x

theorem RunLe.refl {α : Type} (a : Run α) : RunLe a a := fun _ h => h

theorem RunLe.andThen {α β : Type} {a b : Run α} {f g : α → ℕ → Run β} (h : RunLe a b) (hf : ∀ x pos, RunLe (f x pos) (g x pos)) :
    RunLe (a.andThen f) (b.andThen g) := by
  intro x hx
  cases a with
  | none => cases hx
  | some r =>
    rw [h r rfl]
    cases r with
    | error e => exact hx
    | ok y => exact hf y.1 y.2 x hx

theorem rejection_le (cand : ℕ → K × K) (accept : K × K → Bool) {f f' : ℕ} (hf : f ≤ f') (pos n : ℕ) :
    RunLe (rejection cand accept f pos n) (rejection cand accept f' pos n) := by
  intro x hx
  obtain ⟨k, rfl⟩ := Nat.exists_eq_add_of_le hf
  exact rejection_mono cand accept f k pos n x hx

theorem poisson_le (h : Hull K) (u : ℕ → K) (intensity : Option K) (size : SizeArg) {f f' : ℕ} (hf : f ≤ f') (pos : ℕ) :
    RunLe (poisson h u intensity size f pos) (poisson h u intensity size f' pos) := by
  unfold poisson
  split
  · exact RunLe.refl _
  · split
    · exact RunLe.refl _
    · refine RunLe.andThen ?_ fun _ _ => RunLe.refl _
      intro x hx
      exact replications_mono _ _ _ _ _ _ (fun j p r hr => rejection_le _ _ hf _ _ _ hr) hx

theorem straussStep_le (h : Hull K) (u : ℕ → K) (gamma r : K) (n : ℕ) {f f' : ℕ} (hf : f ≤ f') (x : Squeezed K) (pos : ℕ) :
    RunLe (straussStep h u gamma r n f x pos) (straussStep h u gamma r n f' x pos) := by
  have hite : ∀ (c : Prop) [Decidable c] (a a' b : Run (Squeezed K)), RunLe a a' → RunLe (if c then a else b) (if c then a' else b) := by
    intro c _ a a' b h
    split
    · exact h
    · exact RunLe.refl _
  unfold straussStep
  exact hite _ _ _ _ (RunLe.andThen (poisson_le h u _ _ hf _) fun _ _ => RunLe.refl _)

theorem straussIter_le (h : Hull K) (u : ℕ → K) (gamma r : K) (n : ℕ) {f f' : ℕ} (hf : f ≤ f') (k : ℕ) : ∀ (x : Squeezed K) (pos : ℕ),
    RunLe (straussIter h u gamma r n f k x pos) (straussIter h u gamma r n f' k x pos) := by
  induction k with
  | zero => intro x pos; exact RunLe.refl _
  | succ k ih => intro x pos; exact RunLe.andThen (straussStep_le h u gamma r n hf x pos) fun x pos => ih x pos

theorem straussAttempts_le (h : Hull K) (u : ℕ → K) (gamma r : K) (n n_iter : ℕ) {f f' : ℕ} (hf : f ≤ f') (a : ℕ) : ∀ pos : ℕ,
    RunLe (straussAttempts h u gamma r n n_iter f a pos) (straussAttempts h u gamma r n n_iter f' a pos) := by
  induction a with
  | zero => intro pos; exact RunLe.refl _
  | succ a ih =>
    intro pos
    refine RunLe.andThen (poisson_le h u _ _ hf pos) fun x pos => RunLe.andThen (straussIter_le h u gamma r n hf n_iter x pos) fun x pos => ?_
    cases straussTake n x with
    | some l => exact RunLe.refl _
    | none => exact ih pos

theorem strauss_le (h : Hull K) (u : ℕ → K) (intensity : Option K) (size : SizeArg) (gamma r : K) (n_iter max_iter : ℕ) {f f' : ℕ}
    (hf : f ≤ f') (pos : ℕ) :
    RunLe (strauss h u intensity size gamma r n_iter max_iter f pos) (strauss h u intensity size gamma r n_iter max_iter f' pos) := by
  unfold strauss
  split
  · exact RunLe.refl _
  · split
    · exact RunLe.refl _
    · refine RunLe.andThen ?_ fun _ _ => RunLe.refl _
      intro x hx
      exact replications_mono _ _ _ _ _ _ (fun j p r' hr => straussAttempts_le h u gamma r _ n_iter hf max_iter p _ hr) hx

end Fuel

/-- Among candidates that are uniform on the bounding box, the accepted ones are uniform on the hull. -/
theorem acceptedShare_box (h : Hull ℝ) (hull : Set (ℝ × ℝ)) (hhull : ∀ x y, h.contains x y = true ↔ (x, y) ∈ hull)
    (hmeas : MeasurableSet hull)
    (hbox : ∀ p ∈ hull, h.bbox.xmin ≤ p.1 ∧ p.1 ≤ h.bbox.xmax ∧ h.bbox.ymin ≤ p.2 ∧ p.2 ≤ h.bbox.ymax)
    (harea : volume hull ≠ 0) :
    MeasurableSet {p : ℝ × ℝ | h.contains p.1 p.2 = true}
    ∧ ((((volume : Measure ℝ).restrict (Set.Ico 0 1)).prod ((volume : Measure ℝ).restrict (Set.Ico 0 1))).map (boxPoint h.bbox))
        {p : ℝ × ℝ | h.contains p.1 p.2 = true} ≠ 0
    ∧ ∀ a, MeasurableSet a → acceptedShare
        ((((volume : Measure ℝ).restrict (Set.Ico 0 1)).prod ((volume : Measure ℝ).restrict (Set.Ico 0 1))).map (boxPoint h.bbox))
        {p : ℝ × ℝ | h.contains p.1 p.2 = true} a = volume (a ∩ hull) / volume hull := by
  have hset : {p : ℝ × ℝ | h.contains p.1 p.2 = true} = hull := by
    ext p
    exact hhull p.1 p.2
  have hsides : h.bbox.xmin < h.bbox.xmax ∧ h.bbox.ymin < h.bbox.ymax := by
    by_contra hcon
    refine harea (measure_mono_null (t := Set.Icc h.bbox.xmin h.bbox.xmax ×ˢ Set.Icc h.bbox.ymin h.bbox.ymax) ?_ ?_)
    · intro p hp
      obtain ⟨h1, h2, h3, h4⟩ := hbox p hp
      exact ⟨⟨h1, h2⟩, ⟨h3, h4⟩⟩
    · rw [Measure.volume_eq_prod, Measure.prod_prod, Real.volume_Icc, Real.volume_Icc]
      rw [not_and_or, not_lt, not_lt] at hcon
      rcases hcon with hc | hc
      · rw [ENNReal.ofReal_of_nonpos (by linarith), zero_mul]
      · rw [ENNReal.ofReal_of_nonpos (p := h.bbox.ymax - h.bbox.ymin) (by linarith), mul_zero]
  obtain ⟨c, c0, c1, hc⟩ := boxPoint_law h.bbox hsides.1 hsides.2
  have hvol : ∀ a : Set (ℝ × ℝ), MeasurableSet a →
      (c • (volume : Measure (ℝ × ℝ)).restrict (Set.Icc h.bbox.xmin h.bbox.xmax ×ˢ Set.Icc h.bbox.ymin h.bbox.ymax)) (a ∩ hull)
        = c * volume (a ∩ hull) := by
    intro a ha
    rw [Measure.smul_apply, smul_eq_mul, Measure.restrict_apply (ha.inter hmeas)]
    congr 2
    refine Set.inter_eq_left.2 ?_
    rintro p ⟨-, hp⟩
    obtain ⟨h1, h2, h3, h4⟩ := hbox p hp
    exact ⟨⟨h1, h2⟩, ⟨h3, h4⟩⟩
  have hvol' : (c • (volume : Measure (ℝ × ℝ)).restrict (Set.Icc h.bbox.xmin h.bbox.xmax ×ˢ Set.Icc h.bbox.ymin h.bbox.ymax)) hull
        = c * volume hull := by
    have := hvol Set.univ MeasurableSet.univ
    rwa [Set.univ_inter] at this
  rw [hset, hc]
  refine ⟨hmeas, by rw [hvol']; exact mul_ne_zero c0 harea, fun a ha => ?_⟩
  rw [acceptedShare, hvol a ha, hvol', ENNReal.mul_div_mul_left _ _ c0 c1]

theorem strauss_lengths (h : Hull ℝ) (u : ℕ → ℝ) (r : ℝ) (n n_iter fuel : ℕ) (hm : ⌊h.area * ((n * 3 / 2 : ℕ) : ℝ)⌋.toNat ≠ 1)
    (ha : 0 ≤ h.area) (a : ℕ) : ∀ (pos : ℕ) (l : List (ℝ × ℝ)) (pos' : ℕ),
    straussAttempts h u 1 r n n_iter fuel a pos = some (.ok (l, pos')) → l.length = n := by
  induction a with
  | zero => intro pos l pos' hx; cases hx
  | succ a ih =>
    intro pos l pos' hx
    rw [straussAttempts, poisson_intensity h u ha _ (Nat.cast_nonneg _)] at hx
    obtain ⟨x, q, h1, h2⟩ := Run.andThen_ok.1 hx
    obtain ⟨l0, q0, _, h4⟩ := Run.andThen_ok.1 h1
    rw [Run.ret_ok] at h4
    obtain ⟨rfl, rfl⟩ := h4
    have hsq : squeeze 1 ⌊h.area * ((n * 3 / 2 : ℕ) : ℝ)⌋.toNat [l0] = .rows l0 := by simp [squeeze, hm]
    rw [hsq] at h2
    obtain ⟨y, q', h5, h6⟩ := Run.andThen_ok.1 h2
    obtain ⟨l', rfl⟩ := iter_keeps_rows h u r n fuel n_iter _ _ _ _ h5
    simp only [straussTake] at h6
    by_cases hn : n ≤ l'.length
    · rw [if_pos hn] at h6
      simp only [Run.ret_ok] at h6
      rw [← h6.1, List.length_take]
      omega
    · rw [if_neg hn] at h6
      exact ih _ _ _ h6

/-- What `strauss` returns, in terms of the blind program. -/
theorem strauss_blind (h : Hull ℝ) (ha : 0 ≤ h.area) (u : ℕ → ℝ) (intensity : Option ℝ) (size : SizeArg) (r : ℝ) (n_iter max_iter : ℕ)
    (n s : ℕ) (i : XF ℝ) (hp : parseSizeAndIntensity h intensity size = .ok (n, s, i))
    (hm : ⌊h.area * ((n * 3 / 2 : ℕ) : ℝ)⌋.toNat ≠ 1) (fuel pos : ℕ) (l : List (ℝ × ℝ)) :
    (∃ x pos', strauss h u intensity size 1 r n_iter max_iter fuel pos = some (.ok (x, pos')) ∧ x.data = l) ↔
      (blindReps n ⌊h.area * 1⌋.toNat ⌊h.area * ((n * 3 / 2 : ℕ) : ℝ)⌋.toNat fuel n_iter max_iter s [] 0 pos).out
        (boxPoint h.bbox) (fun p => h.contains p.1 p.2) u [] = some l := by
  have hout := blindReps_out h u ha n n_iter max_iter fuel r hm s 0 [] pos [] (by simp)
  simp only [List.length_nil] at hout
  rw [hout]
  have hlens : ∀ reps pos', replications (fun _ pos => straussAttempts h u 1 r n n_iter fuel max_iter pos) 0 s pos = some (.ok (reps, pos'))
      → (squeeze s n reps).data = reps.flatten := by
    intro reps pos' hr
    obtain ⟨h1, h2⟩ := replications_spec _ _ _ _ _ _ hr
    refine squeeze_data s n reps h1 fun rep hrep => ?_
    obtain ⟨j, p, p', hj⟩ := h2 rep hrep
    exact strauss_lengths h u r n n_iter fuel hm ha max_iter p rep p' hj.2
  unfold strauss
  rw [hp]
  have hneg : ¬ (((n : ℤ) < 0) ∨ ((s : ℤ) < 0)) := by omega
  simp only [if_neg hneg, Int.toNat_natCast]
  constructor
  · rintro ⟨x, pos', hx, rfl⟩
    obtain ⟨reps, q, h1, h2⟩ := Run.andThen_ok.1 hx
    rw [Run.ret_ok] at h2
    rw [h1, ← h2.1, hlens reps q h1]
    simp [onOk, named]
  · intro hx
    obtain ⟨reps, q, h1, h2⟩ := onOk_isSome hx
    refine ⟨squeeze s n reps, q, Run.andThen_ok.2 ⟨reps, q, h1, rfl⟩, ?_⟩
    rw [hlens reps q h1]
    simpa [named] using h2

/-- **C144, partial.** Let the draws of the generator be independent and uniform on `[0, 1)`, let the arguments of `strauss` resolve to
`n` points in `s` replications in a hull of positive area inside its bounding box, and let there be no interaction, `gamma = 1`. If the
initial patterns do not have exactly one point, then the probability that `strauss` returns, with its `k`-th point in the set `A_k` for
all `k < n s`, is the probability that it returns, times the product over `k` of the shares `area (A_k ∩ hull) / area hull`: given that
`strauss` returns, the points are independent of each other and uniformly distributed on the hull, whatever the radius and the numbers
of iterations and attempts. What is missing: initial patterns of one point, see `C144_refuted`. -/
theorem C144_uniform_partial {Ω : Type} [MeasurableSpace Ω] (P : Measure Ω) [IsProbabilityMeasure P] (U : ℕ → Ω → ℝ)
    (hU : IndependentDraws P U ((volume : Measure ℝ).restrict (Set.Ico 0 1)))
    (h : Hull ℝ) (ha : 0 ≤ h.area) (hull : Set (ℝ × ℝ)) (hhull : ∀ x y, h.contains x y = true ↔ (x, y) ∈ hull)
    (hmeas : MeasurableSet hull)
    (hbox : ∀ p ∈ hull, h.bbox.xmin ≤ p.1 ∧ p.1 ≤ h.bbox.xmax ∧ h.bbox.ymin ≤ p.2 ∧ p.2 ≤ h.bbox.ymax)
    (harea : volume hull ≠ 0)
    (intensity : Option ℝ) (size : SizeArg) (r : ℝ) (n_iter max_iter : ℕ) (n s : ℕ) (i : XF ℝ)
    (hp : parseSizeAndIntensity h intensity size = .ok (n, s, i))
    (hm : ¬ IsTrunc (h.area * ((n * 3 / 2 : ℕ) : ℝ)) 1) (pos : ℕ)
    (A : List (Set (ℝ × ℝ))) (hlen : A.length = n * s) (hA : ∀ a ∈ A, MeasurableSet a) :
    P {ω | ∃ x pos', Returns (fun fuel => strauss h (fun i => U i ω) intensity size 1 r n_iter max_iter fuel pos) (.ok (x, pos'))
        ∧ List.Forall₂ (fun p a => p ∈ a) x.data A}
      = P {ω | ∃ x pos', Returns (fun fuel => strauss h (fun i => U i ω) intensity size 1 r n_iter max_iter fuel pos) (.ok (x, pos'))}
        * (A.map fun a => volume (a ∩ hull) / volume hull).prod := by
  have hm' : ⌊h.area * ((n * 3 / 2 : ℕ) : ℝ)⌋.toNat ≠ 1 := by
    intro h1
    apply hm
    have h1 : ⌊h.area * ((n * 3 / 2 : ℕ) : ℝ)⌋ = 1 := by omega
    have := Int.floor_eq_iff.1 h1
    push_cast at this
    refine ⟨fun _ => ⟨by push_cast; exact this.1, by push_cast; exact this.2⟩, fun h0 => ?_⟩
    exfalso
    linarith [this.1]
  obtain ⟨g1, g2, g3⟩ := acceptedShare_box h hull hhull hmeas hbox harea
  let T : ℕ → Blind ℝ := fun fuel =>
    blindReps n ⌊h.area * 1⌋.toNat ⌊h.area * ((n * 3 / 2 : ℕ) : ℝ)⌋.toNat fuel n_iter max_iter s [] 0 pos
  have hT : ∀ fuel, (T fuel).Ok (n * s) pos 0 := by
    intro fuel
    have := blindReps_ok n ⌊h.area * 1⌋.toNat ⌊h.area * ((n * 3 / 2 : ℕ) : ℝ)⌋.toNat fuel n_iter max_iter s [] 0 pos (by simp) (by simp)
    rwa [List.length_nil, Nat.zero_add] at this
  have hb : ∀ ω fuel l, (∃ x pos', strauss h (fun i => U i ω) intensity size 1 r n_iter max_iter fuel pos = some (.ok (x, pos')) ∧ x.data = l) ↔
      (T fuel).out (boxPoint h.bbox) (fun p => h.contains p.1 p.2) (fun i => U i ω) [] = some l := fun ω fuel l =>
    strauss_blind h ha (fun i => U i ω) intensity size r n_iter max_iter n s i hp hm' fuel pos l
  have hmono : ∀ ω {f f'} l, f ≤ f' → (T f).out (boxPoint h.bbox) (fun p => h.contains p.1 p.2) (fun i => U i ω) [] = some l →
      (T f').out (boxPoint h.bbox) (fun p => h.contains p.1 p.2) (fun i => U i ω) [] = some l := by
    intro ω f f' l hf hl
    obtain ⟨x, pos', h1, h2⟩ := (hb ω f l).2 hl
    exact (hb ω f' l).1 ⟨x, pos', strauss_le h _ intensity size 1 r n_iter max_iter hf pos _ h1, h2⟩
  have e1 : {ω | ∃ x pos', Returns (fun fuel => strauss h (fun i => U i ω) intensity size 1 r n_iter max_iter fuel pos) (.ok (x, pos'))
        ∧ List.Forall₂ (fun p a => p ∈ a) x.data A}
      = ⋃ fuel, {ω | ∃ l, (T fuel).out (boxPoint h.bbox) (fun p => h.contains p.1 p.2) (fun i => U i ω) [] = some l
          ∧ List.Forall₂ (fun p a => p ∈ a) l A} := by
    ext ω
    simp only [Set.mem_ofPred_eq, Set.mem_iUnion]
    constructor
    · rintro ⟨x, pos', ⟨fuel, h1⟩, h2⟩
      exact ⟨fuel, x.data, (hb ω fuel _).1 ⟨x, pos', h1, rfl⟩, h2⟩
    · rintro ⟨fuel, l, h1, h2⟩
      obtain ⟨x, pos', h3, rfl⟩ := (hb ω fuel l).2 h1
      exact ⟨x, pos', ⟨fuel, h3⟩, h2⟩
  have e2 : {ω | ∃ x pos', Returns (fun fuel => strauss h (fun i => U i ω) intensity size 1 r n_iter max_iter fuel pos) (.ok (x, pos'))}
      = ⋃ fuel, {ω | ∃ l, (T fuel).out (boxPoint h.bbox) (fun p => h.contains p.1 p.2) (fun i => U i ω) [] = some l} := by
    ext ω
    simp only [Set.mem_ofPred_eq, Set.mem_iUnion]
    constructor
    · rintro ⟨x, pos', ⟨fuel, h1⟩⟩
      exact ⟨fuel, x.data, (hb ω fuel _).1 ⟨x, pos', h1, rfl⟩⟩
    · rintro ⟨fuel, l, h1⟩
      obtain ⟨x, pos', h3, rfl⟩ := (hb ω fuel l).2 h1
      exact ⟨x, pos', ⟨fuel, h3⟩⟩
  rw [e1, e2, Monotone.measure_iUnion, Monotone.measure_iUnion, ENNReal.iSup_mul]
  · refine iSup_congr fun fuel => ?_
    rw [Blind.out_law (T fuel) pos (hT fuel) hU (measurable_boxPoint _) g1 g2 A hlen hA]
    congr 2
    exact List.map_congr_left fun a ha => g3 a (hA a ha)
  · rintro f f' hf ω ⟨l, h1⟩
    exact ⟨l, hmono ω l hf h1⟩
  · rintro f f' hf ω ⟨l, h1, h2⟩
    exact ⟨l, hmono ω l hf h1, h2⟩

/-- **C144, boxes.** In a box with initial patterns that are not too small, see `C46_strauss_succeeds`, `strauss` returns with
probability one, and the probability is the product of the shares. -/
theorem C144_box {Ω : Type} [MeasurableSpace Ω] (P : Measure Ω) [IsProbabilityMeasure P] (U : ℕ → Ω → ℝ)
    (hU : IndependentDraws P U ((volume : Measure ℝ).restrict (Set.Ico 0 1)))
    (b : BBox ℝ) (hx : b.xmin < b.xmax) (hy : b.ymin < b.ymax)
    (intensity : Option ℝ) (size : SizeArg) (r : ℝ) (n_iter max_iter : ℕ) (hmax : 1 ≤ max_iter) (n s : ℕ) (i : XF ℝ)
    (hp : parseSizeAndIntensity (Hull.ofBBox b) intensity size = .ok (n, s, i)) (hn : 1 ≤ n)
    (k : ℤ) (hk : IsTrunc ((b.xmax - b.xmin) * (b.ymax - b.ymin) * ((n * 3 / 2 : ℕ) : ℝ)) k) (h2 : 2 ≤ k) (hnk : n ≤ k) (pos : ℕ)
    (A : List (Set (ℝ × ℝ))) (hlen : A.length = n * s) (hA : ∀ a ∈ A, MeasurableSet a) :
    P {ω | ∃ x pos', Returns (fun fuel => strauss (Hull.ofBBox b) (fun i => U i ω) intensity size 1 r n_iter max_iter fuel pos)
          (.ok (x, pos')) ∧ List.Forall₂ (fun p a => p ∈ a) x.data A}
      = (A.map fun a => volume (a ∩ Set.Icc b.xmin b.xmax ×ˢ Set.Icc b.ymin b.ymax)
          / volume (Set.Icc b.xmin b.xmax ×ˢ Set.Icc b.ymin b.ymax)).prod := by
  have hareaEq : (Hull.ofBBox b).area = (b.xmax - b.xmin) * (b.ymax - b.ymin) := by
    simp [Hull.ofBBox, Geometry.areaBBox, abs_of_pos (sub_pos.2 hx), abs_of_pos (sub_pos.2 hy)]
  have ha : 0 ≤ (Hull.ofBBox b).area := by
    rw [hareaEq]
    exact mul_nonneg (sub_pos.2 hx).le (sub_pos.2 hy).le
  rw [C144_uniform_partial P U hU (Hull.ofBBox b) ha (Set.Icc b.xmin b.xmax ×ˢ Set.Icc b.ymin b.ymax) ?_ ?_ ?_ ?_ intensity size r n_iter
    max_iter n s i hp ?_ pos A hlen hA]
  · have hone : P {ω | ∃ x pos', Returns (fun fuel => strauss (Hull.ofBBox b) (fun i => U i ω) intensity size 1 r n_iter max_iter fuel pos)
          (.ok (x, pos'))} = 1 := by
      have hdraws : ∀ᵐ ω ∂P, IsDraws fun i => U i ω := by
        rw [show (∀ᵐ ω ∂P, IsDraws fun i => U i ω) ↔ ∀ᵐ ω ∂P, ∀ i, U i ω ∈ Set.Ico (0 : ℝ) 1 from Iff.rfl, ae_all_iff]
        intro j
        have hj : ∀ᵐ y ∂(P.map (U j)), y ∈ Set.Ico (0 : ℝ) 1 := by
          rw [hU.distribution j]
          exact ae_restrict_mem measurableSet_Ico
        exact ae_of_ae_map (hU.measurable j).aemeasurable hj
      refine le_antisymm prob_le_one ?_
      have : P Set.univ ≤ P {ω | ∃ x pos', Returns (fun fuel => strauss (Hull.ofBBox b) (fun i => U i ω) intensity size 1 r n_iter max_iter
          fuel pos) (.ok (x, pos'))} := by
        refine measure_mono_ae ?_
        filter_upwards [hdraws] with ω hω
        intro _
        exact (C46_strauss_succeeds (Hull.ofBBox b) ha (fun i => U i ω) intensity size 1 r one_pos n_iter max_iter hmax n s i hp
          (by exact_mod_cast hn) (by omega) k (by rw [hareaEq]; simpa using hk) h2 hnk pos).2 b rfl hx.le hy.le hω
      rwa [measure_univ] at this
    rw [hone, one_mul]
  · intro x y
    simp [Hull.ofBBox, Geometry.containsBBox]
    tauto
  · exact measurableSet_Icc.prod measurableSet_Icc
  · rintro p ⟨⟨h1, h2⟩, ⟨h3, h4⟩⟩
    exact ⟨h1, h2, h3, h4⟩
  · rw [Measure.volume_eq_prod, Measure.prod_prod, Real.volume_Icc, Real.volume_Icc]
    refine mul_ne_zero ?_ ?_ <;> (rw [Ne, ENNReal.ofReal_eq_zero, not_le]; linarith)
  · rw [hareaEq]
    intro h1
    have hpos : 0 ≤ (b.xmax - b.xmin) * (b.ymax - b.ymin) * ((n * 3 / 2 : ℕ) : ℝ) :=
      mul_nonneg (by rw [← hareaEq]; exact ha) (Nat.cast_nonneg _)
    obtain ⟨_, h4⟩ := h1.1 hpos
    obtain ⟨h5, _⟩ := hk.1 hpos
    have : (2 : ℝ) ≤ k := by exact_mod_cast h2
    push_cast at h4
    linarith

/-- Non-vacuity: two points in the unit square, from initial patterns of three points. -/
example : ∃ (P : Measure (ℕ → ℝ)) (_ : IsProbabilityMeasure P),
    P {ω | ∃ x pos', Returns (fun fuel => strauss (Hull.ofBBox ⟨0, 0, 1, 1⟩) ω none (.int 2) 1 (1 / 10) 100 10 fuel 0) (.ok (x, pos'))
        ∧ List.Forall₂ (fun p a => p ∈ a) x.data [{p | p.1 ≤ 1 / 2}, {p | 1 / 3 ≤ p.2}]}
      = ([{p | p.1 ≤ 1 / 2}, {p : ℝ × ℝ | 1 / 3 ≤ p.2}].map fun a =>
          volume (a ∩ Set.Icc (0 : ℝ) 1 ×ˢ Set.Icc (0 : ℝ) 1) / volume (Set.Icc (0 : ℝ) 1 ×ˢ Set.Icc (0 : ℝ) 1)).prod := by
  obtain ⟨P, hP, hU⟩ := uniformDraws_exist
  refine ⟨P, hP, C144_box P _ hU ⟨0, 0, 1, 1⟩ (by norm_num) (by norm_num) none (.int 2) (1 / 10) 100 10 (by norm_num) 2 1 (.fin 2) ?_
    (by norm_num) 3 ?_ (by norm_num) (by norm_num) 0 _ rfl ?_⟩
  · simp [parseSizeAndIntensity, divArea, Hull.ofBBox, Geometry.areaBBox, XF.div]
  · constructor <;> intro h <;> norm_num at *
  · intro a ha
    simp only [List.mem_cons, List.not_mem_nil, or_false] at ha
    rcases ha with rfl | rfl
    · exact measurableSet_le measurable_fst measurable_const
    · exact measurableSet_le measurable_const measurable_snd

section Refuted

variable {K : Type} [Field K] [LinearOrder K] [IsStrictOrderedRing K] [FloorRing K]

/-- **C144 is false of initial patterns of one point.** For two points in a box of area one half the initial patterns have one
point, which NumPy treats as an array of two numbers. `strauss` returns it twice, as two rows, for every stream of draws for which it
returns, and there are such streams: the two points are equal, not independent. -/
theorem C144_refuted (r : K) (n_iter max_iter : ℕ) (hmax : 1 ≤ max_iter) :
    (∀ (u : ℕ → K) (x : Squeezed K) (pos pos' : ℕ), IsDraws u →
      Returns (fun fuel => strauss (Hull.ofBBox (⟨0, 0, 1, 1 / 2⟩ : BBox K)) u none (.int 2) 1 r n_iter max_iter fuel pos) (.ok (x, pos')) →
      ∃ p, x = .rows [p, p])
    ∧ ∃ (u : ℕ → K) (x : Squeezed K) (pos' : ℕ), IsDraws u ∧
      Returns (fun fuel => strauss (Hull.ofBBox (⟨0, 0, 1, 1 / 2⟩ : BBox K)) u none (.int 2) 1 r n_iter max_iter fuel 0)
        (.ok (x, pos')) := by
  set h := Hull.ofBBox (⟨0, 0, 1, 1 / 2⟩ : BBox K) with hh
  have harea : h.area = 1 / 2 := by simp [hh, Hull.ofBBox, Geometry.areaBBox]
  have hparse : parseSizeAndIntensity h none (.int 2) = .ok (2, 1, .fin 4) := by
    simp only [parseSizeAndIntensity, divArea, harea]
    norm_num [hh, Hull.ofBBox, XF.div, bind, Except.bind, pure, Except.pure]
  have hcount : straussCount h ((2 * 3 / 2 : ℕ) : K) = 1 := by
    unfold straussCount
    rw [harea, if_pos (by norm_num)]
    rw [Int.floor_eq_iff]
    norm_num
  -- a single point stays
  have hstay : ∀ (u : ℕ → K) (fuel k pos : ℕ) (p : K × K) (x : Squeezed K) (pos' : ℕ),
      straussIter h u 1 r 2 fuel k (.point p) pos = some (.ok (x, pos')) → x = .point p := by
    intro u fuel k
    induction k with
    | zero =>
      intro pos p x pos' hx
      rw [straussIter, Run.ret_ok] at hx
      exact hx.1.symm
    | succ k ih =>
      intro pos p x pos' hx
      rw [straussIter] at hx
      obtain ⟨y, q, h1, h2⟩ := Run.andThen_ok.1 hx
      unfold straussStep at h1
      simp only [lt_irrefl, decide_false, Bool.false_or, if_false] at h1
      split at h1
      · obtain ⟨a, b, _, h3⟩ := Run.andThen_ok.1 h1
        cases h3
      · rw [Run.ret_ok] at h1
        rw [← h1.1] at h2
        exact ih _ _ _ _ h2
  have hdata : ∀ (u : ℕ → K) (fuel a pos : ℕ) (l : List (K × K)) (pos' : ℕ),
      straussAttempts h u 1 r 2 n_iter fuel a pos = some (.ok (l, pos')) → ∃ p, l = [p, p] := by
    intro u fuel a
    induction a with
    | zero => intro pos l pos' hx; cases hx
    | succ a ih =>
      intro pos l pos' hx
      rw [straussAttempts] at hx
      obtain ⟨y, q, h1, h2⟩ := Run.andThen_ok.1 hx
      obtain ⟨p, rfl⟩ := (strauss_embedded h u _ fuel pos y q h1).2.2 hcount
      obtain ⟨z, q', h3, h4⟩ := Run.andThen_ok.1 h2
      rw [hstay u fuel n_iter q p z q' h3] at h4
      simp only [straussTake, le_refl, if_true, Run.ret_ok] at h4
      exact ⟨p, h4.1.symm⟩
  refine ⟨?_, ?_⟩
  · rintro u x pos pos' - ⟨fuel, hx⟩
    simp only [strauss, hparse] at hx
    rw [if_neg (by norm_num)] at hx
    obtain ⟨reps, q, h1, h2⟩ := Run.andThen_ok.1 hx
    simp only [Int.toNat_one, Run.ret_ok] at h2
    obtain ⟨h3, h4⟩ := replications_spec _ _ _ _ _ _ h1
    obtain ⟨rep, rfl⟩ := List.length_eq_one_iff.1 h3
    obtain ⟨j, p, p', hj⟩ := h4 rep (by simp)
    obtain ⟨c, hc⟩ := hdata u fuel max_iter p rep p' hj.2
    refine ⟨c, ?_⟩
    rw [← h2.1, hc]
    simp [squeeze]
  · have hu : IsDraws (fun _ => (1 / 2 : K)) := fun _ => ⟨by norm_num, by norm_num⟩
    obtain ⟨m, rfl⟩ := Nat.exists_eq_succ_of_ne_zero (by omega : max_iter ≠ 0)
    obtain ⟨⟨x, pos'⟩, hx⟩ : ∃ y : Squeezed K × ℕ, Returns (fun fuel => strauss h (fun _ => (1 / 2 : K)) none (.int 2) 1 r n_iter (m + 1) fuel 0) (.ok y) := by
      obtain ⟨res, hres⟩ := C46_strauss_ends (⟨0, 0, 1, 1 / 2⟩ : BBox K) (by norm_num) (by norm_num) _ hu none (.int 2) 1 r n_iter (m + 1) 0
      cases res with
      | ok y => exact ⟨y, hres⟩
      | error e =>
        exfalso
        obtain ⟨fuel, hx⟩ := hres
        simp only [← hh, strauss, hparse] at hx
        rw [if_neg (by norm_num)] at hx
        rcases Run.andThen_error.1 hx with hx | ⟨y, q, _, hx⟩
        · obtain ⟨j, p, hj⟩ := replications_error _ _ _ _ _ hx
          rw [straussAttempts] at hj
          rcases Run.andThen_error.1 hj with hj | ⟨y, q, h1, hj⟩
          · have hpn : parseSizeAndIntensity h (some (((2 : ℤ).toNat * 3 / 2 : ℕ) : K)) .none = .ok (1, 1, .fin (((2 : ℤ).toNat * 3 / 2 : ℕ) : K)) := by
              have e : parseSizeAndIntensity h (some (((2 : ℤ).toNat * 3 / 2 : ℕ) : K)) .none
                = .ok (straussCount h (((2 : ℤ).toNat * 3 / 2 : ℕ) : K), 1, .fin (((2 : ℤ).toNat * 3 / 2 : ℕ) : K)) := rfl
              rw [e]
              exact congrArg (fun c => Except.ok (c, (1 : ℤ), XF.fin (((2 : ℤ).toNat * 3 / 2 : ℕ) : K))) hcount
            unfold poisson at hj
            rw [hpn] at hj
            simp only [if_neg (show ¬ ((1 : ℤ) < 0 ∨ (1 : ℤ) < 0) by norm_num)] at hj
            rcases Run.andThen_error.1 hj with hj | ⟨a, p, _, hj⟩
            · obtain ⟨j, p, hj⟩ := replications_error _ _ _ _ _ hj
              exact rejection_no_error _ _ _ _ _ _ hj
            · cases hj
          · obtain ⟨p, rfl⟩ := (strauss_embedded h _ _ fuel _ y q h1).2.2 hcount
            have hit : ∀ k q, straussIter h (fun _ => (1 / 2 : K)) 1 r (2 : ℤ).toNat fuel k (.point p) q = some (.ok (.point p, q + k)) := by
              intro k
              induction k with
              | zero => intro q; rfl
              | succ k ih =>
                intro q
                have : straussStep h (fun _ => (1 / 2 : K)) 1 r (2 : ℤ).toNat fuel (.point p) q = some (.ok (.point p, q + 1)) := by
                  unfold straussStep
                  simp [Run.ret]
                rw [straussIter, this]
                have := ih (q + 1)
                rw [show q + 1 + k = q + (k + 1) by omega] at this
                exact this
            rw [hit] at hj
            simp [Run.andThen, straussTake, Run.ret] at hj
        · cases hx
    exact ⟨_, x, pos', hu, hx⟩

end Refuted

end Pointpats.Props
