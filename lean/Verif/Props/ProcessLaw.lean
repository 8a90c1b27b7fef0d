import Verif.Props.PoissonLaw
import Verif.Props.Process
import Verif.Lemmas.ChunkSampler

/-!
# C109, C110: the distribution of the points of `PoissonPointProcess` and of `runif_in_circle`
-/

set_option linter.unusedSectionVars false

namespace Pointpats.Props

open Random Process Spec MeasureTheory ProbabilityTheory

/-! ### The programs as samplers -/

private theorem toPoints_arr (l : List (ℝ × ℝ)) :
    toPoints (l.map fun p => (Coord.arr1 p.1, Coord.arr1 p.2)) = .ok l := by
  induction l with
  | nil => rfl
  | cons p l ih => rw [List.map_cons, toPoints, ih]; rfl

private theorem draw_eq_rounds (bbox : BBox ℝ) (contains : ℝ × ℝ → Bool) (u : ℕ → ℝ) (n fuel : ℕ) :
    ∀ (pos : ℕ) (sample : List (ℝ × ℝ)), draw contains (poissonRealize bbox u) n fuel pos sample
      = (rounds (boxPoint bbox) contains u n n fuel pos sample).map .ok := by
  induction fuel with
  | zero =>
    intro pos sample
    rw [draw, rounds]
    split <;> rfl
  | succ fuel ih =>
    intro pos sample
    rw [draw, rounds]
    split
    · rfl
    · have e : poissonRealize bbox u n pos
          = some (.ok (((List.range n).map fun i => boxPoint bbox (u (pos + i), u (pos + n + i))).map
              fun p => (Coord.arr1 p.1, Coord.arr1 p.2), pos + 2 * n)) := by
        unfold poissonRealize
        rw [List.map_map]
        rfl
      simp only [e, Run.andThen, toPoints_arr]
      rw [ih]
      congr 2
      simp only [Window.filterContained, chunkFrom, Nat.sub_zero, List.range_eq_range']

private theorem startOf_cons (pos c n : ℕ) (rest : List (ℕ × ℕ)) (hn : n ≠ 0) : startOf pos ((c, n) :: rest) = ⟨pos, c, 0, n, rest⟩ := by
  rw [startOf, if_neg hn]

private theorem realizations_mono (bbox : BBox ℝ) (contains : ℝ × ℝ → Bool) (u : ℕ → ℝ) (sizes : List ℕ) (fuel k : ℕ) :
    ∀ pos ls pos', realizations contains (poissonRealize bbox u) fuel sizes pos = some (.ok (ls, pos')) →
      realizations contains (poissonRealize bbox u) (fuel + k) sizes pos = some (.ok (ls, pos')) := by
  induction sizes with
  | nil => intro pos ls pos' h; exact h
  | cons n ns ih =>
    intro pos ls pos' h
    rw [realizations] at h ⊢
    obtain ⟨l, p, h1, h⟩ := Run.andThen_ok.1 h
    obtain ⟨ls', p', h2, h⟩ := Run.andThen_ok.1 h
    refine Run.andThen_ok.2 ⟨l, p, ?_, Run.andThen_ok.2 ⟨ls', p', ih _ _ _ h2, h⟩⟩
    rw [draw_eq_rounds] at h1 ⊢
    cases hr : rounds (boxPoint bbox) contains u n n fuel pos [] with
    | none => rw [hr] at h1; cases h1
    | some r =>
      rw [hr] at h1
      rw [rounds_mono _ _ _ _ _ fuel k _ _ _ hr]
      exact h1

private theorem realizations_sampled (bbox : BBox ℝ) (contains : ℝ × ℝ → Bool) (u : ℕ → ℝ) (sizes : List ℕ) (fuel : ℕ) :
    ∀ pos ls pos', realizations contains (poissonRealize bbox u) fuel sizes pos = some (.ok (ls, pos')) →
      ls.map List.length = sizes
      ∧ ∃ f, Sampled chunkSampler (boxPoint bbox) contains u f (startOf pos (sizes.map fun n => (n, n))) ls.flatten := by
  induction sizes with
  | nil =>
    intro pos ls pos' h
    rw [realizations, Run.ret_ok] at h
    obtain ⟨rfl, _⟩ := h
    exact ⟨rfl, 0, .nil _ _⟩
  | cons n ns ih =>
    intro pos ls pos' h
    rw [realizations] at h
    obtain ⟨l, p, h1, h⟩ := Run.andThen_ok.1 h
    obtain ⟨ls', p', h2, h⟩ := Run.andThen_ok.1 h
    rw [Run.ret_ok] at h
    obtain ⟨rfl, rfl⟩ := h
    obtain ⟨hlen, f, hf⟩ := ih _ _ _ h2
    rw [draw_eq_rounds] at h1
    cases hr : rounds (boxPoint bbox) contains u n n fuel pos [] with
    | none => rw [hr] at h1; cases h1
    | some r =>
      rw [hr] at h1
      simp only [Option.map_some, Option.some.injEq, Except.ok.injEq] at h1
      subst h1
      rw [List.map_cons, List.map_cons, List.flatten_cons]
      by_cases hn : n = 0
      · subst hn
        rw [rounds_full _ _ _ _ _ _ _ _ (Nat.zero_le _)] at hr
        simp only [List.take_zero, Option.some.injEq, Prod.mk.injEq] at hr
        obtain ⟨rfl, rfl⟩ := hr
        refine ⟨by rw [hlen]; rfl, f, ?_⟩
        rw [startOf, if_pos rfl]
        exact hf
      · obtain ⟨m, rfl, hm, hfw⟩ := rounds_sampled _ _ _ n n (Nat.pos_of_ne_zero hn) fuel pos [] l p (Nat.pos_of_ne_zero hn) hr
        obtain ⟨f', hf'⟩ := hfw f _ _ hf
        refine ⟨by rw [hlen]; simp [hm], f', ?_⟩
        rw [startOf_cons _ _ _ _ hn]
        exact hf'

private theorem sampled_realizations (bbox : BBox ℝ) (contains : ℝ × ℝ → Bool) (u : ℕ → ℝ) (sizes : List ℕ) :
    ∀ pos f (l : List (ℝ × ℝ)), l.length = sizes.sum →
      Sampled chunkSampler (boxPoint bbox) contains u f (startOf pos (sizes.map fun n => (n, n))) l →
      ∃ fuel ls pos', realizations contains (poissonRealize bbox u) fuel sizes pos = some (.ok (ls, pos')) ∧ ls.flatten = l := by
  induction sizes with
  | nil =>
    intro pos f l hl _
    obtain rfl := List.eq_nil_of_length_eq_zero hl
    exact ⟨0, [], pos, rfl, rfl⟩
  | cons n ns ih =>
    intro pos f l hl hs
    rw [List.map_cons] at hs
    rw [List.sum_cons] at hl
    by_cases hn : n = 0
    · subst hn
      rw [startOf, if_pos rfl] at hs
      obtain ⟨fuel, ls, pos', h, rfl⟩ := ih pos f l (by omega) hs
      refine ⟨fuel, [] :: ls, pos', ?_, rfl⟩
      rw [realizations]
      refine Run.andThen_ok.2 ⟨[], pos, ?_, Run.andThen_ok.2 ⟨ls, pos', h, rfl⟩⟩
      rw [draw_eq_rounds, rounds_full _ _ _ _ _ _ _ _ (Nat.zero_le _)]
      rfl
    · rw [startOf_cons _ _ _ _ hn] at hs
      obtain ⟨fuel1, m, l', p, rfl, hm, h1, f', h2⟩ := sampled_rounds _ _ _ n n (Nat.pos_of_ne_zero hn) f pos [] l _
        (Nat.pos_of_ne_zero hn) (by simp; omega) hs
      rw [List.length_append] at hl
      obtain ⟨fuel2, ls, pos', h, rfl⟩ := ih p f' l' (by simp at hm; omega) h2
      refine ⟨fuel1 + fuel2, m :: ls, pos', ?_, rfl⟩
      rw [realizations]
      refine Run.andThen_ok.2 ⟨m, p, ?_, Run.andThen_ok.2 ⟨ls, pos', ?_, rfl⟩⟩
      · rw [draw_eq_rounds, rounds_mono _ _ _ _ _ fuel1 fuel2 _ _ _ h1]
        rfl
      · rw [Nat.add_comm]
        exact realizations_mono bbox contains u ns fuel2 fuel1 _ _ _ h

private theorem forall₂_flatten {α β : Type} {R : α → β → Prop} : ∀ (ls : List (List α)) (As : List (List β)),
    ls.map List.length = As.map List.length → (List.Forall₂ (List.Forall₂ R) ls As ↔ List.Forall₂ R ls.flatten As.flatten) := by
  intro ls
  induction ls with
  | nil =>
    intro As h
    cases As with
    | nil => simp
    | cons A As => simp at h
  | cons l ls ih =>
    intro As h
    cases As with
    | nil => simp at h
    | cons A As =>
      simp only [List.map_cons, List.cons.injEq] at h
      rw [List.forall₂_cons, List.flatten_cons, List.flatten_cons, ih As h.2]
      constructor
      · rintro ⟨h1, h2⟩
        exact List.rel_append h1 h2
      · intro h3
        have h1 := List.forall₂_take l.length h3
        have h2 := List.forall₂_drop l.length h3
        rw [List.take_left', List.take_left' h.1.symm] at h1
        · rw [List.drop_left', List.drop_left' h.1.symm] at h2
          · exact ⟨h1, h2⟩
          · rfl
        · rfl

/-! ### Uniform candidates -/

/-- The probability that a sampler with uniform candidates in a box accepts points in given sets. -/
private theorem box_law {S : Type} (M : Sampler S) {Ω : Type} [MeasurableSpace Ω] (P : Measure Ω) [IsProbabilityMeasure P]
    (U : ℕ → Ω → ℝ) (hU : IndependentDraws P U ((volume : Measure ℝ).restrict (Set.Ico 0 1)))
    (bbox : BBox ℝ) (accept : ℝ × ℝ → Bool) (region : Set (ℝ × ℝ)) (hregion : ∀ p, accept p = true ↔ p ∈ region)
    (hmeas : MeasurableSet region)
    (hbox : ∀ p ∈ region, bbox.xmin ≤ p.1 ∧ p.1 ≤ bbox.xmax ∧ bbox.ymin ≤ p.2 ∧ p.2 ≤ bbox.ymax)
    (harea : volume region ≠ 0) (s : S) (hs : M.good s) (A : List (Set (ℝ × ℝ))) (hA : ∀ a ∈ A, MeasurableSet a) :
    P {ω | ∃ f l, Sampled M (boxPoint bbox) accept (fun i => U i ω) f s l ∧ List.Forall₂ (fun p a => p ∈ a) l A}
      = (A.map fun a => volume (a ∩ region) / volume region).prod := by
  have hset : {p : ℝ × ℝ | accept p = true} = region := by
    ext p
    exact hregion p
  have hsub : region ⊆ Set.Icc bbox.xmin bbox.xmax ×ˢ Set.Icc bbox.ymin bbox.ymax := by
    intro p hp
    obtain ⟨h1, h2, h3, h4⟩ := hbox p hp
    exact ⟨⟨h1, h2⟩, ⟨h3, h4⟩⟩
  have hsides : bbox.xmin < bbox.xmax ∧ bbox.ymin < bbox.ymax := by
    by_contra hcon
    refine harea (measure_mono_null hsub ?_)
    rw [Measure.volume_eq_prod, Measure.prod_prod, Real.volume_Icc, Real.volume_Icc]
    rw [not_and_or, not_lt, not_lt] at hcon
    rcases hcon with hc | hc
    · rw [ENNReal.ofReal_of_nonpos (by linarith), zero_mul]
    · rw [ENNReal.ofReal_of_nonpos (p := bbox.ymax - bbox.ymin) (by linarith), mul_zero]
  obtain ⟨c, c0, c1, hc⟩ := boxPoint_law bbox hsides.1 hsides.2
  have hvol : ∀ a : Set (ℝ × ℝ), MeasurableSet a →
      (c • (volume : Measure (ℝ × ℝ)).restrict (Set.Icc bbox.xmin bbox.xmax ×ˢ Set.Icc bbox.ymin bbox.ymax)) (a ∩ region)
        = c * volume (a ∩ region) := by
    intro a ha
    rw [Measure.smul_apply, smul_eq_mul, Measure.restrict_apply (ha.inter hmeas)]
    congr 2
    exact Set.inter_eq_left.2 (Set.inter_subset_right.trans hsub)
  have hvol' : (c • (volume : Measure (ℝ × ℝ)).restrict (Set.Icc bbox.xmin bbox.xmax ×ˢ Set.Icc bbox.ymin bbox.ymax)) region
        = c * volume region := by
    have := hvol Set.univ MeasurableSet.univ
    rwa [Set.univ_inter] at this
  have key := M.sampled_law (P := P) hU (measurable_boxPoint bbox) (accept := accept) (by rw [hset]; exact hmeas)
    (by rw [hset, hc, hvol']; exact mul_ne_zero c0 harea) s hs A hA
  rw [hset, hc, hvol'] at key
  rw [key]
  congr 1
  refine List.map_congr_left fun a ha => ?_
  rw [hvol a (hA a ha), ENNReal.mul_div_mul_left _ _ c0 c1]

private theorem finite_of_box (bbox : BBox ℝ) (region : Set (ℝ × ℝ))
    (hbox : ∀ p ∈ region, bbox.xmin ≤ p.1 ∧ p.1 ≤ bbox.xmax ∧ bbox.ymin ≤ p.2 ∧ p.2 ≤ bbox.ymax) : volume region ≠ ⊤ := by
  refine ne_top_of_le_ne_top ?_ (measure_mono (t := Set.Icc bbox.xmin bbox.xmax ×ˢ Set.Icc bbox.ymin bbox.ymax) ?_)
  · rw [Measure.volume_eq_prod, Measure.prod_prod, Real.volume_Icc, Real.volume_Icc]
    exact ENNReal.mul_ne_top ENNReal.ofReal_ne_top ENNReal.ofReal_ne_top
  · intro p hp
    obtain ⟨h1, h2, h3, h4⟩ := hbox p hp
    exact ⟨⟨h1, h2⟩, ⟨h3, h4⟩⟩

/-! ### C109 -/

/-- **C109.** Let the draws of the generator be independent and uniform on `[0, 1)`, and let the window have a positive area and
lie in its bounding box. Then the probability that the construction of a `PoissonPointProcess` ends, with point `j` of
realisation `i` in the set `A_ij` for all `i` and `j`, is the product of the shares `area (A_ij ∩ window) / area window`: the
points are independent, within and between realisations, and uniformly distributed on the window. The sizes are `n` for each of
`samples` realisations, or, with conditioning, the Poisson counts `lambdas`, which are given here. -/
theorem C109_process_uniform {Ω : Type} [MeasurableSpace Ω] (P : Measure Ω) [IsProbabilityMeasure P] (U : ℕ → Ω → ℝ)
    (hU : IndependentDraws P U ((volume : Measure ℝ).restrict (Set.Ico 0 1)))
    (bbox : BBox ℝ) (contains : ℝ × ℝ → Bool) (window : Set (ℝ × ℝ)) (hwindow : ∀ p, contains p = true ↔ p ∈ window)
    (hmeas : MeasurableSet window)
    (hbox : ∀ p ∈ window, bbox.xmin ≤ p.1 ∧ p.1 ≤ bbox.xmax ∧ bbox.ymin ≤ p.2 ∧ p.2 ≤ bbox.ymax)
    (harea : volume window ≠ 0) (n samples : ℕ) (conditioning : Bool) (lambdas : List ℕ) (pos : ℕ)
    (A : List (List (Set (ℝ × ℝ))))
    (hlen : A.map List.length = if conditioning then lambdas else List.replicate samples n)
    (hA : ∀ as ∈ A, ∀ a ∈ as, MeasurableSet a) :
    P {ω | ∃ ls pos', Returns (fun fuel => poissonProcess bbox contains (fun i => U i ω) n samples conditioning lambdas fuel pos)
          (.ok (ls, pos')) ∧ List.Forall₂ (List.Forall₂ fun p a => p ∈ a) ls A}
      = (A.flatten.map fun a => volume (a ∩ window) / volume window).prod := by
  rw [← box_law chunkSampler P U hU bbox contains window hwindow hmeas hbox harea
    (startOf pos ((A.map List.length).map fun n => (n, n))) (startOf_isGood _ _ (by
      intro x hx hx0
      obtain ⟨m, _, rfl⟩ := List.mem_map.1 hx
      exact Nat.pos_of_ne_zero hx0)) A.flatten (by
      intro a ha
      obtain ⟨as, has, ha⟩ := List.mem_flatten.1 ha
      exact hA as has a ha)]
  congr 1
  ext ω
  simp only [Set.mem_ofPred_eq]
  constructor
  · rintro ⟨ls, pos', ⟨fuel, h⟩, hl⟩
    obtain ⟨h1, f, h2⟩ := realizations_sampled bbox contains _ _ fuel pos ls pos' h
    have h1' : ls.map List.length = A.map List.length := h1.trans hlen.symm
    have h2' : Sampled chunkSampler (boxPoint bbox) contains (fun i => U i ω) f
        (startOf pos ((A.map List.length).map fun n => (n, n))) ls.flatten := by rw [hlen]; exact h2
    exact ⟨f, ls.flatten, h2', (forall₂_flatten ls A h1').1 hl⟩
  · rintro ⟨f, l, h, hl⟩
    have hlen' := hl.length_eq
    rw [List.length_flatten] at hlen'
    obtain ⟨fuel, ls, pos', h1, rfl⟩ := sampled_realizations bbox contains _ _ pos f l hlen' h
    rw [hlen] at h1
    obtain ⟨h2, _⟩ := realizations_sampled bbox contains _ _ fuel pos ls pos' h1
    exact ⟨ls, pos', ⟨fuel, h1⟩, (forall₂_flatten ls A (h2.trans hlen.symm)).2 hl⟩

/-- **C109, termination.** Under the same hypotheses the construction ends with probability one. -/
theorem C109_process_ends {Ω : Type} [MeasurableSpace Ω] (P : Measure Ω) [IsProbabilityMeasure P] (U : ℕ → Ω → ℝ)
    (hU : IndependentDraws P U ((volume : Measure ℝ).restrict (Set.Ico 0 1)))
    (bbox : BBox ℝ) (contains : ℝ × ℝ → Bool) (window : Set (ℝ × ℝ)) (hwindow : ∀ p, contains p = true ↔ p ∈ window)
    (hmeas : MeasurableSet window)
    (hbox : ∀ p ∈ window, bbox.xmin ≤ p.1 ∧ p.1 ≤ bbox.xmax ∧ bbox.ymin ≤ p.2 ∧ p.2 ≤ bbox.ymax)
    (harea : volume window ≠ 0) (n samples : ℕ) (conditioning : Bool) (lambdas : List ℕ) (pos : ℕ) :
    P {ω | ∃ ls pos', Returns (fun fuel => poissonProcess bbox contains (fun i => U i ω) n samples conditioning lambdas fuel pos)
          (.ok (ls, pos'))} = 1 := by
  have key := C109_process_uniform P U hU bbox contains window hwindow hmeas hbox harea n samples conditioning lambdas pos
    ((if conditioning then lambdas else List.replicate samples n).map fun k => List.replicate k Set.univ) (by
      rw [List.map_map]
      conv_rhs => rw [← List.map_id (if conditioning then lambdas else List.replicate samples n)]
      refine List.map_congr_left fun k _ => ?_
      simp) (by
      intro as has a ha
      obtain ⟨k, _, rfl⟩ := List.mem_map.1 has
      rw [(List.mem_replicate.1 ha).2]
      exact MeasurableSet.univ)
  rw [List.prod_eq_one] at key
  · refine le_antisymm prob_le_one ?_
    rw [← key]
    refine measure_mono ?_
    rintro ω ⟨ls, pos', h1, -⟩
    exact ⟨ls, pos', h1⟩
  · intro x hx
    obtain ⟨a, ha, rfl⟩ := List.mem_map.1 hx
    obtain ⟨as, has, ha⟩ := List.mem_flatten.1 ha
    obtain ⟨k, _, rfl⟩ := List.mem_map.1 has
    rw [(List.mem_replicate.1 ha).2, Set.univ_inter, ENNReal.div_self harea (finite_of_box bbox window hbox)]

/-! ### C110 -/

private theorem circleLoop_eq_rounds (r : ℝ) (center : ℝ × ℝ) (inHull : ℝ → ℝ → Bool) (u : ℕ → ℝ) (n fuel : ℕ) :
    ∀ (pos : ℕ) (sample : List (ℝ × ℝ)), circleLoop r center inHull u n fuel pos (sample.take n)
      = (rounds (boxPoint ⟨-r, -r, r, r⟩)
          (fun p => decide (p.1 * p.1 + p.2 * p.2 ≤ r * r) && inHull (p.1 + center.1) (p.2 + center.2)) u (2 * n) n fuel pos
          sample).map fun x => .ok (x.1.map fun p => (p.1 + center.1, p.2 + center.2), x.2) := by
  have hc : ∀ sample : List (ℝ × ℝ), n ≤ (sample.take n).length ↔ n ≤ sample.length := by
    intro sample
    rw [List.length_take]
    omega
  induction fuel with
  | zero =>
    intro pos sample
    rw [circleLoop, rounds]
    simp only [hc]
    split <;> rfl
  | succ fuel ih =>
    intro pos sample
    rw [circleLoop, rounds]
    simp only [hc]
    split
    · rfl
    · next hn =>
      have e : sample.take n ++ (circleChunk r center inHull u n pos).take (n - (sample.take n).length)
          = (sample ++ circleChunk r center inHull u n pos).take n := by
        rw [List.take_append, List.length_take, Nat.min_eq_right (by omega)]
      rw [e, ih, show pos + 4 * n = pos + 2 * (2 * n) by ring]
      congr 2
      unfold circleChunk chunkFrom
      rw [Nat.sub_zero, ← List.range_eq_range']
      rfl

/-- The part of the hull within distance `r` of the centre. -/
def discIn (r : ℝ) (center : ℝ × ℝ) (hull : Set (ℝ × ℝ)) : Set (ℝ × ℝ) :=
  {p | (p.1 - center.1) ^ 2 + (p.2 - center.2) ^ 2 ≤ r ^ 2} ∩ hull

theorem measurableSet_discIn (r : ℝ) (center : ℝ × ℝ) {hull : Set (ℝ × ℝ)} (h : MeasurableSet hull) :
    MeasurableSet (discIn r center hull) := by
  refine MeasurableSet.inter (measurableSet_le ?_ measurable_const) h
  exact ((measurable_fst.sub measurable_const).pow_const 2).add ((measurable_snd.sub measurable_const).pow_const 2)

/-- **C110.** Let the draws of the generator be independent and uniform on `[0, 1)` and let the part of the hull in the disc have
a positive area. Then the probability that the sampling of `n` points in the disc ends, with the `k`-th point in the set `A_k`
for all `k < n`, is the product of the shares `area (A_k ∩ disc ∩ hull) / area (disc ∩ hull)`: the points are independent and
uniformly distributed on the part of the hull in the disc. -/
theorem C110_circle_uniform {Ω : Type} [MeasurableSpace Ω] (P : Measure Ω) [IsProbabilityMeasure P] (U : ℕ → Ω → ℝ)
    (hU : IndependentDraws P U ((volume : Measure ℝ).restrict (Set.Ico 0 1)))
    (r : ℝ) (hr : 0 ≤ r) (center : ℝ × ℝ) (inHull : ℝ → ℝ → Bool) (hull : Set (ℝ × ℝ))
    (hhull : ∀ x y, inHull x y = true ↔ (x, y) ∈ hull) (hmeas : MeasurableSet hull)
    (harea : volume (discIn r center hull) ≠ 0) (n pos : ℕ)
    (A : List (Set (ℝ × ℝ))) (hlen : A.length = n) (hA : ∀ a ∈ A, MeasurableSet a) :
    P {ω | ∃ l pos', Returns (fun fuel => uniformCircle n r center inHull (fun i => U i ω) fuel pos) (.ok (l, pos'))
        ∧ List.Forall₂ (fun p a => p ∈ a) l A}
      = (A.map fun a => volume (a ∩ discIn r center hull) / volume (discIn r center hull)).prod := by
  have hmeas' := measurableSet_discIn r center hmeas
  -- the region of the candidates is the disc, moved to the origin
  have hshift : MeasurePreserving (fun p : ℝ × ℝ => p + center) volume volume := by
    rw [Measure.volume_eq_prod]
    exact (measurePreserving_add_right volume center.1).prod (measurePreserving_add_right volume center.2)
  have hms : Measurable fun p : ℝ × ℝ => p + center := hshift.measurable
  set region := (fun p : ℝ × ℝ => p + center) ⁻¹' discIn r center hull with hregion
  have hvol : ∀ a : Set (ℝ × ℝ), MeasurableSet a → volume ((fun p : ℝ × ℝ => p + center) ⁻¹' a) = volume a := fun a ha =>
    hshift.measure_preimage ha.nullMeasurableSet
  have hmem : ∀ p : ℝ × ℝ, (decide (p.1 * p.1 + p.2 * p.2 ≤ r * r) && inHull (p.1 + center.1) (p.2 + center.2)) = true
      ↔ p ∈ region := by
    intro p
    rw [Bool.and_eq_true, decide_eq_true_eq, hhull]
    simp only [hregion, discIn, Set.mem_preimage, Set.mem_inter_iff, Set.mem_ofPred_eq, Prod.fst_add, Prod.snd_add,
      add_sub_cancel_right, pow_two]
    rfl
  have hbox : ∀ p ∈ region, -r ≤ p.1 ∧ p.1 ≤ r ∧ -r ≤ p.2 ∧ p.2 ≤ r := by
    intro p hp
    have h1 := (hmem p).2 hp
    rw [Bool.and_eq_true, decide_eq_true_eq] at h1
    have h2 := h1.1
    have a1 : |p.1| ≤ r := abs_le_of_sq_le_sq (by nlinarith [mul_self_nonneg p.2]) hr
    have a2 : |p.2| ≤ r := abs_le_of_sq_le_sq (by nlinarith [mul_self_nonneg p.1]) hr
    obtain ⟨b1, b2⟩ := abs_le.1 a1
    obtain ⟨b3, b4⟩ := abs_le.1 a2
    exact ⟨b1, b2, b3, b4⟩
  have key := box_law chunkSampler P U hU ⟨-r, -r, r, r⟩
    (fun p => decide (p.1 * p.1 + p.2 * p.2 ≤ r * r) && inHull (p.1 + center.1) (p.2 + center.2)) region hmem (hms hmeas') hbox
    (by rw [hregion, hvol _ hmeas']; exact harea) (startOf pos [(2 * n, n)]) (startOf_isGood _ _ (by
      intro x hx hx0
      rw [List.mem_singleton] at hx
      subst hx
      simp only at hx0 ⊢
      omega)) (A.map fun a => (fun p : ℝ × ℝ => p + center) ⁻¹' a) (by
      intro a ha
      obtain ⟨b, hb, rfl⟩ := List.mem_map.1 ha
      exact hms (hA b hb))
  have hrhs : ((A.map fun a => (fun p : ℝ × ℝ => p + center) ⁻¹' a).map fun a => volume (a ∩ region) / volume region)
      = A.map fun a => volume (a ∩ discIn r center hull) / volume (discIn r center hull) := by
    rw [List.map_map]
    refine List.map_congr_left fun a ha => ?_
    simp only [Function.comp]
    rw [hregion, ← Set.preimage_inter, hvol _ ((hA a ha).inter hmeas'), hvol _ hmeas']
  rw [hrhs] at key
  rw [← key]
  congr 1
  ext ω
  simp only [Set.mem_ofPred_eq, List.forall₂_map_right_iff, Set.mem_preimage]
  have hloop : ∀ fuel, uniformCircle n r center inHull (fun i => U i ω) fuel pos
      = (rounds (boxPoint ⟨-r, -r, r, r⟩)
          (fun p => decide (p.1 * p.1 + p.2 * p.2 ≤ r * r) && inHull (p.1 + center.1) (p.2 + center.2)) (fun i => U i ω)
          (2 * n) n fuel pos []).map fun x => .ok (x.1.map fun p => (p.1 + center.1, p.2 + center.2), x.2) := by
    intro fuel
    have := circleLoop_eq_rounds r center inHull (fun i => U i ω) n fuel pos []
    rw [List.take_nil] at this
    exact this
  constructor
  · rintro ⟨l, pos', ⟨fuel, h⟩, hl⟩
    replace h := (hloop fuel).symm.trans h
    cases hr : rounds (boxPoint ⟨-r, -r, r, r⟩)
          (fun p => decide (p.1 * p.1 + p.2 * p.2 ≤ r * r) && inHull (p.1 + center.1) (p.2 + center.2)) (fun i => U i ω)
          (2 * n) n fuel pos [] with
    | none => rw [hr] at h; cases h
    | some x =>
      rw [hr] at h
      simp only [Option.map_some, Option.some.injEq, Except.ok.injEq, Prod.mk.injEq] at h
      obtain ⟨rfl, rfl⟩ := h
      rw [List.forall₂_map_left_iff] at hl
      obtain ⟨x, p⟩ := x
      simp only at hl
      by_cases hn : n = 0
      · subst hn
        obtain rfl := List.eq_nil_of_length_eq_zero hlen
        exact ⟨0, [], .nil _ _, .nil⟩
      · obtain ⟨m, rfl, hm, hfw⟩ := rounds_sampled _ _ _ (2 * n) n (by omega) fuel pos [] x p (Nat.pos_of_ne_zero hn) hr
        obtain ⟨f', hf'⟩ := hfw 0 [] [] (.nil _ _)
        rw [List.append_nil] at hf'
        refine ⟨f', x, ?_, hl⟩
        rw [startOf_cons _ _ _ _ hn]
        exact hf'
  · rintro ⟨f, l, h, hl⟩
    by_cases hn : n = 0
    · subst hn
      obtain rfl := List.eq_nil_of_length_eq_zero hlen
      cases hl
      refine ⟨[], pos, ⟨0, (hloop 0).trans ?_⟩, .nil⟩
      rw [rounds_full _ _ _ _ _ _ _ _ (Nat.zero_le _)]
      rfl
    · rw [startOf_cons _ _ _ _ hn] at h
      have hl' := hl.length_eq
      obtain ⟨fuel, m, l', p, rfl, hm, h1, f', h2⟩ := sampled_rounds _ _ _ (2 * n) n (by omega) f pos [] l _
        (Nat.pos_of_ne_zero hn) (by simp; omega) h
      rw [List.length_append] at hl'
      obtain rfl : l' = [] := List.eq_nil_of_length_eq_zero (by simp at hm; omega)
      rw [List.append_nil] at hl
      refine ⟨m.map fun p => (p.1 + center.1, p.2 + center.2), p, ⟨fuel, (hloop fuel).trans ?_⟩, ?_⟩
      · rw [h1]
        rfl
      · rw [List.forall₂_map_left_iff]
        exact hl

/-- A disc has a positive area. -/
theorem discIn_univ_pos (r : ℝ) (hr : 0 < r) (center : ℝ × ℝ) : volume (discIn r center Set.univ) ≠ 0 := by
  intro h0
  have := measure_mono_null (s := Set.Icc (center.1 - r / 2) (center.1 + r / 2) ×ˢ Set.Icc (center.2 - r / 2) (center.2 + r / 2)) (by
    rintro ⟨x, y⟩ ⟨⟨h1, h2⟩, ⟨h3, h4⟩⟩
    simp only at h1 h2 h3 h4
    refine ⟨?_, trivial⟩
    show (x - center.1) ^ 2 + (y - center.2) ^ 2 ≤ r ^ 2
    nlinarith) h0
  rw [Measure.volume_eq_prod, Measure.prod_prod, Real.volume_Icc, Real.volume_Icc] at this
  rcases mul_eq_zero.1 this with h | h <;> rw [ENNReal.ofReal_eq_zero] at h <;> linarith

/-- **C110, without a hull.** The points of `runif_in_circle(n, radius, center)` with a positive radius are independent and
uniformly distributed on the disc. -/
theorem C110_runif_in_circle_uniform {Ω : Type} [MeasurableSpace Ω] (P : Measure Ω) [IsProbabilityMeasure P] (U : ℕ → Ω → ℝ)
    (hU : IndependentDraws P U ((volume : Measure ℝ).restrict (Set.Ico 0 1)))
    (r : ℝ) (hr : 0 < r) (center : ℝ × ℝ) (n pos : ℕ)
    (A : List (Set (ℝ × ℝ))) (hlen : A.length = n) (hA : ∀ a ∈ A, MeasurableSet a) :
    P {ω | ∃ l pos', Returns (fun fuel => runifInCircle n r center (fun i => U i ω) fuel pos) (.ok (l, pos'))
        ∧ List.Forall₂ (fun p a => p ∈ a) l A}
      = (A.map fun a => volume (a ∩ {p | Within r p center}) / volume {p | Within r p center}).prod := by
  have key := C110_circle_uniform P U hU r hr.le center (fun _ _ => true) Set.univ (by simp) MeasurableSet.univ
    (discIn_univ_pos r hr center) n pos A hlen hA
  have e : discIn r center Set.univ = {p | Within r p center} := Set.inter_univ _
  rw [e] at key
  exact key

/-- **C110, termination.** `runif_in_circle` with a positive radius returns with probability one. -/
theorem C110_runif_in_circle_returns {Ω : Type} [MeasurableSpace Ω] (P : Measure Ω) [IsProbabilityMeasure P] (U : ℕ → Ω → ℝ)
    (hU : IndependentDraws P U ((volume : Measure ℝ).restrict (Set.Ico 0 1)))
    (r : ℝ) (hr : 0 < r) (center : ℝ × ℝ) (n pos : ℕ) :
    P {ω | ∃ l pos', Returns (fun fuel => runifInCircle n r center (fun i => U i ω) fuel pos) (.ok (l, pos'))} = 1 := by
  have key := C110_runif_in_circle_uniform P U hU r hr center n pos (List.replicate n Set.univ) (by simp) (by
    intro a ha
    rw [(List.mem_replicate.1 ha).2]
    exact MeasurableSet.univ)
  have hfin : volume {p : ℝ × ℝ | Within r p center} ≠ ⊤ := by
    refine finite_of_box ⟨center.1 - r, center.2 - r, center.1 + r, center.2 + r⟩ _ ?_
    intro p hp
    have h2 : (p.1 - center.1) ^ 2 + (p.2 - center.2) ^ 2 ≤ r ^ 2 := hp
    have a1 : |p.1 - center.1| ≤ r := abs_le_of_sq_le_sq (by nlinarith [sq_nonneg (p.2 - center.2)]) hr.le
    have a2 : |p.2 - center.2| ≤ r := abs_le_of_sq_le_sq (by nlinarith [sq_nonneg (p.1 - center.1)]) hr.le
    obtain ⟨b1, b2⟩ := abs_le.1 a1
    obtain ⟨b3, b4⟩ := abs_le.1 a2
    refine ⟨?_, ?_, ?_, ?_⟩ <;> simp only <;> linarith
  have hne : volume {p : ℝ × ℝ | Within r p center} ≠ 0 := by
    have := discIn_univ_pos r hr center
    rwa [show discIn r center Set.univ = {p | Within r p center} from Set.inter_univ _] at this
  rw [List.map_replicate, List.prod_replicate, Set.univ_inter, ENNReal.div_self hne hfin, one_pow] at key
  refine le_antisymm prob_le_one ?_
  rw [← key]
  refine measure_mono ?_
  rintro ω ⟨l, pos', h1, -⟩
  exact ⟨l, pos', h1⟩

/-- Non-vacuity: there are draws that meet the hypotheses, and the disc is a window for C109. -/
example : ∃ (P : Measure (ℕ → ℝ)) (_ : IsProbabilityMeasure P),
    P {ω | ∃ ls pos', Returns (fun fuel => poissonProcess ⟨-1, -1, 1, 1⟩ (fun p => decide (p.1 ^ 2 + p.2 ^ 2 ≤ 1)) ω 2 3 false []
        fuel 0) (.ok (ls, pos'))} = 1 := by
  obtain ⟨P, hP, hU⟩ := uniformDraws_exist
  refine ⟨P, hP, C109_process_ends P _ hU ⟨-1, -1, 1, 1⟩ _ (discIn 1 (0, 0) Set.univ) ?_
    (measurableSet_discIn 1 (0, 0) MeasurableSet.univ) ?_ (discIn_univ_pos 1 one_pos (0, 0)) 2 3 false [] 0⟩
  · intro p
    simp [discIn]
  · rintro p ⟨hp, -⟩
    have h2 : (p.1 - 0) ^ 2 + (p.2 - 0) ^ 2 ≤ (1 : ℝ) ^ 2 := hp
    refine ⟨?_, ?_, ?_, ?_⟩ <;> simp only <;> nlinarith [sq_nonneg p.1, sq_nonneg p.2]

end Pointpats.Props
