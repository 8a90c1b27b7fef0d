import Verif.Spec.Normal
import Verif.Lemmas.StrongMarkov
import Verif.Lemmas.MeasurableSamplers
import Verif.Lemmas.RejectionLaw
import Verif.Props.RandomNormal
import Verif.Props.PoissonLaw
import Mathlib.MeasureTheory.Measure.CharacteristicFunction.Basic
import Mathlib.MeasureTheory.Measure.Lebesgue.EqHaar
import Mathlib.MeasureTheory.Constructions.BorelSpace.ContinuousLinearMap

/-!
# C149: the distribution of the points of `normal`
-/

namespace Pointpats.Props

open Random MeasureTheory ProbabilityTheory Spec MeasurableRun FuelMono StrongMarkov

set_option linter.unusedSectionVars false

/-! ### The normal distribution in the plane -/

/-- There is only one normal distribution with a given mean and covariance matrix. -/
theorem bivariateNormal_unique {ν ν' : Measure (ℝ × ℝ)} {mean : ℝ × ℝ} {a b c d : ℝ} (h : BivariateNormal ν mean a b c d)
    (h' : BivariateNormal ν' mean a b c d) : ν = ν' := by
  have fin : ∀ {μ : Measure (ℝ × ℝ)}, BivariateNormal μ mean a b c d → IsFiniteMeasure μ := by
    intro μ hμ
    have := congrArg (fun m => m Set.univ) (hμ 0 0)
    beta_reduce at this
    rw [Measure.map_apply (by fun_prop) MeasurableSet.univ, Set.preimage_univ] at this
    exact ⟨by rw [this]; exact measure_lt_top _ _⟩
  have := fin h
  have := fin h'
  refine Measure.ext_of_charFunDual ?_
  ext L
  have hL : (L : ℝ × ℝ → ℝ) = fun p => L (1, 0) * p.1 + L (0, 1) * p.2 := by
    funext p
    have : p = p.1 • ((1, 0) : ℝ × ℝ) + p.2 • ((0, 1) : ℝ × ℝ) := by ext <;> simp
    conv_lhs => rw [this]
    rw [map_add, map_smul, map_smul, smul_eq_mul, smul_eq_mul]
    ring
  rw [charFunDual_eq_charFun_map_one, charFunDual_eq_charFun_map_one, hL, h, h']

/-- The image of two independent standard normal numbers under a factor of the matrix. -/
theorem bivariateNormal_of_factor {p q r s a b c d : ℝ} (h : IsFactor p q r s a b c d) (mean : ℝ × ℝ) :
    BivariateNormal (((gaussianReal 0 1).prod (gaussianReal 0 1)).map fun z : ℝ × ℝ =>
      (mean.1 + (p * z.1 + q * z.2), mean.2 + (r * z.1 + s * z.2))) mean a b c d := by
  intro v w
  obtain ⟨h1, h2, h3, h4⟩ := h
  rw [Measure.map_map (by fun_prop) (by fun_prop)]
  set γ := gaussianReal 0 1 with hγ
  have hX : (γ.prod γ).map (fun z : ℝ × ℝ => (v * p + w * r) * z.1) = gaussianReal 0 ((v * p + w * r) ^ 2).toNNReal := by
    have e : (fun z : ℝ × ℝ => (v * p + w * r) * z.1) = (fun x => (v * p + w * r) * x) ∘ Prod.fst := rfl
    rw [e, ← Measure.map_map (by fun_prop) measurable_fst, Measure.map_fst_prod, measure_univ, one_smul, hγ,
      gaussianReal_map_const_mul, mul_zero, mul_one]
    congr 1
    exact (Real.toNNReal_of_nonneg (sq_nonneg _)).symm
  have hY : (γ.prod γ).map (fun z : ℝ × ℝ => (v * q + w * s) * z.2) = gaussianReal 0 ((v * q + w * s) ^ 2).toNNReal := by
    have e : (fun z : ℝ × ℝ => (v * q + w * s) * z.2) = (fun x => (v * q + w * s) * x) ∘ Prod.snd := rfl
    rw [e, ← Measure.map_map (by fun_prop) measurable_snd, Measure.map_snd_prod, measure_univ, one_smul, hγ,
      gaussianReal_map_const_mul, mul_zero, mul_one]
    congr 1
    exact (Real.toNNReal_of_nonneg (sq_nonneg _)).symm
  have hind : IndepFun (fun z : ℝ × ℝ => (v * p + w * r) * z.1) (fun z : ℝ × ℝ => (v * q + w * s) * z.2) (γ.prod γ) :=
    indepFun_prod (μ := γ) (ν := γ) (X := fun x => (v * p + w * r) * x) (Y := fun x => (v * q + w * s) * x) (by fun_prop) (by fun_prop)
  have hsum := gaussianReal_add_gaussianReal_of_indepFun hind hX hY
  have hmap : ((fun z : ℝ × ℝ => v * z.1 + w * z.2) ∘ fun z : ℝ × ℝ => (mean.1 + (p * z.1 + q * z.2), mean.2 + (r * z.1 + s * z.2)))
      = (fun x => (v * mean.1 + w * mean.2) + x)
        ∘ ((fun z : ℝ × ℝ => (v * p + w * r) * z.1) + fun z : ℝ × ℝ => (v * q + w * s) * z.2) := by
    funext z
    simp only [Function.comp, Pi.add_apply]
    ring
  rw [hmap, ← Measure.map_map (by fun_prop) (by fun_prop), hsum, gaussianReal_map_const_add, add_zero, zero_add,
    ← Real.toNNReal_add (sq_nonneg _) (sq_nonneg _)]
  congr 2
  rw [← h1, ← h2, ← h3, ← h4]
  ring

/-- A covariance matrix of positive determinant has a factor, which is triangular. -/
private theorem cholesky {a b c d : ℝ} (h : IsCovariance a b c d) (hdet : 0 < a * d - b * c) :
    IsFactor (Real.sqrt a) 0 (b / Real.sqrt a) (Real.sqrt (d - b * b / a)) a b c d
      ∧ Real.sqrt a ≠ 0 ∧ Real.sqrt (d - b * b / a) ≠ 0 := by
  obtain ⟨ha, hd, rfl, -⟩ := h
  have h1 := Real.mul_self_sqrt ha.le
  have h2 : Real.sqrt a ≠ 0 := (Real.sqrt_pos.2 ha).ne'
  have h3 : 0 < d - b * b / a := by
    rw [sub_pos, div_lt_iff₀ ha]
    linarith
  have h4 := Real.mul_self_sqrt h3.le
  have h5 : b / Real.sqrt a * (b / Real.sqrt a) = b * b / a := by
    rw [div_mul_div_comm, h1]
  refine ⟨⟨by rw [h1]; ring, by field_simp; ring, by field_simp; ring, by rw [h4, h5]; ring⟩, h2, (Real.sqrt_pos.2 h3).ne'⟩

/-- A normal distribution whose covariance matrix has positive determinant gives positive probability to every set of positive
area. -/
theorem bivariateNormal_pos {ν : Measure (ℝ × ℝ)} {mean : ℝ × ℝ} {a b c d : ℝ} (h : BivariateNormal ν mean a b c d)
    (hc : IsCovariance a b c d) (hdet : 0 < a * d - b * c) {B : Set (ℝ × ℝ)} (hB : MeasurableSet B) (hvol : volume B ≠ 0) :
    ν B ≠ 0 := by
  obtain ⟨hf, hp, hs⟩ := cholesky hc hdet
  generalize Real.sqrt a = p, b / Real.sqrt a = r, Real.sqrt (d - b * b / a) = s at hf hp hs
  obtain rfl := bivariateNormal_unique h (bivariateNormal_of_factor hf mean)
  rw [Measure.map_apply (by fun_prop) hB]
  intro h0
  have hac : (volume : Measure (ℝ × ℝ)).AbsolutelyContinuous ((gaussianReal 0 1).prod (gaussianReal 0 1)) :=
    (gaussianReal_absolutelyContinuous' 0 one_ne_zero).prod (gaussianReal_absolutelyContinuous' 0 one_ne_zero)
  have h1 := hac h0
  let L : ℝ × ℝ →ₗ[ℝ] ℝ × ℝ :=
    { toFun := fun z => (p * z.1 + 0 * z.2, r * z.1 + s * z.2)
      map_add' := fun x y => by ext <;> simp <;> ring
      map_smul' := fun k x => by ext <;> simp <;> ring }
  refine hvol (measure_mono_null (t := (fun x => (-mean) + x) ⁻¹' (L '' ((fun z : ℝ × ℝ =>
      (mean.1 + (p * z.1 + 0 * z.2), mean.2 + (r * z.1 + s * z.2))) ⁻¹' B))) ?_ ?_)
  · rintro ⟨x, y⟩ hxy
    have e1 : mean.1 + (p * ((x - mean.1) / p) + 0 * ((y - mean.2 - r * ((x - mean.1) / p)) / s)) = x := by
      rw [mul_div_cancel₀ _ hp]; ring
    have e2 : mean.2 + (r * ((x - mean.1) / p) + s * ((y - mean.2 - r * ((x - mean.1) / p)) / s)) = y := by
      rw [mul_div_cancel₀ _ hs]; ring
    refine ⟨((x - mean.1) / p, (y - mean.2 - r * ((x - mean.1) / p)) / s), ?_, ?_⟩
    · show (_, _) ∈ B
      rw [e1, e2]
      exact hxy
    · show (_, _) = -mean + (x, y)
      ext
      · simp only [Prod.fst_add, Prod.fst_neg]; linarith
      · simp only [Prod.snd_add, Prod.snd_neg]; linarith
  · rw [measure_preimage_add, Measure.addHaar_image_linearMap, h1, mul_zero]

/-! ### The replications -/

/-- The replications are calls made one after the other. -/
private theorem replications_calls {α : Type} (u : ℕ → ℝ) (body : ℕ → ℕ → (ℕ → ℝ) → ℕ → Run α)
    (hb : ∀ i pos fuel k, Below (body i fuel u pos) (body i (fuel + k) u pos)) (s : ℕ) : ∀ (i pos : ℕ) (reps : List α),
    (∃ fuel q, replications (fun j p => body j fuel u p) i s pos = some (.ok (reps, q)))
      ↔ OneAfterAnother u ((List.range' i s).map body) pos reps := by
  induction s with
  | zero =>
    intro i pos reps
    simp only [replications, List.range'_zero, List.map_nil, OneAfterAnother, Run.ret_ok]
    constructor
    · rintro ⟨_, _, h, -⟩; exact h.symm
    · rintro rfl; exact ⟨0, pos, rfl, rfl⟩
  | succ s ih =>
    intro i pos reps
    simp only [replications, List.range'_succ, List.map_cons, OneAfterAnother, ← ih]
    constructor
    · rintro ⟨fuel, q, h⟩
      obtain ⟨a, p, h1, h2⟩ := Run.andThen_ok.1 h
      obtain ⟨rest, p', h3, h4⟩ := Run.andThen_ok.1 h2
      rw [Run.ret_ok] at h4
      exact ⟨a, rest, p, h4.1.symm, ⟨fuel, h1⟩, fuel, p', h3⟩
    · rintro ⟨a, rest, p, rfl, ⟨fuel, h1⟩, fuel', q, h3⟩
      refine ⟨fuel + fuel', q, Run.andThen_ok.2 ⟨a, p, hb _ _ _ _ _ h1, Run.andThen_ok.2 ⟨rest, q, ?_, rfl⟩⟩⟩
      rw [Nat.add_comm]
      exact replications_below (fun j p => hb _ _ _ _) _ _ _ _ h3

/-- The loop of `normal` for one replication. -/
private noncomputable def normalCall (h : Hull ℝ) (mvn : M2 ℝ → ℝ → ℝ → ℝ × ℝ) (center : ℝ × ℝ) (n : ℕ) (m : M2 ℝ) (fuel : ℕ)
    (u : ℕ → ℝ) (pos : ℕ) : Run (List (ℝ × ℝ)) :=
  rejection (normalCandidate Real.sqrt mvn center m u) (fun p => h.contains p.1 p.2) fuel pos n

private theorem normalCall_regular {h : Hull ℝ} (hh : MeasurableHull h) {mvn : M2 ℝ → ℝ → ℝ → ℝ × ℝ}
    {center : ℝ × ℝ} {n : ℕ} {m : M2 ℝ} (hm : Measurable fun z : ℝ × ℝ => mvn (replicationCor Real.sqrt m) z.1 z.2) :
    Regular (normalCall h mvn center n m) := by
  refine ⟨fun fuel => ?_, fun fuel pos => ?_, fun u pos fuel k r hr => rejection_mono _ _ _ _ _ _ _ hr⟩
  · exact Draws.rejection_inOrder (cand := fun x y => (center.1 + (mvn (replicationCor Real.sqrt m) x y).1 * Real.sqrt m.a,
          center.2 + (mvn (replicationCor Real.sqrt m) x y).2 * Real.sqrt m.d)) fuel n
  · refine rejection_mrun (fun p => ?_) hh fuel pos n
    have h1 : Measurable fun u : ℕ → ℝ => mvn (replicationCor Real.sqrt m) (u p) (u (p + 1)) :=
      hm.comp ((measurable_stream p).prodMk (measurable_stream (p + 1)))
    exact (measurable_const.add (h1.fst.mul_const _)).prodMk (measurable_const.add (h1.snd.mul_const _))

private theorem root_spec : ∀ x : ℝ, 0 ≤ x → 0 ≤ Real.sqrt x ∧ Real.sqrt x * Real.sqrt x = x :=
  fun x hx => ⟨Real.sqrt_nonneg x, Real.mul_self_sqrt hx⟩

/-- The candidates are normally distributed. -/
private theorem candidate_law {mvn : M2 ℝ → ℝ → ℝ → ℝ × ℝ} (hmvn : Factorises mvn) (center : ℝ × ℝ) {m : M2 ℝ}
    (hm : IsCovariance m.a m.b m.c m.d) (hcase : m.b = 0 ∨ m.a = m.d) :
    ∃ F : ℝ × ℝ → ℝ × ℝ, Measurable F ∧ (∀ u pos, normalCandidate Real.sqrt mvn center m u pos = F (u pos, u (pos + 1)))
      ∧ BivariateNormal (((gaussianReal 0 1).prod (gaussianReal 0 1)).map F) center m.a m.b m.c m.d
      ∧ Measurable fun z : ℝ × ℝ => mvn (replicationCor Real.sqrt m) z.1 z.2 := by
  obtain ⟨hcor, hfac⟩ := C43_covariance_partial Real.sqrt root_spec m hm hcase
  obtain ⟨p, q, r, s, h1, h2⟩ := hmvn _ hcor
  obtain ⟨p', q', r', s', h3, h4⟩ := hfac p q r s h1
  refine ⟨fun z => (center.1 + (p' * z.1 + q' * z.2), center.2 + (r' * z.1 + s' * z.2)), by fun_prop, ?_,
    bivariateNormal_of_factor h3 center, ?_⟩
  · intro u pos
    refine Eq.trans ?_ (h4 center u pos)
    simp only [normalCandidate, h2]
  · simp only [h2]
    fun_prop

private theorem call_law {Ω : Type} [MeasurableSpace Ω] (P : Measure Ω) [IsProbabilityMeasure P] (U : ℕ → Ω → ℝ)
    (hU : IndependentDraws P U (gaussianReal 0 1)) {h : Hull ℝ} {hull : Set (ℝ × ℝ)}
    (hhull : {p : ℝ × ℝ | h.contains p.1 p.2 = true} = hull) (hmeas : MeasurableSet hull) {mvn : M2 ℝ → ℝ → ℝ → ℝ × ℝ}
    (hmvn : Factorises mvn) (center : ℝ × ℝ) {m : M2 ℝ} (hm : IsCovariance m.a m.b m.c m.d) (hcase : m.b = 0 ∨ m.a = m.d)
    {ν : Measure (ℝ × ℝ)} (hν : BivariateNormal ν center m.a m.b m.c m.d) (hpos : ν hull ≠ 0)
    (A : List (Set (ℝ × ℝ))) (hA : ∀ a ∈ A, MeasurableSet a) :
    P {ω | ∃ q, (fun i => U i ω) ∈ endsAt (normalCall h mvn center A.length m) {l | List.Forall₂ (fun p a => p ∈ a) l A} 0 q}
      = (A.map fun a => ν (a ∩ hull) / ν hull).prod := by
  obtain ⟨F, hF, hFc, hFn, -⟩ := candidate_law hmvn center hm hcase
  obtain rfl := bivariateNormal_unique hν hFn
  have hcand := indepCandidates_of_pairs hU (fun k => 0 + 2 * k) (fun k => 0 + 2 * k + 1) (fun k => by omega)
    (fun k l hkl => ⟨by omega, by omega, by omega⟩) F hF
  have key := hcand.firstAccepted (accept := fun p => h.contains p.1 p.2) (by rw [hhull]; exact hmeas)
    (by rw [hhull]; exact hpos) A hA
  rw [hhull] at key
  rw [← key]
  congr 1
  ext ω
  have hiff := fun l q => rejection_iff (normalCandidate Real.sqrt mvn center m fun i => U i ω) (fun p => h.contains p.1 p.2)
    0 A.length l q
  simp only [hFc] at hiff
  constructor
  · rintro ⟨q, fuel, l, h1, h2⟩
    have h1' : Returns (fun fuel => rejection (normalCandidate Real.sqrt mvn center m fun i => U i ω)
        (fun p => h.contains p.1 p.2) fuel 0 A.length) (.ok (l, q)) := ⟨fuel, h1⟩
    obtain ⟨k, -, h3⟩ := (hiff l q).1 h1'
    exact ⟨l, k, h3, h2⟩
  · rintro ⟨l, k, h1, h2⟩
    obtain ⟨fuel, h3⟩ := (hiff l _).2 ⟨k, rfl, h1⟩
    exact ⟨_, fuel, l, h3, h2⟩

private theorem requested_at {h : Hull ℝ} {cov : CovArg ℝ} {covs : List (M2 ℝ)} (hc : RequestedCov h cov covs) :
    ∃ cov', resolveCov h cov covs.length = .ok cov' ∧ ∀ k (hk : k < covs.length), cov'.at k = covs[k] := by
  cases cov with
  | none =>
    refine ⟨_, rfl, fun k hk => ?_⟩
    rw [hc _ (List.getElem_mem hk), max_div_div_right (by norm_num)]
    rfl
  | num c => exact ⟨_, rfl, fun k hk => (hc _ (List.getElem_mem hk)).symm⟩
  | mat m => exact ⟨_, rfl, fun k hk => (hc _ (List.getElem_mem hk)).symm⟩
  | mats l =>
    obtain rfl : covs = l := hc
    refine ⟨.mats covs, by simp [resolveCov], fun k hk => ?_⟩
    exact List.getD_eq_getElem _ _ hk
  | badShape => exact hc.elim
  | other => exact hc.elim

private theorem flat_iff {n : ℕ} (reps : List NormalEvent) : (∀ x ∈ reps, x.sets.length = n) → ∀ (as : List (List (ℝ × ℝ))),
    as.length = reps.length → (∀ l ∈ as, l.length = n) →
    (List.Forall₂ (fun p a => p ∈ a) as.flatten (reps.flatMap NormalEvent.sets)
      ↔ List.Forall₂ (fun l A => l ∈ A) as (reps.map fun x => {l | List.Forall₂ (fun p a => p ∈ a) l x.sets})) := by
  induction reps with
  | nil =>
    intro _ as h1 _
    obtain rfl := List.length_eq_zero_iff.1 h1
    simp
  | cons x reps ih =>
    intro hx as h1 h2
    cases as with
    | nil => simp at h1
    | cons l as =>
      rw [List.flatten_cons, List.flatMap_cons, forall₂_append_iff _ _ _ _ (by rw [h2 l (by simp), hx x (by simp)]),
        ih (fun y hy => hx y (by simp [hy])) as (by simpa using h1) fun l' hl' => h2 l' (by simp [hl']), List.map_cons,
        List.forall₂_cons]
      rfl

/-- **C149.** Let the draws of the generator be independent standard normal numbers, and let the arguments of `normal` resolve to
`n` points in each of a number of replications, with one covariance matrix for each, of which the two variances are equal or the
covariance is zero. The probability that `normal` returns with all points of all replications in given sets is the product, over
the replications and the points, of the probability of the set under the normal distribution with the centre as mean and this
covariance matrix, given the hull. So the points are independent of each other and normally distributed, given that they are in
the hull. -/
theorem C149_normal_points {Ω : Type} [MeasurableSpace Ω] (P : Measure Ω) [IsProbabilityMeasure P] (U : ℕ → Ω → ℝ)
    (hU : IndependentDraws P U (gaussianReal 0 1)) (mvn : M2 ℝ → ℝ → ℝ → ℝ × ℝ) (hmvn : Factorises mvn)
    (h : Hull ℝ) (hull : Set (ℝ × ℝ)) (hhull : ∀ x y, h.contains x y = true ↔ (x, y) ∈ hull) (hmeas : MeasurableSet hull)
    (center : ℝ × ℝ) (cov : CovArg ℝ) (size : SizeArg) (n : ℕ) (i : XF ℝ) (reps : List NormalEvent)
    (hp : parseSizeAndIntensity h none size = .ok (n, reps.length, i)) (hcov : RequestedCov h cov (reps.map NormalEvent.cov))
    (hreps : ∀ x ∈ reps, IsCovariance x.cov.a x.cov.b x.cov.c x.cov.d ∧ (x.cov.b = 0 ∨ x.cov.a = x.cov.d)
      ∧ BivariateNormal x.law center x.cov.a x.cov.b x.cov.c x.cov.d ∧ x.law hull ≠ 0
      ∧ x.sets.length = n ∧ ∀ a ∈ x.sets, MeasurableSet a) (pos : ℕ) :
    P {ω | ∃ r pos', Returns (fun fuel => normal h Real.sqrt mvn center cov (fun i => U i ω) size fuel pos) (.ok (r, pos'))
        ∧ List.Forall₂ (fun p a => p ∈ a) r.data (reps.flatMap NormalEvent.sets)}
      = (reps.map fun x => (x.sets.map fun a => x.law (a ∩ hull) / x.law hull).prod).prod := by
  have hset : {p : ℝ × ℝ | h.contains p.1 p.2 = true} = hull := by
    ext p; exact hhull p.1 p.2
  have hh : MeasurableHull h := by
    unfold MeasurableHull
    rw [hset]; exact hmeas
  obtain ⟨cov', hc1, hc2⟩ := requested_at hcov
  rw [List.length_map] at hc1
  replace hc2 : ∀ k (hk : k < reps.length), cov'.at k = reps[k].cov := fun k hk => by
    rw [hc2 k (by simpa using hk), List.getElem_map]
  set fs := reps.map fun x => normalCall h mvn center n x.cov with hfs
  set As : List (Set (List (ℝ × ℝ))) := reps.map fun x => {l | List.Forall₂ (fun p a => p ∈ a) l x.sets} with hAs
  have hreg : ∀ f ∈ fs, Regular f := by
    intro f hf
    obtain ⟨x, hx, rfl⟩ := List.mem_map.1 hf
    obtain ⟨_, _, _, _, hm⟩ := candidate_law hmvn center (hreps x hx).1 (hreps x hx).2.1
    exact normalCall_regular hh hm
  have hAm : ∀ A ∈ As, MeasurableSet A := by
    intro A hA
    obtain ⟨x, hx, rfl⟩ := List.mem_map.1 hA
    exact measurableSet_forall₂ _ (hreps x hx).2.2.2.2.2
  have hfs' : fs = (List.range' 0 reps.length).map fun k => normalCall h mvn center n (cov'.at k) := by
    refine List.ext_getElem (by simp [hfs]) fun k h1 h2 => ?_
    have hk : k < reps.length := by simpa [hfs] using h1
    simp [hfs, hc2 k hk]
  have hev : {ω | ∃ r pos', Returns (fun fuel => normal h Real.sqrt mvn center cov (fun i => U i ω) size fuel pos) (.ok (r, pos'))
        ∧ List.Forall₂ (fun p a => p ∈ a) r.data (reps.flatMap NormalEvent.sets)}
      = {ω | (fun i => U i ω) ∈ callsIn fs As pos} := by
    ext ω
    have hcalls := replications_calls (fun i => U i ω) (fun k => normalCall h mvn center n (cov'.at k))
      (fun k p fuel m r hr => rejection_mono _ _ _ _ _ _ _ hr) reps.length 0 pos
    rw [← hfs'] at hcalls
    have hflat : ∀ (as : List (List (ℝ × ℝ))), as.length = reps.length → (∀ l ∈ as, l.length = n) →
        (List.Forall₂ (fun p a => p ∈ a) (squeeze reps.length n as).data (reps.flatMap NormalEvent.sets)
          ↔ List.Forall₂ (fun l A => l ∈ A) as As) := by
      intro as h1 h2
      rw [squeeze_data _ _ _ h1 h2, hAs]
      exact flat_iff reps (fun x hx => (hreps x hx).2.2.2.2.1) as h1 h2
    simp only [Set.mem_ofPred_eq, mem_sequence, ← hcalls]
    constructor
    · rintro ⟨r, pos', ⟨fuel, h1⟩, h2⟩
      obtain ⟨cov'', g1, -, -, as, g2, rfl⟩ := normal_ok h _ mvn center cov _ size _ _ i hp fuel pos r pos' h1
      obtain rfl : cov' = cov'' := by rw [hc1] at g1; exact Except.ok.inj g1
      simp only [Int.toNat_natCast] at g2 h2
      have hspec := replications_spec _ _ _ _ _ _ g2
      refine ⟨as, ⟨fuel, pos', g2⟩, (hflat as hspec.1 ?_).1 h2⟩
      intro l hl
      obtain ⟨_, _, _, _, g3⟩ := hspec.2 l hl
      exact (rejection_mem _ _ _ _ _ _ _ g3).1
    · rintro ⟨as, ⟨fuel, q, h1⟩, h2⟩
      have hspec := replications_spec _ _ _ _ _ _ h1
      refine ⟨squeeze reps.length n as, q, ⟨fuel, ?_⟩, (hflat as hspec.1 ?_).2 h2⟩
      · unfold normal
        rw [hp]
        simp only [hc1]
        rw [if_neg (by omega)]
        exact Run.andThen_ok.2 ⟨as, q, h1, rfl⟩
      · intro l hl
        obtain ⟨_, _, _, _, g3⟩ := hspec.2 l hl
        exact (rejection_mem _ _ _ _ _ _ _ g3).1
  rw [hev, sequence_law hU hreg (by rw [hfs, hAs, List.length_map, List.length_map]) hAm, hfs, hAs, List.zipWith_map, List.zipWith_self]
  congr 1
  refine List.map_congr_left fun x hx => ?_
  obtain ⟨x1, x2, x3, x4, rfl, x6⟩ := hreps x hx
  exact call_law P U hU hset hmeas hmvn center x1 x2 x3 x4 x.sets x6

/-- **C149.** If moreover the hull has positive area and the covariance matrices have positive determinants, `normal` returns
with probability one. -/
theorem C149_normal_returns {Ω : Type} [MeasurableSpace Ω] (P : Measure Ω) [IsProbabilityMeasure P] (U : ℕ → Ω → ℝ)
    (hU : IndependentDraws P U (gaussianReal 0 1)) (mvn : M2 ℝ → ℝ → ℝ → ℝ × ℝ) (hmvn : Factorises mvn)
    (h : Hull ℝ) (hull : Set (ℝ × ℝ)) (hhull : ∀ x y, h.contains x y = true ↔ (x, y) ∈ hull) (hmeas : MeasurableSet hull)
    (harea : volume hull ≠ 0) (center : ℝ × ℝ) (cov : CovArg ℝ) (size : SizeArg) (n : ℕ) (i : XF ℝ) (covs : List (M2 ℝ))
    (hp : parseSizeAndIntensity h none size = .ok (n, covs.length, i)) (hcov : RequestedCov h cov covs)
    (hcovs : ∀ m ∈ covs, IsCovariance m.a m.b m.c m.d ∧ (m.b = 0 ∨ m.a = m.d) ∧ 0 < m.a * m.d - m.b * m.c) (pos : ℕ) :
    P {ω | ∃ r pos', Returns (fun fuel => normal h Real.sqrt mvn center cov (fun i => U i ω) size fuel pos) (.ok (r, pos'))} = 1 := by
  have hex : ∀ m : M2 ℝ, ∃ ν : Measure (ℝ × ℝ), m ∈ covs → BivariateNormal ν center m.a m.b m.c m.d := by
    intro m
    by_cases hm : m ∈ covs
    · exact ⟨_, fun _ => bivariateNormal_of_factor (cholesky (hcovs m hm).1 (hcovs m hm).2.2).1 center⟩
    · exact ⟨0, fun h => absurd h hm⟩
  choose ν hν using hex
  have key := C149_normal_points P U hU mvn hmvn h hull hhull hmeas center cov size n i
    (covs.map fun m => ⟨m, ν m, List.replicate n Set.univ⟩) (by simpa using hp) (by simpa [Function.comp_def] using hcov) (by
      intro x hx
      obtain ⟨m, hm, rfl⟩ := List.mem_map.1 hx
      obtain ⟨h1, h2, h3⟩ := hcovs m hm
      refine ⟨h1, h2, hν m hm, bivariateNormal_pos (hν m hm) h1 h3 hmeas harea, by simp, fun a ha => ?_⟩
      rw [(List.mem_replicate.1 ha).2]
      exact MeasurableSet.univ) pos
  have hone : ((covs.map fun m => (⟨m, ν m, List.replicate n Set.univ⟩ : NormalEvent)).map fun x =>
      (x.sets.map fun a => x.law (a ∩ hull) / x.law hull).prod).prod = 1 := by
    rw [List.map_map]
    refine List.prod_eq_one fun y hy => ?_
    obtain ⟨m, hm, rfl⟩ := List.mem_map.1 hy
    have hfin : ν m hull ≠ ⊤ := by
      rw [bivariateNormal_unique (hν m hm) (bivariateNormal_of_factor (cholesky (hcovs m hm).1 (hcovs m hm).2.2).1 center),
        Measure.map_apply (by fun_prop) hmeas]
      exact measure_ne_top _ _
    simp only [Function.comp, List.map_replicate, List.prod_replicate, Set.univ_inter]
    rw [ENNReal.div_self (bivariateNormal_pos (hν m hm) (hcovs m hm).1 (hcovs m hm).2.2 hmeas harea) hfin, one_pow]
  rw [hone] at key
  refine le_antisymm prob_le_one ?_
  rw [← key]
  refine measure_mono ?_
  rintro ω ⟨r, pos', h1, -⟩
  exact ⟨r, pos', h1⟩

/-- Non-vacuity: there are independent standard normal numbers. -/
theorem normalDraws_exist : ∃ (P : Measure (ℕ → ℝ)) (_ : IsProbabilityMeasure P),
    IndependentDraws P (fun i ω => ω i) (gaussianReal 0 1) := by
  refine ⟨Measure.infinitePi fun _ => gaussianReal 0 1, inferInstance, ?_, ?_, ?_⟩
  · exact fun i => measurable_pi_apply i
  · exact iIndepFun_infinitePi (X := fun _ x => x) (fun _ => measurable_id)
  · intro i
    exact Measure.infinitePi_map_eval (μ := fun _ : ℕ => gaussianReal 0 1) i

/-- Non-vacuity: a library function that meets the assumption, and three points in each of two replications in the triangle with
corners `(0, 0)`, `(1, 0)` and `(0, 1)`, with the correlation 1/2 in one and no correlation in the other. -/
example : ∃ (P : Measure (ℕ → ℝ)) (_ : IsProbabilityMeasure P) (mvn : M2 ℝ → ℝ → ℝ → ℝ × ℝ), Factorises mvn
    ∧ P {ω | ∃ r pos', Returns (fun fuel => normal triangleHull Real.sqrt mvn (1 / 4, 1 / 4)
        (.mats [⟨4, 2, 2, 4⟩, ⟨1, 0, 0, 9⟩]) ω (.tuple [3, 2]) fuel 0) (.ok (r, pos'))} = 1 := by
  obtain ⟨P, hP, hU⟩ := normalDraws_exist
  have hmvn : Factorises fun m x y => (1 * x + 0 * y, m.b * x + Real.sqrt (1 - m.b * m.b) * y) := by
    rintro m ⟨h1, h2, h3, h4, h5⟩
    refine ⟨1, 0, m.b, Real.sqrt (1 - m.b * m.b), ⟨by rw [h1]; ring, by ring, by rw [← h3]; ring, ?_⟩, fun _ _ => rfl⟩
    rw [Real.mul_self_sqrt (by nlinarith), h2]
    ring
  refine ⟨P, hP, _, hmvn, C149_normal_returns P _ hU _ hmvn triangleHull {p : ℝ × ℝ | 0 ≤ p.1 ∧ 0 ≤ p.2 ∧ p.1 + p.2 ≤ 1} ?_ ?_ ?_
    (1 / 4, 1 / 4) (.mats [⟨4, 2, 2, 4⟩, ⟨1, 0, 0, 9⟩]) (.tuple [3, 2]) 3 (.fin 6) [⟨4, 2, 2, 4⟩, ⟨1, 0, 0, 9⟩] ?_ rfl ?_ 0⟩
  · intro x y
    simp [triangleHull]
  · exact MeasurableSet.inter (measurableSet_le measurable_const measurable_fst)
      (MeasurableSet.inter (measurableSet_le measurable_const measurable_snd) (measurableSet_le (measurable_fst.add measurable_snd) measurable_const))
  · intro h0
    have := measure_mono_null (s := Set.Icc (0 : ℝ) (1 / 2) ×ˢ Set.Icc (0 : ℝ) (1 / 2)) (by
      rintro ⟨x, y⟩ ⟨⟨h1, h2⟩, ⟨h3, h4⟩⟩
      refine ⟨h1, h3, ?_⟩
      simp only at *
      linarith) h0
    rw [Measure.volume_eq_prod, Measure.prod_prod, Real.volume_Icc] at this
    norm_num at this
  · simp [parseSizeAndIntensity, divArea, triangleHull, XF.div]
    norm_num
  · intro m hm
    simp only [List.mem_cons, List.not_mem_nil, or_false] at hm
    rcases hm with rfl | rfl
    · norm_num [IsCovariance]
    · norm_num [IsCovariance]

end Pointpats.Props
