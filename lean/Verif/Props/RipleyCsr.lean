import Verif.Lemmas.MeasurableCurves
import Verif.Lemmas.CsrStreams
import Verif.Lemmas.RankLaw
import Verif.Lemmas.FuelMono
import Verif.Lemmas.SortQuery

/-!
# C151: `g_test`, `k_test` and `l_test` under complete spatial randomness
-/

set_option linter.unusedSectionVars false

namespace Pointpats.Props

open DistStats Geometry Random Spec MeasureTheory ProbabilityTheory MeasurableRun MeasurableCurves Csr FuelMono

/-- The hull is given as a box of four numbers or as a geometry, so that it does not depend on the events. -/
def GivenHull {K : Type} : HullArg K → Prop
  | .ndarray shape _ => shape = [4]
  | .polygon _ | .multiPolygon _ | .otherShapely _ | .convexHull _ => True
  | _ => False

/-- The distances of the curve are given by an array or by a range, so that they do not depend on the events. -/
def GivenDistances {K : Type} : SupportArg K → Prop
  | .stop _ | .startStop _ _ | .startStopNum _ _ _ | .array _ => True
  | _ => False

/-- The number of simulated curves that are at most the observed value `o` at place `i`. -/
def curvesAtMost {K : Type} [Field K] [LinearOrder K] (sims : List (List (XF K))) (i : ℕ) (o : XF K) : ℕ :=
  (sims.filter fun s => XF.ge o (s.getD i .nan)).length

private theorem givenHull_ok {hullArg : HullArg ℝ} (h : GivenHull hullArg) (pts : List (ℝ × ℝ)) :
    prepareHull pts hullArg = .ok (.given hullArg) := by
  cases hullArg with
  | ndarray shape data => cases h; rfl
  | polygon | multiPolygon | otherShapely | convexHull => rfl
  | none | str | other => exact h.elim

/-- The support that a given range or array stands for. -/
private theorem givenDistances_ok {support : SupportArg ℝ} (h : GivenDistances support) :
    ∃ s : Py (List ℝ), ∀ (lib : Lib ℝ) m pts, resolveSupport lib m pts support = s.map fun s => (s, true) := by
  cases support with
  | none | int | tuple => exact h.elim
  | stop b => exact ⟨linspace 0 b 20, fun _ _ _ => rfl⟩
  | startStop a b => exact ⟨linspace a b 20, fun _ _ _ => rfl⟩
  | startStopNum a b n => exact ⟨linspace a b n, fun _ _ _ => rfl⟩
  | array l => exact ⟨.ok l, fun _ _ _ => rfl⟩

private theorem callStat_support {lib : Lib ℝ} {num : Num ℝ} {call : Call} (hcall : call = .G ∨ call = .K ∨ ∃ lin, call = .L lin)
    {u : ℕ → ℝ} {pts : List (ℝ × ℝ)} {support : SupportArg ℝ} {m : Metric} {hull : HullArg ℝ} {edge : Bool} {fuel pos pos' : ℕ}
    {r : List ℝ × List (XF ℝ)} (h : callStat lib num call u pts support .none (.metric m) hull edge fuel pos = some (.ok (r, pos'))) :
    ∃ b, resolveSupport lib m pts support = .ok (r.1, b) := by
  rcases hcall with rfl | rfl | ⟨lin, rfl⟩
  · obtain ⟨p, d, hp, -, hs⟩ := g_ok (callStat_G h)
    obtain ⟨-, -, m', hm', hpm, hrs⟩ := prepare_ok hp
    cases hm'
    have hpm' : p.metric = m := hpm
    rw [hpm', ← (shares_support hs).1] at hrs
    exact ⟨_, hrs⟩
  · obtain ⟨p, d, hp, -, -, hr1, -⟩ := k_ok (callStat_K h)
    obtain ⟨-, -, m', hm', hpm, hrs⟩ := prepare_ok hp
    cases hm'
    have hpm' : p.metric = m := hpm
    rw [hpm', ← hr1] at hrs
    exact ⟨_, hrs⟩
  · obtain ⟨r', hk, e1, -⟩ := callStat_L h
    obtain ⟨p, d, hp, -, -, hr1, -⟩ := k_ok hk
    obtain ⟨-, -, m', hm', hpm, hrs⟩ := prepare_ok hp
    cases hm'
    have hpm' : p.metric = m := hpm
    rw [hpm', ← hr1, ← e1] at hrs
    exact ⟨_, hrs⟩

/-- What a test that returns has computed. -/
private theorem test_run {lib : Lib ℝ} {num : Num ℝ} {call : Call} (hcall : call = .G ∨ call = .K ∨ ∃ lin, call = .L lin)
    {u : ℕ → ℝ} {gen : ℕ → ℕ → ℝ} {n : ℕ} {x : Fin n → ℝ × ℝ} {support : SupportArg ℝ} {m : Metric}
    {hullArg : HullArg ℝ} (hhull : GivenHull hullArg) {edge keep : Bool} {R : ℕ} {fuel : ℕ} {r : TestResult ℝ} {pos' : ℕ}
    (h : ripleyTest lib num call u gen (List.ofFn x) support .none (.metric m) hullArg edge keep R fuel = some (.ok (r, pos'))) :
    ∃ sims : List (List (XF ℝ)), sims.length = R ∧ r.simulations = (if keep then some sims else none)
      ∧ r.pvalue = pvalues r.support r.statistic sims R
      ∧ (∃ pos0 pos1, callStat lib num call u (List.ofFn x) support .none (.metric m) (rehull (.given hullArg)) edge fuel pos0
          = some (.ok ((r.support, r.statistic), pos1)))
      ∧ ∀ j (hj : j < sims.length), ∃ pts pos1 s' pos2,
          poisson (lib.hullOf (.given hullArg)) (gen j) none (.int n) fuel 0 = some (.ok (.rows pts, pos1))
          ∧ callStat lib num call (gen j) pts (.array r.support) .none (.metric m) (rehull (.given hullArg)) edge fuel pos1
            = some (.ok ((s', sims[j]), pos2)) := by
  obtain ⟨m', t, H, empty, pos0, d, obs, pos1, sims, hm', -, hH, -, hd, ho, hs, rfl⟩ := ripleyTest_ok.1 h
  cases hm'
  rw [givenHull_ok hhull] at hH
  cases hH
  have hd' : d = .none := by
    rcases hcall with rfl | rfl | ⟨lin, rfl⟩ <;> · cases hd; rfl
  subst hd'
  have hlen := (replications_spec _ _ _ _ _ _ hs).1
  rw [Int.toNat_natCast] at hlen
  refine ⟨sims, hlen, rfl, rfl, ⟨_, _, ho⟩, fun j hj => ?_⟩
  obtain ⟨p, p', hb⟩ := replications_index _ _ _ _ _ _ hs j sims[j] (List.getElem?_eq_getElem hj)
  rw [Nat.zero_add] at hb
  unfold simulate oneSimulation at hb
  rw [Run.andThen_ok, List.length_ofFn] at hb
  obtain ⟨rnd, q, hpo, hb⟩ := hb
  cases hrows : simRows call rnd with
  | error e => rw [hrows] at hb; cases hb
  | ok pts =>
    rw [hrows] at hb
    have hrnd : rnd = .rows pts := by
      cases rnd with
      | rows l => cases hrows; rfl
      | point p => cases call <;> cases hrows
      | cube a b => cases call <;> cases hrows
    subst hrnd
    have hb' : (callStat lib num call (gen j) pts (.array obs.1) .none (.metric m) (rehull (.given hullArg)) edge fuel q).andThen
        (fun r pos => Run.ret r.2 pos) = some (.ok (sims[j], p')) := by
      rcases hcall with rfl | rfl | ⟨lin, rfl⟩ <;> exact hb
    rw [Run.andThen_ok] at hb'
    obtain ⟨r', q', hr', hb'⟩ := hb'
    rw [Run.ret_ok] at hb'
    obtain ⟨e1, -⟩ := hb'
    refine ⟨pts, q, r'.1, q', hpo, ?_⟩
    rw [hr', ← e1]

/-- Numbers and infinities in their order; `nan` is below all. -/
private noncomputable def rankLow : XF ℝ → EReal
  | .fin x => x
  | .pinf => ⊤
  | .ninf => ⊥
  | .nan => ⊥

/-- Numbers and infinities in their order; `nan` is above all. -/
private noncomputable def rankHigh : XF ℝ → EReal
  | .fin x => x
  | .pinf => ⊤
  | .ninf => ⊥
  | .nan => ⊤

private theorem ge_rankLow (v : XF ℝ) (x : ℝ) : XF.ge v (.fin x) = true ↔ rankLow (.fin x) ≤ rankLow v := by
  cases v <;> simp [XF.ge, rankLow]

private theorem ge_rankHigh (v : XF ℝ) (x : ℝ) : XF.ge (.fin x) v = true ↔ rankHigh v ≤ rankHigh (.fin x) := by
  cases v <;> simp [XF.ge, rankHigh]

/-- The observed and the simulated patterns, and the values of their curves. -/
private theorem test_values {Ω : Type} [MeasurableSpace Ω] (P : Measure Ω) [IsProbabilityMeasure P]
    (gen : ℕ → ℕ → Ω → ℝ) (hgen : IndependentGenerators P gen ((volume : Measure ℝ).restrict (Set.Ico 0 1)))
    (lib : Lib ℝ) (hc : lib.Correct) (num : Num ℝ) (hroot : Measurable num.root) (call : Call)
    (hcall : call = .G ∨ call = .K ∨ ∃ lin, call = .L lin) (m : Metric)
    (hm : Measurable fun p : (ℝ × ℝ) × (ℝ × ℝ) => lib.pdist m p.1 p.2)
    (hullArg : HullArg ℝ) (hhull : GivenHull hullArg) (W : Set (ℝ × ℝ))
    (hW : ∀ x y, (lib.hullOf (.given hullArg)).contains x y = true ↔ (x, y) ∈ W) (hmeas : MeasurableSet W)
    (hbox : ∀ p ∈ W, (lib.hullOf (.given hullArg)).bbox.xmin ≤ p.1 ∧ p.1 ≤ (lib.hullOf (.given hullArg)).bbox.xmax
      ∧ (lib.hullOf (.given hullArg)).bbox.ymin ≤ p.2 ∧ p.2 ≤ (lib.hullOf (.given hullArg)).bbox.ymax)
    (harea : volume W ≠ 0)
    {n : ℕ} (hn : 2 ≤ n) (X : Fin n → Ω → ℝ × ℝ) (hX : CompletelyRandom P X W)
    (hXU : IndepFun (fun ω i => X i ω) (fun ω j k => gen j k ω) P)
    (support : SupportArg ℝ) (hsupport : GivenDistances support) (R : ℕ) (hR : 0 < R) (i : ℕ)
    (φ : XF ℝ → EReal) (hφ : ∀ y : ℝ, φ (.fin y) = y) :
    (∀ ω u edge keep fuel r pos', ripleyTest lib num call u (fun j k => gen j k ω) (List.ofFn fun i => X i ω) support .none
        (.metric m) hullArg edge keep R fuel ≠ some (.ok (r, pos')))
    ∨ ∃ (Z : Fin (R + 1) → Ω → (Fin n → ℝ × ℝ)) (ν : Measure (Fin n → ℝ × ℝ)) (_ : IsProbabilityMeasure ν)
      (T : (Fin n → ℝ × ℝ) → EReal), (∀ j, Measurable (Z j)) ∧ Measurable T
      ∧ (∀ B : Fin (R + 1) → Set (Fin n → ℝ × ℝ), (∀ j, MeasurableSet (B j)) → P {ω | ∀ j, Z j ω ∈ B j} = ∏ j, ν (B j))
      ∧ ∀ ω u edge keep fuel r pos', ripleyTest lib num call u (fun j k => gen j k ω) (List.ofFn fun i => X i ω) support .none
          (.metric m) hullArg edge keep R fuel = some (.ok (r, pos')) →
        ∃ sims : List (List (XF ℝ)), sims.length = R ∧ r.simulations = (if keep then some sims else none)
          ∧ r.pvalue = pvalues r.support r.statistic sims R
          ∧ φ (r.statistic.getD i .nan) = T (Z 0 ω)
          ∧ (sims.map fun s => φ (s.getD i .nan)) = List.ofFn fun j : Fin R => T (Z j.succ ω) := by
  set window := lib.hullOf (.given hullArg) with hwin
  have hh : MeasurableHull window := by
    have hset : {p : ℝ × ℝ | window.contains p.1 p.2 = true} = W := by
      ext p; exact hW p.1 p.2
    unfold MeasurableHull
    rw [hset]; exact hmeas
  have hfin : volume W ≠ ⊤ := by
    refine ne_top_of_le_ne_top ?_ (measure_mono
      (t := Set.Icc window.bbox.xmin window.bbox.xmax ×ˢ Set.Icc window.bbox.ymin window.bbox.ymax) ?_)
    · rw [Measure.volume_eq_prod, Measure.prod_prod, Real.volume_Icc, Real.volume_Icc]
      exact ENNReal.mul_ne_top ENNReal.ofReal_ne_top ENNReal.ofReal_ne_top
    · intro p hp
      obtain ⟨h1, h2, h3, h4⟩ := hbox p hp
      exact ⟨⟨h1, h2⟩, ⟨h3, h4⟩⟩
  have hν := uniformLaw_prob harea hfin
  obtain ⟨s, hs⟩ := givenDistances_ok hsupport
  -- the distances, or an error
  cases s with
  | error e =>
    left
    intro ω u edge keep fuel r pos' h
    obtain ⟨sims, -, -, -, ⟨q0, q1, ho⟩, -⟩ := test_run hcall hhull h
    obtain ⟨b, hb⟩ := callStat_support hcall ho
    rw [hs] at hb
    cases hb
  | ok s =>
  -- the size of the simulated patterns, or an error
  cases hdiv : divArea window n with
  | error e =>
    left
    intro ω u edge keep fuel r pos' h
    obtain ⟨sims, hlen, -, -, -, hsim⟩ := test_run hcall hhull h
    obtain ⟨pts, q1, s', q2, hpo, -⟩ := hsim 0 (by omega)
    unfold poisson at hpo
    rw [← hwin] at hpo
    have : parseSizeAndIntensity window none (.int n) = .error e := by
      simp only [parseSizeAndIntensity]
      rw [hdiv]
      rfl
    rw [this] at hpo
    cases hpo
  | ok a =>
    right
    have hp : parseSizeAndIntensity window none (.int n) = .ok ((n : ℤ), ((1 : ℕ) : ℤ), a) := by
      simp only [parseSizeAndIntensity]
      rw [hdiv]
      rfl
    obtain ⟨hZm, hZl⟩ := streamPatterns_law hgen hW hmeas hbox harea hp 0 hX hXU R
    obtain ⟨T, hT, hTv⟩ := curve_measurable lib hc num hroot call hcall m hm hn s i φ hφ
    refine ⟨_, _, inferInstance, T, hZm, hT, hZl, fun ω u edge keep fuel r pos' h => ?_⟩
    obtain ⟨sims, hlen, hk, hpv, ⟨q0, q1, ho⟩, hsim⟩ := test_run hcall hhull h
    have hrs : r.support = s := by
      obtain ⟨b, hb⟩ := callStat_support hcall ho
      rw [hs] at hb
      cases hb
      rfl
    refine ⟨sims, hlen, hk, hpv, ?_, ?_⟩
    · exact hTv (fun i => X i ω) _ _ _ _ _ _ _ _ ho hrs
    · refine List.ext_getElem (by simp [hlen]) fun j h1 h2 => ?_
      rw [List.getElem_map, List.getElem_ofFn]
      obtain ⟨pts, q1, s', q2, hpo, hst⟩ := hsim j (by simpa using h1)
      rw [← hwin] at hpo
      obtain ⟨-, -, reps, hreps, hsq⟩ := (poisson_ok window _ _ _ _ _ _ hp fuel 0 _ _).1 hpo
      rw [Int.toNat_natCast, Int.toNat_natCast] at hreps hsq
      obtain ⟨hl1, hl2⟩ := poissonReps_lengths _ _ _ _ _ _ _ _ hreps
      obtain ⟨rep, rfl⟩ := List.length_eq_one_iff.1 hl1
      have hpts : pts = rep := by
        unfold squeeze at hsq
        rw [if_pos rfl, if_neg (by omega)] at hsq
        simpa using hsq
      have hptl : pts.length = n := by rw [hpts]; exact (hl2 rep (by simp)).1
      have hjR : j < R := by rw [List.length_ofFn] at h2; exact h2
      have hZj : pts = List.ofFn (streamPatterns X R (fun j ω => drawn window none (.int n) 0 fun k => gen j k ω)
          (Fin.succ ⟨j, hjR⟩) ω) := by
        refine List.ext_getElem (by simp [hptl]) fun i' g1 g2 => ?_
        rw [List.getElem_ofFn]
        simp only [streamPatterns, Fin.cons_succ]
        rw [drawn_eq hh ⟨fuel, hpo⟩]
        exact (List.getD_eq_getElem _ _ g1).symm
      rw [hZj] at hst
      refine hTv _ _ _ _ _ _ _ _ _ hst ?_
      obtain ⟨b, hb⟩ := callStat_support hcall hst
      cases hb
      exact hrs

private theorem empty_le {Ω : Type} [MeasurableSpace Ω] (P : Measure Ω) {S : Set Ω} (h : ∀ ω, ω ∉ S) {a : ℝ} (ha : 0 ≤ a) :
    P.real S ≤ a := by
  rw [Set.eq_empty_of_forall_notMem h]
  simpa using ha

private theorem atLeast_count (sims : List (List (XF ℝ))) (i : ℕ) (x : ℝ) :
    curvesAtLeast sims i (.fin x) = (sims.map fun s => rankLow (s.getD i .nan)).countP fun y => decide (rankLow (.fin x) ≤ y) := by
  unfold curvesAtLeast
  rw [← List.countP_eq_length_filter, List.countP_map]
  refine List.countP_congr fun s _ => ?_
  simp only [Function.comp_apply, decide_eq_true_eq]
  exact ge_rankLow _ _

private theorem atMost_count (sims : List (List (XF ℝ))) (i : ℕ) (x : ℝ) :
    curvesAtMost sims i (.fin x) = ((sims.map fun s => rankHigh (s.getD i .nan)).map OrderDual.toDual).countP
      fun y => decide (OrderDual.toDual (rankHigh (.fin x)) ≤ y) := by
  unfold curvesAtMost
  rw [← List.countP_eq_length_filter, List.countP_map, List.countP_map]
  refine List.countP_congr fun s _ => ?_
  simp only [Function.comp_apply, decide_eq_true_eq, OrderDual.toDual_le_toDual]
  exact ge_rankHigh _ _

private theorem dual_measurable {A : Type} [MeasurableSpace A] {T : A → EReal} (hT : Measurable T) :
    MeasurableSet {p : A × A | OrderDual.toDual (T p.1) ≤ OrderDual.toDual (T p.2)} := by
  have : MeasurableSet {p : A × A | T p.2 ≤ T p.1} := measurableSet_le (hT.comp measurable_snd) (hT.comp measurable_fst)
  exact this

/-- **C151, above.** Let the events be completely random in the hull, and let the generators of the simulations be independent
of each other and of the events, with independent draws that are uniform on `[0, 1)`. Let the hull and the distances of the curve
be given. Then in `g_test`, `k_test` and `l_test`, at every distance: the probability that the observed value is a number and
that the share of the curves that are at least as high there (the simulated ones and the observed one) is at most `α`, is at
most `α`. -/
theorem C151_high {Ω : Type} [MeasurableSpace Ω] (P : Measure Ω) [IsProbabilityMeasure P]
    (gen : ℕ → ℕ → Ω → ℝ) (hgen : IndependentGenerators P gen ((volume : Measure ℝ).restrict (Set.Ico 0 1)))
    (lib : Lib ℝ) (hc : lib.Correct) (num : Num ℝ) (hroot : Measurable num.root) (call : Call)
    (hcall : call = .G ∨ call = .K ∨ ∃ lin, call = .L lin) (m : Metric)
    (hm : Measurable fun p : (ℝ × ℝ) × (ℝ × ℝ) => lib.pdist m p.1 p.2)
    (hullArg : HullArg ℝ) (hhull : GivenHull hullArg) (W : Set (ℝ × ℝ))
    (hW : ∀ x y, (lib.hullOf (.given hullArg)).contains x y = true ↔ (x, y) ∈ W) (hmeas : MeasurableSet W)
    (hbox : ∀ p ∈ W, (lib.hullOf (.given hullArg)).bbox.xmin ≤ p.1 ∧ p.1 ≤ (lib.hullOf (.given hullArg)).bbox.xmax
      ∧ (lib.hullOf (.given hullArg)).bbox.ymin ≤ p.2 ∧ p.2 ≤ (lib.hullOf (.given hullArg)).bbox.ymax)
    (harea : volume W ≠ 0)
    {n : ℕ} (hn : 2 ≤ n) (X : Fin n → Ω → ℝ × ℝ) (hX : CompletelyRandom P X W)
    (hXU : IndepFun (fun ω i => X i ω) (fun ω j k => gen j k ω) P)
    (support : SupportArg ℝ) (hsupport : GivenDistances support) (edge : Bool) (R : ℕ) (hR : 0 < R) (u : ℕ → ℝ) (i : ℕ)
    (α : ℚ) (hα : 0 ≤ α) :
    P.real {ω | ∃ r pos' sims x, Returns (fun fuel => ripleyTest lib num call u (fun j k => gen j k ω) (List.ofFn fun i => X i ω)
        support .none (.metric m) hullArg edge true R fuel) (.ok (r, pos'))
      ∧ r.simulations = some sims ∧ r.statistic[i]? = some (.fin x)
      ∧ ((curvesAtLeast sims i (.fin x) : ℝ) + 1) / ((R : ℝ) + 1) ≤ α} ≤ α := by
  rcases test_values P gen hgen lib hc num hroot call hcall m hm hullArg hhull W hW hmeas hbox harea hn X hX hXU support hsupport R hR i rankLow (fun _ => rfl) with hno | ⟨Z, ν, hν, T, hZ, hT, hlaw, hval⟩
  · refine empty_le P ?_ (by exact_mod_cast hα)
    rintro ω ⟨r, pos', sims, x, ⟨fuel, hr⟩, -⟩
    exact hno _ _ _ _ _ _ _ hr
  have hle : MeasurableSet {p : (Fin n → ℝ × ℝ) × (Fin n → ℝ × ℝ) | T p.1 ≤ T p.2} :=
    measurableSet_le (hT.comp measurable_fst) (hT.comp measurable_snd)
  refine le_trans (measureReal_mono ?_) (iid_level hZ hlaw T hle α hα)
  rintro ω ⟨r, pos', sims, x, ⟨fuel, hr⟩, hs, hx, hle⟩
  obtain ⟨sims', -, hk, -, h0, h1⟩ := hval _ _ _ _ _ _ _ hr
  rw [hs, if_pos rfl] at hk
  cases hk
  rw [List.getD_eq_getElem?_getD, hx] at h0
  have h0' : rankLow (.fin x) = T (Z 0 ω) := h0
  simp only [Set.mem_ofPred_eq]
  rw [← h1, ← h0', ← atLeast_count, ← Rat.cast_le (K := ℝ)]
  push_cast
  exact hle

/-- **C151, below.** The same for the share of the curves that are at most as high. -/
theorem C151_low {Ω : Type} [MeasurableSpace Ω] (P : Measure Ω) [IsProbabilityMeasure P]
    (gen : ℕ → ℕ → Ω → ℝ) (hgen : IndependentGenerators P gen ((volume : Measure ℝ).restrict (Set.Ico 0 1)))
    (lib : Lib ℝ) (hc : lib.Correct) (num : Num ℝ) (hroot : Measurable num.root) (call : Call)
    (hcall : call = .G ∨ call = .K ∨ ∃ lin, call = .L lin) (m : Metric)
    (hm : Measurable fun p : (ℝ × ℝ) × (ℝ × ℝ) => lib.pdist m p.1 p.2)
    (hullArg : HullArg ℝ) (hhull : GivenHull hullArg) (W : Set (ℝ × ℝ))
    (hW : ∀ x y, (lib.hullOf (.given hullArg)).contains x y = true ↔ (x, y) ∈ W) (hmeas : MeasurableSet W)
    (hbox : ∀ p ∈ W, (lib.hullOf (.given hullArg)).bbox.xmin ≤ p.1 ∧ p.1 ≤ (lib.hullOf (.given hullArg)).bbox.xmax
      ∧ (lib.hullOf (.given hullArg)).bbox.ymin ≤ p.2 ∧ p.2 ≤ (lib.hullOf (.given hullArg)).bbox.ymax)
    (harea : volume W ≠ 0)
    {n : ℕ} (hn : 2 ≤ n) (X : Fin n → Ω → ℝ × ℝ) (hX : CompletelyRandom P X W)
    (hXU : IndepFun (fun ω i => X i ω) (fun ω j k => gen j k ω) P)
    (support : SupportArg ℝ) (hsupport : GivenDistances support) (edge : Bool) (R : ℕ) (hR : 0 < R) (u : ℕ → ℝ) (i : ℕ)
    (α : ℚ) (hα : 0 ≤ α) :
    P.real {ω | ∃ r pos' sims x, Returns (fun fuel => ripleyTest lib num call u (fun j k => gen j k ω) (List.ofFn fun i => X i ω)
        support .none (.metric m) hullArg edge true R fuel) (.ok (r, pos'))
      ∧ r.simulations = some sims ∧ r.statistic[i]? = some (.fin x)
      ∧ ((curvesAtMost sims i (.fin x) : ℝ) + 1) / ((R : ℝ) + 1) ≤ α} ≤ α := by
  rcases test_values P gen hgen lib hc num hroot call hcall m hm hullArg hhull W hW hmeas hbox harea hn X hX hXU support hsupport R hR i rankHigh (fun _ => rfl) with hno | ⟨Z, ν, hν, T, hZ, hT, hlaw, hval⟩
  · refine empty_le P ?_ (by exact_mod_cast hα)
    rintro ω ⟨r, pos', sims, x, ⟨fuel, hr⟩, -⟩
    exact hno _ _ _ _ _ _ _ hr
  refine le_trans (measureReal_mono ?_) (iid_level hZ hlaw (fun z => OrderDual.toDual (T z)) (dual_measurable hT) α hα)
  rintro ω ⟨r, pos', sims, x, ⟨fuel, hr⟩, hs, hx, hle⟩
  obtain ⟨sims', -, hk, -, h0, h1⟩ := hval _ _ _ _ _ _ _ hr
  rw [hs, if_pos rfl] at hk
  cases hk
  rw [List.getD_eq_getElem?_getD, hx] at h0
  have h0' : rankHigh (.fin x) = T (Z 0 ω) := h0
  have h1' : (List.ofFn fun j : Fin R => OrderDual.toDual (T (Z j.succ ω)))
      = (sims.map fun s => rankHigh (s.getD i .nan)).map OrderDual.toDual := by
    rw [h1, List.map_ofFn]
    rfl
  simp only [Set.mem_ofPred_eq]
  rw [h1', ← h0', ← atMost_count, ← Rat.cast_le (K := ℝ)]
  push_cast
  exact hle

/-- **C151, the p-values.** Under the same hypotheses: the probability that the observed value is a number that no simulated curve
has at this distance, and that the p-value is at most `α`, is at most `2 α + 1 / (R + 1)`. -/
theorem C151_pvalue {Ω : Type} [MeasurableSpace Ω] (P : Measure Ω) [IsProbabilityMeasure P]
    (gen : ℕ → ℕ → Ω → ℝ) (hgen : IndependentGenerators P gen ((volume : Measure ℝ).restrict (Set.Ico 0 1)))
    (lib : Lib ℝ) (hc : lib.Correct) (num : Num ℝ) (hroot : Measurable num.root) (call : Call)
    (hcall : call = .G ∨ call = .K ∨ ∃ lin, call = .L lin) (m : Metric)
    (hm : Measurable fun p : (ℝ × ℝ) × (ℝ × ℝ) => lib.pdist m p.1 p.2)
    (hullArg : HullArg ℝ) (hhull : GivenHull hullArg) (W : Set (ℝ × ℝ))
    (hW : ∀ x y, (lib.hullOf (.given hullArg)).contains x y = true ↔ (x, y) ∈ W) (hmeas : MeasurableSet W)
    (hbox : ∀ p ∈ W, (lib.hullOf (.given hullArg)).bbox.xmin ≤ p.1 ∧ p.1 ≤ (lib.hullOf (.given hullArg)).bbox.xmax
      ∧ (lib.hullOf (.given hullArg)).bbox.ymin ≤ p.2 ∧ p.2 ≤ (lib.hullOf (.given hullArg)).bbox.ymax)
    (harea : volume W ≠ 0)
    {n : ℕ} (hn : 2 ≤ n) (X : Fin n → Ω → ℝ × ℝ) (hX : CompletelyRandom P X W)
    (hXU : IndepFun (fun ω i => X i ω) (fun ω j k => gen j k ω) P)
    (support : SupportArg ℝ) (hsupport : GivenDistances support) (edge : Bool) (R : ℕ) (hR : 0 < R) (u : ℕ → ℝ) (i : ℕ)
    (α : ℚ) (hα : 0 ≤ α) :
    P.real {ω | ∃ r pos' sims x p, Returns (fun fuel => ripleyTest lib num call u (fun j k => gen j k ω) (List.ofFn fun i => X i ω)
        support .none (.metric m) hullArg edge true R fuel) (.ok (r, pos'))
      ∧ r.simulations = some sims ∧ r.statistic[i]? = some (.fin x) ∧ (∀ c ∈ sims, c[i]? ≠ some (.fin x))
      ∧ r.pvalue[i]? = some (.fin p) ∧ p ≤ (α : ℝ)} ≤ 2 * α + 1 / ((R : ℝ) + 1) := by
  have hpos : (0 : ℝ) < (R : ℝ) + 1 := by positivity
  have hα' : (0 : ℝ) ≤ α := by exact_mod_cast hα
  rcases test_values P gen hgen lib hc num hroot call hcall m hm hullArg hhull W hW hmeas hbox harea hn X hX hXU support hsupport R hR i rankLow (fun _ => rfl) with hno | ⟨Z, ν, hν, T, hZ, hT, hlaw, hval⟩
  · refine empty_le P ?_ (by positivity)
    rintro ω ⟨r, pos', sims, x, p, ⟨fuel, hr⟩, -⟩
    exact hno _ _ _ _ _ _ _ hr
  have l1 := iid_level hZ hlaw T (measurableSet_le (hT.comp measurable_fst) (hT.comp measurable_snd)) α hα
  have l2 := iid_level hZ hlaw (fun z => OrderDual.toDual (T z)) (dual_measurable hT)
    (α + 1 / ((R : ℚ) + 1)) (by positivity)
  refine le_trans (measureReal_mono ?_) (le_trans (measureReal_union_le _ _) (le_trans (add_le_add l1 l2) (le_of_eq ?_)))
  swap
  · push_cast; ring
  rintro ω ⟨r, pos', sims, x, p, hr, hs, hx, hties, hp, hpα⟩
  obtain ⟨sims', h1, hlen, -, h2⟩ := C63_pvalue_partial lib num call u (fun j k => gen j k ω) (List.ofFn fun i => X i ω) support .none
    (.metric m) hullArg edge R (by exact_mod_cast hR) r pos' hr
  rw [hs] at h1
  cases h1
  obtain ⟨p', hp', hpe, -, -⟩ := h2 i (.fin x) hx
  rw [hp] at hp'
  cases hp'
  obtain ⟨fuel, hr⟩ := hr
  obtain ⟨sims', -, hk, -, h0, h1⟩ := hval _ _ _ _ _ _ _ hr
  rw [hs, if_pos rfl] at hk
  cases hk
  rw [List.getD_eq_getElem?_getD, hx] at h0
  have h0' : rankLow (.fin x) = T (Z 0 ω) := h0
  -- without ties, the curves that are not at least as high are the ones below
  have hbelow : (curvesAtLeast sims i (.fin x) : ℕ) + ((sims.map fun s => rankLow (s.getD i .nan)).map OrderDual.toDual).countP
      (fun y => decide (OrderDual.toDual (rankLow (.fin x)) ≤ y)) = R := by
    have hlen' : sims.length = R := by exact_mod_cast hlen
    rw [atLeast_count, List.countP_map, List.countP_map, List.countP_map, ← hlen']
    refine Eq.trans ?_ (List.length_eq_countP_add_countP (l := sims) fun s => decide (rankLow (.fin x) ≤ rankLow (s.getD i .nan))).symm
    congr 1
    refine List.countP_congr fun s hsm => ?_
    simp only [Function.comp_apply, decide_eq_true_eq, OrderDual.toDual_le_toDual, not_le]
    refine ⟨fun h => lt_of_le_of_ne h fun e => ?_, le_of_lt⟩
    refine hties s hsm ?_
    rw [List.getD_eq_getElem?_getD] at e
    cases hv : s[i]? with
    | none => rw [hv] at e; simp [rankLow] at e
    | some v =>
      rw [hv] at e
      cases v with
      | fin y => simp [rankLow] at e; rw [e]
      | pinf | ninf | nan => simp [rankLow] at e
  have h1' : (List.ofFn fun j : Fin R => OrderDual.toDual (T (Z j.succ ω)))
      = (sims.map fun s => rankLow (s.getD i .nan)).map OrderDual.toDual := by
    rw [h1, List.map_ofFn]
    rfl
  rw [hpe] at hpα
  rcases min_le_iff.1 hpα with hle | hle
  · left
    simp only [Set.mem_ofPred_eq]
    rw [← h1, ← h0', ← atLeast_count, ← Rat.cast_le (K := ℝ)]
    push_cast at hle ⊢
    exact hle
  · right
    simp only [Set.mem_ofPred_eq]
    rw [h1', ← h0', add_div]
    refine add_le_add ?_ (le_refl _)
    rw [← Rat.cast_le (K := ℝ)]
    push_cast at hle ⊢
    have e : (R : ℝ) - curvesAtLeast sims i (.fin x) = (((sims.map fun s => rankLow (s.getD i .nan)).map OrderDual.toDual).countP
      (fun y => decide (OrderDual.toDual (rankLow (.fin x)) ≤ y)) : ℕ) := by
      rw [← hbelow]; push_cast; ring
    rw [e] at hle
    exact hle

/-- The curves of two or more events are computed for every array of distances in non-decreasing order. -/
private theorem stat_returns {lib : Lib ℝ} (hc : lib.Correct) (num : Num ℝ) {call : Call}
    (hcall : call = .G ∨ call = .K ∨ ∃ lin, call = .L lin) {m : Metric}
    (hm : ∃ t, buildBestTree lib.hasSklearn lib.kdMetrics lib.ballMetrics m = .ok t) (hpre : m ≠ .name "precomputed")
    {pts : List (ℝ × ℝ)} (hn : 2 ≤ pts.length) {s : List ℝ} (h2 : 2 ≤ s.length) (hsort : s.Pairwise (· ≤ ·)) (u : ℕ → ℝ)
    (hull : HullArg ℝ) (fuel pos : ℕ) :
    ∃ v, callStat lib num call u pts (.array s) .none (.metric m) hull false fuel pos = some (.ok ((s, v), pos)) := by
  have hk : ∃ v, k lib pts (.array s) .none (.metric m) false = .ok (s, v) := by
    obtain ⟨b, hb⟩ := bboxPts_ok (l := pts) (by rintro rfl; simp at hn)
    have hh : prepareHull pts .none = .ok (.bboxOf b) := by simp only [prepareHull, hb]; rfl
    have hp : prepare lib pts (.array s) (!(DistArg.none : DistArg ℝ).isNone) (.metric m) .none false = .ok ⟨s, true, m, .bboxOf b⟩ := by
      unfold prepare
      rw [if_neg (by simp), hh]
      change (if _ then _ else _) = _
      rw [if_neg (by simpa [DistArg.isNone] using hpre)]
      rfl
    unfold k
    rw [hp]
    exact ⟨_, rfl⟩
  rcases hcall with rfl | rfl | ⟨lin, rfl⟩
  · obtain ⟨v, hv⟩ := (C57_g_returns lib hc pts hn m hm hpre s h2).1 hsort
    refine ⟨v, ?_⟩
    unfold callStat liftPy
    simp only
    change some ((g lib pts (.array s) .none (.metric m) false).map _) = _
    rw [hv]
    rfl
  · obtain ⟨v, hv⟩ := hk
    refine ⟨v, ?_⟩
    unfold callStat liftPy
    simp only
    change some ((k lib pts (.array s) .none (.metric m) false).map _) = _
    rw [hv]
    rfl
  · obtain ⟨v, hv⟩ := hk
    refine ⟨if lin then List.zipWith (fun x d => XF.sub x (.fin d)) (v.map (lTransform num.root num.pi)) s
      else v.map (lTransform num.root num.pi), ?_⟩
    unfold callStat liftPy
    simp only
    change some ((l lib num.root num.pi pts (.array s) .none (.metric m) false lin).map _) = _
    unfold l
    rw [hv]
    rfl

private theorem runs_exist {α : Type} (A : ℕ → Run α) (i n p : ℕ) (h : ∀ k, k < n → ∃ a q, A (i + k) = some (.ok (a, q))) :
    ∃ l q, replications (fun i _ => A i) i n p = some (.ok (l, q)) := by
  induction n generalizing i p with
  | zero => exact ⟨[], p, rfl⟩
  | succ n ih =>
    obtain ⟨a, q, ha⟩ := h 0 (by omega)
    obtain ⟨l, q', hl⟩ := ih (i + 1) q (fun k hk => by
      have := h (k + 1) (by omega)
      rwa [show i + (k + 1) = i + 1 + k by omega] at this)
    refine ⟨a :: l, q', ?_⟩
    rw [replications, Run.andThen_ok]
    refine ⟨a, q, ha, ?_⟩
    rw [Run.andThen_ok]
    exact ⟨l, q', hl, rfl⟩

/-- **C151, the tests return.** With two or more events, a supported metric, a hull of positive area and an array of two or more
distances in non-decreasing order, the tests return with probability one. -/
theorem C151_returns {Ω : Type} [MeasurableSpace Ω] (P : Measure Ω) [IsProbabilityMeasure P]
    (gen : ℕ → ℕ → Ω → ℝ) (hgen : IndependentGenerators P gen ((volume : Measure ℝ).restrict (Set.Ico 0 1)))
    (lib : Lib ℝ) (hc : lib.Correct) (num : Num ℝ) (call : Call)
    (hcall : call = .G ∨ call = .K ∨ ∃ lin, call = .L lin) (m : Metric)
    (hm : ∃ t, buildBestTree lib.hasSklearn lib.kdMetrics lib.ballMetrics m = .ok t) (hpre : m ≠ .name "precomputed")
    (hullArg : HullArg ℝ) (hhull : GivenHull hullArg) (W : Set (ℝ × ℝ))
    (hW : ∀ x y, (lib.hullOf (.given hullArg)).contains x y = true ↔ (x, y) ∈ W) (hmeas : MeasurableSet W)
    (hbox : ∀ p ∈ W, (lib.hullOf (.given hullArg)).bbox.xmin ≤ p.1 ∧ p.1 ≤ (lib.hullOf (.given hullArg)).bbox.xmax
      ∧ (lib.hullOf (.given hullArg)).bbox.ymin ≤ p.2 ∧ p.2 ≤ (lib.hullOf (.given hullArg)).bbox.ymax)
    (harea : volume W ≠ 0) (ha : (lib.hullOf (.given hullArg)).area ≠ 0)
    {n : ℕ} (hn : 2 ≤ n) (X : Fin n → Ω → ℝ × ℝ)
    (s : List ℝ) (h2 : 2 ≤ s.length) (hsort : s.Pairwise (· ≤ ·)) (keep : Bool) (R : ℕ) (u : ℕ → ℝ) :
    P {ω | ∃ r pos', Returns (fun fuel => ripleyTest lib num call u (fun j k => gen j k ω) (List.ofFn fun i => X i ω)
        (.array s) .none (.metric m) hullArg false keep R fuel) (.ok (r, pos'))} = 1 := by
  set window := lib.hullOf (.given hullArg) with hwin
  have hh : MeasurableHull window := by
    have hset : {p : ℝ × ℝ | window.contains p.1 p.2 = true} = W := by
      ext p; exact hW p.1 p.2
    unfold MeasurableHull
    rw [hset]; exact hmeas
  have hp : parseSizeAndIntensity window none (.int n) = .ok ((n : ℤ), ((1 : ℕ) : ℤ), XF.div (.fin ((n : ℤ) : ℝ)) (.fin window.area)) := by
    simp only [parseSizeAndIntensity, divArea]
    rw [if_neg (by simp [ha])]
    rfl
  have hae : ∀ᵐ ω ∂P, ∀ j, ∃ r pos', Returns (fun fuel => poisson window (fun k => gen j k ω) none (.int n) fuel 0) (.ok (r, pos')) := by
    refine ae_all_iff.2 fun j => ?_
    have hret := C108_poisson_returns P (gen j) (hgen.draws j) window W hW hmeas hbox harea none (.int n) n 1 _ hp 0
    refine (mem_ae_iff_prob_eq_one ?_).2 hret
    have hg : Measurable fun ω k => gen j k ω := measurable_pi_lambda _ (hgen.draws j).measurable
    have := hg (returns_measurable hh none (.int n) 0 (B := Set.univ) .univ)
    simp only [Set.mem_univ, and_true] at this
    exact this
  refine le_antisymm prob_le_one ?_
  rw [← measure_univ (μ := P)]
  refine measure_mono_ae ?_
  filter_upwards [hae] with ω hω _
  choose r q f hf using hω
  -- enough fuel for all simulations
  obtain ⟨F, hF⟩ : ∃ F, ∀ j < R, f j ≤ F :=
    ⟨(Finset.range R).sup f, fun j hj => Finset.le_sup (f := f) (Finset.mem_range.2 hj)⟩
  have hrun : ∀ j < R, ∃ pts, pts.length = n
      ∧ poisson window (fun k => gen j k ω) none (.int n) F 0 = some (.ok (.rows pts, q j)) := by
    intro j hj
    have h1 := poisson_below window (fun k => gen j k ω) none (.int n) 0 (f j) (F - f j) _ (hf j)
    rw [Nat.add_sub_cancel' (hF j hj)] at h1
    obtain ⟨-, -, reps, hreps, hsq⟩ := (poisson_ok window _ _ _ _ _ _ hp _ 0 _ _).1 h1
    rw [Int.toNat_natCast, Int.toNat_natCast] at hreps hsq
    obtain ⟨hl1, hl2⟩ := poissonReps_lengths _ _ _ _ _ _ _ _ hreps
    obtain ⟨rep, rfl⟩ := List.length_eq_one_iff.1 hl1
    unfold squeeze at hsq
    rw [if_pos rfl, if_neg (by omega)] at hsq
    refine ⟨rep, (hl2 rep (by simp)).1, ?_⟩
    rw [h1, hsq]
    simp
  obtain ⟨v, hv⟩ := stat_returns hc num hcall hm hpre (pts := List.ofFn fun i => X i ω) (by simpa using hn) h2 hsort u
    (rehull (.given hullArg)) F 0
  obtain ⟨sims, q', hs⟩ := runs_exist (fun j => simulate lib num call n (.given hullArg) (.metric m) [] s false F fun k => gen j k ω) 0 R 0
    (by
      intro j hj
      rw [Nat.zero_add]
      obtain ⟨pts, hl, hpo⟩ := hrun j hj
      obtain ⟨v', hv'⟩ := stat_returns hc num hcall hm hpre (pts := pts) (by omega) h2 hsort (fun k => gen j k ω)
        (rehull (.given hullArg)) F (q j)
      refine ⟨v', q j, ?_⟩
      unfold simulate oneSimulation
      rw [Run.andThen_ok]
      refine ⟨_, _, hpo, ?_⟩
      simp only [simRows]
      rcases hcall with rfl | rfl | ⟨lin, rfl⟩ <;>
      · simp only
        rw [Run.andThen_ok]
        exact ⟨_, _, hv', rfl⟩)
  obtain ⟨t, ht⟩ := hm
  refine ⟨_, q', F, ripleyTest_ok.2 ⟨m, t, .given hullArg, [], 0, .none, (s, v), 0, sims, rfl, ht, givenHull_ok hhull _, ?_, ?_, hv, ?_, rfl⟩⟩
  · rcases hcall with rfl | rfl | ⟨lin, rfl⟩ <;> rfl
  · rcases hcall with rfl | rfl | ⟨lin, rfl⟩ <;> rfl
  · rw [List.length_ofFn, Int.toNat_natCast]
    exact hs

/-- Completely random events and a sequence of independent generators exist. -/
theorem independentGenerators_exist (n : ℕ) {W : Set (ℝ × ℝ)} (h0 : volume W ≠ 0) (h1 : volume W ≠ ⊤) :
    ∃ (P : Measure ((Fin n → ℝ × ℝ) × (ℕ → ℕ → ℝ))) (_ : IsProbabilityMeasure P),
      CompletelyRandom P (fun i ω => ω.1 i) W
      ∧ IndependentGenerators P (fun j k ω => ω.2 j k) ((volume : Measure ℝ).restrict (Set.Ico 0 1))
      ∧ IndepFun (fun ω i => ω.1 i) (fun ω j k => ω.2 j k) P := by
  have hu := uniformLaw_prob h0 h1
  have : IsProbabilityMeasure ((volume : Measure ℝ).restrict (Set.Ico 0 1)) := ⟨by simp⟩
  set ν : Measure (Fin n → ℝ × ℝ) := Measure.pi fun _ => uniformLaw W with hν
  set D : Measure (ℕ → ℝ) := Measure.infinitePi fun _ => (volume : Measure ℝ).restrict (Set.Ico 0 1) with hD
  set E : Measure (ℕ → ℕ → ℝ) := Measure.infinitePi fun _ => D with hE
  have hfst : (ν.prod E).map Prod.fst = ν := measurePreserving_fst.map_eq
  have hsnd : (ν.prod E).map Prod.snd = E := measurePreserving_snd.map_eq
  have e1 : ∀ i, (ν.prod E).map (fun ω => ω.1 i) = uniformLaw W := by
    intro i
    have : (fun ω : (Fin n → ℝ × ℝ) × (ℕ → ℕ → ℝ) => ω.1 i) = (fun x => x i) ∘ Prod.fst := rfl
    rw [this, ← Measure.map_map (measurable_pi_apply i) measurable_fst, hfst]
    exact (measurePreserving_eval _ i).map_eq
  have m2 : ∀ j, Measurable fun ω : (Fin n → ℝ × ℝ) × (ℕ → ℕ → ℝ) => ω.2 j := fun j => (measurable_pi_apply j).comp measurable_snd
  have e2 : ∀ j, (ν.prod E).map (fun ω => ω.2 j) = D := by
    intro j
    have : (fun ω : (Fin n → ℝ × ℝ) × (ℕ → ℕ → ℝ) => ω.2 j) = (fun x => x j) ∘ Prod.snd := rfl
    rw [this, ← Measure.map_map (measurable_pi_apply j) measurable_snd, hsnd]
    exact Measure.infinitePi_map_eval _ j
  have e3 : ∀ j k, (ν.prod E).map (fun ω => ω.2 j k) = (volume : Measure ℝ).restrict (Set.Ico 0 1) := by
    intro j k
    have : (fun ω : (Fin n → ℝ × ℝ) × (ℕ → ℕ → ℝ) => ω.2 j k) = (fun x => x k) ∘ fun ω => ω.2 j := rfl
    rw [this, ← Measure.map_map (measurable_pi_apply k) (m2 j), e2]
    exact Measure.infinitePi_map_eval _ k
  refine ⟨ν.prod E, inferInstance, ⟨fun i => (measurable_pi_apply i).comp measurable_fst, ?_, ?_⟩,
    ⟨fun j => ⟨fun k => (measurable_pi_apply k).comp (m2 j), ?_, e3 j⟩, ?_⟩,
    indepFun_prod (X := id) (Y := id) measurable_id measurable_id⟩
  · rw [iIndepFun_iff_map_fun_eq_pi_map (f := fun i (ω : (Fin n → ℝ × ℝ) × (ℕ → ℕ → ℝ)) => ω.1 i) fun i => ((measurable_pi_apply i).comp measurable_fst).aemeasurable]
    simp only [e1]
    exact hfst
  · intro i a ha
    have hm : Measurable fun ω : (Fin n → ℝ × ℝ) × (ℕ → ℕ → ℝ) => ω.1 i := (measurable_pi_apply i).comp measurable_fst
    rw [← uniformLaw_apply W ha, ← e1 i, Measure.map_apply hm ha]
    rfl
  · rw [iIndepFun_iff_map_fun_eq_infinitePi_map₀' (X := fun k (ω : (Fin n → ℝ × ℝ) × (ℕ → ℕ → ℝ)) => ω.2 j k) fun k => ((measurable_pi_apply k).comp (m2 j)).aemeasurable]
    simp only [e3]
    exact e2 j
  · rw [iIndepFun_iff_map_fun_eq_infinitePi_map₀' (X := fun j (ω : (Fin n → ℝ × ℝ) × (ℕ → ℕ → ℝ)) => fun k => ω.2 j k) fun j => (m2 j).aemeasurable]
    change _ = Measure.infinitePi fun j => (ν.prod E).map fun ω => ω.2 j
    simp only [e2]
    exact hsnd

/-- Libraries over the real numbers for the example: SciPy's index only, every metric the Manhattan distance. -/
noncomputable def realSortLib : Lib ℝ where
  hasSklearn := false
  kdMetrics := []
  ballMetrics := []
  query := fun _ stored locations k =>
    if k ≤ stored.length then
      .ok (locations.map fun x => sortRow (fun j => |x.1 - (stored.getD j (0, 0)).1| + |x.2 - (stored.getD j (0, 0)).2|)
        stored.length k)
    else .error .valueError
  pdist := fun _ p q => |p.1 - q.1| + |p.2 - q.2|
  hull := fun _ => Hull.ofBBox ⟨0, 0, 1, 1⟩

theorem realSortLib_correct : realSortLib.Correct := by
  intro m stored locations k hk
  refine ⟨_, if_pos hk, by simp, ?_⟩
  intro i h x hx
  rw [List.getElem_map]
  have : locations[i]'(by simpa using h) = x := by
    rw [List.getElem?_eq_getElem (by simpa using h)] at hx
    injection hx
  rw [this]
  exact sortRow_nearest _ _ _ hk

/-- Non-vacuity: fifty completely random events in the box from (0, 0) to (2, 1), the curve of `l_test` at four distances, and 199
simulations. The test returns with probability one, and the chance that the observed value at the distance `1/4` is not tied with a
simulated one and gets a p-value of at most `9/400` is at most `1/20`. -/
example : ∃ (P : Measure ((Fin 50 → ℝ × ℝ) × (ℕ → ℕ → ℝ))) (_ : IsProbabilityMeasure P),
    CompletelyRandom P (fun i ω => ω.1 i) (Set.Icc 0 2 ×ˢ Set.Icc 0 1)
    ∧ P {ω | ∃ r pos', Returns (fun fuel => ripleyTest realSortLib ⟨fun _ _ => true, fun _ _ _ => .ok [], Real.sqrt, Real.pi⟩ (.L true)
        (fun _ => 0) (fun j k => ω.2 j k) (List.ofFn fun i => ω.1 i) (.array [0, 1 / 8, 1 / 4, 1 / 2]) .none
        (.metric (.name "euclidean")) (.ndarray [4] [0, 0, 2, 1]) false true 199 fuel) (.ok (r, pos'))} = 1
    ∧ P.real {ω | ∃ r pos' sims x p, Returns (fun fuel => ripleyTest realSortLib
          ⟨fun _ _ => true, fun _ _ _ => .ok [], Real.sqrt, Real.pi⟩ (.L true)
          (fun _ => 0) (fun j k => ω.2 j k) (List.ofFn fun i => ω.1 i) (.array [0, 1 / 8, 1 / 4, 1 / 2]) .none
          (.metric (.name "euclidean")) (.ndarray [4] [0, 0, 2, 1]) false true 199 fuel) (.ok (r, pos'))
        ∧ r.simulations = some sims ∧ r.statistic[2]? = some (.fin x) ∧ (∀ c ∈ sims, c[2]? ≠ some (.fin x))
        ∧ r.pvalue[2]? = some (.fin p) ∧ p ≤ (((9 / 400 : ℚ)) : ℝ)} ≤ 1 / 20 := by
  have hW : ∀ x y : ℝ, (realSortLib.hullOf (.given (.ndarray [4] [0, 0, 2, 1]))).contains x y = true
      ↔ (x, y) ∈ (Set.Icc 0 2 ×ˢ Set.Icc 0 1 : Set (ℝ × ℝ)) := by
    intro x y
    simp [Lib.hullOf, Hull.ofBBox, containsBBox]
    tauto
  have hb : ∀ p ∈ (Set.Icc 0 2 ×ˢ Set.Icc 0 1 : Set (ℝ × ℝ)),
      (realSortLib.hullOf (.given (.ndarray [4] [0, 0, 2, 1]))).bbox.xmin ≤ p.1
      ∧ p.1 ≤ (realSortLib.hullOf (.given (.ndarray [4] [0, 0, 2, 1]))).bbox.xmax
      ∧ (realSortLib.hullOf (.given (.ndarray [4] [0, 0, 2, 1]))).bbox.ymin ≤ p.2
      ∧ p.2 ≤ (realSortLib.hullOf (.given (.ndarray [4] [0, 0, 2, 1]))).bbox.ymax := by
    rintro p ⟨⟨h1, h2⟩, ⟨h3, h4⟩⟩
    exact ⟨h1, h2, h3, h4⟩
  have hv : volume (Set.Icc 0 2 ×ˢ Set.Icc 0 1 : Set (ℝ × ℝ)) = ENNReal.ofReal 2 * ENNReal.ofReal 1 := by
    rw [Measure.volume_eq_prod, Measure.prod_prod, Real.volume_Icc, Real.volume_Icc]
    norm_num
  have h0 : volume (Set.Icc 0 2 ×ˢ Set.Icc 0 1 : Set (ℝ × ℝ)) ≠ 0 := by
    rw [hv]; norm_num
  have h1 : volume (Set.Icc 0 2 ×ˢ Set.Icc 0 1 : Set (ℝ × ℝ)) ≠ ⊤ := by
    rw [hv]; exact ENNReal.mul_ne_top ENNReal.ofReal_ne_top ENNReal.ofReal_ne_top
  have hmeas : MeasurableSet (Set.Icc 0 2 ×ˢ Set.Icc 0 1 : Set (ℝ × ℝ)) := measurableSet_Icc.prod measurableSet_Icc
  obtain ⟨P, hP, hX, hU, hXU⟩ := independentGenerators_exist 50 h0 h1
  refine ⟨P, hP, hX, ?_, ?_⟩
  · refine C151_returns P _ hU realSortLib realSortLib_correct _ (.L true) (Or.inr (Or.inr ⟨_, rfl⟩)) (.name "euclidean")
      ⟨_, rfl⟩ (by decide) (.ndarray [4] [0, 0, 2, 1]) rfl _ hW hmeas hb h0 ?_ (by omega) (fun i ω => ω.1 i) _ (by simp) (by norm_num) true 199 _
    change areaBBox (⟨0, 0, 2, 1⟩ : BBox ℝ) ≠ 0
    norm_num [areaBBox]
  · refine le_trans (C151_pvalue P _ hU realSortLib realSortLib_correct
      ⟨fun _ _ => true, fun _ _ _ => .ok [], Real.sqrt, Real.pi⟩ Real.continuous_sqrt.measurable (.L true) (Or.inr (Or.inr ⟨_, rfl⟩))
      (.name "euclidean") ?_ (.ndarray [4] [0, 0, 2, 1]) rfl _ hW hmeas hb h0 (by omega) _ hX hXU (.array [0, 1 / 8, 1 / 4, 1 / 2])
      trivial false 199 (by omega) (fun _ => 0) 2 (9 / 400) (by norm_num)) (by norm_num)
    change Measurable fun p : (ℝ × ℝ) × (ℝ × ℝ) => |p.1.1 - p.2.1| + |p.1.2 - p.2.2|
    fun_prop

end Pointpats.Props
