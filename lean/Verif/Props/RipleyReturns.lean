import Verif.Lemmas.FuelMono
import Verif.Lemmas.SortQuery
import Verif.Props.DistanceTests
import Verif.Props.RipleyCsr

/-!
# C155: which patterns `g_test`, `k_test` and `l_test` accept
-/

set_option linter.unusedSectionVars false

namespace Pointpats.Props

open DistStats Geometry Random Spec FuelMono

variable {K : Type} [Field K] [LinearOrder K] [IsStrictOrderedRing K] [FloorRing K]

private theorem given_ok {hullArg : HullArg K} (h : GivenHull hullArg) (pts : List (K × K)) :
    prepareHull pts hullArg = .ok (.given hullArg) := by
  cases hullArg with
  | ndarray shape data => cases h; rfl
  | polygon | multiPolygon | otherShapely | convexHull => rfl
  | none | str | other => exact h.elim

/-- `k` returns for all events, also for a single one. -/
private theorem k_returns (lib : Lib K) {m : Metric} (hpre : m ≠ .name "precomputed") {pts : List (K × K)} (hne : pts ≠ [])
    (s : List K) : ∃ v, k lib pts (.array s) .none (.metric m) false = .ok (s, v) := by
  obtain ⟨b, hb⟩ := bboxPts_ok hne
  have hh : prepareHull pts .none = .ok (.bboxOf b) := by simp only [prepareHull, hb]; rfl
  have hp : prepare lib pts (.array s) (!(DistArg.none : DistArg K).isNone) (.metric m) .none false = .ok ⟨s, true, m, .bboxOf b⟩ := by
    unfold prepare
    rw [if_neg (by simp), hh]
    change (if _ then _ else _) = _
    rw [if_neg (by simpa [DistArg.isNone] using hpre)]
    rfl
  unfold k
  rw [hp]
  exact ⟨_, rfl⟩

private theorem l_returns (lib : Lib K) (num : Num K) (lin : Bool) {m : Metric} (hpre : m ≠ .name "precomputed")
    {pts : List (K × K)} (hne : pts ≠ []) (s : List K) :
    ∃ v, l lib num.root num.pi pts (.array s) .none (.metric m) false lin = .ok (s, v) := by
  obtain ⟨v, hv⟩ := k_returns lib hpre hne s
  unfold l
  rw [hv]
  exact ⟨_, rfl⟩

private theorem curve_returns {lib : Lib K} (hc : lib.Correct) (num : Num K) {call : Call}
    (hcall : call = .G ∨ call = .K ∨ ∃ lin, call = .L lin) {m : Metric}
    (hm : ∃ t, buildBestTree lib.hasSklearn lib.kdMetrics lib.ballMetrics m = .ok t) (hpre : m ≠ .name "precomputed")
    {pts : List (K × K)} (hn : 2 ≤ pts.length) {s : List K} (h2 : 2 ≤ s.length) (hsort : s.Pairwise (· ≤ ·)) (u : ℕ → K)
    (hull : HullArg K) (fuel pos : ℕ) :
    ∃ v, callStat lib num call u pts (.array s) .none (.metric m) hull false fuel pos = some (.ok ((s, v), pos)) := by
  have hne : pts ≠ [] := by rintro rfl; simp at hn
  rcases hcall with rfl | rfl | ⟨lin, rfl⟩
  · obtain ⟨v, hv⟩ := (C57_g_returns lib hc pts hn m hm hpre s h2).1 hsort
    refine ⟨v, ?_⟩
    unfold callStat liftPy
    simp only
    change some ((g lib pts (.array s) .none (.metric m) false).map _) = _
    rw [hv]
    rfl
  · obtain ⟨v, hv⟩ := k_returns lib hpre hne s
    refine ⟨v, ?_⟩
    unfold callStat liftPy
    simp only
    change some ((k lib pts (.array s) .none (.metric m) false).map _) = _
    rw [hv]
    rfl
  · obtain ⟨v, hv⟩ := l_returns lib num lin hpre hne s
    refine ⟨v, ?_⟩
    unfold callStat liftPy
    simp only
    change some ((l lib num.root num.pi pts (.array s) .none (.metric m) false lin).map _) = _
    rw [hv]
    rfl

private theorem reps_return {α : Type} (A : ℕ → Run α) (i n p : ℕ) (h : ∀ k, k < n → ∃ a q, A (i + k) = some (.ok (a, q))) :
    ∃ l q, replications (fun i _ => A i) i n p = some (.ok (l, q)) := by
  induction n generalizing i p with
  | zero => exact ⟨[], p, rfl⟩
  | succ n ih =>
    obtain ⟨a, q, ha⟩ := h 0 (by omega)
    obtain ⟨l, q', hl⟩ := ih (i + 1) q (fun k hk => by
      have := h (k + 1) (by omega)
      rwa [show i + (k + 1) = i + 1 + k by omega] at this)
    refine ⟨a :: l, q', ?_⟩
    rw [replications, Run.andThen_ok]
    refine ⟨a, q, ha, ?_⟩
    rw [Run.andThen_ok]
    exact ⟨l, q', hl, rfl⟩

/-- What `poisson(hull, size=n)` returns. -/
private theorem poisson_int {h : Hull K} {u : ℕ → K} {n fuel pos pos' : ℕ} {r : Squeezed K}
    (hr : poisson h u none (.int n) fuel pos = some (.ok (r, pos'))) :
    (n = 1 ∧ ∃ p, r = .point p) ∨ (n ≠ 1 ∧ ∃ pts, r = .rows pts ∧ pts.length = n) := by
  cases hp : parseSizeAndIntensity h none (.int n) with
  | error e => rw [poisson, hp] at hr; cases hr
  | ok a =>
    obtain ⟨n', s', i⟩ := a
    have e : n' = n ∧ s' = 1 := by
      unfold parseSizeAndIntensity at hp
      simp only at hp
      cases hd : divArea h (n : ℤ) with
      | error e => rw [hd] at hp; cases hp
      | ok x => rw [hd] at hp; cases hp; exact ⟨rfl, rfl⟩
    obtain ⟨rfl, rfl⟩ := e
    obtain ⟨-, -, reps, hreps, hsq⟩ := (poisson_ok h u _ _ _ _ _ hp _ _ _ _).1 hr
    rw [Int.toNat_natCast, Int.toNat_one] at hreps hsq
    obtain ⟨hl1, hl2⟩ := poissonReps_lengths _ _ _ _ _ _ _ _ hreps
    obtain ⟨rep, rfl⟩ := List.length_eq_one_iff.1 hl1
    unfold squeeze at hsq
    rw [if_pos rfl] at hsq
    by_cases h1 : n = 1
    · rw [if_pos h1] at hsq
      exact .inl ⟨h1, _, hsq⟩
    · rw [if_neg h1] at hsq
      refine .inr ⟨h1, _, hsq, ?_⟩
      simpa using (hl2 rep (by simp)).1

/-- **C155, partial.** For two or more events, a supported metric, a given hull and an array of two or more distances in
non-decreasing order, `g_test`, `k_test` and `l_test` return, for every number of simulations, whenever the simulated patterns can be
drawn. What is missing: patterns of one event, see `C155_single_refuted`. -/
theorem C155_returns_partial (lib : Lib K) (hc : lib.Correct) (num : Num K) (call : Call)
    (hcall : call = .G ∨ call = .K ∨ ∃ lin, call = .L lin) (m : Metric)
    (hm : ∃ t, buildBestTree lib.hasSklearn lib.kdMetrics lib.ballMetrics m = .ok t) (hpre : m ≠ .name "precomputed")
    (hullArg : HullArg K) (hhull : GivenHull hullArg) (coordinates : List (K × K)) (hn : 2 ≤ coordinates.length)
    (s : List K) (h2 : 2 ≤ s.length) (hsort : s.Pairwise (· ≤ ·)) (keep : Bool) (R : ℕ) (u : ℕ → K) (gen : ℕ → ℕ → K)
    (hgen : ∀ j < R, ∃ r pos', Returns (fun fuel => poisson (lib.hullOf (.given hullArg)) (gen j) none
      (.int coordinates.length) fuel 0) (.ok (r, pos'))) :
    ∃ r pos', Returns (fun fuel => ripleyTest lib num call u gen coordinates (.array s) .none (.metric m) hullArg false keep R
      fuel) (.ok (r, pos')) := by
  have hgen' : ∀ j, ∃ r : Squeezed K, ∃ q f, j < R → poisson (lib.hullOf (.given hullArg)) (gen j) none
      (.int coordinates.length) f 0 = some (.ok (r, q)) := by
    intro j
    by_cases hj : j < R
    · obtain ⟨r, q, f, hf⟩ := hgen j hj
      exact ⟨r, q, f, fun _ => hf⟩
    · exact ⟨.rows [], 0, 0, fun h => absurd h hj⟩
  choose r q f hf using hgen'
  obtain ⟨F, hF⟩ : ∃ F, ∀ j < R, f j ≤ F :=
    ⟨(Finset.range R).sup f, fun j hj => Finset.le_sup (f := f) (Finset.mem_range.2 hj)⟩
  have hrun : ∀ j < R, ∃ pts, pts.length = coordinates.length
      ∧ poisson (lib.hullOf (.given hullArg)) (gen j) none (.int coordinates.length) F 0 = some (.ok (.rows pts, q j)) := by
    intro j hj
    have h1 := poisson_below (lib.hullOf (.given hullArg)) (gen j) none (.int coordinates.length) 0 (f j) (F - f j) _ (hf j hj)
    rw [Nat.add_sub_cancel' (hF j hj)] at h1
    rcases poisson_int h1 with ⟨h, -⟩ | ⟨-, pts, h, hl⟩
    · omega
    · exact ⟨pts, hl, by rw [h1, h]⟩
  obtain ⟨v, hv⟩ := curve_returns hc num hcall hm hpre hn h2 hsort u (rehull (.given hullArg)) F 0
  obtain ⟨sims, q', hs⟩ := reps_return (fun j => simulate lib num call coordinates.length (.given hullArg) (.metric m) [] s false F
    (gen j)) 0 R 0 (by
      intro j hj
      rw [Nat.zero_add]
      obtain ⟨pts, hl, hpo⟩ := hrun j hj
      obtain ⟨v', hv'⟩ := curve_returns hc num hcall hm hpre (pts := pts) (by omega) h2 hsort (gen j)
        (rehull (.given hullArg)) F (q j)
      refine ⟨v', q j, ?_⟩
      unfold simulate oneSimulation
      rw [Run.andThen_ok]
      refine ⟨_, _, hpo, ?_⟩
      simp only [simRows]
      rcases hcall with rfl | rfl | ⟨lin, rfl⟩ <;>
      · simp only
        rw [Run.andThen_ok]
        exact ⟨_, _, hv', rfl⟩)
  obtain ⟨t, ht⟩ := hm
  refine ⟨_, q', F, ripleyTest_ok.2 ⟨m, t, .given hullArg, [], 0, .none, (s, v), 0, sims, rfl, ht, given_ok hhull _, ?_, ?_, hv, ?_, rfl⟩⟩
  · rcases hcall with rfl | rfl | ⟨lin, rfl⟩ <;> rfl
  · rcases hcall with rfl | rfl | ⟨lin, rfl⟩ <;> rfl
  · rw [Int.toNat_natCast]
    exact hs

/-- **C155 is false of patterns of one event.** `k` and `l` return a curve for every event and every array of distances, but with
one or more simulations no test of the family returns a result for one event, whatever the other arguments and the random numbers
are; `k_test` and `l_test` raise a `TypeError` as soon as the first simulated event is drawn. -/
theorem C155_single_refuted (lib : Lib K) (num : Num K) (p : K × K) (m : Metric)
    (hm : ∃ t, buildBestTree lib.hasSklearn lib.kdMetrics lib.ballMetrics m = .ok t) (hpre : m ≠ .name "precomputed") (s : List K)
    (R : ℕ) (hR : 0 < R) (keep : Bool) (u : ℕ → K) (gen : ℕ → ℕ → K) :
    (∃ v, k lib [p] (.array s) .none (.metric m) false = .ok (s, v))
    ∧ (∀ lin, ∃ v, l lib num.root num.pi [p] (.array s) .none (.metric m) false lin = .ok (s, v))
    ∧ (∀ call support distances metric hullArg edge, ¬ ∃ r pos', Returns (fun fuel => ripleyTest lib num call u gen [p] support
        distances metric hullArg edge keep R fuel) (.ok (r, pos')))
    ∧ ∀ call, (call = .K ∨ ∃ lin, call = .L lin) → ∀ hullArg, GivenHull hullArg →
        (∃ r pos', Returns (fun fuel => poisson (lib.hullOf (.given hullArg)) (gen 0) none (.int 1) fuel 0) (.ok (r, pos'))) →
        Returns (fun fuel => ripleyTest lib num call u gen [p] (.array s) .none (.metric m) hullArg false keep R fuel)
          (.error .typeError) := by
  refine ⟨k_returns lib hpre (by simp) s, fun lin => l_returns lib num lin hpre (by simp) s, ?_, ?_⟩
  · rintro call support distances metric hullArg edge ⟨r, pos', fuel, h⟩
    obtain ⟨m, t, H, empty, pos0, d, obs, pos1, sims, rfl, -, -, -, -, -, hs, -⟩ := ripleyTest_ok.1 h
    obtain ⟨R, rfl⟩ : ∃ R', R = R' + 1 := ⟨R - 1, by omega⟩
    rw [Int.toNat_natCast, replications, Run.andThen_ok] at hs
    obtain ⟨a, q, ha, -⟩ := hs
    unfold simulate oneSimulation at ha
    rw [Run.andThen_ok] at ha
    obtain ⟨x, q1, hx, ha⟩ := ha
    rcases poisson_int hx with ⟨-, y, rfl⟩ | ⟨h1, -⟩
    · cases call <;> simp [simRows, Run.fail] at ha
    · simp at h1
  · rintro call hcall hullArg hhull ⟨r, q, fuel, hr⟩
    refine ⟨fuel, ?_⟩
    obtain ⟨t, ht⟩ := hm
    obtain ⟨R, rfl⟩ : ∃ R', R = R' + 1 := ⟨R - 1, by omega⟩
    have hr' : poisson (lib.hullOf (.given hullArg)) (gen 0) none (.int (([p] : List (K × K)).length : ℕ)) fuel 0
        = some (.ok (r, q)) := hr
    obtain ⟨y, rfl⟩ : ∃ y, r = .point y := by
      rcases poisson_int hr' with ⟨-, y, h⟩ | ⟨h1, -⟩
      · exact ⟨y, h⟩
      · simp at h1
    have hstat : ∃ v, callStat lib num call u [p] (.array s) .none (.metric m) (rehull (.given hullArg)) false fuel 0
        = some (.ok ((s, v), 0)) := by
      rcases hcall with rfl | ⟨lin, rfl⟩
      · obtain ⟨v, hv⟩ := k_returns lib hpre (pts := [p]) (by simp) s
        refine ⟨v, ?_⟩
        unfold callStat liftPy
        simp only
        change some ((k lib [p] (.array s) .none (.metric m) false).map _) = _
        rw [hv]
        rfl
      · obtain ⟨v, hv⟩ := l_returns lib num lin hpre (pts := [p]) (by simp) s
        refine ⟨v, ?_⟩
        unfold callStat liftPy
        simp only
        change some ((l lib num.root num.pi [p] (.array s) .none (.metric m) false lin).map _) = _
        rw [hv]
        rfl
    obtain ⟨v, hv⟩ := hstat
    have hsim : ∀ hullArg', oneSimulation lib num call (gen 0) ([p] : List (K × K)).length (.given hullArg) hullArg' (.metric m) []
        s false fuel = some (.error .typeError) := by
      intro hullArg'
      unfold oneSimulation
      rw [hr']
      rcases hcall with rfl | ⟨lin, rfl⟩ <;> rfl
    have he : emptyLocations call u [p] fuel = some (.ok ([], 0)) := by rcases hcall with rfl | ⟨lin, rfl⟩ <;> rfl
    have hd : testDistances lib call m [p] [] .none = .ok .none := by rcases hcall with rfl | ⟨lin, rfl⟩ <;> rfl
    show ripleyTest lib num call u gen [p] (.array s) .none (.metric m) hullArg false keep _ fuel = _
    unfold ripleyTest
    simp only [ht, given_ok hhull, he, Run.andThen, hd, hv, Int.toNat_natCast, replications, hsim]

/-- **C155, what is raised.** If a test of one event returns when it is asked for no simulations, and the first simulated event can be
drawn, then with one or more simulations `f_test` and `j_test` raise a `ValueError` and the other tests a `TypeError`, for all
arguments. -/
theorem C155_single_raises (lib : Lib K) (num : Num K) (call : Call) (p : K × K) (support : SupportArg K) (distances : TestDist K)
    (metric : MetricArg) (hullArg : HullArg K) (hhull : GivenHull hullArg) (edge keep : Bool) (u : ℕ → K) (gen : ℕ → ℕ → K) (R : ℕ)
    (hR : 0 < R) (fuel : ℕ)
    (hzero : ∃ r pos', ripleyTest lib num call u gen [p] support distances metric hullArg edge keep 0 fuel = some (.ok (r, pos')))
    (hdraw : ∃ r pos', poisson (lib.hullOf (.given hullArg)) (gen 0) none (.int 1) fuel 0 = some (.ok (r, pos'))) :
    Returns (fun fuel => ripleyTest lib num call u gen [p] support distances metric hullArg edge keep R fuel)
      (.error (if call = .F ∨ call = .J then .valueError else .typeError)) := by
  obtain ⟨r, q, hr⟩ := hdraw
  obtain ⟨r0, pos', h0⟩ := hzero
  obtain ⟨m, t, H, empty, pos0, d, obs, pos1, sims, rfl, ht, hH, he, hd, hv, -, -⟩ := ripleyTest_ok.1 h0
  rw [given_ok hhull, Except.ok.injEq] at hH
  subst hH
  obtain ⟨R, rfl⟩ : ∃ R', R = R' + 1 := ⟨R - 1, by omega⟩
  have hr' : poisson (lib.hullOf (.given hullArg)) (gen 0) none (.int (([p] : List (K × K)).length : ℕ)) fuel 0
      = some (.ok (r, q)) := hr
  obtain ⟨y, rfl⟩ : ∃ y, r = .point y := by
    rcases poisson_int hr' with ⟨-, y, h⟩ | ⟨h1, -⟩
    · exact ⟨y, h⟩
    · simp at h1
  have hsim : ∀ hullArg', oneSimulation lib num call (gen 0) ([p] : List (K × K)).length (.given hullArg) hullArg' (.metric m) empty
      obs.1 edge fuel = some (.error (if call = .F ∨ call = .J then .valueError else .typeError)) := by
    intro hullArg'
    unfold oneSimulation
    rw [hr']
    cases call <;> rfl
  refine ⟨fuel, ?_⟩
  show ripleyTest lib num call u gen [p] support distances (.metric m) hullArg edge keep _ fuel = _
  unfold ripleyTest
  simp only [ht, given_ok hhull, he, Run.andThen, hd, hv, Int.toNat_natCast, replications, hsim]

/-- The hypotheses are met: two events can be drawn in the unit square, and so can one. -/
example : (∃ t, buildBestTree sortLib.hasSklearn sortLib.kdMetrics sortLib.ballMetrics (.name "euclidean") = .ok t)
    ∧ GivenHull (.ndarray [4] [(0 : ℚ), 0, 1, 1])
    ∧ (∃ r pos', Returns (fun fuel => poisson (sortLib.hullOf (.given (.ndarray [4] [0, 0, 1, 1])))
        (fun i => (((7 * i + 3) % 10 : ℕ) + 1 / 2 : ℚ) / 10) none (.int 2) fuel 0) (.ok (r, pos')))
    ∧ ∃ r pos', Returns (fun fuel => poisson (sortLib.hullOf (.given (.ndarray [4] [0, 0, 1, 1])))
        (fun i => (((7 * i + 3) % 10 : ℕ) + 1 / 2 : ℚ) / 10) none (.int 1) fuel 0) (.ok (r, pos')) := by
  refine ⟨⟨_, rfl⟩, rfl, ⟨.rows [(7 / 20, 1 / 20), (3 / 4, 9 / 20)], 4, 5, ?_⟩, ⟨.point (7 / 20, 1 / 20), 2, 5, ?_⟩⟩ <;>
  decide +kernel

private def okRun {α : Type} : Run α → Bool
  | some (.ok _) => true
  | _ => false

private theorem okRun_iff {α : Type} {x : Run α} (h : okRun x = true) : ∃ r pos', x = some (.ok (r, pos')) := by
  cases x with
  | none => cases h
  | some y => cases y with
    | error => cases h
    | ok v => exact ⟨v.1, v.2, rfl⟩

/-- `C155_single_raises` applies to `f_test` with the distances of the empty-space points given, and to `k_test`. -/
example :
    let num : Num ℚ := ⟨fun a b => decide (a = b), fun _ _ _ => .ok [], fun x => x, 3⟩
    let test := fun call distances R fuel => ripleyTest sortLib num call (fun _ => 1 / 2) (fun _ _ => 1 / 2) [(0, 0)] (.array [1, 2])
      distances (.metric (.name "euclidean")) (.ndarray [4] [0, 0, 1, 1]) false false R fuel
    Returns (test .F (.single (.vec [1])) 1) (.error .valueError) ∧ Returns (test .K .none 1) (.error .typeError) := by
  intro num test
  exact ⟨C155_single_raises sortLib num .F _ _ _ _ (.ndarray [4] [0, 0, 1, 1]) rfl _ _ _ _ 1 (by decide) 1001 (okRun_iff (by decide +kernel))
      (okRun_iff (by decide +kernel)),
    C155_single_raises sortLib num .K _ _ _ _ (.ndarray [4] [0, 0, 1, 1]) rfl _ _ _ _ 1 (by decide) 5 (okRun_iff (by decide +kernel))
      (okRun_iff (by decide +kernel))⟩

end Pointpats.Props
