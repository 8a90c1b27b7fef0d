import Verif.Lemmas.DistanceMotion
import Verif.Spec.Similarity
import Verif.Props.DistanceRuns
import Mathlib.Analysis.SpecialFunctions.Sqrt

/-!
# Properties of `pointpats/distance_statistics.py`: other units, another origin, another orientation (C126, C128)
-/

set_option linter.unusedSectionVars false

namespace Pointpats.Props

open Spec Geometry Random DistStats Motion DistMotion

variable {K : Type} [Field K] [LinearOrder K] [IsStrictOrderedRing K] [FloorRing K]

/-! ### C126 -/

/-- **C126, G.** If a map of the plane multiplies the distances by `r > 0`, `g` of the moved events, with support and given
distances in the new units, has the same values at the converted support, or raises the same exception. This covers shifts,
turns, reflections and changes of scale, for every metric that follows them. -/
theorem C126_g (lib : Lib K) (hc : lib.Correct) (move : K × K → K × K) {r : K} (hr : 0 < r) (m : Metric) (distances : DistArg K)
    (hd : ∀ p q, lib.pdist (effective distances m) (move p) (move q) = r * lib.pdist (effective distances m) p q)
    (events : List (K × K)) (hn : 2 ≤ events.length) (support : SupportArg K) (edge : Bool) :
    g lib (events.map move) (scaleSupport r support) (scaleDist r distances) (.metric m) edge
      = (g lib events support distances (.metric m) edge).map fun x => (x.1.map (r * ·), x.2) :=
  g_moved hc hr m distances hd events hn support edge

theorem area_rescaled {r : K} (hr : 0 < r) (a b : K) (events : List (K × K)) :
    ∀ B B', bboxPts events = .ok B → bboxPts (events.map (rescale r r a b)) = .ok B' → areaBBox B' = r ^ 2 * areaBBox B := by
  intro B B' hB hB'
  rw [bboxPts_rescale hr hr, hB] at hB'
  simp only [Except.map, Except.ok.injEq] at hB'
  subst hB'
  simpa [Hull.ofBBox, pow_two] using (ofBBox_rescale hr hr a b B).area

/-- **C126, K and L.** When the origin is moved and lengths are multiplied by `r > 0`, the values of `k` are multiplied by
`r ^ 2` and those of `l` by `r`, or the same exception is raised. -/
theorem C126_k_l (lib : Lib K) (hc : lib.Correct) {r : K} (hr : 0 < r) (a b : K) (m : Metric) (distances : DistArg K)
    (hd : ∀ p q, lib.pdist (effective distances m) (rescale r r a b p) (rescale r r a b q)
      = r * lib.pdist (effective distances m) p q)
    (events : List (K × K)) (hn : 2 ≤ events.length) (support : SupportArg K) (edge : Bool) :
    k lib (events.map (rescale r r a b)) (scaleSupport r support) (scaleDist r distances) (.metric m) edge
      = ((k lib events support distances (.metric m) edge).map fun x => (x.1.map (r * ·), x.2.map (scaleXF (r ^ 2))))
    ∧ ∀ (root : K → K) (pi : K) (linearized : Bool), (∀ x, root (r ^ 2 * x) = r * root x) →
      l lib root pi (events.map (rescale r r a b)) (scaleSupport r support) (scaleDist r distances) (.metric m) edge linearized
        = (l lib root pi events support distances (.metric m) edge linearized).map fun x =>
            (x.1.map (r * ·), x.2.map (scaleXF r)) :=
  ⟨k_moved hc hr (pow_pos hr 2) m distances hd events hn (area_rescaled hr a b events) support edge,
    fun root pi linearized hroot => l_moved hc hr (pow_pos hr 2) root hroot pi m distances hd events hn
      (area_rescaled hr a b events) support edge linearized⟩

/-- **C126, F and J.** With the hull in the new units and the same random numbers the values of `f` and `j` stay, or the same
exception is raised. For `j` the given distances for `g` and `f` must not use different metrics for the support: both given,
none given, or the Euclidean metric. -/
theorem C126_f_j (lib : Lib K) (hc : lib.Correct) {r : K} (hr : 0 < r) (a b : K) (m : Metric) (u : ℕ → K)
    (events : List (K × K)) (hn : 2 ≤ events.length) (support : SupportArg K) (hull hull' : HullArg K)
    (hh : RescaledHull lib r r a b hull hull') (edge : Bool) (fuel pos : ℕ) :
    (∀ distances : DistArg K, (∀ p q, lib.pdist (effective distances m) (rescale r r a b p) (rescale r r a b q)
        = r * lib.pdist (effective distances m) p q) →
      f lib u (events.map (rescale r r a b)) (scaleSupport r support) (scaleDist r distances) (.metric m) hull' edge fuel pos
        = (f lib u events support distances (.metric m) hull edge fuel pos).andThen fun x pos => Run.ret (x.1.map (r * ·), x.2) pos)
    ∧ ∀ (num : Num K) (distances : Option (DistArg K × DistArg K)) (truncate : Bool), (∀ s, num.allclose s s = true) →
      effective (gPart distances) m = effective (fPart distances) m →
      (∀ p q, lib.pdist (effective (fPart distances) m) (rescale r r a b p) (rescale r r a b q)
        = r * lib.pdist (effective (fPart distances) m) p q) →
      j lib u num.allclose num.interp (events.map (rescale r r a b)) (scaleSupport r support)
          (distances.map fun d => (scaleDist r d.1, scaleDist r d.2)) (.metric m) hull' edge truncate fuel pos
        = (j lib u num.allclose num.interp events support distances (.metric m) hull edge truncate fuel pos).andThen fun x pos =>
            Run.ret (x.1.map (r * ·), x.2) pos :=
  ⟨fun distances hd => f_moved hc hr m distances hd events hn support u hh edge fuel pos,
    fun num distances truncate hcl hD hd => j_moved hc hr hcl num.interp m distances hD hd events hn support u hh edge truncate
      fuel pos⟩

/-- **C126, the tests.** With events, support, given distances and hull in the new units and the same random numbers, each of the
five tests gives the same p-values; the support, the statistic and the kept simulations are the old ones in the new units, or the
same exception is raised. -/
theorem C126_tests (lib : Lib K) (hc : lib.Correct) (num : Num K) (hclose : ∀ s, num.allclose s s = true) {r : K} (hr : 0 < r)
    (hroot : ∀ x, num.root (r ^ 2 * x) = r * num.root x) (a b : K) (m : Metric)
    (hm : ∀ m' ∈ [m, .name "euclidean"], ∀ p q, lib.pdist m' (rescale r r a b p) (rescale r r a b q) = r * lib.pdist m' p q)
    (call : Call) (u : ℕ → K) (gen : ℕ → ℕ → K) (events : List (K × K)) (hn : 2 ≤ events.length) (support : SupportArg K)
    (distances : TestDist K) (hD : ∀ dg df, distances = .pair dg df → effective dg m = effective df m)
    (hull hull' : HullArg K) (hh : RescaledHull lib r r a b hull hull') (edge keep : Bool) (nsim : ℤ) (fuel : ℕ) :
    ripleyTest lib num call u gen (events.map (rescale r r a b)) (scaleSupport r support) (scaleTestDist r distances) (.metric m)
        hull' edge keep nsim fuel
      = (ripleyTest lib num call u gen events support distances (.metric m) hull edge keep nsim fuel).andThen fun x pos =>
          Run.ret (scaleResult r (statFactor r call) x) pos :=
  ripleyTest_moved hc hr num hclose hroot call m distances hD ⟨hm m (by simp), hm _ (by simp)⟩ events hn support u gen hh edge keep
    nsim fuel

/-- The Manhattan distance of the example library follows every change of units. -/
theorem sortLib_rescale {r : ℚ} (hr : 0 < r) (a b : ℚ) (m : Metric) (p q : ℚ × ℚ) :
    sortLib.pdist m (rescale r r a b p) (rescale r r a b q) = r * sortLib.pdist m p q := by
  show |a + r * p.1 - (a + r * q.1)| + |b + r * p.2 - (b + r * q.2)| = r * (|p.1 - q.1| + |p.2 - q.2|)
  rw [show a + r * p.1 - (a + r * q.1) = r * (p.1 - q.1) by ring, show b + r * p.2 - (b + r * q.2) = r * (p.2 - q.2) by ring,
    abs_mul, abs_mul, abs_of_pos hr]
  ring

/-- The hypotheses of C126 can be met, and the claim compares results: from kilometres to metres with another origin. -/
example : k sortLib (triangle3.map (rescale 1000 1000 7 (-3))) (.array [0, 2000, 6000]) .none (.metric (.name "euclidean")) false
    = .ok ([0, 2000, 6000], [.fin 0, .fin (16000000/9), .fin (32000000/9)]) := by
  have h := (C126_k_l sortLib sortLib_correct (r := 1000) (by norm_num) 7 (-3) (.name "euclidean") .none
    (sortLib_rescale (by norm_num) _ _ _) triangle3 (by decide) (.array [0, 2, 6]) false).1
  have e : k sortLib triangle3 (.array [0, 2, 6]) .none (.metric (.name "euclidean")) false
      = .ok ([0, 2, 6], [.fin 0, .fin (16/9), .fin (32/9)]) := by decide +kernel
  rw [e] at h
  have e1 : scaleSupport (1000 : ℚ) (.array [0, 2, 6]) = .array [0, 2000, 6000] := by norm_num [scaleSupport]
  rw [e1] at h
  refine h.trans ?_
  norm_num [Except.map, scaleXF]

/-! ### C128 -/

omit [FloorRing K] in
theorem scaleSupport_one (S : SupportArg K) : scaleSupport 1 S = S := by cases S <;> simp [scaleSupport]

omit [FloorRing K] in
theorem scaleDist_one (D : DistArg K) : scaleDist 1 D = D := by cases D <;> simp [scaleDist]

/-- **C128, as far as it holds.** A motion of the plane that keeps the distances does not change `g` at all. It multiplies the
values of `k` by the factor by which the area of the bounding box of the events changes, whatever the study region is. Missing:
that this factor is 1; it is not, see `C128_turned_refuted`. -/
theorem C128_turned_partial (lib : Lib K) (hc : lib.Correct) (move : K × K → K × K) (m : Metric) (distances : DistArg K)
    (hd : ∀ p q, lib.pdist (effective distances m) (move p) (move q) = lib.pdist (effective distances m) p q)
    (events : List (K × K)) (hn : 2 ≤ events.length) (support : SupportArg K) (edge : Bool) :
    g lib (events.map move) support distances (.metric m) edge = g lib events support distances (.metric m) edge
    ∧ ∀ c, 0 < c → (∀ B B', bboxPts events = .ok B → bboxPts (events.map move) = .ok B' → areaBBox B' = c * areaBBox B) →
      k lib (events.map move) support distances (.metric m) edge
        = (k lib events support distances (.metric m) edge).map fun x => (x.1, x.2.map (scaleXF c)) := by
  have hd1 : ∀ p q, lib.pdist (effective distances m) (move p) (move q) = 1 * lib.pdist (effective distances m) p q := by
    intro p q; rw [hd, one_mul]
  constructor
  · have h := g_moved hc one_pos m distances hd1 events hn support edge
    simpa [scaleSupport_one, scaleDist_one, Except.map] using h.trans (by
      cases g lib events support distances (.metric m) edge <;> simp [Except.map] : _ = g lib events support distances (.metric m) edge)
  · intro c hc0 hA
    have h := k_moved hc one_pos hc0 m distances hd1 events hn hA support edge
    simpa [scaleSupport_one, scaleDist_one] using h

/-- Libraries with the Euclidean distance for every metric. -/
noncomputable def euclLib : Lib ℝ where
  hasSklearn := false
  kdMetrics := []
  ballMetrics := []
  query := fun _ stored locations k =>
    if k ≤ stored.length then
      .ok (locations.map fun x => sortRow (fun j => eucl x (stored.getD j (0, 0))) stored.length k)
    else .error .valueError
  pdist := fun _ p q => eucl p q
  hull := fun _ => Hull.ofBBox ⟨0, 0, 1, 1⟩

theorem euclLib_correct : euclLib.Correct := by
  intro m stored locations k hk
  refine ⟨_, if_pos hk, by simp, ?_⟩
  intro i h x hx
  rw [List.getElem_map]
  have : locations[i]'(by simpa using h) = x := by
    rw [List.getElem?_eq_getElem (by simpa using h)] at hx
    injection hx
  rw [this]
  exact sortRow_nearest _ _ _ hk

/-- A turn by the angle of the 3-4-5 triangle. -/
noncomputable def turn345R (p : ℝ × ℝ) : ℝ × ℝ := (3 / 5 * p.1 - 4 / 5 * p.2, 4 / 5 * p.1 + 3 / 5 * p.2)

theorem turn345R_dist (p q : ℝ × ℝ) : eucl (turn345R p) (turn345R q) = eucl p q := by
  unfold eucl
  congr 1
  simp only [sqDist, turn345R]
  ring

/-- **C128 is false of the code.** Two events at (0, 0) and (5, 5) have `K(8) = 25/2`; the same two events after a turn by the
angle of the 3-4-5 triangle have `K(8) = 7/2`, although no distance has changed: `k` divides by the area of the bounding box
along the axes. -/
theorem C128_turned_refuted (lib : Lib ℝ) (hlib : ∀ p q, lib.pdist (.name "euclidean") p q = eucl p q) :
    ∃ events : List (ℝ × ℝ), (∀ p q, eucl (turn345R p) (turn345R q) = eucl p q)
      ∧ k lib events (.array [8]) .none (.metric (.name "euclidean")) false = .ok ([8], [.fin (25/2)])
      ∧ k lib (events.map turn345R) (.array [8]) .none (.metric (.name "euclidean")) false = .ok ([8], [.fin (7/2)]) := by
  have e1 : bboxPts [((0 : ℝ), (0 : ℝ)), (5, 5)] = .ok ⟨0, 0, 5, 5⟩ := by
    simp [bboxPts, listMin, listMax]
  have e2 : bboxPts [((0 : ℝ), (0 : ℝ)), (-1, 7)] = .ok ⟨-1, 0, 0, 7⟩ := by
    simp [bboxPts, listMin, listMax]
  have e3 : [((0 : ℝ), (0 : ℝ)), (5, 5)].map turn345R = [(0, 0), (-1, 7)] := by
    norm_num [turn345R]
  have d1 : eucl ((0 : ℝ), (0 : ℝ)) (5, 5) < 8 := by
    unfold eucl
    rw [Real.sqrt_lt' (by norm_num)]
    norm_num [sqDist]
  have d2 : eucl ((0 : ℝ), (0 : ℝ)) (-1, 7) < 8 := by
    unfold eucl
    rw [Real.sqrt_lt' (by norm_num)]
    norm_num [sqDist]
  refine ⟨[(0, 0), (5, 5)], turn345R_dist, ?_, ?_⟩
  · simp only [k, prepare, prepareHull, e1, DistArg.isNone, resolveSupport, kDistances, bind, Except.bind, pure, Except.pure,
      Except.map, DistStats.pdist]
    simp [hlib, d1, Lib.hullOf, Hull.ofBBox, areaBBox, XF.div]
    norm_num
  · rw [e3]
    simp only [k, prepare, prepareHull, e2, DistArg.isNone, resolveSupport, kDistances, bind, Except.bind, pure, Except.pure,
      Except.map, DistStats.pdist]
    simp [hlib, d2, Lib.hullOf, Hull.ofBBox, areaBBox, XF.div]

/-- The hypotheses of C128 can be met. -/
example : euclLib.Correct ∧ (∀ m p q, euclLib.pdist m (turn345R p) (turn345R q) = euclLib.pdist m p q)
    ∧ ∀ p q, euclLib.pdist (.name "euclidean") p q = eucl p q :=
  ⟨euclLib_correct, fun _ p q => turn345R_dist p q, fun _ _ => rfl⟩

end Pointpats.Props
