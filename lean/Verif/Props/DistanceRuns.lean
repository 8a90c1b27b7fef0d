import Verif.Props.DistanceTests

/-!
# Concrete runs of the simulation tests of `pointpats/distance_statistics.py` (C65, C83, C85, C87)

Runs with a thousand locations are evaluated by the kernel stage by stage.
-/

namespace Pointpats.Props

open Spec Geometry Random DistStats

theorem f_stages {K : Type} [Field K] [LinearOrder K] [IsStrictOrderedRing K] [FloorRing K] {lib : Lib K} {u : ℕ → K}
    {coordinates : List (K × K)} {support : SupportArg K} {metric : MetricArg} {hull : HullArg K} {fuel pos : ℕ} {p : Prepared K}
    {locations : List (K × K)} {data : List K} {r : List K × List (XF K)} {pos' : ℕ}
    (h1 : prepare lib coordinates support false metric hull false = .ok p)
    (h2 : (poisson (lib.hullOf p.hull) u none (.tuple [1000, 1]) fuel pos).andThen (fun r pos => Run.ret r.data pos)
      = some (.ok (locations, pos')))
    (h3 : (treeNearest lib p.metric coordinates locations).map distancesOf = .ok data)
    (h4 : shares data p.support = .ok r) :
    f lib u coordinates support .none metric hull false fuel pos = some (.ok (r, pos')) := by
  unfold f
  rw [show (!(DistArg.none : DistArg K).isNone) = false from rfl, h1]
  simp only [DistArg.isNone, if_true]
  rw [Run.andThen_ok] at h2 ⊢
  obtain ⟨q, p1, hq, h2⟩ := h2
  rw [Run.ret_ok] at h2
  obtain ⟨rfl, rfl⟩ := h2
  refine ⟨q, p1, hq, ?_⟩
  cases ht : treeNearest lib p.metric coordinates q.data with
  | error e => rw [ht] at h3; cases h3
  | ok rows =>
    rw [ht] at h3
    change Except.ok _ = Except.ok _ at h3
    injection h3 with h3
    rw [← h3] at h4
    change some ((shares (distancesOf rows) p.support).map _) = _
    rw [h4]
    rfl

set_option maxRecDepth 100000 in
theorem empty_zero : emptyLocations .F (fun _ => (0 : ℚ)) triangle3 1000 = some (.ok (List.replicate 1000 (0, 0), 2000)) := by
  decide +kernel

set_option maxRecDepth 100000 in
theorem empty_half : emptyLocations .F (fun _ => (1/2 : ℚ)) triangle3 1000 = some (.ok (List.replicate 1000 (2, 1), 2000)) := by
  decide +kernel

/-- The box of `triangle3`. -/
def box3 : BBox ℚ := ⟨0, 0, 4, 2⟩

theorem bbox_triangle3 : bboxPts triangle3 = .ok box3 := by decide +kernel

theorem sortTree : buildBestTree sortLib.hasSklearn sortLib.kdMetrics sortLib.ballMetrics (.name "euclidean")
    = .ok .scipyKDTree := by decide +kernel

theorem locations_of_empty {u : ℕ → ℚ} {fuel : ℕ} {r : Py (List (ℚ × ℚ) × ℕ)} (h : emptyLocations .F u triangle3 fuel = some r) :
    (poisson (Hull.ofBBox box3) u none (.tuple [1000, 1]) fuel 0).andThen (fun r pos => Run.ret r.data pos) = some r := by
  unfold emptyLocations at h
  simp only [bbox_triangle3] at h
  exact h

set_option maxRecDepth 100000 in
/-- **C65 is false of the code.** For the same generator and the same arguments, `f_test` reports another statistic than `f`: all
thousand locations are at an event, so the distance to the nearest event is 0 for all, but `f_test` measures the distance of the
first one to another event. -/
theorem C65_f_test_refuted :
    ∃ (lib : Lib ℚ) (num : Num ℚ) (u : ℕ → ℚ) (coordinates : List (ℚ × ℚ)), lib.Correct ∧ IsDraws u
      ∧ f lib u coordinates (.array [0, 1/2, 1]) .none (.metric (.name "euclidean")) .none false 1000 0
          = some (.ok (([0, 1/2, 1], [.fin 0, .fin 1, .fin 1]), 2000))
      ∧ ∃ r pos', ripleyTest lib num .F u (fun _ => u) coordinates (.array [0, 1/2, 1]) .none (.metric (.name "euclidean")) .none
          false true 0 1000 = some (.ok (r, pos')) ∧ r.statistic = [.fin 0, .fin (999/1000), .fin 1] := by
  refine ⟨sortLib, ratNum, fun _ => 0, triangle3, sortLib_correct, fun _ => ⟨le_refl _, zero_lt_one⟩, ?_, ?_⟩
  · exact f_stages (p := ⟨[0, 1/2, 1], true, .name "euclidean", .bboxOf box3⟩) (data := List.replicate 1000 0) (by decide +kernel)
      (locations_of_empty empty_zero) (by decide +kernel) (by decide +kernel)
  · refine ⟨⟨[0, 1/2, 1], [.fin 0, .fin (999/1000), .fin 1], [.nan, .nan, .nan], some []⟩, 0, ?_, rfl⟩
    exact ripleyTest_ok.2 ⟨.name "euclidean", .scipyKDTree, .bboxOf box3, List.replicate 1000 (0, 0), 2000,
      .single (.vec (1 :: List.replicate 999 0)), ([0, 1/2, 1], [.fin 0, .fin (999/1000), .fin 1]), 2000, [], rfl, sortTree,
      by decide +kernel, empty_zero, by decide +kernel, by decide +kernel, rfl, rfl⟩

set_option maxRecDepth 100000 in
/-- **C85 is false of the code.** With a study region larger than the extent of the events, `f` draws its locations there, all
farther than 10 from the events here, but `f_test`, with the same generator, draws them between the events, all nearer than
10. -/
theorem C85_region_refuted :
    ∃ (lib : Lib ℚ) (num : Num ℚ) (u : ℕ → ℚ) (coordinates : List (ℚ × ℚ)) (hull : HullArg ℚ), lib.Correct ∧ IsDraws u
      ∧ f lib u coordinates (.array [0, 10, 50]) .none (.metric (.name "euclidean")) hull false 1000 0
          = some (.ok (([0, 10, 50], [.fin 0, .fin 0, .fin 1]), 2000))
      ∧ ∃ r pos', ripleyTest lib num .F u (fun _ => u) coordinates (.array [0, 10, 50]) .none (.metric (.name "euclidean")) hull
          false true 0 1000 = some (.ok (r, pos')) ∧ r.statistic = [.fin 0, .fin 1, .fin 1] := by
  refine ⟨sortLib, ratNum, fun _ => 1/2, triangle3, .ndarray [4] [0, 0, 40, 20], sortLib_correct, fun _ => by constructor <;> norm_num,
    ?_, ?_⟩
  · exact f_stages (p := ⟨[0, 10, 50], true, .name "euclidean", .given (.ndarray [4] [0, 0, 40, 20])⟩)
      (locations := List.replicate 1000 (20, 10)) (data := List.replicate 1000 24) (by decide +kernel)
      (by decide +kernel) (by decide +kernel) (by decide +kernel)
  · refine ⟨⟨[0, 10, 50], [.fin 0, .fin 1, .fin 1], [.nan, .nan, .nan], some []⟩, 0, ?_, rfl⟩
    exact ripleyTest_ok.2 ⟨.name "euclidean", .scipyKDTree, .given (.ndarray [4] [0, 0, 40, 20]), List.replicate 1000 (2, 1), 2000,
      .single (.vec (2 :: 3 :: List.replicate 998 2)), ([0, 10, 50], [.fin 0, .fin 1, .fin 1]), 2000, [], rfl, sortTree,
      by decide +kernel, empty_half, by decide +kernel, by decide +kernel, rfl, rfl⟩

set_option maxRecDepth 100000 in
/-- **C83 is false of the code** for a support of one distance: there is nothing to cut, and `j_test` returns `None`. -/
theorem C83_j_test_refuted :
    ∃ (lib : Lib ℚ) (num : Num ℚ) (u : ℕ → ℚ) (coordinates : List (ℚ × ℚ)), lib.Correct ∧ (∀ s, num.allclose s s = true)
      ∧ IsDraws u
      ∧ (∃ r pos', jTest lib num u (fun _ => u) coordinates (.array [2]) .none (.metric (.name "euclidean")) .none false false true
          0 1000 = some (.ok (r, pos')) ∧ r.map TestResult.statistic = some [.fin 1])
      ∧ ∃ r pos', jTest lib num u (fun _ => u) coordinates (.array [2]) .none (.metric (.name "euclidean")) .none false true true
          0 1000 = some (.ok (r, pos')) ∧ r.isNone = true := by
  have h : ripleyTest sortLib ratNum .J (fun _ => 0) (fun _ _ => 0) triangle3 (.array [2]) .none (.metric (.name "euclidean")) .none
      false true 0 1000 = some (.ok (⟨[2], [.fin 1], [.nan], some []⟩, 0)) :=
    ripleyTest_ok.2 ⟨.name "euclidean", .scipyKDTree, .bboxOf box3, List.replicate 1000 (0, 0), 2000,
      .pair (.vec [1, 1, 5]) (.vec (1 :: List.replicate 999 0)), ([2], [.fin 1]), 2000, [], rfl, sortTree,
      by decide +kernel, empty_zero, by decide +kernel, by decide +kernel, rfl, rfl⟩
  refine ⟨sortLib, ratNum, fun _ => 0, triangle3, sortLib_correct, fun s => decide_eq_true rfl,
    fun _ => ⟨le_refl _, zero_lt_one⟩, ⟨some ⟨[2], [.fin 1], [.nan], some []⟩, 0, ?_, rfl⟩, ⟨none, 0, ?_, rfl⟩⟩
  all_goals
    unfold jTest
    rw [Run.andThen_ok]
    exact ⟨_, _, h, by decide +kernel⟩

set_option maxRecDepth 100000 in
/-- **C87 is false of the code.** Three simulations and the support `0, 1, 5`, cut to `0, 1`: of the kept simulations one is
dropped, and the others are not cut, they are curves of three values. -/
theorem C87_simulations_refuted :
    ∃ (lib : Lib ℚ) (num : Num ℚ) (u : ℕ → ℚ) (gen : ℕ → ℕ → ℚ) (coordinates : List (ℚ × ℚ)), lib.Correct
      ∧ ∃ r pos', jTest lib num u gen coordinates (.array [0, 1, 5]) .none (.metric (.name "euclidean")) .none false true true 3
          1000 = some (.ok (r, pos'))
        ∧ r.map (fun r => (r.support, r.simulations.map fun sims => sims.map List.length)) = some ([0, 1], some [3, 3]) := by
  have h : ripleyTest sortLib ratNum .J (fun _ => 0) (fun i j => ((i + 3 * j + j ^ 2) % 7 : ℕ) / 7) triangle3 (.array [0, 1, 5])
      .none (.metric (.name "euclidean")) .none false true 3 1000
      = some (.ok (⟨[0, 1, 5], [.fin 1, .fin 1000, .nan], [.fin 0, .fin (1/4), .fin (1/4)],
          some [[.fin 1, .fin (1/3), .nan], [.fin 1, .fin (1/3), .nan], [.fin 1, .fin 1, .nan]]⟩, 6)) :=
    ripleyTest_ok.2 ⟨.name "euclidean", .scipyKDTree, .bboxOf box3, List.replicate 1000 (0, 0), 2000,
      .pair (.vec [1, 1, 5]) (.vec (1 :: List.replicate 999 0)), ([0, 1, 5], [.fin 1, .fin 1000, .nan]), 2000,
      [[.fin 1, .fin (1/3), .nan], [.fin 1, .fin (1/3), .nan], [.fin 1, .fin 1, .nan]], rfl, sortTree,
      by decide +kernel, empty_zero, by decide +kernel, by decide +kernel, by decide +kernel, by decide +kernel⟩
  refine ⟨sortLib, ratNum, fun _ => 0, fun i j => ((i + 3 * j + j ^ 2) % 7 : ℕ) / 7, triangle3, sortLib_correct,
    some ⟨[0, 1], [.fin 1, .fin 1000], [.fin 0, .fin (1/4)], some [[.fin 1, .fin (1/3), .nan], [.fin 1, .fin (1/3), .nan]]⟩, 6, ?_, rfl⟩
  unfold jTest
  rw [Run.andThen_ok]
  exact ⟨_, _, h, by decide +kernel⟩

end Pointpats.Props
