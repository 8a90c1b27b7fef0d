import Verif.Props.DistanceTests

/-!
# C122: the tests report the functions they are named after
-/

set_option linter.unusedSectionVars false

namespace Pointpats.Props

open DistStats Random Geometry

variable {K : Type} [Field K] [LinearOrder K] [IsStrictOrderedRing K] [FloorRing K]

/-- C122: `g_test`, `k_test` and `l_test` report the support and the values that `g`, `k` and `l` return for the same arguments,
whatever the simulations, the hull and the generators are. -/
theorem C122_same_function (lib : Lib K) (num : Num K) (u : ℕ → K) (gen : ℕ → ℕ → K) (coordinates : List (K × K))
    (support : SupportArg K) (distances : Option (DistArg K)) (metric : MetricArg) (hullArg : HullArg K)
    (edge linearized keep : Bool) (nsim : ℤ) (r : TestResult K) (pos' : ℕ) :
    (Returns (fun fuel => gTest lib num u gen coordinates support (distances.elim .none .single) metric hullArg edge keep nsim
        fuel) (.ok (r, pos')) →
      g lib coordinates support (distances.getD .none) metric edge = .ok (r.support, r.statistic))
    ∧ (Returns (fun fuel => kTest lib num u gen coordinates support (distances.elim .none .single) metric hullArg edge keep nsim
        fuel) (.ok (r, pos')) →
      k lib coordinates support (distances.getD .none) metric edge = .ok (r.support, r.statistic))
    ∧ (Returns (fun fuel => lTest lib num u gen coordinates support (distances.elim .none .single) metric hullArg edge
        linearized keep nsim fuel) (.ok (r, pos')) →
      l lib num.root num.pi coordinates support (distances.getD .none) metric edge linearized
        = .ok (r.support, r.statistic)) := by
  refine ⟨?_, ?_, ?_⟩ <;> rintro ⟨fuel, h⟩
  all_goals
    obtain ⟨m, t, H, empty, pos0, d, obs, pos1, sims, -, -, -, -, hd, ho, -, rfl⟩ := ripleyTest_ok.1 h
    have hd' : d = distances.elim .none .single := by
      cases distances <;> exact (Except.ok.inj hd).symm
    subst hd'
    clear hd h
    cases distances with
    | none => exact (liftPy_ok ho).1
    | some d => exact (liftPy_ok ho).1

/-- C122: the number of reported curves, and the numbers of values: as many p-values as values of the statistic, or as values of
the support if nothing is simulated; the curves only if they are asked for. -/
theorem C122_shape (lib : Lib K) (num : Num K) (call : Call) (u : ℕ → K) (gen : ℕ → ℕ → K) (coordinates : List (K × K))
    (support : SupportArg K) (distances : TestDist K) (metric : MetricArg) (hullArg : HullArg K) (edge keep : Bool) (nsim : ℤ)
    (r : TestResult K) (pos' : ℕ)
    (h : Returns (fun fuel => ripleyTest lib num call u gen coordinates support distances metric hullArg edge keep nsim fuel)
      (.ok (r, pos'))) :
    (r.simulations.map List.length = if keep then some nsim.toNat else none)
    ∧ (0 < nsim → r.pvalue.length = r.statistic.length ∧ ∀ p ∈ r.pvalue, ∃ x : K, p = .fin x)
    ∧ (nsim ≤ 0 → r.pvalue = List.replicate r.support.length .nan) := by
  obtain ⟨fuel, h⟩ := h
  obtain ⟨m, t, H, empty, pos0, d, obs, pos1, sims, -, -, -, -, -, -, hs, rfl⟩ := ripleyTest_ok.1 h
  have hlen := (replications_spec _ _ _ _ _ _ hs).1
  refine ⟨?_, fun hn => ?_, fun hn => ?_⟩
  · cases keep <;> simp [hlen]
  · have hne : sims ≠ [] := by rintro rfl; simp at hlen; omega
    simp only [pvalues, hne, if_false]
    refine ⟨by simp, fun p hp => ?_⟩
    obtain ⟨x, -, rfl⟩ := List.mem_map.1 hp
    exact ⟨_, rfl⟩
  · have : sims = [] := by
      apply List.length_eq_zero_iff.1
      omega
    subst this
    simp only [pvalues, if_true]
    exact List.map_const' ..

/-- The tests of a triangle with two simulations end. -/
example : checkRun (gTest sortLib ratNum (fun _ => 0) (fun i j => ((i + 3 * j + j ^ 2) % 7 : ℕ) / 7) triangle3
      (.array [0, 2, 5]) .none (.metric (.name "euclidean")) .none false true 2 100)
      (fun r => decide (r.statistic = [.fin 0, .fin (2/3), .fin 1])) = true
    ∧ checkRun (kTest sortLib ratNum (fun _ => 0) (fun i j => ((i + 3 * j + j ^ 2) % 7 : ℕ) / 7) triangle3
      (.array [0, 2, 5]) .none (.metric (.name "euclidean")) .none false true 2 100)
      (fun r => decide (r.statistic.length = 3 ∧ r.pvalue.length = 3)) = true
    ∧ checkRun (lTest sortLib ratNum (fun _ => 0) (fun i j => ((i + 3 * j + j ^ 2) % 7 : ℕ) / 7) triangle3
      (.array [0, 2, 5]) .none (.metric (.name "euclidean")) .none false true true 2 100)
      (fun r => decide (r.statistic.length = 3 ∧ r.pvalue.length = 3)) = true := by
  refine ⟨?_, ?_, ?_⟩ <;> decide +kernel

end Pointpats.Props
