import Verif.Props.DistanceTests

/-!
# C152: distances at which the observed curve has no value
-/

set_option linter.unusedSectionVars false

namespace Pointpats.Props

open DistStats Geometry Random Spec

variable {K : Type} [Field K] [LinearOrder K] [IsStrictOrderedRing K] [FloorRing K]

/-- **C152 is false of the code.** Where the observed curve is `nan`, no simulated curve counts as at least as large, so each of
the tests reports the p-value `1 / (m + 1)`, the smallest positive one that `m` simulations allow. -/
theorem C152_nan_refuted (lib : Lib K) (num : Num K) (call : Call) (u : ℕ → K) (gen : ℕ → ℕ → K) (coordinates : List (K × K))
    (support : SupportArg K) (distances : TestDist K) (metric : MetricArg) (hullArg : HullArg K) (edge keep : Bool) (nsim : ℤ)
    (hsim : 1 ≤ nsim) (r : TestResult K) (pos' : ℕ)
    (h : Returns (fun fuel => ripleyTest lib num call u gen coordinates support distances metric hullArg edge keep nsim fuel)
      (.ok (r, pos'))) (i : ℕ) (hi : r.statistic[i]? = some .nan) :
    r.pvalue[i]? = some (.fin (1 / ((nsim : K) + 1))) := by
  obtain ⟨fuel, h⟩ := h
  obtain ⟨m, t, H, empty, pos0, d, obs, pos1, sims, -, -, -, -, -, ho, hs, rfl⟩ := ripleyTest_ok.1 h
  have hlen := (replications_spec _ _ _ _ _ _ hs).1
  have hne : sims ≠ [] := by rintro rfl; simp at hlen; omega
  have hi' : obs.2[i]? = some .nan := hi
  unfold pvalues
  rw [if_neg hne, List.getElem?_map, List.getElem?_zipIdx, hi']
  simp only [Option.map_some, zero_add, Option.some.injEq, XF.fin.injEq]
  rw [columnP_eq sims i _ nsim hsim]
  have hc : curvesAtLeast sims i (.nan : XF K) = 0 := by
    unfold curvesAtLeast
    rw [List.length_eq_zero_iff, List.filter_eq_nil_iff]
    intro s _
    cases s.getD i .nan <;> simp [XF.ge]
  have h1 : (1 : K) ≤ (nsim : K) := by exact_mod_cast hsim
  rw [hc, Nat.cast_zero, zero_add, sub_zero]
  exact min_eq_left (div_le_div_of_nonneg_right h1 (by linarith))

/-- **C152 is false of `g_test`.** If no event has its nearest neighbour within the distances of the support, the G curve has no
values, but at all distances after the first `g_test` reports the p-value `1 / (m + 1)`. -/
theorem C152_g_test_refuted (lib : Lib K) (hc : lib.Correct) (num : Num K) (u : ℕ → K) (gen : ℕ → ℕ → K)
    (coordinates : List (K × K)) (hn : 2 ≤ coordinates.length) (s : List K) (m : Metric) (hullArg : HullArg K)
    (keep : Bool) (nsim : ℤ) (hsim : 1 ≤ nsim) (r : TestResult K) (pos' : ℕ) (h2 : 2 ≤ s.length)
    (hfar : ∀ i x, IsNearestOther (lib.pdist m) coordinates i x → s.getD (s.length - 1) 0 < x)
    (h : Returns (fun fuel => ripleyTest lib num .G u gen coordinates (.array s) .none (.metric m) hullArg false keep nsim fuel)
      (.ok (r, pos'))) :
    ∀ i, 1 ≤ i → i < s.length → r.statistic[i]? = some .nan ∧ r.pvalue[i]? = some (.fin (1 / ((nsim : K) + 1))) := by
  have hstat : r.statistic = .fin 0 :: List.replicate (s.length - 1) .nan := by
    obtain ⟨fuel, h⟩ := h
    obtain ⟨m', t, H, empty, pos0, d, obs, pos1, sims, hm, -, -, he, hd, ho, -, rfl⟩ := ripleyTest_ok.1 h
    injection hm with hm
    subst hm
    unfold testDistances at hd
    simp only at hd
    cases hd
    obtain ⟨hg, -⟩ := liftPy_ok ho
    have hs : obs.1 = s := by
      obtain ⟨p, d, hp, -, hsh⟩ := g_ok hg
      obtain ⟨-, -, m', hm', hpm, hrs⟩ := prepare_ok hp
      have := (shares_support hsh).1
      unfold resolveSupport at hrs
      simp only [Except.ok.injEq, Prod.mk.injEq] at hrs
      rw [this, ← hrs.1]
    obtain ⟨-, data, -, hdata, -, h0⟩ := C57_g lib hc coordinates hn (.array s) m obs.1 obs.2 (by rw [hs]; exact h2) hg
    rw [hs] at h0
    refine h0 ?_
    unfold countWithin
    rw [List.length_eq_zero_iff, List.filter_eq_nil_iff]
    intro x hx
    obtain ⟨j, hj⟩ := List.mem_iff_getElem?.1 hx
    have := hfar j x (hdata j x hj)
    simp only [decide_eq_true_eq, not_and, not_le]
    exact fun _ => this
  intro i h1 h3
  have hi : r.statistic[i]? = some .nan := by
    rw [hstat]
    obtain ⟨j, rfl⟩ := Nat.exists_eq_add_of_le' h1
    rw [List.getElem?_cons_succ, List.getElem?_replicate, if_pos (by omega)]
  exact ⟨hi, C152_nan_refuted lib num .G u gen coordinates (.array s) .none (.metric m) hullArg false keep nsim hsim r pos' h i hi⟩

/-- The hypotheses are met: three events whose nearest neighbours are at distance one or more, and the distances 0, 1/4, 1/2. -/
example : checkRun (ripleyTest sortLib ratNum .G (fun _ => 0) (fun i j => ((i + 3 * j + j ^ 2) % 7 : ℕ) / 7) triangle3
    (.array [0, 1/4, 1/2]) .none (.metric (.name "euclidean")) .none false true 4 100)
    (fun r => decide (r.statistic = [.fin 0, .nan, .nan] ∧ r.pvalue = [.fin 0, .fin (1/5), .fin (1/5)])) = true := by
  decide +kernel

/-- **C152, partial.** The curves that `k_test` and `l_test` report are numbers at every distance. Missing: the other tests, for
which it is false. -/
theorem C152_numbers_partial (lib : Lib K) (num : Num K) (call : Call) (hcall : call = .K ∨ ∃ lin, call = .L lin) (u : ℕ → K)
    (gen : ℕ → ℕ → K) (coordinates : List (K × K)) (support : SupportArg K) (distances : TestDist K) (metric : MetricArg)
    (hullArg : HullArg K) (edge keep : Bool) (nsim : ℤ) (r : TestResult K) (pos' : ℕ)
    (h : Returns (fun fuel => ripleyTest lib num call u gen coordinates support distances metric hullArg edge keep nsim fuel)
      (.ok (r, pos'))) : ∀ v ∈ r.statistic, ∃ x, v = .fin x := by
  obtain ⟨fuel, h⟩ := h
  obtain ⟨m, t, H, empty, pos0, d, obs, pos1, sims, rfl, -, -, -, -, ho, -, rfl⟩ := ripleyTest_ok.1 h
  have hk : ∀ D s v, k lib coordinates support D (.metric m) edge = .ok (s, v) → ∃ w : List K, v = w.map .fin := by
    intro D s v hk
    obtain ⟨hne, -, -, d, -, hv⟩ := k_value hk
    obtain ⟨b, -, hb, -⟩ := (C19_bbox_smallest coordinates).2 hne
    exact ⟨_, (hv b hb).trans (List.map_map (f := fun t => _) (g := XF.fin)).symm⟩
  change ∀ v ∈ obs.2, _
  rcases hcall with rfl | ⟨lin, rfl⟩
  · obtain ⟨D, hg⟩ : ∃ D, k lib coordinates support D (.metric m) edge = .ok obs := by
      obtain ⟨hg, -⟩ := liftPy_ok ho
      cases d with
      | none => exact ⟨_, hg⟩
      | single D => exact ⟨_, hg⟩
      | pair a b => cases hg
    obtain ⟨w, hw⟩ := hk _ _ _ hg
    intro v hv
    rw [hw, List.mem_map] at hv
    obtain ⟨x, -, rfl⟩ := hv
    exact ⟨x, rfl⟩
  · obtain ⟨D, hg⟩ : ∃ D, l lib num.root num.pi coordinates support D (.metric m) edge lin = .ok obs := by
      obtain ⟨hg, -⟩ := liftPy_ok ho
      cases d with
      | none => exact ⟨_, hg⟩
      | single D => exact ⟨_, hg⟩
      | pair a b => cases hg
    unfold l at hg
    cases hk' : k lib coordinates support D (.metric m) edge with
    | error e => rw [hk'] at hg; cases hg
    | ok q =>
      rw [hk'] at hg
      obtain ⟨w, hw⟩ := hk _ _ _ hk'
      injection hg with hg
      subst hg
      intro v hv
      simp only at hv
      rw [hw, List.map_map] at hv
      split_ifs at hv with hl
      · rw [List.mem_iff_getElem] at hv
        obtain ⟨i, hi, rfl⟩ := hv
        rw [List.getElem_zipWith, List.getElem_map]
        exact ⟨_, rfl⟩
      · obtain ⟨x, -, rfl⟩ := List.mem_map.1 hv
        exact ⟨_, rfl⟩

end Pointpats.Props
