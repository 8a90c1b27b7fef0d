import Verif.Lemmas.Draws
import Verif.Props.DistanceTests

/-!
# C123 for the distance functions and their tests
-/

namespace Pointpats.Props

open Random Spec Geometry DistStats

set_option linter.unusedSectionVars false

variable {K : Type} [Field K] [LinearOrder K] [IsStrictOrderedRing K] [FloorRing K]

private theorem liftPy_inOrder {α : Type} (x : Py α) : UsesInOrder (K := K) fun _ pos => liftPy x pos := by
  cases x with
  | error e => exact Draws.fail e
  | ok a => exact Draws.ret a

theorem f_inOrder (lib : Lib K) (coordinates : List (K × K)) (support : SupportArg K) (distances : DistArg K)
    (metric : MetricArg) (hull : HullArg K) (edge : Bool) (fuel : ℕ) :
    UsesInOrder fun u pos => f lib u coordinates support distances metric hull edge fuel pos := by
  unfold f
  cases prepare lib coordinates support (!distances.isNone) metric hull edge with
  | error e => exact Draws.fail e
  | ok p =>
    simp only
    split
    · exact Draws.andThen (g := fun (randoms : Squeezed K) _ pos => liftPy (do
            let rows ← treeNearest lib p.metric coordinates randoms.data
            shares (distancesOf rows) p.support) pos) (Draws.poisson_inOrder _ _ _ _) fun _ => liftPy_inOrder _
    · exact liftPy_inOrder _

theorem j_inOrder (lib : Lib K) (allclose : List K → List K → Bool)
    (interp : List K → List (XF K) → List K → Py (List (XF K))) (coordinates : List (K × K)) (support : SupportArg K)
    (distances : Option (DistArg K × DistArg K)) (metric : MetricArg) (hull : HullArg K) (edge truncate : Bool) (fuel : ℕ) :
    UsesInOrder fun u pos => j lib u allclose interp coordinates support distances metric hull edge truncate fuel pos := by
  unfold j
  exact Draws.andThen (g := fun (fres : List K × List (XF K)) _ pos => liftPy (do
      let gres ← g lib coordinates support (gPart distances) metric edge
      let gres ← alignG allclose interp support gres
      let fres ← alignF allclose interp gres fres
      jEnd truncate gres fres) pos) (f_inOrder _ _ _ _ _ _ _ _) fun _ => liftPy_inOrder _

/-- **C123 for `f` and `j`**, the distance functions that draw random locations. -/
theorem C123_distance_functions (lib : Lib K) (num : Num K) (coordinates : List (K × K)) (support : SupportArg K)
    (metric : MetricArg) (hull : HullArg K) (edge truncate : Bool) (fuel : ℕ) :
    (∀ distances, UsesInOrder fun u pos => f lib u coordinates support distances metric hull edge fuel pos)
    ∧ ∀ distances, UsesInOrder fun u pos =>
        j lib u num.allclose num.interp coordinates support distances metric hull edge truncate fuel pos :=
  ⟨fun _ => f_inOrder _ _ _ _ _ _ _ _, fun _ => j_inOrder _ _ _ _ _ _ _ _ _ _ _⟩

private theorem callStat_inOrder (lib : Lib K) (num : Num K) (call : Call) (coordinates : List (K × K)) (support : SupportArg K)
    (distances : TestDist K) (metric : MetricArg) (hull : HullArg K) (edge : Bool) (fuel : ℕ) :
    UsesInOrder fun u pos => callStat lib num call u coordinates support distances metric hull edge fuel pos := by
  unfold callStat
  cases call with
  | F => cases distances with
    | none => exact f_inOrder _ _ _ _ _ _ _ _
    | single d => exact f_inOrder _ _ _ _ _ _ _ _
    | pair a b => exact Draws.fail _
  | G => exact liftPy_inOrder _
  | J => cases distances with
    | none => exact j_inOrder _ _ _ _ _ _ _ _ _ _ _
    | single d => exact Draws.fail _
    | pair a b => exact j_inOrder _ _ _ _ _ _ _ _ _ _ _
  | K => exact liftPy_inOrder _
  | L b => exact liftPy_inOrder _

/-- `oneSimulation` from an arbitrary place of the stream. -/
private def simulationAt (lib : Lib K) (num : Num K) (call : Call) (n : ℕ) (hull : HullRes K) (hullArg : HullArg K)
    (metric : MetricArg) (empty : List (K × K)) (support : List K) (edge : Bool) (fuel : ℕ) (u : ℕ → K) (pos : ℕ) :
    Run (List (XF K)) :=
  (poisson (lib.hullOf hull) u none (.int n) fuel pos).andThen fun random_i pos =>
    match simRows call random_i with
    | .error e => Run.fail e
    | .ok pts =>
        let distances : Py (TestDist K) := match call with
          | .F => match metric with
              | .metric m => (treeNearest lib m pts empty).map fun r => .single (.vec (distancesOf r))
              | .other => .error .typeError
          | .J => match metric with
              | .metric m => do
                  let e ← treeNearest lib m pts empty
                  let r ← treeKNeighbors lib m pts pts 1
                  return .pair (.vec (distancesOf r)) (.vec (distancesOf e))
              | .other => .error .typeError
          | _ => .ok .none
        match distances with
        | .error e => Run.fail e
        | .ok d =>
            (callStat lib num call u pts (.array support) d metric hullArg edge fuel pos).andThen fun r pos =>
              Run.ret r.2 pos

private theorem simulationAt_inOrder (lib : Lib K) (num : Num K) (call : Call) (n : ℕ) (hull : HullRes K) (hullArg : HullArg K)
    (metric : MetricArg) (empty : List (K × K)) (support : List K) (edge : Bool) (fuel : ℕ) :
    UsesInOrder (simulationAt lib num call n hull hullArg metric empty support edge fuel) := by
  unfold simulationAt
  refine Draws.andThen (Draws.poisson_inOrder _ _ _ _) fun a => ?_
  cases simRows call a with
  | error e => exact Draws.fail e
  | ok pts =>
    simp only
    generalize (show Py (TestDist K) from _) = X
    split
    · exact Draws.fail _
    · exact Draws.andThen (callStat_inOrder _ _ _ _ _ _ _ _ _ _) fun _ => Draws.ret _

/-- A run from the beginning of its generator only depends on finitely many of its numbers. -/
private theorem local_of_inOrder {α : Type} {F : (ℕ → K) → ℕ → Run α} (hF : UsesInOrder F) {u : ℕ → K} {pos : ℕ} {a : α}
    {pos' : ℕ} (h : F u pos = some (.ok (a, pos'))) :
    ∃ N, ∀ u' : ℕ → K, (∀ t < N, u' t = u t) → F u' pos = some (.ok (a, pos')) := by
  obtain ⟨h1, h2⟩ := hF u pos a pos' h
  refine ⟨pos', fun u' hu => ?_⟩
  have := h2 u' pos fun i hi => hu _ (by omega)
  rwa [show pos + (pos' - pos) = pos' by omega] at this

private theorem emptyLocations_local {call : Call} {u : ℕ → K} {coordinates : List (K × K)} {fuel : ℕ} {e : List (K × K)}
    {pos0 : ℕ} (h : emptyLocations call u coordinates fuel = some (.ok (e, pos0))) :
    ∃ N, ∀ u' : ℕ → K, (∀ t < N, u' t = u t) → emptyLocations call u' coordinates fuel = some (.ok (e, pos0)) := by
  have key : ∀ b : BBox K, UsesInOrder fun (u : ℕ → K) pos =>
      (poisson (Hull.ofBBox b) u none (.tuple [1000, 1]) fuel pos).andThen fun r pos => Run.ret r.data pos := fun b =>
    Draws.andThen (g := fun (r : Squeezed K) _ pos => Run.ret r.data pos) (Draws.poisson_inOrder _ _ _ _) fun _ => Draws.ret _
  unfold emptyLocations at *
  cases call with
  | F | J =>
    simp only at h ⊢
    cases hb : bboxPts coordinates with
    | error e => rw [hb] at h; cases h
    | ok b =>
      rw [hb] at h
      exact local_of_inOrder (key b) h
  | G | K | L _ => exact ⟨0, fun _ _ => h⟩

private theorem replications_local {α : Type} {F : (ℕ → K) → Run α} {gen : ℕ → ℕ → K}
    (hF : ∀ u a p, F u = some (.ok (a, p)) → ∃ N, ∀ u' : ℕ → K, (∀ t < N, u' t = u t) → F u' = some (.ok (a, p))) :
    ∀ (n i p : ℕ) (l : List α) (p' : ℕ), replications (fun i _ => F (gen i)) i n p = some (.ok (l, p')) →
      ∃ N, ∀ gen' : ℕ → ℕ → K, (∀ k, i ≤ k → k < i + n → ∀ t < N, gen' k t = gen k t) →
        replications (fun i _ => F (gen' i)) i n p = some (.ok (l, p')) := by
  intro n
  induction n with
  | zero => intro i p l p' h; exact ⟨0, fun _ _ => h⟩
  | succ n ih =>
    intro i p l p' h
    rw [replications, Run.andThen_ok] at h
    obtain ⟨a, q, ha, h⟩ := h
    rw [Run.andThen_ok] at h
    obtain ⟨ls, q', hl, h⟩ := h
    obtain ⟨N1, h1⟩ := hF _ _ _ ha
    obtain ⟨N2, h2⟩ := ih _ _ _ _ hl
    refine ⟨max N1 N2, fun gen' hg => ?_⟩
    rw [replications, Run.andThen_ok]
    refine ⟨a, q, h1 _ fun t ht => hg i le_rfl (by omega) t (lt_of_lt_of_le ht (le_max_left _ _)), ?_⟩
    rw [Run.andThen_ok]
    exact ⟨ls, q', h2 _ fun k hk hk' t ht => hg k (by omega) (by omega) t (lt_of_lt_of_le ht (le_max_right _ _)), h⟩

/-- **C123 for the distance tests.** Whenever one of the five tests returns, it has used finitely many numbers of the generator
of the empty-space locations and finitely many of the generator of each of its simulations; whatever these generators give
later, and whatever the generators of further simulations give, the result is the same. -/
theorem C123_distance_tests (lib : Lib K) (num : Num K) (call : Call) (u : ℕ → K) (gen : ℕ → ℕ → K) (coordinates : List (K × K))
    (support : SupportArg K) (distances : TestDist K) (metric : MetricArg) (hullArg : HullArg K) (edge keep : Bool) (nsim : ℤ)
    (fuel : ℕ) (r : TestResult K) (pos' : ℕ)
    (h : ripleyTest lib num call u gen coordinates support distances metric hullArg edge keep nsim fuel
      = some (.ok (r, pos'))) :
    ∃ N, ∀ (u' : ℕ → K) (gen' : ℕ → ℕ → K), (∀ t < N, u' t = u t) → (∀ i : ℕ, (i : ℤ) < nsim → ∀ t < N, gen' i t = gen i t) →
      ripleyTest lib num call u' gen' coordinates support distances metric hullArg edge keep nsim fuel
        = some (.ok (r, pos')) := by
  obtain ⟨m, t, H, empty, pos0, d, obs, pos1, sims, h1, h2, h3, h4, h5, h6, hs, rfl⟩ := ripleyTest_ok.1 h
  obtain ⟨N1, k1⟩ := emptyLocations_local h4
  obtain ⟨N2, k2⟩ := local_of_inOrder (callStat_inOrder _ _ _ _ _ _ _ _ _ _) h6
  obtain ⟨N3, k3⟩ := replications_local (F := simulate lib num call coordinates.length H metric empty obs.1 edge fuel)
    (fun u a p h => local_of_inOrder (pos := 0) (simulationAt_inOrder lib num call coordinates.length H (rehull H) metric empty
      obs.1 edge fuel) h) _ _ _ _ _ hs
  refine ⟨max N1 (max N2 N3), fun u' gen' hu hg => ripleyTest_ok.2 ⟨m, t, H, empty, pos0, d, obs, pos1, sims, h1, h2, h3,
    k1 u' fun t ht => hu t (lt_of_lt_of_le ht (le_max_left _ _)), h5,
    k2 u' fun t ht => hu t (lt_of_lt_of_le ht ((le_max_left _ _).trans (le_max_right _ _))),
    k3 gen' fun k _ hk t ht => hg k (by omega) t (lt_of_lt_of_le ht ((le_max_right _ _).trans (le_max_right _ _))), rfl⟩⟩

/-- C123 for the distance tests: every simulation has a generator of its own. Two runs of a test that differ only in the
generators of some simulations have the same support and the same statistic, and the same simulated curve for every other
simulation. -/
theorem C123_own_generator (lib : Lib K) (num : Num K) (call : Call) (u : ℕ → K) (gen gen' : ℕ → ℕ → K)
    (coordinates : List (K × K)) (support : SupportArg K) (distances : TestDist K) (metric : MetricArg) (hullArg : HullArg K)
    (edge : Bool) (nsim : ℤ) (fuel : ℕ) (r r' : TestResult K) (pos pos' : ℕ)
    (h : ripleyTest lib num call u gen coordinates support distances metric hullArg edge true nsim fuel
      = some (.ok (r, pos)))
    (h' : ripleyTest lib num call u gen' coordinates support distances metric hullArg edge true nsim fuel
      = some (.ok (r', pos'))) :
    r'.support = r.support ∧ r'.statistic = r.statistic
    ∧ ∃ sims sims', r.simulations = some sims ∧ r'.simulations = some sims' ∧ sims.length = nsim.toNat
      ∧ sims'.length = nsim.toNat ∧ ∀ i, gen' i = gen i → sims'[i]? = sims[i]? := by
  obtain ⟨m, t, H, empty, pos0, d, obs, pos1, sims, h1, h2, h3, h4, h5, h6, hs, rfl⟩ := ripleyTest_ok.1 h
  obtain ⟨m', t', H', empty', pos0', d', obs', pos1', sims', h1', h2', h3', h4', h5', h6', hs', rfl⟩ := ripleyTest_ok.1 h'
  rw [h1] at h1'
  cases h1'
  rw [h3] at h3'
  cases h3'
  rw [h4] at h4'
  cases h4'
  rw [h5] at h5'
  cases h5'
  rw [h6] at h6'
  cases h6'
  have hl := (replications_spec _ _ _ _ _ _ hs).1
  have hl' := (replications_spec _ _ _ _ _ _ hs').1
  refine ⟨rfl, rfl, sims, sims', rfl, rfl, hl, hl', fun i hi => ?_⟩
  by_cases hlt : i < nsim.toNat
  · have e := List.getElem?_eq_getElem (l := sims) (show i < sims.length by omega)
    have e' := List.getElem?_eq_getElem (l := sims') (show i < sims'.length by omega)
    obtain ⟨p, p', hb⟩ := replications_index _ _ _ _ _ _ hs i _ e
    obtain ⟨q, q', hc⟩ := replications_index _ _ _ _ _ _ hs' i _ e'
    simp only [zero_add] at hb hc
    rw [hi, hb] at hc
    injection hc with hc
    injection hc with hc
    injection hc with hc _
    rw [e, e', hc]
  · rw [List.getElem?_eq_none (by omega), List.getElem?_eq_none (by omega)]

/-- The hypotheses are met: a G test with two simulations that returns, and again with another generator for the second one,
whose curve is then another. -/
example : checkRun (ripleyTest sortLib ratNum .G (fun _ => 0) (fun i j => ((i + 3 * j + j ^ 2) % 7 : ℕ) / 7) triangle3
      (.array [0, 2, 5]) .none (.metric (.name "euclidean")) .none false true 2 100)
      (fun r => decide (r.simulations = some [[.fin 0, .fin 1, .fin 1], [.fin 0, .fin 1, .fin 1]])) = true
    ∧ checkRun (ripleyTest sortLib ratNum .G (fun _ => 0)
      (fun i j => if i = 1 then ((j ^ 2) % 5 : ℕ) / 8 else ((i + 3 * j + j ^ 2) % 7 : ℕ) / 7) triangle3
      (.array [0, 2, 5]) .none (.metric (.name "euclidean")) .none false true 2 100)
      (fun r => decide (r.simulations = some [[.fin 0, .fin 1, .fin 1], [.fin 0, .fin (2 / 3), .fin 1]])) = true := by
  decide +kernel

end Pointpats.Props
