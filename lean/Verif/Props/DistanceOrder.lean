import Verif.Lemmas.DistanceMotion
import Verif.Props.DistanceRuns
import Verif.Props.Regions

/-!
# Properties of `pointpats/distance_statistics.py`: the order of the events (C127)
-/

set_option linter.unusedSectionVars false

namespace Pointpats.Props

open Spec Geometry Random DistStats Motion DistMotion

variable {K : Type} [Field K] [LinearOrder K] [IsStrictOrderedRing K]

/-- The nearest distance from `p` to the events other than one copy of `p`. -/
def nearestValue (d : K × K → K × K → K) (E : List (K × K)) (p : K × K) : K :=
  match (E.erase p).map (d p) with
  | [] => 0
  | a :: l => listMin a l

omit [IsStrictOrderedRing K] in
theorem nearestValue_spec (d : K × K → K × K → K) {E : List (K × K)} {p : K × K} (hp : p ∈ E) (hn : 2 ≤ E.length) :
    IsNearest d (E.erase p) p (nearestValue d E p) := by
  have hlen : (E.erase p).length ≠ 0 := by rw [List.length_erase_of_mem hp]; omega
  unfold nearestValue
  cases h : (E.erase p).map (d p) with
  | nil => exact absurd (by simpa using congrArg List.length h) hlen
  | cons a l =>
    simp only
    refine ⟨?_, fun q hq => listMin_le (h ▸ List.mem_map_of_mem hq)⟩
    have := listMin_mem a l
    rw [← h, List.mem_map] at this
    obtain ⟨q, h1, h2⟩ := this
    exact ⟨q, h1, h2.symm⟩

omit [IsStrictOrderedRing K] in
theorem nearestExcept_erase {d : K × K → K × K → K} {E : List (K × K)} {i : ℕ} {p : K × K} {v : K} (hi : E[i]? = some p)
    (h : NearestExcept d E i p v) : IsNearest d (E.erase p) p v := by
  obtain ⟨hlt, he⟩ := List.getElem?_eq_some_iff.1 hi
  have hperm : (E.eraseIdx i).Perm (E.erase p) := by
    have h1 : (E[i] :: E.eraseIdx i).Perm E := List.getElem_cons_eraseIdx_perm hlt
    have h2 : E.Perm (p :: E.erase p) := List.perm_cons_erase (he ▸ List.getElem_mem hlt)
    rw [he] at h1
    exact (h1.trans h2).cons_inv
  have hmem : ∀ q, q ∈ E.erase p ↔ ∃ j, E[j]? = some q ∧ j ≠ i := by
    intro q
    rw [← hperm.mem_iff, List.mem_eraseIdx_iff_getElem?]
    constructor
    · rintro ⟨j, h1, h2⟩; exact ⟨j, h2, h1⟩
    · rintro ⟨j, h1, h2⟩; exact ⟨j, h2, h1⟩
  obtain ⟨⟨j, q, h1, h2, h3⟩, h4⟩ := h
  refine ⟨⟨q, (hmem q).2 ⟨j, h1, h2⟩, h3⟩, fun q hq => ?_⟩
  obtain ⟨j, h1, h2⟩ := (hmem q).1 hq
  exact h4 j q h1 h2

omit [IsStrictOrderedRing K] in
theorem nearestValue_perm (d : K × K → K × K → K) {E E' : List (K × K)} (h : E.Perm E') {p : K × K} (hp : p ∈ E)
    (hn : 2 ≤ E.length) : nearestValue d E p = nearestValue d E' p := by
  have h1 := nearestValue_spec d hp hn
  have h2 := nearestValue_spec d (h.mem_iff.1 hp) (h.length_eq ▸ hn)
  obtain ⟨⟨q, a1, a2⟩, a3⟩ := h1
  obtain ⟨⟨q', b1, b2⟩, b3⟩ := h2
  have hm : ∀ x, x ∈ E.erase p ↔ x ∈ E'.erase p := fun x => (h.erase p).mem_iff
  refine le_antisymm ?_ ?_
  · rw [b2]; exact a3 _ ((hm _).2 b1)
  · rw [a2]; exact b3 _ ((hm _).1 a1)

theorem nearest_list {lib : Lib K} (hc : lib.Correct) {m : Metric} {E : List (K × K)} (hn : 2 ≤ E.length)
    {rows : List (List (K × ℕ))} (h : treeKNeighbors lib m E E 1 = .ok rows) :
    distancesOf rows = E.map (nearestValue (lib.pdist m) E) := by
  obtain ⟨h1, h2⟩ := treeKNeighbors_ok hc hn h
  refine list_eq_of_get (by simp [h1]) fun i v v' hv hv' => ?_
  rw [List.getElem?_map] at hv'
  cases hp : E[i]? with
  | none => simp [hp] at hv'
  | some p =>
    simp only [hp, Option.map_some, Option.some.injEq] at hv'
    rw [← hv']
    exact isNearest_unique (nearestExcept_erase hp (h2 i p v hp hv))
      (nearestValue_spec _ (List.mem_of_getElem? hp) hn)

/-- The nearest neighbour distances of the events in another order are the same ones in another order. -/
theorem treeK_perm {lib : Lib K} (hc : lib.Correct) (m : Metric) {E E' : List (K × K)} (h : E.Perm E') (hn : 2 ≤ E.length) :
    (∀ e, treeKNeighbors lib m E E 1 = .error e → treeKNeighbors lib m E' E' 1 = .error e)
    ∧ ∀ rows, treeKNeighbors lib m E E 1 = .ok rows → ∃ rows', treeKNeighbors lib m E' E' 1 = .ok rows'
      ∧ (distancesOf rows).Perm (distancesOf rows') := by
  have hn' : 2 ≤ E'.length := h.length_eq ▸ hn
  obtain ⟨h1, h2⟩ := treeKNeighbors_one lib hc m E E hn
  obtain ⟨h1', h2'⟩ := treeKNeighbors_one lib hc m E' E' hn'
  cases hb : buildBestTree lib.hasSklearn lib.kdMetrics lib.ballMetrics m with
  | error e =>
    rw [h1 e hb, h1' e hb]
    exact ⟨fun _ he => he, fun _ hr => nomatch hr⟩
  | ok t =>
    obtain ⟨rows, g1, -⟩ := h2 t hb
    obtain ⟨rows', g1', -⟩ := h2' t hb
    rw [g1, g1']
    refine ⟨fun e he => (nomatch he), fun rw' hr => ⟨rows', rfl, ?_⟩⟩
    rw [Except.ok.injEq] at hr
    subst hr
    rw [nearest_list hc hn g1, nearest_list hc hn' g1',
      List.map_congr_left fun p hp => nearestValue_perm (lib.pdist m) h hp hn]
    exact h.map _

/-- The distances to the nearest event do not depend on the order of the events. -/
theorem treeN_perm {lib : Lib K} (hc : lib.Correct) (m : Metric) {E E' : List (K × K)} (h : E.Perm E') (hn : 1 ≤ E.length)
    (L : List (K × K)) : (treeNearest lib m E L).map distancesOf = (treeNearest lib m E' L).map distancesOf := by
  have hn' : 1 ≤ E'.length := h.length_eq ▸ hn
  obtain ⟨h1, h2⟩ := treeNearest_one lib hc m E L hn
  obtain ⟨h1', h2'⟩ := treeNearest_one lib hc m E' L hn'
  cases hb : buildBestTree lib.hasSklearn lib.kdMetrics lib.ballMetrics m with
  | error e => rw [h1 e hb, h1' e hb]
  | ok t =>
    obtain ⟨rows, g1, g2, g3⟩ := h2 t hb
    obtain ⟨rows', g1', g2', g3'⟩ := h2' t hb
    rw [g1, g1']
    simp only [Except.map]
    congr 1
    refine list_eq_of_get (g2.trans g2'.symm) fun i v v' hv hv' => ?_
    have hi : i < L.length := by
      have := (List.getElem?_eq_some_iff.1 hv).1
      omega
    obtain ⟨⟨q, a1, a2⟩, a3⟩ := g3 i _ _ (List.getElem?_eq_getElem hi) hv
    have b := g3' i _ _ (List.getElem?_eq_getElem hi) hv'
    exact isNearest_unique ⟨⟨q, h.mem_iff.1 a1, a2⟩, fun q hq => a3 q (h.mem_iff.2 hq)⟩ b

omit [IsStrictOrderedRing K] in
theorem maxOf_perm {l l' : List K} (h : l.Perm l') : maxOf l = maxOf l' := by
  cases l with
  | nil => rw [List.nil_perm.1 h]
  | cons a l =>
    cases l' with
    | nil => exact absurd h.symm (by simp)
    | cons a' l' =>
      simp only [maxOf, Except.ok.injEq]
      refine le_antisymm ?_ ?_
      · exact le_listMax (h.mem_iff.1 (listMax_mem a l))
      · exact le_listMax (h.mem_iff.2 (listMax_mem a' l'))

theorem resolveSupport_perm {lib : Lib K} (hc : lib.Correct) (m : Metric) {E E' : List (K × K)} (h : E.Perm E')
    (hn : 2 ≤ E.length) (S : SupportArg K) : resolveSupport lib m E S = resolveSupport lib m E' S := by
  obtain ⟨h1, h2⟩ := treeK_perm hc m h hn
  have steps : ∀ n : ℤ, (do
        let rows ← treeKNeighbors lib m E E 1
        let max_dist ← maxOf (distancesOf rows)
        let s ← linspace 0 max_dist n
        return (s, true) : Py (List K × Bool))
      = (do
        let rows ← treeKNeighbors lib m E' E' 1
        let max_dist ← maxOf (distancesOf rows)
        let s ← linspace 0 max_dist n
        return (s, true) : Py (List K × Bool)) := by
    intro n
    cases hr : treeKNeighbors lib m E E 1 with
    | error e => rw [h1 e hr]
    | ok rows =>
      obtain ⟨rows', g1, g2⟩ := h2 rows hr
      rw [g1]
      simp only [bind, Except.bind, maxOf_perm g2]
  cases S with
  | none => exact steps 20
  | int n => exact steps n
  | stop b => rfl
  | startStop a b => rfl
  | startStopNum a b n => rfl
  | tuple l => rfl
  | array l => rfl

theorem prepareHull_perm {E E' : List (K × K)} (h : E.Perm E') (hull : HullArg K) :
    prepareHull E hull = prepareHull E' hull := by
  unfold prepareHull
  rw [bboxPts_perm h]

theorem prepare_perm {lib : Lib K} (hc : lib.Correct) {E E' : List (K × K)} (h : E.Perm E') (hn : 2 ≤ E.length)
    (S : SupportArg K) (has : Bool) (metric : MetricArg) (hull : HullArg K) (edge : Bool) :
    prepare lib E S has metric hull edge = prepare lib E' S has metric hull edge := by
  unfold prepare
  rw [prepareHull_perm h]
  simp only [resolveSupport_perm hc _ h hn S]

omit [IsStrictOrderedRing K] in
theorem cumCounts_perm {data data' : List K} (h : data.Perm data') (s : List K) : cumCounts data s = cumCounts data' s := by
  induction s with
  | nil => rfl
  | cons a s ih =>
    cases s with
    | nil => simp only [cumCounts, (h.filter _).length_eq]
    | cons b s => simp only [cumCounts, (h.filter _).length_eq, ih]

omit [IsStrictOrderedRing K] in
theorem shares_perm {data data' : List K} (h : data.Perm data') (s : List K) : shares data s = shares data' s := by
  unfold shares histogram
  rw [cumCounts_perm h]

theorem g_perm {lib : Lib K} (hc : lib.Correct) {E E' : List (K × K)} (h : E.Perm E') (hn : 2 ≤ E.length)
    (S : SupportArg K) (metric : MetricArg) (edge : Bool) :
    g lib E S .none metric edge = g lib E' S .none metric edge := by
  unfold g
  rw [prepare_perm hc h hn]
  cases prepare lib E' S (!(DistArg.none : DistArg K).isNone) metric .none edge with
  | error e => rfl
  | ok p =>
    obtain ⟨h1, h2⟩ := treeK_perm hc p.metric h hn
    simp only [bind, Except.bind, gDistances, pure, Except.pure]
    cases hr : treeKNeighbors lib p.metric E E 1 with
    | error e => rw [h1 e hr]
    | ok rows =>
      obtain ⟨rows', g1, g2⟩ := h2 rows hr
      rw [g1]
      exact shares_perm g2 _

omit [IsStrictOrderedRing K] in
theorem pdist_perm {d : K × K → K × K → K} (hd : ∀ p q, d p q = d q p) {E E' : List (K × K)} (h : E.Perm E') :
    (DistStats.pdist d E).Perm (DistStats.pdist d E') := by
  induction h with
  | nil => exact List.Perm.refl _
  | cons p h ih => exact (h.map _).append ih
  | swap p q l =>
    simp only [DistStats.pdist, List.map_cons, List.cons_append, hd q p]
    refine List.Perm.cons _ ?_
    rw [← List.append_assoc, ← List.append_assoc]
    exact List.perm_append_comm.append_right _
  | trans _ _ ih1 ih2 => exact ih1.trans ih2

theorem k_perm {lib : Lib K} (hc : lib.Correct) (hs : ∀ m p q, lib.pdist m p q = lib.pdist m q p) {E E' : List (K × K)}
    (h : E.Perm E') (hn : 2 ≤ E.length) (S : SupportArg K) (metric : MetricArg) (edge : Bool) :
    k lib E S .none metric edge = k lib E' S .none metric edge := by
  unfold k
  rw [prepare_perm hc h hn]
  cases prepare lib E' S (!(DistArg.none : DistArg K).isNone) metric .none edge with
  | error e => rfl
  | ok p =>
    simp only [bind, Except.bind, kDistances]
    have e : ∀ t, ((DistStats.pdist (lib.pdist p.metric) E).filter fun x => decide (x < t)).length
        = ((DistStats.pdist (lib.pdist p.metric) E').filter fun x => decide (x < t)).length :=
      fun t => ((pdist_perm (hs p.metric) h).filter _).length_eq
    simp only [e, h.length_eq]

variable [FloorRing K]

theorem f_perm {lib : Lib K} (hc : lib.Correct) {E E' : List (K × K)} (h : E.Perm E') (hn : 2 ≤ E.length) (u : ℕ → K)
    (S : SupportArg K) (metric : MetricArg) (hull : HullArg K) (edge : Bool) (fuel pos : ℕ) :
    f lib u E S .none metric hull edge fuel pos = f lib u E' S .none metric hull edge fuel pos := by
  unfold f
  rw [prepare_perm hc h hn]
  cases prepare lib E' S (!(DistArg.none : DistArg K).isNone) metric hull edge with
  | error e => rfl
  | ok p =>
    simp only [DistArg.isNone, if_true]
    congr 1
    funext q pos
    have ht := treeN_perm hc p.metric h (by omega) q.data
    simp only [liftPy]
    cases h1 : treeNearest lib p.metric E q.data <;> cases h2 : treeNearest lib p.metric E' q.data <;>
      simp_all [Except.map, bind, Except.bind]

/-- **C127, the functions.** `f`, `g`, `j`, `k` and `l` give the same result, or the same exception, when the events are listed
in another order (with the same random numbers for `f` and `j`). -/
theorem C127_functions (lib : Lib K) (hc : lib.Correct) (hs : ∀ m p q, lib.pdist m p q = lib.pdist m q p) (num : Num K)
    {events events' : List (K × K)} (h : events.Perm events') (hn : 2 ≤ events.length) (u : ℕ → K) (support : SupportArg K)
    (metric : MetricArg) (hull : HullArg K) (edge truncate linearized : Bool) (fuel pos : ℕ) :
    f lib u events support .none metric hull edge fuel pos = f lib u events' support .none metric hull edge fuel pos
    ∧ g lib events support .none metric edge = g lib events' support .none metric edge
    ∧ j lib u num.allclose num.interp events support none metric hull edge truncate fuel pos
        = j lib u num.allclose num.interp events' support none metric hull edge truncate fuel pos
    ∧ k lib events support .none metric edge = k lib events' support .none metric edge
    ∧ l lib num.root num.pi events support .none metric edge linearized
        = l lib num.root num.pi events' support .none metric edge linearized := by
  refine ⟨f_perm hc h hn _ _ _ _ _ _ _, g_perm hc h hn _ _ _, ?_, k_perm hc hs h hn _ _ _, ?_⟩
  · unfold j
    simp only [gPart, fPart, f_perm hc h hn, g_perm hc h hn]
  · unfold l
    rw [k_perm hc hs h hn]

/-- **C127, the tests, as far as it holds.** The tests of G, K and L give the same result when the events are listed in another
order. Missing: the tests of F and J, of which it is false, see `C127_f_test_refuted`. -/
theorem C127_tests_partial (lib : Lib K) (hc : lib.Correct) (hs : ∀ m p q, lib.pdist m p q = lib.pdist m q p) (num : Num K)
    (call : Call) (hcall : call ≠ .F ∧ call ≠ .J) {events events' : List (K × K)} (h : events.Perm events')
    (hn : 2 ≤ events.length) (u : ℕ → K) (gen : ℕ → ℕ → K) (support : SupportArg K) (metric : MetricArg) (hull : HullArg K)
    (edge keep : Bool) (nsim : ℤ) (fuel : ℕ) :
    ripleyTest lib num call u gen events support .none metric hull edge keep nsim fuel
      = ripleyTest lib num call u gen events' support .none metric hull edge keep nsim fuel := by
  have hF := fun u hull => C127_functions lib hc hs num h hn u support metric hull
  have hstat : ∀ hull fuel pos, callStat lib num call u events support .none metric hull edge fuel pos
      = callStat lib num call u events' support .none metric hull edge fuel pos := by
    intro hull fuel pos
    unfold callStat
    cases call with
    | F => exact absurd rfl hcall.1
    | J => exact absurd rfl hcall.2
    | G => simp only [bind, Except.bind, g_perm hc h hn]
    | K => simp only [bind, Except.bind, k_perm hc hs h hn]
    | L lin =>
      simp only [bind, Except.bind]
      rw [(hF u hull edge true lin fuel pos).2.2.2.2]
  unfold ripleyTest
  rw [prepareHull_perm h, h.length_eq]
  cases metric with
  | other => rfl
  | metric m =>
    simp only
    cases buildBestTree lib.hasSklearn lib.kdMetrics lib.ballMetrics m with
    | error e => rfl
    | ok t =>
      simp only
      cases prepareHull events' hull with
      | error e => rfl
      | ok H =>
        cases call with
        | F => exact absurd rfl hcall.1
        | J => exact absurd rfl hcall.2
        | G => simp only [emptyLocations, Run.andThen, Run.ret, testDistances, hstat]
        | K => simp only [emptyLocations, Run.andThen, Run.ret, testDistances, hstat]
        | L lin => simp only [emptyLocations, Run.andThen, Run.ret, testDistances, hstat]

set_option maxRecDepth 100000 in
/-- **C127 is false of the test of F.** The same three events in another order, the same random numbers: the statistic is
different, because the distance of the `i`-th random location leaves out the `i`-th event. -/
theorem C127_f_test_refuted :
    ∃ (lib : Lib ℚ) (num : Num ℚ) (u : ℕ → ℚ) (events events' : List (ℚ × ℚ)), lib.Correct ∧ IsDraws u ∧ events.Perm events'
      ∧ (∃ r pos', ripleyTest lib num .F u (fun _ => u) events (.array [0, 1/2, 4]) .none (.metric (.name "euclidean")) .none
          false true 0 1000 = some (.ok (r, pos')) ∧ r.statistic = [.fin 0, .fin 0, .fin 1])
      ∧ ∃ r pos', ripleyTest lib num .F u (fun _ => u) events' (.array [0, 1/2, 4]) .none (.metric (.name "euclidean")) .none
          false true 0 1000 = some (.ok (r, pos')) ∧ r.statistic = [.fin 0, .fin (1/1000), .fin 1] := by
  refine ⟨sortLib, ratNum, fun i => if i < 2 then 0 else 1/2, [(0, 0), (1, 0), (4, 2)], [(1, 0), (0, 0), (4, 2)], sortLib_correct,
    fun i => ?_, List.Perm.swap _ _ _, ?_, ?_⟩
  · simp only
    split <;> constructor <;> norm_num
  · refine ⟨⟨[0, 1/2, 4], [.fin 0, .fin 0, .fin 1], [.nan, .nan, .nan], some []⟩, 0, ?_, rfl⟩
    exact ripleyTest_ok.2 ⟨.name "euclidean", .scipyKDTree, .bboxOf box3, (0, 0) :: List.replicate 999 (2, 1), 2000,
      .single (.vec (1 :: 3 :: List.replicate 998 2)), ([0, 1/2, 4], [.fin 0, .fin 0, .fin 1]), 2000, [], rfl, sortTree,
      by decide +kernel, by decide +kernel, by decide +kernel, by decide +kernel, rfl, rfl⟩
  · refine ⟨⟨[0, 1/2, 4], [.fin 0, .fin (1/1000), .fin 1], [.nan, .nan, .nan], some []⟩, 0, ?_, rfl⟩
    exact ripleyTest_ok.2 ⟨.name "euclidean", .scipyKDTree, .bboxOf box3, (0, 0) :: List.replicate 999 (2, 1), 2000,
      .single (.vec (0 :: List.replicate 999 2)), ([0, 1/2, 4], [.fin 0, .fin (1/1000), .fin 1]), 2000, [], rfl, sortTree,
      by decide +kernel, by decide +kernel, by decide +kernel, by decide +kernel, rfl, rfl⟩

/-- The hypotheses of C127 can be met. -/
example : sortLib.Correct ∧ (∀ m p q, sortLib.pdist m p q = sortLib.pdist m q p)
    ∧ [((0 : ℚ), (0 : ℚ)), (1, 0), (4, 2)].Perm [(4, 2), (0, 0), (1, 0)] :=
  ⟨sortLib_correct, fun m => (sortLib_isDistance m).symm, by decide +kernel⟩

end Pointpats.Props
