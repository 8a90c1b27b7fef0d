import Verif.Props.DistanceJKL

/-!
# Properties of `pointpats/distance_statistics.py`: the simulation tests (C63-C65, C83-C87)
-/

set_option linter.unusedSectionVars false

namespace Pointpats.Props

open Spec Geometry Random DistStats

variable {K : Type} [Field K] [LinearOrder K] [IsStrictOrderedRing K] [FloorRing K]

/-- The simulations of a test, as a function of the generators. -/
def simulate (lib : Lib K) (num : Num K) (call : Call) (n : ℕ) (H : HullRes K) (metric : MetricArg)
    (empty : List (K × K)) (support : List K) (edge : Bool) (fuel : ℕ) (u : ℕ → K) : Run (List (XF K)) :=
  oneSimulation lib num call u n H (rehull H) metric empty support edge fuel

theorem ripleyTest_ok {lib : Lib K} {num : Num K} {call : Call} {u : ℕ → K} {gen : ℕ → ℕ → K} {coordinates : List (K × K)}
    {support : SupportArg K} {distances : TestDist K} {metric : MetricArg} {hullArg : HullArg K} {edge keep : Bool} {nsim : ℤ}
    {fuel : ℕ} {r : TestResult K} {pos' : ℕ} :
    ripleyTest lib num call u gen coordinates support distances metric hullArg edge keep nsim fuel = some (.ok (r, pos')) ↔
    ∃ m t H empty pos0 d obs pos1 sims, metric = .metric m
      ∧ buildBestTree lib.hasSklearn lib.kdMetrics lib.ballMetrics m = .ok t
      ∧ prepareHull coordinates hullArg = .ok H
      ∧ emptyLocations call u coordinates fuel = some (.ok (empty, pos0))
      ∧ testDistances lib call m coordinates empty distances = .ok d
      ∧ callStat lib num call u coordinates support d metric (rehull H) edge fuel pos0 = some (.ok (obs, pos1))
      ∧ replications (fun i _ => simulate lib num call coordinates.length H metric empty obs.1 edge fuel (gen i)) 0 nsim.toNat 0
          = some (.ok (sims, pos'))
      ∧ r = { support := obs.1, statistic := obs.2, pvalue := pvalues obs.1 obs.2 sims nsim
              simulations := if keep then some sims else none } := by
  unfold ripleyTest
  constructor
  · intro h
    cases metric with
    | other => cases h
    | metric m =>
      simp only at h
      cases ht : buildBestTree lib.hasSklearn lib.kdMetrics lib.ballMetrics m with
      | error e => rw [ht] at h; cases h
      | ok t =>
        rw [ht] at h
        simp only at h
        cases hH : prepareHull coordinates hullArg with
        | error e => rw [hH] at h; cases h
        | ok H =>
          rw [hH] at h
          simp only at h
          rw [Run.andThen_ok] at h
          obtain ⟨empty, pos0, he, h⟩ := h
          cases hd : testDistances lib call m coordinates empty distances with
          | error e => rw [hd] at h; cases h
          | ok d =>
            rw [hd] at h
            simp only at h
            rw [Run.andThen_ok] at h
            obtain ⟨obs, pos1, ho, h⟩ := h
            rw [Run.andThen_ok] at h
            obtain ⟨sims, pos2, hs, h⟩ := h
            rw [Run.ret_ok] at h
            obtain ⟨h1, rfl⟩ := h
            exact ⟨m, t, H, empty, pos0, d, obs, pos1, sims, rfl, ht, rfl, he, hd, ho, hs, h1.symm⟩
  · rintro ⟨m, t, H, empty, pos0, d, obs, pos1, sims, rfl, ht, hH, he, hd, ho, hs, rfl⟩
    simp only [ht, hH]
    rw [Run.andThen_ok]
    refine ⟨empty, pos0, he, ?_⟩
    rw [hd]
    simp only
    rw [Run.andThen_ok]
    refine ⟨obs, pos1, ho, ?_⟩
    rw [Run.andThen_ok]
    exact ⟨sims, pos', hs, rfl⟩

/-- A check on the value that a concrete run returns. -/
def checkRun {α : Type} (X : Run α) (p : α → Bool) : Bool :=
  match X with
  | some (.ok (r, _)) => p r
  | _ => false

theorem of_checkRun {α : Type} {X : Run α} {p : α → Bool} (h : checkRun X p = true) :
    ∃ r pos, X = some (.ok (r, pos)) ∧ p r = true := by
  match X, h with
  | some (.ok (r, pos)), h => exact ⟨r, pos, rfl, h⟩

theorem of_checkRun_eq {α β : Type} [DecidableEq β] (g : α → β) (b : β) {X : Run α}
    (h : checkRun X (fun r => decide (g r = b)) = true) : ∃ r pos, X = some (.ok (r, pos)) ∧ g r = b := by
  obtain ⟨r, pos, h1, h2⟩ := of_checkRun h
  exact ⟨r, pos, h1, of_decide_eq_true h2⟩

/-! ### C63 -/

/-- The number of simulated curves that are at least the observed value `o` at place `i`. -/
def curvesAtLeast (sims : List (List (XF K))) (i : ℕ) (o : XF K) : ℕ :=
  (sims.filter fun s => XF.ge (s.getD i .nan) o).length

omit [FloorRing K] in
theorem columnP_eq (sims : List (List (XF K))) (i : ℕ) (o : XF K) (m : ℤ) (hpos : 1 ≤ m) :
    columnP o (sims.map fun s => s.getD i .nan) m
        = min (((curvesAtLeast sims i o : K) + 1) / ((m : K) + 1)) (((m : K) - curvesAtLeast sims i o) / ((m : K) + 1)) := by
  unfold columnP
  simp only
  have hc : ((sims.map fun s => s.getD i .nan).filter fun s => XF.ge s o).length = curvesAtLeast sims i o := by
    rw [List.filter_map, List.length_map]
    rfl
  rw [hc]
  have hm' : ((m : K) + 1) ≠ 0 := by
    have : (0 : K) < (m : K) := by exact_mod_cast hpos
    linarith
  congr 1
  field_simp
  ring

/-- **C63, partial.** For every one of the five tests with `m ≥ 1` simulations, the p-value at the `i`-th distance is the smaller
of `(c + 1) / (m + 1)` and `(m - c) / (m + 1)` for the number `c` of simulated values that are at least the observed one; it is
between 0 and 1/2. Missing: that it is positive; it is 0 if all simulated values are at least the observed one. -/
theorem C63_pvalue_partial (lib : Lib K) (num : Num K) (call : Call) (u : ℕ → K) (gen : ℕ → ℕ → K)
    (coordinates : List (K × K)) (support : SupportArg K) (distances : TestDist K) (metric : MetricArg) (hullArg : HullArg K)
    (edge : Bool) (nsim : ℤ) (hsim : 1 ≤ nsim) (r : TestResult K) (pos' : ℕ)
    (h : Returns (fun fuel => ripleyTest lib num call u gen coordinates support distances metric hullArg edge true nsim fuel)
      (.ok (r, pos'))) :
    ∃ sims, r.simulations = some sims ∧ (sims.length : ℤ) = nsim ∧ r.pvalue.length = r.statistic.length
      ∧ ∀ i o, r.statistic[i]? = some o → ∃ p : K, r.pvalue[i]? = some (.fin p)
        ∧ p = min (((curvesAtLeast sims i o : K) + 1) / ((nsim : K) + 1))
              (((nsim : K) - curvesAtLeast sims i o) / ((nsim : K) + 1))
        ∧ 0 ≤ p ∧ p ≤ 1 / 2 := by
  obtain ⟨fuel, h⟩ := h
  obtain ⟨m, t, H, empty, pos0, d, obs, pos1, sims, -, -, -, -, -, -, hs, rfl⟩ := ripleyTest_ok.1 h
  have hlen := (replications_spec _ _ _ _ _ _ hs).1
  have hl : (sims.length : ℤ) = nsim := by omega
  have hne : sims ≠ [] := by rintro rfl; simp at hl; omega
  refine ⟨sims, by simp, hl, by simp [pvalues, hne], ?_⟩
  intro i o ho
  have hmK : (1 : K) ≤ (nsim : K) := by exact_mod_cast hsim
  have hc : (curvesAtLeast sims i o : K) ≤ (nsim : K) := by
    have : curvesAtLeast sims i o ≤ sims.length := List.length_filter_le _ _
    have h2 : ((curvesAtLeast sims i o : ℤ) : K) ≤ (nsim : K) := by
      exact_mod_cast (by omega : (curvesAtLeast sims i o : ℤ) ≤ nsim)
    simpa using h2
  have hc0 : (0 : K) ≤ (curvesAtLeast sims i o : K) := Nat.cast_nonneg _
  have hpos : (0 : K) < (nsim : K) + 1 := by linarith
  refine ⟨_, ?_, columnP_eq sims i o nsim hsim, ?_, ?_⟩
  · simp only at ho ⊢
    unfold pvalues
    rw [if_neg hne, List.getElem?_map, List.getElem?_zipIdx, ho]
    simp
  · rw [columnP_eq sims i o nsim hsim]
    apply le_min
    · apply div_nonneg <;> linarith
    · apply div_nonneg <;> linarith
  · rw [columnP_eq sims i o nsim hsim]
    by_cases hcc : 2 * ((curvesAtLeast sims i o : K) + 1) ≤ (nsim : K) + 1
    · refine le_trans (min_le_left _ _) ?_
      rw [div_le_div_iff₀ hpos (by norm_num)]
      linarith
    · refine le_trans (min_le_right _ _) ?_
      rw [div_le_div_iff₀ hpos (by norm_num)]
      linarith

omit [FloorRing K] [IsStrictOrderedRing K] in
private theorem shares_first {data bins : List K} {r : List K × List (XF K)} (h : shares data bins = .ok r) :
    r.2[0]? = some (.fin 0) := by
  unfold shares at h
  cases hh : histogram data bins with
  | error e => rw [hh] at h; cases h
  | ok c =>
    rw [hh] at h
    change Except.ok _ = Except.ok _ at h
    injection h with h
    subst h
    rfl

/-- The curves of F and G start with 0. -/
private theorem callStat_first {lib : Lib K} {num : Num K} {call : Call} (hcall : call = .F ∨ call = .G) {u : ℕ → K}
    {coordinates : List (K × K)} {support : SupportArg K} {d : TestDist K} {metric : MetricArg} {hull : HullArg K} {edge : Bool}
    {fuel pos : ℕ} {r : List K × List (XF K)} {pos' : ℕ}
    (h : callStat lib num call u coordinates support d metric hull edge fuel pos = some (.ok (r, pos'))) :
    r.2[0]? = some (.fin 0) := by
  unfold callStat at h
  rcases hcall with rfl | rfl
  · simp only at h
    have : ∃ d', f lib u coordinates support d' metric hull edge fuel pos = some (.ok (r, pos')) := by
      cases d with
      | none => exact ⟨_, h⟩
      | single d => exact ⟨_, h⟩
      | pair a b => cases h
    obtain ⟨d', h⟩ := this
    obtain ⟨p, _, h1, h2⟩ := f_ok h
    by_cases hd : d' = .none
    · obtain ⟨_, _, _, _, hs⟩ := h1 hd
      exact shares_first hs
    · obtain ⟨_, _, hs⟩ := h2 hd
      exact shares_first hs
  · simp only at h
    have : ∃ d', g lib coordinates support d' metric edge = .ok r := by
      obtain ⟨h, _⟩ := liftPy_ok h
      cases d with
      | none => exact ⟨_, h⟩
      | single d => exact ⟨_, h⟩
      | pair a b => cases h
    obtain ⟨d', h⟩ := this
    obtain ⟨_, _, _, _, hs⟩ := g_ok h
    exact shares_first hs

private theorem oneSimulation_ok {lib : Lib K} {num : Num K} {call : Call} {u : ℕ → K} {n : ℕ} {H : HullRes K}
    {hullArg : HullArg K} {metric : MetricArg} {empty : List (K × K)} {support : List K} {edge : Bool} {fuel : ℕ}
    {v : List (XF K)} {pos' : ℕ}
    (h : oneSimulation lib num call u n H hullArg metric empty support edge fuel = some (.ok (v, pos'))) :
    ∃ pts d pos r pos'', callStat lib num call u pts (.array support) d metric hullArg edge fuel pos = some (.ok (r, pos''))
      ∧ r.2 = v := by
  unfold oneSimulation at h
  rw [Run.andThen_ok] at h
  obtain ⟨rnd, p, _, h⟩ := h
  split at h
  · cases h
  · next pts _ =>
    simp only at h
    split at h
    · cases h
    · next d _ =>
      rw [Run.andThen_ok] at h
      obtain ⟨r, q, hr, h⟩ := h
      rw [Run.ret_ok] at h
      exact ⟨pts, d, p, r, q, hr, h.1⟩

/-- If every simulated value is at least the observed one, the p-value is zero. -/
private theorem columnP_zero (sims : List (List (XF K))) (i : ℕ) (o : XF K) (m : ℤ) (hm : m = sims.length) (hpos : 1 ≤ m)
    (h : ∀ s ∈ sims, XF.ge (s.getD i .nan) o = true) : columnP o (sims.map fun s => s.getD i .nan) m = 0 := by
  rw [columnP_eq sims i o m hpos]
  have hc : curvesAtLeast sims i o = sims.length := by
    unfold curvesAtLeast
    rw [List.filter_eq_self.2 h]
  have hmK : (m : K) = (sims.length : K) := by rw [hm]; simp
  have hpos' : (0 : K) < (m : K) + 1 := by
    have : (1 : K) ≤ (m : K) := by exact_mod_cast hpos
    linarith
  rw [hc, ← hmK, sub_self, zero_div, div_self hpos'.ne']
  exact min_eq_right zero_le_one

/-- **C63 is false of the code, for every F and G test.** Whatever the pattern and the simulations, the p-value that `f_test`
and `g_test` report at the first distance of the support is 0: all curves start at 0, so all simulated values are at least the
observed one, and the p-value `(m + 1) / (m + 1) = 1` is replaced by `1 - 1`. -/
theorem C63_first_pvalue_refuted (lib : Lib K) (num : Num K) (call : Call) (hcall : call = .F ∨ call = .G) (u : ℕ → K)
    (gen : ℕ → ℕ → K) (coordinates : List (K × K)) (support : SupportArg K) (distances : TestDist K) (metric : MetricArg)
    (hullArg : HullArg K) (edge keep : Bool) (nsim : ℤ) (hsim : 1 ≤ nsim) (r : TestResult K) (pos' : ℕ)
    (h : Returns (fun fuel => ripleyTest lib num call u gen coordinates support distances metric hullArg edge keep nsim fuel)
      (.ok (r, pos'))) : r.pvalue[0]? = some (.fin 0) := by
  obtain ⟨fuel, h⟩ := h
  obtain ⟨m, t, H, empty, pos0, d, obs, pos1, sims, -, -, -, -, -, ho, hs, rfl⟩ := ripleyTest_ok.1 h
  have hlen := (replications_spec _ _ _ _ _ _ hs).1
  have hne : sims ≠ [] := by rintro rfl; simp at hlen; omega
  have hobs := callStat_first hcall ho
  unfold pvalues
  rw [if_neg hne, List.getElem?_map, List.getElem?_zipIdx, hobs]
  simp only [Option.map_some, zero_add, Option.some.injEq, XF.fin.injEq]
  apply columnP_zero sims 0 _ nsim (by omega) hsim
  intro s hsm
  obtain ⟨j, p, p', _, hb⟩ := (replications_spec _ _ _ _ _ _ hs).2 s hsm
  obtain ⟨pts, d', q, r', q', hr', rfl⟩ := oneSimulation_ok hb
  have := callStat_first hcall hr'
  rw [List.getD_eq_getElem?_getD, this]
  simp [XF.ge]

/-- The numerical parameters for the examples. -/
def ratNum : Num ℚ where
  allclose := fun a b => decide (a = b)
  interp := fun _ _ _ => .error .valueError
  root := fun x => x
  pi := 3

/-- The hypotheses of the C63 theorems are met, by a G test with two simulations. -/
example : checkRun (ripleyTest sortLib ratNum .G (fun _ => 0) (fun i j => ((i + 3 * j + j ^ 2) % 7 : ℕ) / 7) triangle3
    (.array [0, 2, 5]) .none (.metric (.name "euclidean")) .none false true 2 100)
    (fun r => decide (r.statistic = [.fin 0, .fin (2/3), .fin 1] ∧ r.pvalue = [.fin 0, .fin 0, .fin 0])) = true := by
  decide +kernel

/-! ### C64 -/

omit [FloorRing K] in
/-- **C64.** The p-values depend on the simulated curves only as a multiset. -/
theorem C64_order (support : List K) (observed : List (XF K)) (sims sims' : List (List (XF K))) (hperm : sims.Perm sims')
    (m : ℤ) : pvalues support observed sims m = pvalues support observed sims' m := by
  unfold pvalues
  by_cases h : sims = []
  · subst h
    rw [List.nil_perm.1 hperm]
  · have h' : sims' ≠ [] := by
      rintro rfl
      exact h (List.perm_nil.1 hperm)
    rw [if_neg h, if_neg h']
    apply List.map_congr_left
    intro o _
    unfold columnP
    rw [((hperm.map _).filter _).length_eq]

private theorem replications_exists {α : Type} (A : ℕ → Run α) (i n p : ℕ)
    (h : ∀ k, k < n → ∃ a q, A (i + k) = some (.ok (a, q))) :
    ∃ l q, replications (fun i _ => A i) i n p = some (.ok (l, q)) := by
  induction n generalizing i p with
  | zero => exact ⟨[], p, rfl⟩
  | succ n ih =>
    obtain ⟨a, q, ha⟩ := h 0 (by omega)
    obtain ⟨l, q', hl⟩ := ih (i + 1) q (fun k hk => by
      have := h (k + 1) (by omega)
      rwa [show i + (k + 1) = i + 1 + k by omega] at this)
    refine ⟨a :: l, q', ?_⟩
    rw [replications, Run.andThen_ok]
    refine ⟨a, q, ha, ?_⟩
    rw [Run.andThen_ok]
    exact ⟨l, q', hl, rfl⟩

/-- **C64, generators.** If the simulations run with the generators in another order (as parallel workers may deliver them), the
test returns the same support, statistic and p-values, and the simulated curves in that other order. -/
theorem C64_schedule (lib : Lib K) (num : Num K) (call : Call) (u : ℕ → K) (gen : ℕ → ℕ → K) (coordinates : List (K × K))
    (support : SupportArg K) (distances : TestDist K) (metric : MetricArg) (hullArg : HullArg K) (edge keep : Bool) (nsim : ℤ)
    (σ : ℕ → ℕ) (hσ : ((List.range nsim.toNat).map σ).Perm (List.range nsim.toNat)) (r : TestResult K) (pos' : ℕ)
    (h : Returns (fun fuel => ripleyTest lib num call u gen coordinates support distances metric hullArg edge keep nsim fuel)
      (.ok (r, pos'))) :
    ∃ r' pos'', Returns (fun fuel => ripleyTest lib num call u (fun i => gen (σ i)) coordinates support distances metric
        hullArg edge keep nsim fuel) (.ok (r', pos''))
      ∧ r'.support = r.support ∧ r'.statistic = r.statistic ∧ r'.pvalue = r.pvalue
      ∧ ∀ sims, r.simulations = some sims → ∃ sims', r'.simulations = some sims' ∧ sims'.Perm sims
          ∧ ∀ i, i < nsim.toNat → sims'[i]? = sims[σ i]? := by
  obtain ⟨fuel, h⟩ := h
  obtain ⟨m, t, H, empty, pos0, d, obs, pos1, sims, h1, h2, h3, h4, h5, h6, hs, rfl⟩ := ripleyTest_ok.1 h
  set A : ℕ → Run (List (XF K)) := fun i => simulate lib num call coordinates.length H metric empty obs.1 edge fuel (gen i)
    with hA
  have hlen := (replications_spec _ _ _ _ _ _ hs).1
  have hget := replications_index _ _ _ _ _ _ hs
  have hσlt : ∀ i, i < nsim.toNat → σ i < nsim.toNat := by
    intro i hi
    have : σ i ∈ (List.range nsim.toNat).map σ := List.mem_map.2 ⟨i, List.mem_range.2 hi, rfl⟩
    exact List.mem_range.1 (hσ.mem_iff.1 this)
  obtain ⟨sims', q', hs'⟩ := replications_exists (fun i => A (σ i)) 0 nsim.toNat 0 (by
    intro k hk
    obtain ⟨p, p', hb⟩ := hget (σ k) _ (List.getElem?_eq_getElem (by rw [hlen]; exact hσlt k hk))
    rw [zero_add] at hb ⊢
    exact ⟨_, p', hb⟩)
  have hlen' := (replications_spec _ _ _ _ _ _ hs').1
  have hsame : ∀ i, i < nsim.toNat → sims'[i]? = sims[σ i]? := by
    intro i hi
    have hi' : i < sims'.length := by omega
    have hj' : σ i < sims.length := by rw [hlen]; exact hσlt i hi
    obtain ⟨p, p', hb⟩ := replications_index _ _ _ _ _ _ hs' i _ (List.getElem?_eq_getElem hi')
    obtain ⟨q, q'', hc⟩ := hget (σ i) _ (List.getElem?_eq_getElem hj')
    simp only [zero_add] at hb hc
    rw [show A (σ i) = simulate lib num call coordinates.length H metric empty obs.1 edge fuel (gen (σ i)) from rfl, hc] at hb
    injection hb with hb
    injection hb with hb
    injection hb with hb _
    rw [List.getElem?_eq_getElem hi', List.getElem?_eq_getElem hj', hb]
  have hperm : sims'.Perm sims := by
    have e1 : sims' = ((List.range nsim.toNat).map σ).map fun i => sims.getD i [] := by
      apply List.ext_getElem?
      intro i
      by_cases hi : i < nsim.toNat
      · rw [hsame i hi]
        have hj' : σ i < sims.length := by rw [hlen]; exact hσlt i hi
        simp [List.getElem?_range hi, List.getElem?_eq_getElem hj']
      · rw [List.getElem?_eq_none (by omega), List.getElem?_eq_none (by simp; omega)]
    have e2 : sims = (List.range nsim.toNat).map fun i => sims.getD i [] := by
      apply List.ext_getElem?
      intro i
      by_cases hi : i < nsim.toNat
      · have hj' : i < sims.length := by omega
        simp [List.getElem?_range hi, List.getElem?_eq_getElem hj']
      · rw [List.getElem?_eq_none (by omega), List.getElem?_eq_none (by simp; omega)]
    rw [e1]
    conv_rhs => rw [e2]
    exact hσ.map _
  refine ⟨{ support := obs.1, statistic := obs.2, pvalue := pvalues obs.1 obs.2 sims' nsim,
            simulations := if keep then some sims' else none }, q', ⟨fuel, ?_⟩, rfl, rfl, ?_, ?_⟩
  · exact ripleyTest_ok.2 ⟨m, t, H, empty, pos0, d, obs, pos1, sims', h1, h2, h3, h4, h5, h6, hs', rfl⟩
  · exact C64_order _ _ _ _ hperm _
  · intro s hsm
    simp only at hsm
    cases keep with
    | false => simp at hsm
    | true =>
      simp only [if_true, Option.some.injEq] at hsm
      subst hsm
      exact ⟨sims', by simp, hperm, hsame⟩

/-- The hypotheses of `C64_schedule` are met: two generators in exchanged order. -/
example : ((List.range (2 : ℤ).toNat).map fun i => 1 - i).Perm (List.range (2 : ℤ).toNat) := by decide

/-! ### C65, C85: the empty-space locations of the F test -/

theorem emptyLocations_ok {call : Call} (hcall : call = .F ∨ call = .J) {u : ℕ → K} {coordinates : List (K × K)} {fuel : ℕ}
    {empty : List (K × K)} {pos0 : ℕ} (h : emptyLocations call u coordinates fuel = some (.ok (empty, pos0))) :
    coordinates ≠ [] ∧ empty.length = 1000 ∧ ∀ b, IsSmallestBox coordinates b → ∀ x ∈ empty, InBox b x := by
  have h : (match bboxPts coordinates with
      | .error e => Run.fail e
      | .ok b => (poisson (Hull.ofBBox b) u none (.tuple [1000, 1]) fuel 0).andThen fun r pos => Run.ret r.data pos)
      = some (.ok (empty, pos0)) := by
    rcases hcall with rfl | rfl <;> exact h
  cases hb : bboxPts coordinates with
  | error e => rw [hb] at h; cases h
  | ok b =>
    rw [hb] at h
    simp only at h
    rw [Run.andThen_ok] at h
    obtain ⟨r, p, hr, h⟩ := h
    rw [Run.ret_ok] at h
    obtain ⟨rfl, rfl⟩ := h
    have hpar : ∃ i, parseSizeAndIntensity (Hull.ofBBox b) none (.tuple [1000, 1]) = .ok (1000, 1, i) := by
      cases hpp : parseSizeAndIntensity (Hull.ofBBox b) none (.tuple [1000, 1]) with
      | error e => unfold poisson at hr; rw [hpp] at hr; cases hr
      | ok r =>
        unfold parseSizeAndIntensity at hpp
        simp only at hpp
        cases hd : divArea (Hull.ofBBox b) 1000 with
        | error e => rw [hd] at hpp; cases hpp
        | ok i =>
          rw [hd] at hpp
          change Except.ok _ = Except.ok _ at hpp
          exact ⟨i, hpp.symm⟩
    obtain ⟨i, hpar⟩ := hpar
    obtain ⟨⟨reps, r1, r2, r3⟩, _⟩ := C40_poisson _ _ _ _ _ _ _ hpar 0 r p ⟨fuel, hr⟩
    have hreps : reps.length = 1 := by omega
    obtain ⟨rep, rfl⟩ := List.length_eq_one_iff.1 hreps
    have hqd : r.data = rep := by rw [r1]; simp
    obtain ⟨l1, l2⟩ := r3 rep (by simp)
    have hne : coordinates ≠ [] := by rintro rfl; cases hb
    refine ⟨hne, by rw [hqd]; omega, ?_⟩
    intro b' hb' x hx
    obtain ⟨b'', e1, _, e3⟩ := (C19_bbox_smallest coordinates).2 hne
    have : b'' = b := by
      have e1' : bboxPts coordinates = .ok b'' := e1
      rw [hb] at e1'
      injection e1' with e1'
      exact e1'.symm
    subst this
    have := e3 b' hb'
    subst this
    rw [hqd] at hx
    exact (C20_contains _ _ _).1 (l2 x hx)

/-- **C65, partial.** When `f_test` returns for two or more events and a support of two or more distances: there are a thousand
locations in the bounding box of the events, and the reported statistic is the curve of the shares of one distance per location;
for the location at place `i` it is the distance to the nearest event other than the one at place `i`, so the nearest event of
all if `i` is not less than the number of events. Missing: the first locations, for which one event is left out. -/
theorem C65_f_test_partial (lib : Lib K) (hc : lib.Correct) (num : Num K) (u : ℕ → K) (gen : ℕ → ℕ → K)
    (coordinates : List (K × K)) (hn : 2 ≤ coordinates.length) (support : SupportArg K) (m : Metric) (hullArg : HullArg K)
    (keep : Bool) (nsim : ℤ) (r : TestResult K) (pos' : ℕ) (h2 : 2 ≤ r.support.length)
    (h : Returns (fun fuel => ripleyTest lib num .F u gen coordinates support .none (.metric m) hullArg false keep nsim fuel)
      (.ok (r, pos'))) :
    ∃ locations : List (K × K), ∃ data : List K, locations.length = 1000 ∧ data.length = 1000
      ∧ (∀ b, IsSmallestBox coordinates b → ∀ x ∈ locations, InBox b x)
      ∧ (∀ (i : ℕ) x d, locations[i]? = some x → data[i]? = some d →
          NearestExcept (lib.pdist m) coordinates i x d
          ∧ (coordinates.length ≤ i → IsNearest (lib.pdist m) coordinates x d))
      ∧ (0 < countWithin r.support data →
          ∃ w : List K, r.statistic = w.map .fin ∧ IsShareCurve data r.support w ∧ IsDistributionCurve w)
      ∧ (countWithin r.support data = 0 → r.statistic = .fin 0 :: List.replicate (r.support.length - 1) .nan) := by
  obtain ⟨fuel, h⟩ := h
  obtain ⟨m', t, H, empty, pos0, d, obs, pos1, sims, hm, -, -, he, hd, ho, -, rfl⟩ := ripleyTest_ok.1 h
  injection hm with hm
  subst hm
  obtain ⟨-, e1, e2⟩ := emptyLocations_ok (.inl rfl) he
  unfold testDistances at hd
  simp only at hd
  cases hr : treeKNeighbors lib m coordinates empty 1 with
  | error e => rw [hr] at hd; cases hd
  | ok rows =>
    rw [hr] at hd
    change Except.ok _ = Except.ok _ at hd
    injection hd with hd
    subst hd
    obtain ⟨t1, t2⟩ := treeKNeighbors_ok hc hn hr
    have ho' : f lib u coordinates support (.vec (distancesOf rows)) (.metric m) (rehull H) false fuel pos0
        = some (.ok ((obs.1, obs.2), pos1)) := ho
    obtain ⟨-, c1, c2⟩ := C58_f_given lib u coordinates (.vec (distancesOf rows)) (distancesOf rows) (.inl rfl) support
      (.metric m) (rehull H) pos0 pos1 obs.1 obs.2 h2 ⟨fuel, ho'⟩
    refine ⟨empty, distancesOf rows, e1, by omega, e2, ?_, c1, c2⟩
    intro i x d hx hdx
    have hN := t2 i x d hx hdx
    refine ⟨hN, fun hi => ?_⟩
    obtain ⟨⟨j, q, hj, _, hq⟩, hmin⟩ := hN
    refine ⟨⟨q, List.mem_of_getElem? hj, hq⟩, fun q' hq' => ?_⟩
    obtain ⟨j', hj'⟩ := List.mem_iff_getElem?.1 hq'
    have : j' < coordinates.length := by
      by_contra hge
      rw [List.getElem?_eq_none (by omega)] at hj'
      cases hj'
    exact hmin j' q' hj' (by omega)

/-- **C85, partial.** The empty-space locations of `f_test` are in the smallest box of the events, so they are in the hull if the
hull is that box. Missing: any other hull, for which it is false. -/
theorem C85_region_partial (lib : Lib K) (hc : lib.Correct) (num : Num K) (u : ℕ → K) (gen : ℕ → ℕ → K)
    (coordinates : List (K × K)) (hn : 2 ≤ coordinates.length) (support : SupportArg K) (m : Metric)
    (keep : Bool) (nsim : ℤ) (r : TestResult K) (pos' : ℕ) (h2 : 2 ≤ r.support.length)
    (h : Returns (fun fuel => ripleyTest lib num .F u gen coordinates support .none (.metric m) .none false keep nsim fuel)
      (.ok (r, pos'))) :
    ∃ H, ∃ locations : List (K × K), ∃ data : List K, prepareHull coordinates .none = .ok H ∧ locations.length = 1000
      ∧ data.length = 1000
      ∧ (∀ x ∈ locations, (lib.hullOf H).contains x.1 x.2 = true)
      ∧ (∀ (i : ℕ) x d, locations[i]? = some x → data[i]? = some d → NearestExcept (lib.pdist m) coordinates i x d)
      ∧ (0 < countWithin r.support data →
          ∃ w : List K, r.statistic = w.map .fin ∧ IsShareCurve data r.support w ∧ IsDistributionCurve w) := by
  obtain ⟨locations, data, h1, h3, h4, h5, h6, -⟩ := C65_f_test_partial lib hc num u gen coordinates hn support m .none keep nsim r
    pos' h2 h
  have hne : coordinates ≠ [] := by rintro rfl; simp at hn
  obtain ⟨b, e1, e2, _⟩ := (C19_bbox_smallest coordinates).2 hne
  have e1' : bboxPts coordinates = .ok b := e1
  refine ⟨.bboxOf b, locations, data, by simp only [prepareHull, e1']; rfl, h1, h3, fun x hx => ?_, fun i x d a b =>
    (h5 i x d a b).1, h6⟩
  exact (C20_contains _ _ _).2 (h4 b e2 x hx)

/-! ### C83, C87: the end of `j_test` -/

omit [Field K] [LinearOrder K] [IsStrictOrderedRing K] [FloorRing K] in
private theorem jTestEnd_none (r : TestResult K) :
    jTestEnd true r = none ↔ ∀ x ∈ r.statistic, x.isfinite = true := by
  unfold jTestEnd truncateResult
  simp only [if_true]
  by_cases h : r.statistic.any (fun v => !v.isfinite) = true
  · rw [if_pos h]
    have hi : firstInvalid r.statistic < r.statistic.length := by
      unfold firstInvalid
      rw [if_pos h]
      obtain ⟨x, hx, hxx⟩ := List.any_eq_true.1 h
      exact List.findIdx_lt_length_of_exists ⟨x, hx, hxx⟩
    have hl : (r.statistic.take (firstInvalid r.statistic)).length ≠ r.statistic.length := by
      rw [List.length_take]; omega
    rw [if_pos hl]
    refine ⟨fun h' => (by cases h'), fun h' => ?_⟩
    obtain ⟨x, hx, hxx⟩ := List.any_eq_true.1 h
    simp [h' x hx] at hxx
  · rw [if_neg h]
    simp only [ne_eq, not_true_eq_false, if_false, true_iff]
    intro x hx
    simp only [Bool.not_eq_true, List.any_eq_false] at h
    simpa using h x hx

/-- **C83, what is returned.** Without truncation `j_test` returns the result of the test. With truncation, if some value of
the statistic is not finite, it returns support, statistic and p-values cut before the first such value; the simulations are the
first curves, as many as there are distances left, and the curves are not cut. -/
theorem C83_j_test_cut (lib : Lib K) (num : Num K) (u : ℕ → K) (gen : ℕ → ℕ → K) (coordinates : List (K × K))
    (support : SupportArg K) (distances : TestDist K) (metric : MetricArg) (hullArg : HullArg K) (edge keep : Bool)
    (nsim : ℤ) (r : TestResult K) (pos' : ℕ)
    (h : Returns (fun fuel => ripleyTest lib num .J u gen coordinates support distances metric hullArg edge keep nsim fuel)
      (.ok (r, pos'))) :
    Returns (fun fuel => jTest lib num u gen coordinates support distances metric hullArg edge false keep nsim fuel)
        (.ok (some r, pos'))
    ∧ ((∃ x ∈ r.statistic, ∀ a, x ≠ .fin a) →
        ∃ t, Returns (fun fuel => jTest lib num u gen coordinates support distances metric hullArg edge true keep nsim fuel)
            (.ok (some t, pos'))
          ∧ ∃ n x, r.statistic[n]? = some x ∧ (∀ a, x ≠ .fin a) ∧ t.statistic = r.statistic.take n
            ∧ (∀ x ∈ t.statistic, ∃ a, x = .fin a) ∧ t.support = r.support.take n ∧ t.pvalue = r.pvalue.take n
            ∧ t.simulations = r.simulations.map fun sims => sims.take n) := by
  obtain ⟨fuel, h⟩ := h
  have key : ∀ b, (fun fuel => jTest lib num u gen coordinates support distances metric hullArg edge b keep nsim fuel) fuel
      = some (.ok (jTestEnd b r, pos')) := by
    intro b
    change jTest lib num u gen coordinates support distances metric hullArg edge b keep nsim fuel = _
    unfold jTest
    rw [Run.andThen_ok]
    exact ⟨r, pos', h, rfl⟩
  refine ⟨⟨fuel, key false⟩, ?_⟩
  rintro ⟨x, hx, hxf⟩
  have hany : r.statistic.any (fun v => !v.isfinite) = true := by
    rw [List.any_eq_true]
    refine ⟨x, hx, ?_⟩
    cases x with
    | fin a => exact absurd rfl (hxf a)
    | _ => rfl
  have hidx : r.statistic.findIdx (fun v => !v.isfinite) < r.statistic.length := by
    obtain ⟨x, hx, hxx⟩ := List.any_eq_true.1 hany
    exact List.findIdx_lt_length_of_exists ⟨x, hx, hxx⟩
  have hlast := List.findIdx_getElem (w := hidx)
  have hbefore : ∀ y ∈ r.statistic.take (r.statistic.findIdx (fun v => !v.isfinite)), ∃ a, y = .fin a := by
    intro y hy
    obtain ⟨k, hk⟩ := List.mem_iff_getElem?.1 hy
    rw [List.getElem?_take] at hk
    split at hk
    · next hlt =>
      have := List.not_of_lt_findIdx hlt
      have hk' : k < r.statistic.length := by omega
      rw [List.getElem?_eq_getElem hk'] at hk
      injection hk with hk
      rw [hk] at this
      cases y with
      | fin a => exact ⟨a, rfl⟩
      | _ => simp [XF.isfinite] at this
    · cases hk
  have hend : jTestEnd true r = some (truncateResult r) := by
    cases hj : jTestEnd true r with
    | none =>
      have := (jTestEnd_none r).1 hj x hx
      cases x with
      | fin a => exact absurd rfl (hxf a)
      | _ => cases this
    | some t =>
      unfold jTestEnd at hj
      simp only [if_true] at hj
      split at hj
      · exact hj.symm
      · cases hj
  refine ⟨truncateResult r, ⟨fuel, by rw [key true, hend]⟩, r.statistic.findIdx (fun v => !v.isfinite), _,
    List.getElem?_eq_getElem hidx, ?_, ?_, ?_, ?_, ?_, ?_⟩
  · intro a ha
    rw [ha] at hlast
    simp [XF.isfinite] at hlast
  all_goals unfold truncateResult; rw [if_pos hany]; simp only [firstInvalid, if_pos hany]
  exact hbefore

/-- The last value of a share curve is 1 or not a number. -/
private theorem shares_last {data s : List K} (h2 : 2 ≤ s.length) {r : List K × List (XF K)} (h : shares data s = .ok r) :
    r.2.getLast? = some (.fin 1) ∨ r.2.getLast? = some .nan := by
  obtain ⟨-, -, c3, c4⟩ := shares_curve data s h2 r h
  by_cases hc : countWithin s data = 0
  · right
    rw [c3 hc, show s.length - 1 = (s.length - 2) + 1 by omega, List.replicate_succ']
    rw [List.getLast?_cons, List.getLast?_append]
    simp
  · left
    obtain ⟨w, hw, -, hd⟩ := c4 (Nat.pos_of_ne_zero hc)
    rw [hw, List.getLast?_map, hd.last]
    rfl

/-- **C83, partial.** When the test computes the distances itself (`distances=None`) and the support has two or more distances,
`j_test` returns a result with truncation as well: the last value of J is never finite, so it is always cut. (`allclose` is true
of equal arrays.) Missing: a support of one distance. -/
theorem C83_j_test_partial (lib : Lib K) (num : Num K) (hclose : ∀ s, num.allclose s s = true) (u : ℕ → K) (gen : ℕ → ℕ → K)
    (coordinates : List (K × K)) (support : SupportArg K) (metric : MetricArg) (hullArg : HullArg K) (edge keep : Bool)
    (nsim : ℤ) (r : TestResult K) (pos' : ℕ) (h2 : 2 ≤ r.support.length)
    (h : Returns (fun fuel => ripleyTest lib num .J u gen coordinates support .none metric hullArg edge keep nsim fuel)
      (.ok (r, pos'))) :
    ∃ t, Returns (fun fuel => jTest lib num u gen coordinates support .none metric hullArg edge true keep nsim fuel)
      (.ok (some t, pos')) ∧ ∃ n, n < r.support.length ∧ t.support = r.support.take n ∧ t.statistic = r.statistic.take n := by
  obtain ⟨-, hcut⟩ := C83_j_test_cut lib num u gen coordinates support .none metric hullArg edge keep nsim r pos' h
  obtain ⟨fuel, h⟩ := h
  obtain ⟨m, t, H, empty, pos0, d, obs, pos1, sims, rfl, -, -, -, hd, ho, -, rfl⟩ := ripleyTest_ok.1 h
  simp only at h2
  have hd' : ∃ a b, d = .pair (.vec a) (.vec b) := by
    unfold testDistances at hd
    simp only at hd
    cases h1 : treeKNeighbors lib m coordinates empty 1 with
    | error e => rw [h1] at hd; cases hd
    | ok e =>
      rw [h1] at hd
      cases h2 : treeKNeighbors lib m coordinates coordinates 1 with
      | error e => rw [h2] at hd; cases hd
      | ok e' =>
        rw [h2] at hd
        change Except.ok _ = Except.ok _ at hd
        injection hd with hd
        exact ⟨_, _, hd.symm⟩
  obtain ⟨a, b, rfl⟩ := hd'
  have ho' : j lib u num.allclose num.interp coordinates support (some (.vec a, .vec b)) (.metric m) (rehull H) edge false fuel
      pos0 = some (.ok (obs, pos1)) := ho
  obtain ⟨fres, gres, gres', fres', hf, hg, hA, hB, hr⟩ := j_parts.1 ho'
  obtain ⟨p, hp, -, hfs⟩ := f_ok hf
  obtain ⟨d1, -, hfs⟩ := hfs (by simp [fPart])
  obtain ⟨q, d2, hq, -, hgs⟩ := g_ok hg
  obtain ⟨-, -, m1, e1, e2, e3⟩ := prepare_ok hp
  obtain ⟨-, -, m2, f1, f2, f3⟩ := prepare_ok hq
  have hpq : p.support = q.support := by
    have : p.metric = q.metric := by
      rw [e2, f2]
      simp [fPart, gPart, DistArg.isNone]
    rw [this, f3] at e3
    injection e3 with e3
    exact (congrArg Prod.fst e3).symm
  have hfr := (shares_support hfs).1
  have hgr := (shares_support hgs).1
  have hgg : gres' = gres := by
    unfold alignG at hA
    cases support with
    | array s =>
      have : gres.1 = s := by
        rw [hgr]
        simp only [resolveSupport] at f3
        injection f3 with f3
        exact (congrArg Prod.fst f3).symm
      simp only [this, hclose, if_true] at hA
      injection hA with hA
      exact hA.symm
    | _ => injection hA with hA; exact hA.symm
  subst hgg
  have hff : fres' = fres := by
    unfold alignF at hB
    rw [hfr, hgr, hpq, hclose, if_pos rfl] at hB
    injection hB with hB
    exact hB.symm
  subst hff
  unfold jEnd at hr
  simp only [Bool.false_eq_true, if_false] at hr
  injection hr with hr
  rename' gres' => gres, fres' => fres
  have hne1 : q.support ≠ [] := by
    intro h0
    rw [show obs.1 = gres.1 by rw [← hr], hgr, h0] at h2
    simp at h2
  have hs : obs.1 = gres.1 := by rw [← hr]
  have hv : obs.2 = List.zipWith hazard gres.2 fres.2 := by rw [← hr]
  rw [hs, hgr] at h2
  have hl1 := shares_last h2 hgs
  have hl2 := shares_last (hpq ▸ h2) hfs
  have hlen1 : gres.2.length = q.support.length := (shares_support hgs).2 hne1
  have hlen2 : fres.2.length = q.support.length := by rw [(shares_support hfs).2 (hpq ▸ hne1), hpq]
  have hlast : obs.2.getLast? = some .nan := by
    rw [hv, List.getLast?_eq_getElem?, List.length_zipWith, List.getElem?_zipWith]
    rw [List.getLast?_eq_getElem?] at hl1 hl2
    rw [show min gres.2.length fres.2.length - 1 = gres.2.length - 1 by omega]
    rw [show fres.2.length - 1 = gres.2.length - 1 by omega] at hl2
    rcases hl1 with hl1 | hl1 <;> rcases hl2 with hl2 | hl2 <;> rw [hl1, hl2] <;> simp [hazard, XF.eq, XF.sub, XF.div]
  obtain ⟨t, ht, n, x, h3, -, h4, -, h5, -⟩ := hcut ⟨.nan, List.mem_of_getLast? hlast, by simp⟩
  refine ⟨t, ht, n, ?_, h5, h4⟩
  have : n < obs.2.length := by
    by_contra hge
    rw [List.getElem?_eq_none (by simpa using hge)] at h3
    cases h3
  rw [hv, List.length_zipWith] at this
  simp only [hs, hgr]
  omega

/-- **C87, partial.** Without truncation, or when nothing is cut, the simulations are returned as they are; with truncation the
kept curves are complete curves of the untruncated result. Missing: that they are cut along with the support. -/
theorem C87_simulations_partial (lib : Lib K) (num : Num K) (u : ℕ → K) (gen : ℕ → ℕ → K) (coordinates : List (K × K))
    (support : SupportArg K) (distances : TestDist K) (metric : MetricArg) (hullArg : HullArg K) (edge truncate keep : Bool)
    (nsim : ℤ) (t : TestResult K) (pos' : ℕ)
    (h : Returns (fun fuel => jTest lib num u gen coordinates support distances metric hullArg edge truncate keep nsim fuel)
      (.ok (some t, pos'))) :
    ∃ r, Returns (fun fuel => ripleyTest lib num .J u gen coordinates support distances metric hullArg edge keep nsim fuel)
        (.ok (r, pos'))
      ∧ (truncate = false → t = r)
      ∧ ∀ sims, t.simulations = some sims → ∃ all, r.simulations = some all ∧ sims <+: all := by
  obtain ⟨fuel, h⟩ := h
  have h1 : jTest lib num u gen coordinates support distances metric hullArg edge truncate keep nsim fuel
      = some (.ok (some t, pos')) := h
  clear h
  unfold jTest at h1
  rw [Run.andThen_ok] at h1
  obtain ⟨r, p, hr, h2⟩ := h1
  rw [Run.ret_ok] at h2
  obtain ⟨h, rfl⟩ := h2
  refine ⟨r, ⟨fuel, hr⟩, ?_, ?_⟩
  · rintro rfl
    simp only [jTestEnd, Bool.false_eq_true, if_false, Option.some.injEq] at h
    exact h.symm
  · intro sims hs
    unfold jTestEnd at h
    split at h
    · simp only at h
      split at h
      · injection h with h
        subst h
        unfold truncateResult at hs
        split at hs
        · simp only [Option.map_eq_some_iff] at hs
          obtain ⟨all, ha, rfl⟩ := hs
          exact ⟨all, ha, List.take_prefix _ _⟩
        · exact ⟨sims, hs, List.prefix_refl _⟩
      · cases h
    · injection h with h
      subst h
      exact ⟨sims, hs, List.prefix_refl _⟩

/-! ### C84: `g` on a distance matrix -/

/-- **C84 is false of the code.** On the matrix of all distances between the events, `g` takes the zeros of the diagonal for the
distances to the nearest neighbours. -/
theorem C84_matrix_refuted :
    ∃ (lib : Lib ℚ) (coordinates : List (ℚ × ℚ)), lib.Correct
      ∧ g lib coordinates (.array [0, 1, 2, 3]) .none (.metric (.name "euclidean")) false
          = .ok ([0, 1, 2, 3], [.fin 0, .fin 0, .fin (2/3), .fin 1])
      ∧ g lib coordinates (.array [0, 1, 2, 3])
          (.mat coordinates.length (distanceMatrix (lib.pdist (.name "euclidean")) coordinates)) (.metric (.name "euclidean")) false
          = .ok ([0, 1, 2, 3], [.fin 0, .fin 1, .fin 1, .fin 1]) :=
  ⟨sortLib, line3, sortLib_correct, by decide +kernel, by decide +kernel⟩

omit [IsStrictOrderedRing K] [FloorRing K] in
private theorem nearestOther_unique {dist : K × K → K × K → K} {events : List (K × K)} {i : ℕ} {a b : K}
    (ha : IsNearestOther dist events i a) (hb : IsNearestOther dist events i b) : a = b := by
  obtain ⟨p, hp, ⟨j, q, hj, hji, rfl⟩, h1⟩ := ha
  obtain ⟨p', hp', ⟨j', q', hj', hji', rfl⟩, h2⟩ := hb
  rw [hp] at hp'
  injection hp' with hp'
  subst hp'
  exact le_antisymm (h1 j' q' hj' hji') (h2 j q hj hji)

omit [FloorRing K] in
/-- **C84, partial.** Given the matrix of all distances with a diagonal that is not below the distance to the nearest other event
(say, filled with infinity or the largest distance), `g` returns what it returns when it computes the distances itself, for every
array of distances as support. Missing: the matrix with its zero diagonal. -/
theorem C84_matrix_partial (lib : Lib K) (hc : lib.Correct) (coordinates : List (K × K)) (hn : 2 ≤ coordinates.length)
    (rows : List (List K)) (hlen : rows.length = coordinates.length)
    (hrows : ∀ i r, rows[i]? = some r → r.length = coordinates.length
      ∧ (∀ (j : ℕ) d, r[j]? = some d → j ≠ i → ∃ p q, coordinates[i]? = some p ∧ coordinates[j]? = some q
          ∧ d = lib.pdist (.name "euclidean") p q)
      ∧ ∀ d e, r[i]? = some d → IsNearestOther (lib.pdist (.name "euclidean")) coordinates i e → e ≤ d)
    (s : List K) (r : List K × List (XF K))
    (h : g lib coordinates (.array s) .none (.metric (.name "euclidean")) false = .ok r) :
    g lib coordinates (.array s) (.mat coordinates.length rows) (.metric (.name "euclidean")) false = .ok r := by
  obtain ⟨p, d, hp, hd, hs⟩ := g_ok h
  obtain ⟨-, hh, m', hm, hm', hsup⟩ := prepare_ok hp
  injection hm with hm
  subst hm
  have hme : p.metric = .name "euclidean" := by rw [hm']; simp
  rw [hme] at hd
  obtain ⟨g1, g2⟩ := gDistances_none hc hn hd
  have hsp : p.support = s ∧ p.isArray = true := by
    simp only [resolveSupport] at hsup
    injection hsup with hsup
    exact ⟨(congrArg Prod.fst hsup).symm, (congrArg Prod.snd hsup).symm⟩
  have hp' : prepare lib coordinates (.array s) (!(DistArg.mat coordinates.length rows).isNone) (.metric (.name "euclidean")) .none
      false = .ok p := by
    rw [← hp]
    unfold prepare
    simp [DistArg.isNone]
  have hmin : rowMins rows = .ok d := by
    unfold rowMins
    rw [mapM_ok_iff, List.forall₂_iff_get]
    refine ⟨by omega, ?_⟩
    intro i hi hi'
    simp only [List.get_eq_getElem]
    obtain ⟨r1, r2, r3⟩ := hrows i _ (List.getElem?_eq_getElem hi)
    have hN := g2 i _ (List.getElem?_eq_getElem hi')
    obtain ⟨x, hx, ⟨j, y, hj, hji, he⟩, hall⟩ := hN
    have hjl : j < coordinates.length := by
      by_contra hge
      rw [List.getElem?_eq_none (by omega)] at hj
      cases hj
    have hmem : d[i] ∈ rows[i] := by
      have hjr : j < (rows[i]).length := by omega
      obtain ⟨p', q', hp1, hq1, hd1⟩ := r2 j _ (List.getElem?_eq_getElem hjr) hji
      rw [hx] at hp1
      rw [hj] at hq1
      injection hp1 with hp1
      injection hq1 with hq1
      subst hp1 hq1
      rw [he, ← hd1]
      exact List.getElem_mem _
    have hle : ∀ z ∈ rows[i], d[i] ≤ z := by
      intro z hz
      obtain ⟨k, hk⟩ := List.mem_iff_getElem?.1 hz
      by_cases hki : k = i
      · subst hki
        exact r3 z _ hk (g2 k _ (List.getElem?_eq_getElem hi'))
      · obtain ⟨p', q', hp1, hq1, hd1⟩ := r2 k z hk hki
        rw [hx] at hp1
        injection hp1 with hp1
        subst hp1
        rw [hd1]
        exact hall k q' hq1 hki
    revert hmem hle
    generalize rows[i] = row
    intro hmem hle
    match row, hmem, hle with
    | a :: l, hmem, hle =>
      simp only [Except.ok.injEq]
      exact le_antisymm (listMin_le hmem) (hle _ (listMin_mem a l))
  unfold g
  rw [hp']
  change (do let d ← gDistances lib p.metric coordinates (.mat coordinates.length rows); shares d p.support) = _
  simp only [gDistances, hlen, and_self, if_true, hmin]
  exact hs

/-- The hypotheses of `C84_matrix_partial` are met: the diagonal is filled with 9. -/
example : g sortLib line3 (.array [0, 1, 2, 3]) .none (.metric (.name "euclidean")) false
      = .ok ([0, 1, 2, 3], [.fin 0, .fin 0, .fin (2/3), .fin 1])
    ∧ g sortLib line3 (.array [0, 1, 2, 3]) (.mat 3 [[9, 1, 4], [1, 9, 3], [4, 3, 9]]) (.metric (.name "euclidean")) false
      = .ok ([0, 1, 2, 3], [.fin 0, .fin 0, .fin (2/3), .fin 1]) := by
  constructor <;> decide +kernel

/-! ### C86: the study region of the K and L tests -/

/-- **C86, partial.** The statistic of `k_test` is the estimate of K for the smallest box of the events, and so it is the estimate
for the hull if the hull is that box. Missing: any other hull, which has no influence on the statistic. -/
theorem C86_k_test_partial (lib : Lib K) (num : Num K) (u : ℕ → K) (gen : ℕ → ℕ → K) (coordinates : List (K × K))
    (support : SupportArg K) (m : Metric) (hsym : ∀ p q, lib.pdist m p q = lib.pdist m q p) (hullArg : HullArg K)
    (edge keep : Bool) (nsim : ℤ) (b : BBox K) (hb : IsSmallestBox coordinates b) (r : TestResult K) (pos' : ℕ)
    (h : Returns (fun fuel => ripleyTest lib num .K u gen coordinates support .none (.metric m) hullArg edge keep nsim fuel)
      (.ok (r, pos'))) :
    r.statistic = r.support.map fun d => .fin (ripleyK (lib.pdist m) coordinates b d) := by
  obtain ⟨fuel, h⟩ := h
  obtain ⟨m', t, H, empty, pos0, d, obs, pos1, sims, hm, -, -, -, hd, ho, -, rfl⟩ := ripleyTest_ok.1 h
  injection hm with hm
  subst hm
  unfold testDistances at hd
  simp only at hd
  injection hd with hd
  subst hd
  have ho' : liftPy (k lib coordinates support .none (.metric m) edge) pos0 = some (.ok (obs, pos1)) := ho
  obtain ⟨ho', -⟩ := liftPy_ok ho'
  exact C61_k lib coordinates support m edge hsym b hb obs.1 obs.2 ho'

/-- **C86 is false of the code.** `k_test` on three events with a study region of area 64 reports at distance 2 the value
`16 / 9`, the estimate for the area 8 of the bounding box of the events; for the study region it is `128 / 9`. -/
theorem C86_k_test_refuted :
    ∃ (lib : Lib ℚ) (num : Num ℚ) (u : ℕ → ℚ) (gen : ℕ → ℕ → ℚ) (coordinates : List (ℚ × ℚ)), lib.Correct
      ∧ (∃ r pos', ripleyTest lib num .K u gen coordinates (.array [0, 1, 2]) .none (.metric (.name "euclidean"))
          (.ndarray [4] [0, 0, 8, 8]) false true 1 100 = some (.ok (r, pos'))
        ∧ r.statistic = [.fin 0, .fin 0, .fin (16/9)])
      ∧ ([0, 1, 2].map fun d => ripleyK (lib.pdist (.name "euclidean")) coordinates ⟨0, 0, 8, 8⟩ d) = [0, 0, 128/9] := by
  refine ⟨sortLib, ratNum, fun _ => 0, fun i j => ((i + 3 * j + j ^ 2) % 7 : ℕ) / 7, triangle3, sortLib_correct, ?_,
    by decide +kernel⟩
  exact of_checkRun_eq TestResult.statistic _ (by decide +kernel)

end Pointpats.Props
