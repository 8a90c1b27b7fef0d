import Verif.Lemmas.SortQuery
import Verif.Props.RandomPoisson
import Mathlib.Data.Rat.Floor

/-!
# Properties of `pointpats/distance_statistics.py`: the support, G and F (C56-C59)
-/

set_option linter.unusedSectionVars false

namespace Pointpats.Props

open Spec Geometry Random DistStats

variable {K : Type} [Field K] [LinearOrder K] [IsStrictOrderedRing K] [FloorRing K]

/-- The metric in effect: a given array of distances overrides the metric with the Euclidean one. -/
def effective (distances : DistArg K) (m : Metric) : Metric :=
  if distances.isNone then m else .name "euclidean"

omit [IsStrictOrderedRing K] [FloorRing K] in
theorem prepare_ok {lib : Lib K} {coordinates : List (K × K)} {support : SupportArg K} {has : Bool} {metric : MetricArg}
    {hull : HullArg K} {edge : Bool} {p : Prepared K}
    (h : prepare lib coordinates support has metric hull edge = .ok p) :
    edge = false ∧ prepareHull coordinates hull = .ok p.hull
    ∧ ∃ m, metric = .metric m ∧ p.metric = (if has then Metric.name "euclidean" else m)
      ∧ resolveSupport lib p.metric coordinates support = .ok (p.support, p.isArray) := by
  unfold prepare at h
  cases edge with
  | true => rw [if_pos rfl] at h; cases h
  | false =>
    rw [if_neg (by simp)] at h
    cases hh : prepareHull coordinates hull with
    | error e => rw [hh] at h; cases h
    | ok H =>
      rw [hh] at h
      change (if _ then _ else _) = _ at h
      split at h
      · cases h
      · cases metric with
        | other => cases h
        | metric m =>
          simp only at h
          generalize hm : (if has = true then Metric.name "euclidean" else m) = m' at h
          cases hs : resolveSupport lib m' coordinates support with
          | error e => rw [hs] at h; cases h
          | ok s =>
            rw [hs] at h
            change Except.ok _ = Except.ok _ at h
            injection h with h
            subst h
            exact ⟨rfl, rfl, m, rfl, hm.symm, hs⟩

/-! ### C56 -/

/-- What the documentation says of the support, for every form of the argument. -/
def DocumentedSupport (dist : K × K → K × K → K) (events : List (K × K)) (arg : SupportArg K) (s : List K) : Prop :=
  match arg with
  | .none => ∃ d, IsLargestNearest dist events d ∧ IsGrid 0 d 20 s
  | .int n => ∃ d, IsLargestNearest dist events d ∧ 0 ≤ n ∧ IsGrid 0 d n.toNat s
  | .stop b => IsGrid 0 b 20 s
  | .startStop a b => IsGrid a b 20 s
  | .startStopNum a b n => 0 ≤ n ∧ IsGrid a b n.toNat s
  | .tuple l => s = l
  | .array l => s = l

omit [FloorRing K] in
theorem resolveSupport_ok {lib : Lib K} (hc : lib.Correct) {m : Metric} {events : List (K × K)} (hn : 2 ≤ events.length)
    {support : SupportArg K} {s : List K} {b : Bool} (h : resolveSupport lib m events support = .ok (s, b)) :
    DocumentedSupport (lib.pdist m) events support s
    ∧ (b = false ↔ ∃ l, support = .tuple l) := by
  have steps : ∀ n : ℤ, (do
      let rows ← treeKNeighbors lib m events events 1
      let max_dist ← maxOf (distancesOf rows)
      let s ← linspace 0 max_dist n
      return (s, true) : Py (List K × Bool)) = .ok (s, b) →
      (∃ d, IsLargestNearest (lib.pdist m) events d ∧ 0 ≤ n ∧ IsGrid 0 d n.toNat s) ∧ b = true := by
    intro n h
    cases hr : treeKNeighbors lib m events events 1 with
    | error e => rw [hr] at h; cases h
    | ok rows =>
      rw [hr] at h
      obtain ⟨g1, g2⟩ := treeKNeighbors_ok hc hn hr
      cases hd : distancesOf rows with
      | nil => rw [hd] at g1; simp at g1; omega
      | cons a l =>
        change (do let max_dist ← maxOf (distancesOf rows); let s ← linspace 0 max_dist n; return (s, true) : Py _) = _ at h
        rw [hd] at h g1 g2
        change (do let s ← linspace 0 (listMax a l) n; return (s, true) : Py _) = _ at h
        cases hl : linspace 0 (listMax a l) n with
        | error e => rw [hl] at h; cases h
        | ok s' =>
          rw [hl] at h
          change Except.ok _ = Except.ok _ at h
          injection h with h
          injection h with h1 h2
          subst h1
          refine ⟨⟨listMax a l, ⟨?_, ?_⟩, linspace_ok _ _ _ _ hl⟩, h2.symm⟩
          · obtain ⟨i, hi⟩ := List.mem_iff_getElem?.1 (listMax_mem a l)
            have hil : i < events.length := by
              have := (List.getElem?_eq_some_iff.1 hi).1
              omega
            exact ⟨i, events[i], List.getElem?_eq_getElem hil, g2 i _ _ (List.getElem?_eq_getElem hil) hi⟩
          · rintro i d' ⟨p, hp, hd'⟩
            have hil : i < (a :: l).length := by
              have := (List.getElem?_eq_some_iff.1 hp).1
              omega
            have hg := g2 i p _ hp (List.getElem?_eq_getElem hil)
            have hle := le_listMax (List.getElem_mem hil)
            obtain ⟨⟨j, q, hq, hj, hdj⟩, _⟩ := hg
            have := hd'.2 j q hq hj
            rw [hdj] at hle
            exact le_trans this hle
  have lin : ∀ (a c : K) (n : ℤ), (linspace a c n).map (fun s => (s, true)) = .ok (s, b) →
      (0 ≤ n ∧ IsGrid a c n.toNat s) ∧ b = true := by
    intro a c n h
    cases hl : linspace a c n with
    | error e => rw [hl] at h; cases h
    | ok s' =>
      rw [hl] at h
      change Except.ok _ = Except.ok _ at h
      injection h with h
      injection h with h1 h2
      subst h1
      exact ⟨linspace_ok _ _ _ _ hl, h2.symm⟩
  unfold resolveSupport at h
  cases support with
  | none =>
    obtain ⟨⟨d, h1, _, h2⟩, h3⟩ := steps 20 h
    exact ⟨⟨d, h1, h2⟩, by simp [h3]⟩
  | int n =>
    obtain ⟨h1, h3⟩ := steps n h
    exact ⟨h1, by simp [h3]⟩
  | stop c =>
    obtain ⟨h1, h3⟩ := lin _ _ _ h
    exact ⟨h1.2, by simp [h3]⟩
  | startStop a c =>
    obtain ⟨h1, h3⟩ := lin _ _ _ h
    exact ⟨h1.2, by simp [h3]⟩
  | startStopNum a c n =>
    obtain ⟨h1, h3⟩ := lin _ _ _ h
    exact ⟨h1, by simp [h3]⟩
  | tuple l =>
    injection h with h
    injection h with h1 h2
    exact ⟨h1.symm, by simp [← h2]⟩
  | array l =>
    injection h with h
    injection h with h1 h2
    exact ⟨h1.symm, by simp [← h2]⟩

omit [FloorRing K] [IsStrictOrderedRing K] in
theorem shares_support {data bins : List K} {r : List K × List (XF K)} (h : shares data bins = .ok r) :
    r.1 = bins ∧ (bins ≠ [] → r.2.length = bins.length) := by
  unfold shares histogram at h
  split at h
  · change Except.ok _ = Except.ok _ at h
    injection h with h
    subst h
    refine ⟨rfl, ?_⟩
    intro hne
    obtain ⟨a, l, hl⟩ := List.exists_cons_of_length_pos
      (by rw [length_cumCounts]; exact List.length_pos_iff.2 hne : 0 < (cumCounts data bins).length)
    have hlen := length_cumCounts data bins
    have hd : ∀ (a : ℕ) (l : List ℕ), (diffs (a :: l)).length = l.length := by
      intro a l
      induction l generalizing a with
      | nil => rfl
      | cons b l ih => rw [diffs, List.length_cons, ih, List.length_cons]
    have hcs : ∀ (s : ℕ) (l : List ℕ), (cumsum s l).length = l.length := by
      intro s l
      induction l generalizing s with
      | nil => rfl
      | cons b l ih => rw [cumsum, List.length_cons, ih, List.length_cons]
    simp only [List.length_cons, List.length_map, hcs]
    rw [hl, hd]
    rw [hl] at hlen
    simpa using hlen
  · cases h

omit [FloorRing K] [IsStrictOrderedRing K] in
theorem g_ok {lib : Lib K} {coordinates : List (K × K)} {support : SupportArg K} {distances : DistArg K} {metric : MetricArg}
    {edge : Bool} {r : List K × List (XF K)} (h : g lib coordinates support distances metric edge = .ok r) :
    ∃ p d, prepare lib coordinates support (!distances.isNone) metric .none edge = .ok p
      ∧ gDistances lib p.metric coordinates distances = .ok d ∧ shares d p.support = .ok r := by
  unfold g at h
  cases hp : prepare lib coordinates support (!distances.isNone) metric .none edge with
  | error e => rw [hp] at h; cases h
  | ok p =>
    rw [hp] at h
    change (do let d ← gDistances lib p.metric coordinates distances; shares d p.support) = _ at h
    cases hd : gDistances lib p.metric coordinates distances with
    | error e => rw [hd] at h; cases h
    | ok d => rw [hd] at h; exact ⟨p, d, rfl, hd, h⟩

omit [FloorRing K] [IsStrictOrderedRing K] in
theorem k_ok {lib : Lib K} {coordinates : List (K × K)} {support : SupportArg K} {distances : DistArg K} {metric : MetricArg}
    {edge : Bool} {r : List K × List (XF K)} (h : k lib coordinates support distances metric edge = .ok r) :
    ∃ p d, prepare lib coordinates support (!distances.isNone) metric .none edge = .ok p
      ∧ kDistances lib p.metric coordinates distances = .ok d ∧ p.isArray = true ∧ r.1 = p.support
      ∧ r.2 = p.support.map fun t => XF.div (.fin (((d.filter fun x => decide (x < t)).length : K) * 2
          / (coordinates.length : K))) (XF.div (.fin (coordinates.length : K)) (.fin (lib.hullOf p.hull).area)) := by
  unfold k at h
  cases hp : prepare lib coordinates support (!distances.isNone) metric .none edge with
  | error e => rw [hp] at h; cases h
  | ok p =>
    rw [hp] at h
    change (do let d ← kDistances lib p.metric coordinates distances; _) = _ at h
    cases hd : kDistances lib p.metric coordinates distances with
    | error e => rw [hd] at h; cases h
    | ok d =>
      rw [hd] at h
      change (if _ then _ else _) = _ at h
      split at h
      · cases h
      · next ha =>
        change Except.ok _ = Except.ok _ at h
        injection h with h
        subst h
        exact ⟨p, d, rfl, hd, by simpa using ha, rfl, rfl⟩

theorem f_ok {lib : Lib K} {u : ℕ → K} {coordinates : List (K × K)} {support : SupportArg K} {distances : DistArg K}
    {metric : MetricArg} {hull : HullArg K} {edge : Bool} {fuel pos : ℕ} {r : List K × List (XF K)} {pos' : ℕ}
    (h : f lib u coordinates support distances metric hull edge fuel pos = some (.ok (r, pos'))) :
    ∃ p, prepare lib coordinates support (!distances.isNone) metric hull edge = .ok p
      ∧ (distances = .none → ∃ q rows, poisson (lib.hullOf p.hull) u none (.tuple [1000, 1]) fuel pos = some (.ok (q, pos'))
          ∧ treeNearest lib p.metric coordinates q.data = .ok rows ∧ shares (distancesOf rows) p.support = .ok r)
      ∧ (distances ≠ .none → ∃ d, fDistances coordinates distances = .ok d ∧ shares d p.support = .ok r) := by
  unfold f at h
  cases hp : prepare lib coordinates support (!distances.isNone) metric hull edge with
  | error e => rw [hp] at h; cases h
  | ok p =>
    rw [hp] at h
    simp only at h
    refine ⟨p, rfl, ?_, ?_⟩
    · rintro rfl
      rw [if_pos (by rfl), Run.andThen_ok] at h
      obtain ⟨q, pos'', h1, h2⟩ := h
      unfold liftPy at h2
      cases hr : treeNearest lib p.metric coordinates q.data with
      | error e => rw [hr] at h2; cases h2
      | ok rows =>
        rw [hr] at h2
        change some ((shares (distancesOf rows) p.support).map _) = _ at h2
        cases hs : shares (distancesOf rows) p.support with
        | error e => rw [hs] at h2; cases h2
        | ok r' =>
          rw [hs] at h2
          change some (Except.ok _) = some (Except.ok _) at h2
          injection h2 with h2
          injection h2 with h2
          injection h2 with h3 h4
          subst h3 h4
          exact ⟨q, rows, h1, hr, hs⟩
    · intro hne
      have hni : distances.isNone = false := by cases distances <;> simp_all [DistArg.isNone]
      rw [hni] at h
      rw [if_neg (by simp)] at h
      unfold liftPy at h
      cases hr : fDistances coordinates distances with
      | error e => rw [hr] at h; cases h
      | ok d =>
        rw [hr] at h
        change some ((shares d p.support).map _) = _ at h
        cases hs : shares d p.support with
        | error e => rw [hs] at h; cases h
        | ok r' =>
          rw [hs] at h
          change some (Except.ok _) = some (Except.ok _) at h
          injection h with h
          injection h with h
          injection h with h3 h4
          subst h3
          exact ⟨d, rfl, hs⟩

/-- **C56, edge correction.** Any edge correction is a `NotImplementedError`, for all five statistics and all other
arguments. -/
theorem C56_edge_correction (lib : Lib K) (num : Num K) (u : ℕ → K) (coordinates : List (K × K)) (support : SupportArg K)
    (distances : DistArg K) (pair : Option (DistArg K × DistArg K)) (metric : MetricArg) (hull : HullArg K)
    (truncate linearized : Bool) (fuel pos : ℕ) :
    f lib u coordinates support distances metric hull true fuel pos = some (.error .notImplementedError)
    ∧ g lib coordinates support distances metric true = .error .notImplementedError
    ∧ j lib u num.allclose num.interp coordinates support pair metric hull true truncate fuel pos
        = some (.error .notImplementedError)
    ∧ k lib coordinates support distances metric true = .error .notImplementedError
    ∧ l lib num.root num.pi coordinates support distances metric true linearized = .error .notImplementedError := by
  have hp : ∀ has hull, prepare lib coordinates support has metric hull true = .error .notImplementedError :=
    fun _ _ => by unfold prepare; rw [if_pos rfl]
  have hf : ∀ d, f lib u coordinates support d metric hull true fuel pos = some (.error .notImplementedError) := by
    intro d; unfold f; rw [hp]; rfl
  have hk : k lib coordinates support distances metric true = .error .notImplementedError := by unfold k; rw [hp]; rfl
  refine ⟨hf _, by unfold g; rw [hp]; rfl, ?_, hk, ?_⟩
  · unfold j; rw [hf]; rfl
  · unfold l; rw [hk]; rfl

omit [FloorRing K] in
theorem support_of_prepare {lib : Lib K} (hc : lib.Correct) {coordinates : List (K × K)} (hn : 2 ≤ coordinates.length)
    {support : SupportArg K} {distances : DistArg K} {m : Metric} {hull : HullArg K} {edge : Bool} {p : Prepared K}
    (h : prepare lib coordinates support (!distances.isNone) (.metric m) hull edge = .ok p) :
    p.metric = effective distances m
    ∧ DocumentedSupport (lib.pdist (effective distances m)) coordinates support p.support := by
  obtain ⟨_, _, m', hm, hm', hs⟩ := prepare_ok h
  injection hm with hm
  subst hm
  have : p.metric = effective distances m := by
    rw [hm']
    unfold effective
    cases distances.isNone <;> simp
  rw [this] at hs
  exact ⟨this, (resolveSupport_ok hc hn hs).1⟩

/-- **C56, support.** The support that a statistic returns is the documented one, for every form of the argument, and there
is one value for every distance of the support. A tuple that is not of length 1, 2 or 3 is not accepted by `k` and `l`. -/
theorem C56_support (lib : Lib K) (hc : lib.Correct) (coordinates : List (K × K)) (hn : 2 ≤ coordinates.length)
    (support : SupportArg K) (distances : DistArg K) (m : Metric) (edge : Bool) (s : List K) (v : List (XF K)) :
    (g lib coordinates support distances (.metric m) edge = .ok (s, v) →
        DocumentedSupport (lib.pdist (effective distances m)) coordinates support s ∧ (s ≠ [] → v.length = s.length))
    ∧ (k lib coordinates support distances (.metric m) edge = .ok (s, v) →
        DocumentedSupport (lib.pdist (effective distances m)) coordinates support s ∧ v.length = s.length
        ∧ ∀ l, support ≠ .tuple l)
    ∧ (∀ root pi linearized, l lib root pi coordinates support distances (.metric m) edge linearized = .ok (s, v) →
        DocumentedSupport (lib.pdist (effective distances m)) coordinates support s ∧ v.length = s.length
        ∧ ∀ l, support ≠ .tuple l)
    ∧ (∀ u hull pos pos', Returns (fun fuel => f lib u coordinates support distances (.metric m) hull edge fuel pos)
          (.ok ((s, v), pos')) →
        DocumentedSupport (lib.pdist (effective distances m)) coordinates support s ∧ (s ≠ [] → v.length = s.length)) := by
  have hk : ∀ r, k lib coordinates support distances (.metric m) edge = .ok r →
        DocumentedSupport (lib.pdist (effective distances m)) coordinates support r.1 ∧ r.2.length = r.1.length
        ∧ ∀ l, support ≠ .tuple l := by
    intro r h
    obtain ⟨p, d, hp, hd, ha, h1, h2⟩ := k_ok h
    obtain ⟨e1, e2⟩ := support_of_prepare hc hn hp
    rw [h1, h2]
    refine ⟨e2, by simp, ?_⟩
    intro l hl
    obtain ⟨_, _, m', hm, hm', hs⟩ := prepare_ok hp
    have := (resolveSupport_ok hc hn hs).2.2 ⟨l, hl⟩
    rw [ha] at this
    cases this
  refine ⟨?_, hk (s, v), ?_, ?_⟩
  · intro h
    obtain ⟨p, d, hp, hd, hs⟩ := g_ok h
    obtain ⟨e1, e2⟩ := support_of_prepare hc hn hp
    obtain ⟨g1, g2⟩ := shares_support hs
    simp only at g1 g2
    rw [g1]
    exact ⟨e2, g2⟩
  · intro root pi linearized h
    unfold l at h
    cases hkk : k lib coordinates support distances (.metric m) edge with
    | error e => rw [hkk] at h; cases h
    | ok r =>
      rw [hkk] at h
      change Except.ok _ = Except.ok _ at h
      injection h with h
      injection h with h1 h2
      subst h1
      obtain ⟨k1, k2, k3⟩ := hk r hkk
      refine ⟨k1, ?_, k3⟩
      rw [← h2]
      cases linearized <;> simp [k2]
  · rintro u hull pos pos' ⟨fuel, h⟩
    obtain ⟨p, hp, ha, hb⟩ := f_ok h
    obtain ⟨e1, e2⟩ := support_of_prepare hc hn hp
    have : ∃ d, shares d p.support = .ok (s, v) := by
      by_cases hd : distances = .none
      · obtain ⟨_, rows, _, _, hs⟩ := ha hd
        exact ⟨_, hs⟩
      · obtain ⟨d, _, hs⟩ := hb hd
        exact ⟨d, hs⟩
    obtain ⟨d, hs⟩ := this
    obtain ⟨g1, g2⟩ := shares_support hs
    simp only at g1 g2
    rw [g1]
    exact ⟨e2, g2⟩

omit [FloorRing K] [IsStrictOrderedRing K] in
/-- **C56, invalid arguments.** A negative number of steps is a `ValueError`, a metric that is neither a string nor callable a
`TypeError`, "precomputed" without distances a `ValueError`. -/
theorem C56_errors (lib : Lib K) (coordinates : List (K × K)) (hne : coordinates ≠ []) (distances : DistArg K) :
    (∀ a b (n : ℤ) m, n < 0 → (distances.isNone → m ≠ .name "precomputed") →
      g lib coordinates (.startStopNum a b n) distances (.metric m) false = .error .valueError
      ∧ k lib coordinates (.startStopNum a b n) distances (.metric m) false = .error .valueError)
    ∧ (∀ support, g lib coordinates support distances .other false = .error .typeError
      ∧ k lib coordinates support distances .other false = .error .typeError)
    ∧ (∀ support, g lib coordinates support .none (.metric (.name "precomputed")) false = .error .valueError
      ∧ k lib coordinates support .none (.metric (.name "precomputed")) false = .error .valueError) := by
  obtain ⟨b, hb⟩ := bboxPts_ok hne
  have hh : prepareHull coordinates .none = .ok (.bboxOf b) := by simp only [prepareHull, hb]; rfl
  refine ⟨?_, ?_, ?_⟩
  · intro a c n m hneg hpre
    have hp : prepare lib coordinates (.startStopNum a c n) (!distances.isNone) (.metric m) .none false
        = .error .valueError := by
      unfold prepare
      rw [if_neg (by simp), hh]
      change (if _ then _ else _) = _
      rw [if_neg (by
        simp only [Bool.not_not, Bool.and_eq_true, decide_eq_true_eq, MetricArg.metric.injEq, not_and]
        exact hpre)]
      simp only [resolveSupport, linspace, if_pos hneg]
      rfl
    exact ⟨by unfold g; rw [hp]; rfl, by unfold k; rw [hp]; rfl⟩
  · intro support
    have hp : prepare lib coordinates support (!distances.isNone) .other .none false = .error .typeError := by
      unfold prepare
      rw [if_neg (by simp), hh]
      change (if (!!distances.isNone && decide (MetricArg.other = .metric (.name "precomputed"))) = true then _ else _) = _
      rw [if_neg (by simp)]
    exact ⟨by unfold g; rw [hp]; rfl, by unfold k; rw [hp]; rfl⟩
  · intro support
    have hp : prepare lib coordinates support (!(DistArg.none : DistArg K).isNone) (.metric (.name "precomputed")) .none false
        = .error .valueError := by
      unfold prepare
      rw [if_neg (by simp), hh]
      simp [DistArg.isNone, bind, Except.bind]
    exact ⟨by unfold g; rw [hp]; rfl, by unfold k; rw [hp]; rfl⟩

omit [FloorRing K] in
/-- **C56, tuples of another length and supports out of order.** A tuple of another length than 1, 2 or 3 is used by `g` like
the array of its numbers, but `k` and `l` raise `AttributeError` on it. A support that is not in order is a `ValueError` of `g`
and is accepted by `k`. -/
theorem C56_other_supports (lib : Lib K) (coordinates : List (K × K)) (hne : coordinates ≠ []) (m : Metric)
    (hm : m ≠ .name "precomputed") (numbers : List K) :
    g lib coordinates (.tuple numbers) .none (.metric m) false = g lib coordinates (.array numbers) .none (.metric m) false
    ∧ k lib coordinates (.tuple numbers) .none (.metric m) false = .error .attributeError
    ∧ (∀ root pi linearized, l lib root pi coordinates (.tuple numbers) .none (.metric m) false linearized = .error .attributeError)
    ∧ (∃ v, k lib coordinates (.array numbers) .none (.metric m) false = .ok (numbers, v))
    ∧ (¬ numbers.Pairwise (· ≤ ·) → ∀ answer, g lib coordinates (.array numbers) .none (.metric m) false ≠ .ok answer) := by
  obtain ⟨b, hb⟩ := bboxPts_ok hne
  have hh : prepareHull coordinates .none = .ok (.bboxOf b) := by simp only [prepareHull, hb]; rfl
  have hp : ∀ (support : SupportArg K) s a, resolveSupport lib m coordinates support = .ok (s, a) →
      prepare lib coordinates support (!(DistArg.none : DistArg K).isNone) (.metric m) .none false
        = .ok ⟨s, a, m, .bboxOf b⟩ := by
    intro support s a hs
    unfold prepare
    rw [if_neg (by simp), hh]
    change (if _ then _ else _) = _
    rw [if_neg (by simpa [DistArg.isNone] using hm)]
    simp only [DistArg.isNone, Bool.not_true, Bool.false_eq_true, if_false, hs]
    rfl
  have ht := hp (.tuple numbers) numbers false rfl
  have ha := hp (.array numbers) numbers true rfl
  have hk : k lib coordinates (.tuple numbers) .none (.metric m) false = .error .attributeError := by
    unfold k; rw [ht]; rfl
  refine ⟨by unfold g; rw [ht, ha]; rfl, hk, fun root pi lin => by unfold l; rw [hk]; rfl, ?_, ?_⟩
  · unfold k
    rw [ha]
    exact ⟨_, rfl⟩
  · intro hsort answer h
    have hmono : monotoneBins numbers ≠ true := fun h => hsort ((monotoneBins_iff _).1 h)
    unfold g at h
    rw [ha] at h
    simp only [bind, Except.bind, shares, histogram, if_neg hmono] at h
    revert h
    cases gDistances lib m coordinates .none <;> intro h <;> cases h

/-! ### C57 -/

/-- Three events on a line, at 0, 1 and 4: nearest neighbour distances 1, 1, 3. -/
def line3 : List (ℚ × ℚ) := [(0, 0), (1, 0), (4, 0)]

omit [FloorRing K] in
theorem gDistances_none {lib : Lib K} (hc : lib.Correct) {m : Metric} {coordinates : List (K × K)}
    (hn : 2 ≤ coordinates.length) {d : List K} (h : gDistances lib m coordinates .none = .ok d) :
    d.length = coordinates.length ∧ ∀ i x, d[i]? = some x → IsNearestOther (lib.pdist m) coordinates i x := by
  unfold gDistances at h
  simp only at h
  cases hr : treeKNeighbors lib m coordinates coordinates 1 with
  | error e => rw [hr] at h; cases h
  | ok rows =>
    rw [hr] at h
    change Except.ok _ = Except.ok _ at h
    injection h with h
    subst h
    obtain ⟨g1, g2⟩ := treeKNeighbors_ok hc hn hr
    refine ⟨g1, fun i x hx => ?_⟩
    have hil : i < coordinates.length := by
      have := (List.getElem?_eq_some_iff.1 hx).1
      omega
    exact ⟨_, List.getElem?_eq_getElem hil, g2 i _ _ (List.getElem?_eq_getElem hil) hx⟩

omit [FloorRing K] in
/-- **C57.** When `g` returns `(s, v)` for two or more events and a support `s` of two or more distances: the support is in
non-decreasing order, and for the nearest neighbour distances `data` of the events, if some of them are within the support,
then `v` is the curve of the shares (among those within the support) below each distance of the support (at most the last
one), it starts at 0, does not decrease, and ends at 1. If none is within the support, the values after the first are
`nan`. -/
theorem C57_g (lib : Lib K) (hc : lib.Correct) (coordinates : List (K × K)) (hn : 2 ≤ coordinates.length)
    (support : SupportArg K) (m : Metric) (s : List K) (v : List (XF K)) (h2 : 2 ≤ s.length)
    (h : g lib coordinates support .none (.metric m) false = .ok (s, v)) :
    s.Pairwise (· ≤ ·)
    ∧ ∃ data : List K, data.length = coordinates.length
      ∧ (∀ i x, data[i]? = some x → IsNearestOther (lib.pdist m) coordinates i x)
      ∧ (0 < countWithin s data → ∃ w : List K, v = w.map .fin ∧ IsShareCurve data s w ∧ IsDistributionCurve w)
      ∧ (countWithin s data = 0 → v = .fin 0 :: List.replicate (s.length - 1) .nan) := by
  obtain ⟨p, d, hp, hd, hs⟩ := g_ok h
  obtain ⟨e1, _⟩ := support_of_prepare hc hn hp
  have e1' : p.metric = m := e1
  rw [e1'] at hd
  obtain ⟨g1, _⟩ := shares_support hs
  simp only at g1
  subst g1
  obtain ⟨_, c2, c3, c4⟩ := shares_curve d p.support h2 _ hs
  obtain ⟨d1, d2⟩ := gDistances_none hc hn hd
  exact ⟨c2, d, d1, d2, c4, c3⟩

omit [FloorRing K] in
/-- **C57, given distances.** The same for an array with one distance per event. -/
theorem C57_g_given (lib : Lib K) (coordinates : List (K × K)) (data : List K)
    (support : SupportArg K) (m : MetricArg) (s : List K) (v : List (XF K)) (h2 : 2 ≤ s.length)
    (h : g lib coordinates support (.vec data) m false = .ok (s, v)) :
    data.length = coordinates.length ∧ s.Pairwise (· ≤ ·)
      ∧ (0 < countWithin s data → ∃ w : List K, v = w.map .fin ∧ IsShareCurve data s w ∧ IsDistributionCurve w)
      ∧ (countWithin s data = 0 → v = .fin 0 :: List.replicate (s.length - 1) .nan) := by
  obtain ⟨p, d, hp, hd, hs⟩ := g_ok h
  obtain ⟨g1, _⟩ := shares_support hs
  simp only at g1
  subst g1
  unfold gDistances at hd
  simp only at hd
  split at hd
  · next hlen =>
    injection hd with hd
    subst hd
    obtain ⟨_, c2, c3, c4⟩ := shares_curve data p.support h2 _ hs
    exact ⟨hlen, c2, c4, c3⟩
  · cases hd

omit [FloorRing K] in
/-- **C57, when it returns.** On two or more events with a supported metric, `g` returns for every array of distances in
non-decreasing order; for another array it is a `ValueError`. -/
theorem C57_g_returns (lib : Lib K) (hc : lib.Correct) (coordinates : List (K × K)) (hn : 2 ≤ coordinates.length)
    (m : Metric) (hm : ∃ t, buildBestTree lib.hasSklearn lib.kdMetrics lib.ballMetrics m = .ok t)
    (hpre : m ≠ .name "precomputed") (s : List K) (h2 : 2 ≤ s.length) :
    (s.Pairwise (· ≤ ·) → ∃ v, g lib coordinates (.array s) .none (.metric m) false = .ok (s, v))
    ∧ (¬ s.Pairwise (· ≤ ·) → g lib coordinates (.array s) .none (.metric m) false = .error .valueError) := by
  obtain ⟨t, ht⟩ := hm
  obtain ⟨b, hb⟩ := bboxPts_ok (l := coordinates) (by rintro rfl; simp at hn)
  have hh : prepareHull coordinates .none = .ok (.bboxOf b) := by simp only [prepareHull, hb]; rfl
  have hp : prepare lib coordinates (.array s) (!(DistArg.none : DistArg K).isNone) (.metric m) .none false
      = .ok ⟨s, true, m, .bboxOf b⟩ := by
    unfold prepare
    rw [if_neg (by simp), hh]
    change (if _ then _ else _) = _
    rw [if_neg (by simpa [DistArg.isNone] using hpre)]
    rfl
  obtain ⟨rows, hr, _⟩ := (treeKNeighbors_one lib hc m coordinates coordinates hn).2 t ht
  have hg : g lib coordinates (.array s) .none (.metric m) false = shares (distancesOf rows) s := by
    unfold g
    rw [hp]
    change (do let d ← gDistances lib m coordinates .none; shares d s) = _
    simp only [gDistances, hr]
    rfl
  rw [hg]
  obtain ⟨e1, e2⟩ := shares_spec (distancesOf rows) s h2
  exact ⟨fun hs => ⟨_, e2 hs⟩, e1⟩

example : sortLib.Correct
    ∧ g sortLib line3 (.array [0, 1, 2, 3]) .none (.metric (.name "euclidean")) false
      = .ok ([0, 1, 2, 3], [.fin 0, .fin 0, .fin (2/3), .fin 1])
    ∧ countWithin [0, 1, 2, 3] [(1 : ℚ), 1, 3] = 3 := ⟨sortLib_correct, by decide +kernel, by decide +kernel⟩

example : g sortLib line3 (.int 4) .none (.metric (.name "euclidean")) false
    = .ok ([0, 1, 2, 3], [.fin 0, .fin 0, .fin (2/3), .fin 1]) := by decide +kernel

/-- C56: a tuple of four distances, and a support out of order. -/
example : g sortLib line3 (.tuple [0, 1, 2, 3]) .none (.metric (.name "euclidean")) false
      = .ok ([0, 1, 2, 3], [.fin 0, .fin 0, .fin (2/3), .fin 1])
    ∧ k sortLib line3 (.tuple [0, 1, 2, 3]) .none (.metric (.name "euclidean")) false = .error .attributeError
    ∧ ¬ [(0 : ℚ), 2, 1].Pairwise (· ≤ ·)
    ∧ g sortLib line3 (.array [0, 2, 1]) .none (.metric (.name "euclidean")) false = .error .valueError := by
  refine ⟨?_, ?_, ?_, ?_⟩ <;> decide +kernel

example : k sortLib line3 (.startStopNum 0 1 (-1)) .none (.metric (.name "l2")) false = .error .valueError := by
  decide +kernel

/-! ### C58 -/

/-- **C58.** When `f` returns `(s, v)` for one or more events and a support of two or more distances: there are a thousand
locations inside the hull, and the values are the curve of the shares of their distances to the nearest event, as for
`g`. -/
theorem C58_f (lib : Lib K) (hc : lib.Correct) (u : ℕ → K) (coordinates : List (K × K)) (hn : 1 ≤ coordinates.length)
    (support : SupportArg K) (m : Metric) (hull : HullArg K) (pos pos' : ℕ) (s : List K) (v : List (XF K))
    (h2 : 2 ≤ s.length)
    (h : Returns (fun fuel => f lib u coordinates support .none (.metric m) hull false fuel pos) (.ok ((s, v), pos'))) :
    s.Pairwise (· ≤ ·)
    ∧ ∃ H, ∃ locations : List (K × K), ∃ data : List K, prepareHull coordinates hull = .ok H ∧ locations.length = 1000
      ∧ (∀ x ∈ locations, (lib.hullOf H).contains x.1 x.2 = true)
      ∧ data.length = 1000
      ∧ (∀ (i : ℕ) x d, locations[i]? = some x → data[i]? = some d → IsNearest (lib.pdist m) coordinates x d)
      ∧ (0 < countWithin s data → ∃ w : List K, v = w.map .fin ∧ IsShareCurve data s w ∧ IsDistributionCurve w)
      ∧ (countWithin s data = 0 → v = .fin 0 :: List.replicate (s.length - 1) .nan) := by
  obtain ⟨fuel, h⟩ := h
  obtain ⟨p, hp, ha, _⟩ := f_ok h
  obtain ⟨q, rows, hq, hr, hs⟩ := ha rfl
  obtain ⟨_, hH, m', hm, hm', _⟩ := prepare_ok hp
  injection hm with hm
  subst hm
  have hmm : p.metric = m := hm'
  rw [hmm] at hr
  obtain ⟨g1, _⟩ := shares_support hs
  simp only at g1
  subst g1
  obtain ⟨_, c2, c3, c4⟩ := shares_curve _ p.support h2 _ hs
  obtain ⟨t1, t2⟩ := treeNearest_ok hc hn hr
  have hpar : ∃ i, parseSizeAndIntensity (lib.hullOf p.hull) none (.tuple [1000, 1]) = .ok (1000, 1, i) := by
    cases hpp : parseSizeAndIntensity (lib.hullOf p.hull) none (.tuple [1000, 1]) with
    | error e => unfold poisson at hq; rw [hpp] at hq; cases hq
    | ok r =>
      unfold parseSizeAndIntensity at hpp
      simp only at hpp
      cases hd : divArea (lib.hullOf p.hull) 1000 with
      | error e => rw [hd] at hpp; cases hpp
      | ok i =>
        rw [hd] at hpp
        change Except.ok _ = Except.ok _ at hpp
        exact ⟨i, hpp.symm⟩
  obtain ⟨i, hpar⟩ := hpar
  obtain ⟨⟨reps, r1, r2, r3⟩, _⟩ := C40_poisson _ _ _ _ _ _ _ hpar pos q pos' ⟨fuel, hq⟩
  have hreps : reps.length = 1 := by omega
  obtain ⟨rep, rfl⟩ := List.length_eq_one_iff.1 hreps
  have hqd : q.data = rep := by rw [r1]; simp
  obtain ⟨l1, l2⟩ := r3 rep (by simp)
  rw [hqd] at t1 t2
  exact ⟨c2, p.hull, rep, distancesOf rows, hH, by omega, l2, by omega, t2, c4, c3⟩

set_option maxRecDepth 100000 in
example : f sortLib (fun i => ((i % 7 : ℕ) : ℚ) / 7) [(0, 0), (1, 0), (4, 2)] (.array [0, 1, 2]) .none
    (.metric (.name "euclidean")) .none false 1000 0
    = some (.ok (([0, 1, 2], [.fin 0, .fin (143 / 714), .fin 1]), 2000)) := by decide +kernel

/-- **C58, given distances.** The same for an array with the distances of any number of locations; of a matrix with one row
per event, the smallest distance of every column is used. -/
theorem C58_f_given (lib : Lib K) (u : ℕ → K) (coordinates : List (K × K)) (distances : DistArg K) (data : List K)
    (hdata : distances = .vec data
      ∨ ∃ p rows, distances = .mat p rows ∧ data.length = p ∧ rows.length = coordinates.length
          ∧ ∀ i d, data[i]? = some d → (∃ r ∈ rows, d = r.getD i 0) ∧ ∀ r ∈ rows, d ≤ r.getD i 0)
    (support : SupportArg K) (m : MetricArg) (hull : HullArg K) (pos pos' : ℕ) (s : List K) (v : List (XF K))
    (h2 : 2 ≤ s.length)
    (h : Returns (fun fuel => f lib u coordinates support distances m hull false fuel pos) (.ok ((s, v), pos'))) :
    s.Pairwise (· ≤ ·)
      ∧ (0 < countWithin s data → ∃ w : List K, v = w.map .fin ∧ IsShareCurve data s w ∧ IsDistributionCurve w)
      ∧ (countWithin s data = 0 → v = .fin 0 :: List.replicate (s.length - 1) .nan) := by
  obtain ⟨fuel, h⟩ := h
  obtain ⟨p, hp, _, hb⟩ := f_ok h
  have hne : distances ≠ .none := by
    rcases hdata with rfl | ⟨_, _, rfl, _⟩ <;> simp
  obtain ⟨d, hd, hs⟩ := hb hne
  have hdd : d = data := by
    rcases hdata with rfl | ⟨c, rows, rfl, h1, h2, h3⟩
    · unfold fDistances at hd
      injection hd with hd
      exact hd.symm
    · unfold fDistances at hd
      simp only at hd
      rw [if_pos h2] at hd
      unfold colMins at hd
      cases rows with
      | nil => cases hd
      | cons r rs =>
        simp only at hd
        injection hd with hd
        subst hd
        apply List.ext_getElem
        · simp [h1]
        · intro i hi hi'
          obtain ⟨⟨r', hr', hr''⟩, g2⟩ := h3 i _ (List.getElem?_eq_getElem hi')
          simp only [List.getElem_map, List.getElem_range]
          apply le_antisymm
          · rw [hr'']
            apply listMin_le
            rcases List.mem_cons.1 hr' with e | e
            · rw [e]; simp
            · exact List.mem_cons_of_mem _ (List.mem_map.2 ⟨r', e, rfl⟩)
          · rcases List.mem_cons.1 (listMin_mem (r.getD i 0) (rs.map fun r => r.getD i 0)) with e | e
            · rw [e]; exact g2 r (by simp)
            · obtain ⟨r'', h1', h2'⟩ := List.mem_map.1 e
              rw [← h2']
              exact g2 r'' (by simp [h1'])
  subst hdd
  obtain ⟨g1, _⟩ := shares_support hs
  simp only at g1
  subst g1
  obtain ⟨_, c2, c3, c4⟩ := shares_curve _ p.support h2 _ hs
  exact ⟨c2, c4, c3⟩

/-! ### C59 -/

/-- **C59 is false of the code.** The value at a distance is not the share of all events: with the support cut at 2, one of
three events has its nearest neighbour at distance 3, two at distance 1, and `g` reports the share 1 at distance 2 where the share
of all events is 2/3; the same for `f` on given distances. -/
theorem C59_g_refuted :
    ∃ (lib : Lib ℚ) (coordinates : List (ℚ × ℚ)) (data : List ℚ), lib.Correct
      ∧ data.length = coordinates.length
      ∧ (∀ i x, data[i]? = some x → IsNearestOther (lib.pdist (.name "euclidean")) coordinates i x)
      ∧ g lib coordinates (.array [0, 1, 2]) .none (.metric (.name "euclidean")) false
          = .ok ([0, 1, 2], [.fin 0, .fin 0, .fin 1])
      ∧ f lib (fun _ => 0) coordinates (.array [0, 1, 2]) (.vec data) (.metric (.name "euclidean")) .none false 0 0
          = some (.ok (([0, 1, 2], [.fin 0, .fin 0, .fin 1]), 0))
      ∧ ((data.filter fun x => decide (x ≤ 2)).length : ℚ) / data.length = 2 / 3 := by
  refine ⟨sortLib, line3, [1, 1, 3], sortLib_correct, rfl, ?_, by decide +kernel, by decide +kernel, by decide +kernel⟩
  have hg : gDistances sortLib (.name "euclidean") line3 .none = .ok [1, 1, 3] := by decide +kernel
  exact (gDistances_none sortLib_correct (by decide) hg).2

omit [FloorRing K] in
/-- **C59, partial.** When the support covers all distances (none below the first or above the last value), the value at the
`i`-th distance is the share of all events at a distance below it (at most the last one). Missing: shorter supports, where it is
false. -/
theorem C59_g_partial (lib : Lib K) (hc : lib.Correct) (coordinates : List (K × K)) (hn : 2 ≤ coordinates.length)
    (support : SupportArg K) (m : Metric) (s : List K) (v : List (XF K)) (h2 : 2 ≤ s.length)
    (h : g lib coordinates support .none (.metric m) false = .ok (s, v))
    (hcov : ∀ i x, IsNearestOther (lib.pdist m) coordinates i x → s.getD 0 0 ≤ x ∧ x ≤ s.getD (s.length - 1) 0) :
    ∃ data : List K, data.length = coordinates.length
      ∧ (∀ i x, data[i]? = some x → IsNearestOther (lib.pdist m) coordinates i x)
      ∧ ∀ i, i < s.length → v[i]? = some (.fin (((data.filter fun x => decide (x < s.getD i 0
          ∨ (i + 1 = s.length ∧ x = s.getD i 0))).length : K) / (coordinates.length : K))) := by
  obtain ⟨_, data, d1, d2, d3, _⟩ := C57_g lib hc coordinates hn support m s v h2 h
  have hc' : ∀ x ∈ data, s.getD 0 0 ≤ x ∧ x ≤ s.getD (s.length - 1) 0 := by
    intro x hx
    obtain ⟨i, hi⟩ := List.mem_iff_getElem?.1 hx
    exact hcov i x (d2 i x hi)
  have hw : countWithin s data = coordinates.length := by
    rw [← d1]
    unfold countWithin
    rw [List.filter_eq_self.2 fun x hx => by simpa using hc' x hx]
  obtain ⟨w, rfl, hcurve, _⟩ := d3 (by omega)
  refine ⟨data, d1, d2, fun i hi => ?_⟩
  rw [List.getElem?_map, hcurve.value i hi, hw]
  simp only [Option.map_some]
  congr 3
  unfold countUpTo
  congr 2
  apply List.filter_congr
  intro x hx
  have := (hc' x hx).1
  rw [decide_eq_decide]
  tauto

end Pointpats.Props
