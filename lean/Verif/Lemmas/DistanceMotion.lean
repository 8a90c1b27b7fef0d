import Verif.Spec.DistanceMotion
import Verif.Lemmas.Motion
import Verif.Props.DistanceTests
import Verif.Props.QuadratUnits

/-!
# Lemmas: the distance functions in other units
-/

namespace Pointpats.DistMotion

set_option linter.unusedSectionVars false

open Spec Geometry Random DistStats Motion Props

variable {K : Type} [Field K] [LinearOrder K] [IsStrictOrderedRing K]

theorem listMin_scale {r : K} (hr : 0 < r) (x : K) (l : List K) :
    listMin (r * x) (l.map (r * ·)) = r * listMin x l := by
  simpa using listMin_affine hr 0 x l

theorem listMax_scale {r : K} (hr : 0 < r) (x : K) (l : List K) :
    listMax (r * x) (l.map (r * ·)) = r * listMax x l := by
  simpa using listMax_affine hr 0 x l

theorem linspace_scale (r a b : K) (n : ℤ) :
    linspace (r * a) (r * b) n = (linspace a b n).map (List.map (r * ·)) := by
  unfold linspace
  split
  · rfl
  · split
    · rfl
    · simp only [Except.map, List.map_map]
      congr 1
      refine List.map_congr_left fun i _ => ?_
      simp only [Function.comp_def]
      split
      · rfl
      · ring

theorem maxOf_scale {r : K} (hr : 0 < r) (l : List K) : maxOf (l.map (r * ·)) = (maxOf l).map (r * ·) := by
  cases l with
  | nil => rfl
  | cons a l => simp [maxOf, Except.map, listMax_scale hr]

/-! ### Nearest distances -/

theorem nearestExcept_unique {dist : K × K → K × K → K} {events : List (K × K)} {i : ℕ} {x : K × K} {d d' : K}
    (h : NearestExcept dist events i x d) (h' : NearestExcept dist events i x d') : d = d' := by
  obtain ⟨⟨j, q, h1, h2, h3⟩, h4⟩ := h
  obtain ⟨⟨j', q', h1', h2', h3'⟩, h4'⟩ := h'
  refine le_antisymm ?_ ?_
  · rw [h3']; exact h4 _ _ h1' h2'
  · rw [h3]; exact h4' _ _ h1 h2

theorem isNearest_unique {dist : K × K → K × K → K} {events : List (K × K)} {x : K × K} {d d' : K}
    (h : IsNearest dist events x d) (h' : IsNearest dist events x d') : d = d' := by
  obtain ⟨⟨q, h1, h2⟩, h3⟩ := h
  obtain ⟨⟨q', h1', h2'⟩, h3'⟩ := h'
  refine le_antisymm ?_ ?_
  · rw [h2']; exact h3 _ h1'
  · rw [h2]; exact h3' _ h1

variable {lib : Lib K} {f : K × K → K × K} {r : K}

theorem nearestExcept_moved {d : K × K → K × K → K} (hr : 0 < r) (hd : ∀ p q, d (f p) (f q) = r * d p q) {E : List (K × K)}
    {i : ℕ} {x : K × K} {v : K} (h : NearestExcept d E i x v) : NearestExcept d (E.map f) i (f x) (r * v) := by
  obtain ⟨⟨j, q, h1, h2, h3⟩, h4⟩ := h
  refine ⟨⟨j, f q, by simp [h1], h2, by rw [hd, h3]⟩, ?_⟩
  intro j' q' hq hj
  rw [List.getElem?_map] at hq
  cases he : E[j']? with
  | none => simp [he] at hq
  | some q0 =>
    simp only [he, Option.map_some, Option.some.injEq] at hq
    rw [← hq, hd]
    exact mul_le_mul_of_nonneg_left (h4 _ _ he hj) hr.le

theorem isNearest_moved {d : K × K → K × K → K} (hr : 0 < r) (hd : ∀ p q, d (f p) (f q) = r * d p q) {E : List (K × K)}
    {x : K × K} {v : K} (h : IsNearest d E x v) : IsNearest d (E.map f) (f x) (r * v) := by
  obtain ⟨⟨q, h1, h2⟩, h3⟩ := h
  refine ⟨⟨f q, List.mem_map_of_mem h1, by rw [hd, h2]⟩, ?_⟩
  intro q' hq
  obtain ⟨q0, h0, rfl⟩ := List.mem_map.1 hq
  rw [hd]
  exact mul_le_mul_of_nonneg_left (h3 _ h0) hr.le

/-- Two lists with the same length whose entries are fixed by the same relation are equal. -/
theorem list_eq_of_get {α : Type} {l l' : List α} (hl : l.length = l'.length)
    (h : ∀ (i : ℕ) a a', l[i]? = some a → l'[i]? = some a' → a = a') : l = l' := by
  refine List.ext_getElem hl fun i h1 h2 => ?_
  exact h i _ _ (List.getElem?_eq_getElem h1) (List.getElem?_eq_getElem h2)

theorem treeK_moved (hc : lib.Correct) (hr : 0 < r) (m : Metric) (hd : ∀ p q, lib.pdist m (f p) (f q) = r * lib.pdist m p q)
    (E L : List (K × K)) (hn : 2 ≤ E.length) :
    (treeKNeighbors lib m (E.map f) (L.map f) 1).map distancesOf
      = (treeKNeighbors lib m E L 1).map fun rows => (distancesOf rows).map (r * ·) := by
  obtain ⟨h1, h2⟩ := treeKNeighbors_one lib hc m E L hn
  obtain ⟨h1', h2'⟩ := treeKNeighbors_one lib hc m (E.map f) (L.map f) (by simpa using hn)
  cases hb : buildBestTree lib.hasSklearn lib.kdMetrics lib.ballMetrics m with
  | error e => rw [h1 e hb, h1' e hb]; rfl
  | ok t =>
    obtain ⟨rows, g1, g2, g3⟩ := h2 t hb
    obtain ⟨rows', g1', g2', g3'⟩ := h2' t hb
    rw [g1, g1']
    simp only [Except.map]
    congr 1
    refine list_eq_of_get (by simp [g2, g2']) fun i v v' hv hv' => ?_
    rw [List.getElem?_map] at hv'
    cases hw : (distancesOf rows)[i]? with
    | none => simp [hw] at hv'
    | some w =>
      simp only [hw, Option.map_some, Option.some.injEq] at hv'
      have hi : i < L.length := by
        have := (List.getElem?_eq_some_iff.1 hw).1
        omega
      have e1 := g3 i _ _ (List.getElem?_eq_getElem hi) hw
      have e2 := g3' i (f L[i]) v (by simp [hi]) hv
      rw [← hv']
      exact nearestExcept_unique e2 (nearestExcept_moved hr hd e1)

theorem treeN_moved (hc : lib.Correct) (hr : 0 < r) (m : Metric) (hd : ∀ p q, lib.pdist m (f p) (f q) = r * lib.pdist m p q)
    (E L : List (K × K)) (hn : 1 ≤ E.length) :
    (treeNearest lib m (E.map f) (L.map f)).map distancesOf
      = (treeNearest lib m E L).map fun rows => (distancesOf rows).map (r * ·) := by
  obtain ⟨h1, h2⟩ := treeNearest_one lib hc m E L hn
  obtain ⟨h1', h2'⟩ := treeNearest_one lib hc m (E.map f) (L.map f) (by simpa using hn)
  cases hb : buildBestTree lib.hasSklearn lib.kdMetrics lib.ballMetrics m with
  | error e => rw [h1 e hb, h1' e hb]; rfl
  | ok t =>
    obtain ⟨rows, g1, g2, g3⟩ := h2 t hb
    obtain ⟨rows', g1', g2', g3'⟩ := h2' t hb
    rw [g1, g1']
    simp only [Except.map]
    congr 1
    refine list_eq_of_get (by simp [g2, g2']) fun i v v' hv hv' => ?_
    rw [List.getElem?_map] at hv'
    cases hw : (distancesOf rows)[i]? with
    | none => simp [hw] at hv'
    | some w =>
      simp only [hw, Option.map_some, Option.some.injEq] at hv'
      have hi : i < L.length := by
        have := (List.getElem?_eq_some_iff.1 hw).1
        omega
      have e1 := g3 i _ _ (List.getElem?_eq_getElem hi) hw
      have e2 := g3' i (f L[i]) v (by simp [hi]) hv
      rw [← hv']
      exact isNearest_unique e2 (isNearest_moved hr hd e1)

/-! ### The support -/

theorem resolveSupport_moved (hc : lib.Correct) (hr : 0 < r) (m : Metric)
    (hd : ∀ p q, lib.pdist m (f p) (f q) = r * lib.pdist m p q) (E : List (K × K)) (hn : 2 ≤ E.length) (S : SupportArg K) :
    resolveSupport lib m (E.map f) (scaleSupport r S)
      = (resolveSupport lib m E S).map fun s => (s.1.map (r * ·), s.2) := by
  have ht := treeK_moved hc hr m hd E E hn
  have lin : ∀ (a b : K) (n : ℤ), ((linspace (r * a) (r * b) n).map fun s => (s, true))
      = ((linspace a b n).map fun s => (s, true)).map fun s => (s.1.map (r * ·), s.2) := by
    intro a b n
    rw [linspace_scale]
    cases linspace a b n <;> rfl
  have lin0 : ∀ (b : K) (n : ℤ), linspace 0 (r * b) n = (linspace 0 b n).map (List.map (r * ·)) := by
    intro b n
    have := linspace_scale r 0 b n
    rwa [mul_zero] at this
  have steps : ∀ n : ℤ, (do
        let rows ← treeKNeighbors lib m (E.map f) (E.map f) 1
        let max_dist ← maxOf (distancesOf rows)
        let s ← linspace 0 max_dist n
        return (s, true) : Py (List K × Bool))
      = ((do
        let rows ← treeKNeighbors lib m E E 1
        let max_dist ← maxOf (distancesOf rows)
        let s ← linspace 0 max_dist n
        return (s, true) : Py (List K × Bool))).map fun s => (s.1.map (r * ·), s.2) := by
    intro n
    cases h1 : treeKNeighbors lib m E E 1 with
    | error e =>
      cases h2 : treeKNeighbors lib m (E.map f) (E.map f) 1 with
      | error e' => simp [h1, h2, Except.map] at ht; subst ht; rfl
      | ok rows' => simp [h1, h2, Except.map] at ht
    | ok rows =>
      cases h2 : treeKNeighbors lib m (E.map f) (E.map f) 1 with
      | error e' => simp [h1, h2, Except.map] at ht
      | ok rows' =>
        simp only [h1, h2, Except.map, Except.ok.injEq] at ht
        simp only [bind, Except.bind, ht, maxOf_scale hr]
        cases maxOf (distancesOf rows) with
        | error e => rfl
        | ok d =>
          simp only [Except.map, lin0]
          cases linspace 0 d n <;> rfl
  cases S with
  | none => exact steps 20
  | int n => exact steps n
  | stop b =>
    have := lin 0 b 20
    rw [mul_zero] at this
    exact this
  | startStop a b => exact lin a b 20
  | startStopNum a b n => exact lin a b n
  | tuple l => rfl
  | array l => rfl

theorem prepare_moved (hc : lib.Correct) (hr : 0 < r) (metric : MetricArg) (has : Bool)
    (hd : ∀ m, metric = .metric m → ∀ p q, lib.pdist (if has then Metric.name "euclidean" else m) (f p) (f q)
      = r * lib.pdist (if has then Metric.name "euclidean" else m) p q)
    (E : List (K × K)) (hn : 2 ≤ E.length) (S : SupportArg K) (h h' : HullArg K) (R : HullRes K → HullRes K → Prop)
    (hok : ∀ H, prepareHull E h = .ok H → ∃ H', prepareHull (E.map f) h' = .ok H' ∧ R H H')
    (herr : ∀ e, prepareHull E h = .error e → prepareHull (E.map f) h' = .error e) (edge : Bool) :
    (∀ e, prepare lib E S has metric h edge = .error e
      → prepare lib (E.map f) (scaleSupport r S) has metric h' edge = .error e)
    ∧ ∀ p, prepare lib E S has metric h edge = .ok p → ∃ H', R p.hull H'
      ∧ prepare lib (E.map f) (scaleSupport r S) has metric h' edge
          = .ok { support := p.support.map (r * ·), isArray := p.isArray, metric := p.metric, hull := H' } := by
  unfold prepare
  cases edge with
  | true => simp
  | false =>
    simp only [Bool.false_eq_true, if_false]
    cases hh : prepareHull E h with
    | error e =>
      rw [herr e hh]
      exact ⟨fun e' he => by simpa [bind, Except.bind] using he, fun p hp => by simp [bind, Except.bind] at hp⟩
    | ok H =>
      obtain ⟨H', h1, h2⟩ := hok H hh
      rw [h1]
      simp only [bind, Except.bind]
      split
      · exact ⟨fun e he => he, fun p hp => by cases hp⟩
      · cases metric with
        | other => exact ⟨fun e he => he, fun p hp => by cases hp⟩
        | metric m =>
          simp only
          rw [resolveSupport_moved hc hr _ (hd m rfl) E hn]
          cases resolveSupport lib (if has = true then Metric.name "euclidean" else m) E S with
          | error e => exact ⟨fun e' he => by simpa [Except.map] using he, fun p hp => by simp at hp⟩
          | ok s =>
            refine ⟨fun e he => by simp [pure, Except.pure] at he, fun p hp => ?_⟩
            simp only [pure, Except.pure, Except.ok.injEq] at hp
            subst hp
            exact ⟨H', h2, rfl⟩

/-! ### Shares -/

theorem monotoneBins_scale (hr : 0 < r) (s : List K) : monotoneBins (s.map (r * ·)) = monotoneBins s := by
  induction s with
  | nil => rfl
  | cons a s ih =>
    cases s with
    | nil => rfl
    | cons b s =>
      simp only [List.map_cons, monotoneBins] at ih ⊢
      rw [ih]
      simp [hr]

theorem filter_scale {p p' : K → Bool} (h : ∀ x, p' (r * x) = p x) (data : List K) :
    ((data.map (r * ·)).filter p').length = (data.filter p).length := by
  rw [List.filter_map, List.length_map]
  congr 1
  exact List.filter_congr fun x _ => h x

theorem cumCounts_scale (hr : 0 < r) (data s : List K) :
    cumCounts (data.map (r * ·)) (s.map (r * ·)) = cumCounts data s := by
  induction s with
  | nil => rfl
  | cons a s ih =>
    cases s with
    | nil =>
      simp only [List.map_cons, List.map_nil, cumCounts]
      rw [filter_scale (p := fun x => decide (x ≤ a))]
      intro x; simp [hr]
    | cons b s =>
      simp only [List.map_cons, cumCounts] at ih ⊢
      rw [ih, filter_scale (p := fun x => decide (x < a))]
      intro x; simp [hr]

theorem shares_scale (hr : 0 < r) (data s : List K) :
    shares (data.map (r * ·)) (s.map (r * ·)) = (shares data s).map fun x => (x.1.map (r * ·), x.2) := by
  unfold shares histogram
  rw [monotoneBins_scale hr, cumCounts_scale hr]
  split <;> rfl

/-! ### G -/

theorem rowMins_scale (hr : 0 < r) (rows : List (List K)) :
    rowMins (rows.map (List.map (r * ·))) = (rowMins rows).map (List.map (r * ·)) := by
  unfold rowMins
  induction rows with
  | nil => rfl
  | cons x rows ih =>
    rw [List.map_cons, List.mapM_cons, List.mapM_cons, ih]
    cases x with
    | nil => rfl
    | cons a l =>
      simp only [List.map_cons, listMin_scale hr, bind, Except.bind, pure, Except.pure]
      cases (List.mapM (m := Except PyErr) (fun r => match r with
        | [] => .error .valueError
        | a :: l => .ok (listMin a l)) rows) <;> rfl

theorem colMins_scale (hr : 0 < r) (p : ℕ) (rows : List (List K)) :
    colMins p (rows.map (List.map (r * ·))) = (colMins p rows).map (List.map (r * ·)) := by
  have hget : ∀ (x : List K) (j : ℕ), (x.map (r * ·)).getD j 0 = r * x.getD j 0 := by
    intro x j
    simp only [List.getD_eq_getElem?_getD, List.getElem?_map]
    cases x[j]? <;> simp
  unfold colMins
  cases rows with
  | nil => rfl
  | cons x rows =>
    simp only [List.map_cons, Except.map, List.map_map]
    congr 1
    refine List.map_congr_left fun j _ => ?_
    simp only [Function.comp_def, hget]
    rw [← listMin_scale hr]
    simp [Function.comp_def]

theorem scaleDist_isNone (D : DistArg K) : (scaleDist r D).isNone = D.isNone := by cases D <;> rfl

theorem gDistances_moved (hc : lib.Correct) (hr : 0 < r) (m : Metric) (D : DistArg K)
    (hd : D = .none → ∀ p q, lib.pdist m (f p) (f q) = r * lib.pdist m p q)
    (E : List (K × K)) (hn : 2 ≤ E.length) :
    gDistances lib m (E.map f) (scaleDist r D) = (gDistances lib m E D).map (List.map (r * ·)) := by
  cases D with
  | none =>
    have ht := treeK_moved hc hr m (hd rfl) E E hn
    simp only [gDistances, scaleDist, bind, Except.bind, pure, Except.pure]
    cases h1 : treeKNeighbors lib m E E 1 <;> cases h2 : treeKNeighbors lib m (E.map f) (E.map f) 1
      <;> simp_all [Except.map]
  | vec l =>
    simp only [gDistances, scaleDist, List.length_map]
    split <;> rfl
  | mat p rows =>
    simp only [gDistances, scaleDist, List.length_map]
    split
    · exact rowMins_scale hr rows
    · rfl

theorem prepareHull_none_map (E : List (K × K)) (hn : 2 ≤ E.length) :
    (∀ H, prepareHull E .none = .ok H → ∃ H', prepareHull (E.map f) .none = .ok H' ∧ True)
    ∧ ∀ e, prepareHull E .none = .error e → prepareHull (E.map f) .none = .error e := by
  have h1 : E ≠ [] := by rintro rfl; simp at hn
  obtain ⟨b, hb⟩ := bboxPts_ok h1
  obtain ⟨b', hb'⟩ := bboxPts_ok (l := E.map f) (by simpa using h1)
  exact ⟨fun _ _ => ⟨.bboxOf b', by simp [prepareHull, hb', Except.map], trivial⟩, fun e he => by
    simp [prepareHull, hb, Except.map] at he⟩

theorem effective_eq (D : DistArg K) (m : Metric) :
    (if (!D.isNone) = true then Metric.name "euclidean" else m) = effective D m := by
  unfold effective
  cases D.isNone <;> rfl

theorem g_moved (hc : lib.Correct) (hr : 0 < r) (m : Metric) (D : DistArg K)
    (hd : ∀ p q, lib.pdist (effective D m) (f p) (f q) = r * lib.pdist (effective D m) p q)
    (E : List (K × K)) (hn : 2 ≤ E.length) (S : SupportArg K) (edge : Bool) :
    g lib (E.map f) (scaleSupport r S) (scaleDist r D) (.metric m) edge
      = (g lib E S D (.metric m) edge).map fun x => (x.1.map (r * ·), x.2) := by
  obtain ⟨hh1, hh2⟩ := prepareHull_none_map (f := f) E hn
  obtain ⟨h1, h2⟩ := prepare_moved hc hr (.metric m) (!D.isNone)
    (by intro m' hm; injection hm with hm; subst hm; rw [effective_eq]; exact hd) E hn S .none .none _ hh1 hh2 edge
  unfold g
  rw [scaleDist_isNone]
  cases hp : prepare lib E S (!D.isNone) (.metric m) .none edge with
  | error e => rw [h1 e hp]; rfl
  | ok p =>
    obtain ⟨H', -, hp'⟩ := h2 p hp
    rw [hp']
    simp only [bind, Except.bind]
    have hm : p.metric = effective D m := by
      obtain ⟨-, -, m', hm1, hm2, -⟩ := prepare_ok hp
      injection hm1 with hm1
      rw [hm2, ← hm1, effective_eq]
    rw [gDistances_moved hc hr p.metric D (fun _ => by rw [hm]; exact hd) E hn]
    cases gDistances lib p.metric E D with
    | error e => rfl
    | ok d => exact shares_scale hr d p.support

/-! ### K and L -/

theorem pdist_moved {d : K × K → K × K → K} (hd : ∀ p q, d (f p) (f q) = r * d p q) (E : List (K × K)) :
    pdist d (E.map f) = (pdist d E).map (r * ·) := by
  induction E with
  | nil => rfl
  | cons p E ih => simp [DistStats.pdist, ih, hd, Function.comp_def]

theorem triu_scale (rows : List (List K)) : triu (rows.map (List.map (r * ·))) = (triu rows).map (r * ·) := by
  unfold triu
  rw [List.map_flatten, List.zipIdx_map, List.map_map, List.map_map]
  congr 1
  refine List.map_congr_left fun x _ => ?_
  simp [List.map_drop]

theorem kDistances_moved (m : Metric) (D : DistArg K)
    (hd : D = .none → ∀ p q, lib.pdist m (f p) (f q) = r * lib.pdist m p q) (E : List (K × K)) :
    kDistances lib m (E.map f) (scaleDist r D) = (kDistances lib m E D).map (List.map (r * ·)) := by
  cases D with
  | none => simp [kDistances, scaleDist, pdist_moved (hd rfl), Except.map]
  | vec l => simp only [kDistances, scaleDist, List.length_map]; split <;> rfl
  | mat p rows =>
    simp only [kDistances, scaleDist, List.length_map]
    split
    · rw [triu_scale]; rfl
    · rfl

theorem div_div_scale {c : K} (hc : 0 < c) (x : K) {n : K} (hn : 0 < n) (A : K) :
    XF.div (.fin x) (XF.div (.fin n) (.fin (c * A))) = scaleXF c (XF.div (.fin x) (XF.div (.fin n) (.fin A))) := by
  by_cases hA : A = 0
  · simp [XF.div, hA, hn, scaleXF]
  · have h1 : c * A ≠ 0 := mul_ne_zero hc.ne' hA
    have h2 : n / (c * A) ≠ 0 := div_ne_zero hn.ne' h1
    have h3 : n / A ≠ 0 := div_ne_zero hn.ne' hA
    simp only [XF.div, hA, h1, h2, h3, if_false, scaleXF]
    congr 1
    field_simp

theorem prepareHull_none_area {c : K} (E : List (K × K)) (hn : 2 ≤ E.length)
    (hA : ∀ b b', bboxPts E = .ok b → bboxPts (E.map f) = .ok b' → areaBBox b' = c * areaBBox b) :
    (∀ H, prepareHull E .none = .ok H → ∃ H', prepareHull (E.map f) .none = .ok H'
      ∧ (lib.hullOf H').area = c * (lib.hullOf H).area)
    ∧ ∀ e, prepareHull E .none = .error e → prepareHull (E.map f) .none = .error e := by
  have h1 : E ≠ [] := by rintro rfl; simp at hn
  obtain ⟨b, hb⟩ := bboxPts_ok h1
  obtain ⟨b', hb'⟩ := bboxPts_ok (l := E.map f) (by simpa using h1)
  refine ⟨fun H hH => ⟨.bboxOf b', by simp [prepareHull, hb', Except.map], ?_⟩, fun e he => by
    simp [prepareHull, hb, Except.map] at he⟩
  simp only [prepareHull, hb, Except.map, Except.ok.injEq] at hH
  subst hH
  exact hA b b' hb hb'

theorem k_moved {c : K} (hc : lib.Correct) (hr : 0 < r) (hc0 : 0 < c) (m : Metric) (D : DistArg K)
    (hd : ∀ p q, lib.pdist (effective D m) (f p) (f q) = r * lib.pdist (effective D m) p q)
    (E : List (K × K)) (hn : 2 ≤ E.length)
    (hA : ∀ b b', bboxPts E = .ok b → bboxPts (E.map f) = .ok b' → areaBBox b' = c * areaBBox b)
    (S : SupportArg K) (edge : Bool) :
    k lib (E.map f) (scaleSupport r S) (scaleDist r D) (.metric m) edge
      = (k lib E S D (.metric m) edge).map fun x => (x.1.map (r * ·), x.2.map (scaleXF c)) := by
  obtain ⟨hh1, hh2⟩ := prepareHull_none_area (lib := lib) E hn hA
  obtain ⟨h1, h2⟩ := prepare_moved hc hr (.metric m) (!D.isNone)
    (by intro m' hm; injection hm with hm; subst hm; rw [effective_eq]; exact hd) E hn S .none .none _ hh1 hh2 edge
  unfold k
  rw [scaleDist_isNone]
  cases hp : prepare lib E S (!D.isNone) (.metric m) .none edge with
  | error e => rw [h1 e hp]; rfl
  | ok p =>
    obtain ⟨H', hH, hp'⟩ := h2 p hp
    rw [hp']
    simp only [bind, Except.bind]
    have hm : p.metric = effective D m := by
      obtain ⟨-, -, m', hm1, hm2, -⟩ := prepare_ok hp
      injection hm1 with hm1
      rw [hm2, ← hm1, effective_eq]
    rw [kDistances_moved p.metric D (fun _ => by rw [hm]; exact hd) E]
    cases kDistances lib p.metric E D with
    | error e => rfl
    | ok d =>
      simp only [Except.map]
      split
      · rfl
      · simp only [pure, Except.pure, Except.ok.injEq, Prod.mk.injEq, true_and, List.length_map, List.map_map]
        refine List.map_congr_left fun t _ => ?_
        simp only [Function.comp_def]
        rw [hH, filter_scale (p := fun x => decide (x < t)) (fun x => by simp [hr]),
          div_div_scale hc0 _ (by exact_mod_cast (by omega : 0 < E.length))]

theorem lTransform_scale {c ρ : K} (root : K → K) (hroot : ∀ x, root (c * x) = ρ * root x) (pi : K) (v : XF K) :
    lTransform root pi (scaleXF c v) = scaleXF ρ (lTransform root pi v) := by
  cases v with
  | fin x => simp only [scaleXF, lTransform, mul_div_assoc, hroot]
  | pinf => rfl
  | ninf => rfl
  | nan => rfl

theorem sub_scale {ρ : K} (v : XF K) (d : K) : XF.sub (scaleXF ρ v) (.fin (ρ * d)) = scaleXF ρ (XF.sub v (.fin d)) := by
  cases v with
  | fin x => simp only [scaleXF, XF.sub, mul_sub]
  | pinf => rfl
  | ninf => rfl
  | nan => rfl

theorem zipWith_sub_scale (vs : List (XF K)) (ds : List K) :
    List.zipWith (fun x d => XF.sub x (.fin d)) (vs.map (scaleXF r)) (ds.map (r * ·))
      = (List.zipWith (fun x d => XF.sub x (.fin d)) vs ds).map (scaleXF r) := by
  induction vs generalizing ds with
  | nil => rfl
  | cons v vs ih =>
    cases ds with
    | nil => rfl
    | cons d ds => simp [ih, sub_scale]

theorem l_moved {c : K} (hc : lib.Correct) (hr : 0 < r) (hc0 : 0 < c) (root : K → K) (hroot : ∀ x, root (c * x) = r * root x)
    (pi : K) (m : Metric) (D : DistArg K)
    (hd : ∀ p q, lib.pdist (effective D m) (f p) (f q) = r * lib.pdist (effective D m) p q)
    (E : List (K × K)) (hn : 2 ≤ E.length)
    (hA : ∀ b b', bboxPts E = .ok b → bboxPts (E.map f) = .ok b' → areaBBox b' = c * areaBBox b)
    (S : SupportArg K) (edge linearized : Bool) :
    l lib root pi (E.map f) (scaleSupport r S) (scaleDist r D) (.metric m) edge linearized
      = (l lib root pi E S D (.metric m) edge linearized).map fun x => (x.1.map (r * ·), x.2.map (scaleXF r)) := by
  unfold l
  rw [k_moved hc hr hc0 m D hd E hn hA S edge]
  cases k lib E S D (.metric m) edge with
  | error e => rfl
  | ok x =>
    have e : (x.2.map (scaleXF c)).map (lTransform root pi) = (x.2.map (lTransform root pi)).map (scaleXF r) := by
      simp [Function.comp_def, lTransform_scale root hroot]
    simp only [Except.map, bind, Except.bind, pure, Except.pure, e]
    cases linearized with
    | false => rfl
    | true => simp only [if_true, zipWith_sub_scale]

/-! ### F -/

variable [FloorRing K]

theorem mapSqueezed_data (g : K × K → K × K) (q : Squeezed K) : (mapSqueezed g q).data = q.data.map g := by
  cases q <;> simp [mapSqueezed, Squeezed.data]

theorem poisson_moved {s t a b : K} (hs : 0 < s) (ht : 0 < t) {w w' : Hull K} (hw : RescaledWindow s t a b w w')
    (hk : w'.isArray = w.isArray) (u : ℕ → K) (size : SizeArg) (fuel pos : ℕ) :
    poisson w' u none size fuel pos
      = (poisson w u none size fuel pos).andThen fun r pos => Run.ret (mapSqueezed (rescale s t a b) r) pos := by
  have h0 : w'.area = 0 ↔ w.area = 0 := by rw [hw.area]; simp [hs.ne', ht.ne']
  have hdiv : ∀ n : ℤ, (divArea w' n).map (fun _ => ()) = (divArea w n).map fun _ => () := by
    intro n
    unfold divArea
    rw [hk]
    by_cases h : w.area = 0 ∧ (!w.isArray) = true
    · rw [if_pos h, if_pos ⟨h0.2 h.1, h.2⟩]
    · rw [if_neg h, if_neg (fun h' => h ⟨h0.1 h'.1, h'.2⟩)]
      rfl
  have hps : (parseSizeAndIntensity w' none size).map (fun x => (x.1, x.2.1))
      = (parseSizeAndIntensity w none size).map fun x => (x.1, x.2.1) := by
    have key : ∀ n m : ℤ, ((do let i ← divArea w' n; return (n, m, i) : Py (ℤ × ℤ × XF K))).map (fun x => (x.1, x.2.1))
        = ((do let i ← divArea w n; return (n, m, i) : Py (ℤ × ℤ × XF K))).map fun x => (x.1, x.2.1) := by
      intro n m
      have := hdiv n
      cases h1 : divArea w n <;> cases h2 : divArea w' n <;> simp_all [Except.map, bind, Except.bind, pure, Except.pure]
    unfold parseSizeAndIntensity
    split
    · exact key 100 1
    · exact key _ _
    · rfl
    · exact key _ 1
    · rfl
  unfold poisson
  cases h1 : parseSizeAndIntensity w none size with
  | error e =>
    cases h2 : parseSizeAndIntensity w' none size with
    | error e' => simp [h1, h2, Except.map] at hps; subst hps; rfl
    | ok x => simp [h1, h2, Except.map] at hps
  | ok x =>
    cases h2 : parseSizeAndIntensity w' none size with
    | error e' => simp [h1, h2, Except.map] at hps
    | ok x' =>
      obtain ⟨n, m, i⟩ := x
      obtain ⟨n', m', i'⟩ := x'
      simp only [h1, h2, Except.map, Except.ok.injEq, Prod.mk.injEq] at hps
      obtain ⟨rfl, rfl⟩ := hps
      simp only
      split
      · rfl
      · rw [poissonReps_rescale hw]
        rcases hrr : poissonReps w u n'.toNat m'.toNat fuel pos with _ | (_ | ⟨reps, q⟩)
        · rfl
        · rfl
        · simp only [Run.andThen, Run.ret]
          rw [squeeze_map]
          intro hk hm
          rw [hk, hm] at hrr
          exact poissonReps_one hrr

theorem fDistances_moved (hr : 0 < r) (D : DistArg K) (E : List (K × K)) :
    fDistances (E.map f) (scaleDist r D) = (fDistances E D).map (List.map (r * ·)) := by
  cases D with
  | none => rfl
  | vec l => rfl
  | mat p rows =>
    simp only [fDistances, scaleDist, List.length_map]
    split
    · exact colMins_scale hr p rows
    · rfl

/-- The two hulls are the same window in other units. -/
structure SameRes (lib : Lib K) (s t a b : K) (H H' : HullRes K) : Prop where
  window : RescaledWindow s t a b (lib.hullOf H) (lib.hullOf H')
  kind : (lib.hullOf H').isArray = (lib.hullOf H).isArray
  again : RescaledHull lib s t a b (rehull H) (rehull H')

theorem ofBBox_rescale {s t : K} (hs : 0 < s) (ht : 0 < t) (a b : K) (B : BBox K) :
    RescaledWindow s t a b (Hull.ofBBox B) (Hull.ofBBox (rescaleBox s t a b B)) := by
  refine ⟨rfl, rfl, fun p => ?_, ?_⟩
  · simp only [Hull.ofBBox, containsBBox, rescale, rescaleBox]
    simp [hs, ht]
  · simp only [Hull.ofBBox, areaBBox, rescaleBox]
    rw [show (a + s * B.xmax - (a + s * B.xmin)) * (b + t * B.ymax - (b + t * B.ymin))
        = s * t * ((B.xmax - B.xmin) * (B.ymax - B.ymin)) by ring, abs_mul, abs_of_pos (mul_pos hs ht)]

theorem prepareHull_moved {s t : K} (hs : 0 < s) (ht : 0 < t) (a b : K) (E : List (K × K)) {h h' : HullArg K}
    (hh : RescaledHull lib s t a b h h') :
    (∀ H, prepareHull E h = .ok H → ∃ H', prepareHull (E.map (rescale s t a b)) h' = .ok H' ∧ SameRes lib s t a b H H')
    ∧ ∀ e, prepareHull E h = .error e → prepareHull (E.map (rescale s t a b)) h' = .error e := by
  have hbb : (∀ H, (bboxPts E).map HullRes.bboxOf = .ok H →
        ∃ H', (bboxPts (E.map (rescale s t a b))).map HullRes.bboxOf = .ok H' ∧ SameRes lib s t a b H H')
      ∧ ∀ e, (bboxPts E).map HullRes.bboxOf = .error e →
        (bboxPts (E.map (rescale s t a b))).map HullRes.bboxOf = .error e := by
    rw [bboxPts_rescale hs ht]
    cases bboxPts E with
    | error e => exact ⟨fun H hH => by simp [Except.map] at hH, fun e he => he⟩
    | ok B =>
      refine ⟨fun H hH => ⟨.bboxOf (rescaleBox s t a b B), rfl, ?_⟩, fun e he => by simp [Except.map] at he⟩
      simp only [Except.map, Except.ok.injEq] at hH
      subst hH
      exact ⟨ofBBox_rescale hs ht a b B, rfl, .box _ _ _ _⟩
  cases hh with
  | none => exact hbb
  | bbox => simpa [prepareHull] using hbb
  | box x0 y0 x1 y1 =>
    refine ⟨fun H hH => ⟨.given (.ndarray [4] [a + s * x0, b + t * y0, a + s * x1, b + t * y1]), by simp [prepareHull], ?_⟩,
      fun e he => by simp [prepareHull] at he⟩
    simp only [prepareHull, ne_eq, not_true_eq_false, if_false, Except.ok.injEq] at hH
    subst hH
    exact ⟨ofBBox_rescale hs ht a b ⟨x0, y0, x1, y1⟩, rfl, .box _ _ _ _⟩
  | geometry h h' hg hg' hw hk =>
    have e : ∀ (E : List (K × K)) (h : HullArg K), IsGeometry h → prepareHull E h = .ok (.given h) := by
      intro E h hg
      cases h <;> first | rfl | exact hg.elim
    rw [e E h hg, e _ h' hg']
    refine ⟨fun H hH => ⟨.given h', rfl, ?_⟩, fun e he => by simp at he⟩
    simp only [Except.ok.injEq] at hH
    subst hH
    exact ⟨hw, hk, .geometry h h' hg hg' hw hk⟩

theorem f_moved {a b : K} (hc : lib.Correct) (hr : 0 < r) (m : Metric) (D : DistArg K)
    (hd : ∀ p q, lib.pdist (effective D m) (rescale r r a b p) (rescale r r a b q) = r * lib.pdist (effective D m) p q)
    (E : List (K × K)) (hn : 2 ≤ E.length) (S : SupportArg K) (u : ℕ → K) {h h' : HullArg K}
    (hh : RescaledHull lib r r a b h h') (edge : Bool) (fuel pos : ℕ) :
    DistStats.f lib u (E.map (rescale r r a b)) (scaleSupport r S) (scaleDist r D) (.metric m) h' edge fuel pos
      = (DistStats.f lib u E S D (.metric m) h edge fuel pos).andThen fun x pos => Run.ret (x.1.map (r * ·), x.2) pos := by
  obtain ⟨hh1, hh2⟩ := prepareHull_moved hr hr a b E hh
  obtain ⟨h1, h2⟩ := prepare_moved hc hr (.metric m) (!D.isNone)
    (by intro m' hm; injection hm with hm; subst hm; rw [effective_eq]; exact hd) E hn S h h' _ hh1 hh2 edge
  unfold DistStats.f
  rw [scaleDist_isNone]
  cases hp : prepare lib E S (!D.isNone) (.metric m) h edge with
  | error e => rw [h1 e hp]; rfl
  | ok p =>
    obtain ⟨H', hH, hp'⟩ := h2 p hp
    rw [hp']
    have hm : p.metric = effective D m := by
      obtain ⟨-, -, m', hm1, hm2, -⟩ := prepare_ok hp
      injection hm1 with hm1
      rw [hm2, ← hm1, effective_eq]
    simp only
    cases hD : D.isNone with
    | true =>
      simp only [if_true]
      rw [poisson_moved hr hr hH.window hH.kind]
      rcases poisson (lib.hullOf p.hull) u none (.tuple [1000, 1]) fuel pos with _ | (_ | ⟨q, pos'⟩)
      · rfl
      · rfl
      · simp only [Run.andThen, Run.ret, mapSqueezed_data, liftPy]
        have ht := treeN_moved hc hr p.metric (by rw [hm]; exact hd) E q.data (by omega)
        cases g1 : treeNearest lib p.metric E q.data <;>
          cases g2 : treeNearest lib p.metric (E.map (rescale r r a b)) (q.data.map (rescale r r a b))
        · simp_all [Except.map, bind, Except.bind]
        · simp_all [Except.map]
        · simp_all [Except.map]
        · simp only [g1, g2, Except.map, Except.ok.injEq] at ht
          simp only [bind, Except.bind, ht, shares_scale hr]
          rename_i rows rows'
          cases shares (distancesOf rows) p.support <;> rfl
    | false =>
      simp only [Bool.false_eq_true, if_false, liftPy, fDistances_moved hr]
      cases fDistances E D with
      | error e => rfl
      | ok d =>
        simp only [Except.map, bind, Except.bind, shares_scale hr]
        cases shares d p.support <;> rfl

/-! ### J -/

theorem g_support {m : Metric} {D : DistArg K} {E : List (K × K)} {S : SupportArg K} {edge : Bool} {x : List K × List (XF K)}
    (h : g lib E S D (.metric m) edge = .ok x) : ∃ b, resolveSupport lib (effective D m) E S = .ok (x.1, b) := by
  obtain ⟨p, d, hp, -, hs⟩ := g_ok h
  obtain ⟨-, -, m', hm1, hm2, hsup⟩ := prepare_ok hp
  injection hm1 with hm1
  rw [← hm1, effective_eq] at hm2
  exact ⟨p.isArray, by rw [← hm2, (shares_support hs).1]; exact hsup⟩

theorem f_support {m : Metric} {D : DistArg K} {E : List (K × K)} {S : SupportArg K} {edge : Bool} {u : ℕ → K} {h : HullArg K}
    {fuel pos pos' : ℕ} {x : List K × List (XF K)}
    (hf : DistStats.f lib u E S D (.metric m) h edge fuel pos = some (.ok (x, pos'))) :
    ∃ b, resolveSupport lib (effective D m) E S = .ok (x.1, b) := by
  obtain ⟨p, hp, h1, h2⟩ := f_ok hf
  obtain ⟨-, -, m', hm1, hm2, hsup⟩ := prepare_ok hp
  injection hm1 with hm1
  rw [← hm1, effective_eq] at hm2
  refine ⟨p.isArray, ?_⟩
  rw [← hm2]
  by_cases hD : D = .none
  · obtain ⟨q, rows, -, -, hs⟩ := h1 hD
    rw [(shares_support hs).1]; exact hsup
  · obtain ⟨d, -, hs⟩ := h2 hD
    rw [(shares_support hs).1]; exact hsup

theorem alignG_same {allclose : List K → List K → Bool} (hcl : ∀ s, allclose s s = true)
    (interp : List K → List (XF K) → List K → Py (List (XF K))) {S : SupportArg K} {x : List K × List (XF K)} {m : Metric}
    {E : List (K × K)} {b : Bool} (h : resolveSupport lib m E S = .ok (x.1, b)) : alignG allclose interp S x = .ok x := by
  cases S with
  | array s =>
    simp only [resolveSupport, Except.ok.injEq, Prod.mk.injEq] at h
    simp only [alignG, ← h.1, hcl, if_true]
  | none => rfl
  | int n => rfl
  | stop b => rfl
  | startStop a b => rfl
  | startStopNum a b n => rfl
  | tuple l => rfl

omit [FloorRing K] in
theorem jEnd_scale (truncate : Bool) (gs : List K) (gv : List (XF K)) (fs fs' : List K) (fv : List (XF K)) :
    jEnd truncate (gs.map (r * ·), gv) (fs', fv)
      = (jEnd truncate (gs, gv) (fs, fv)).map fun x => (x.1.map (r * ·), x.2) := by
  unfold jEnd
  cases truncate with
  | false => rfl
  | true =>
    simp only [if_true, truncate2]
    by_cases h : (List.zipWith hazard gv fv).any (fun v => !v.isfinite) = true
    · simp only [h, if_true, ← List.map_take, List.map_eq_nil_iff]
      split <;> rfl
    · rw [if_neg h, if_neg h]
      simp [Except.map]

theorem j_moved {a b : K} (hc : lib.Correct) (hr : 0 < r) {allclose : List K → List K → Bool} (hcl : ∀ s, allclose s s = true)
    (interp : List K → List (XF K) → List K → Py (List (XF K))) (m : Metric) (D : Option (DistArg K × DistArg K))
    (hD : effective (gPart D) m = effective (fPart D) m)
    (hd : ∀ p q, lib.pdist (effective (fPart D) m) (rescale r r a b p) (rescale r r a b q)
      = r * lib.pdist (effective (fPart D) m) p q)
    (E : List (K × K)) (hn : 2 ≤ E.length) (S : SupportArg K) (u : ℕ → K) {h h' : HullArg K}
    (hh : RescaledHull lib r r a b h h') (edge truncate : Bool) (fuel pos : ℕ) :
    j lib u allclose interp (E.map (rescale r r a b)) (scaleSupport r S) (D.map fun d => (scaleDist r d.1, scaleDist r d.2))
        (.metric m) h' edge truncate fuel pos
      = (j lib u allclose interp E S D (.metric m) h edge truncate fuel pos).andThen fun x pos =>
          Run.ret (x.1.map (r * ·), x.2) pos := by
  have hg : gPart (D.map fun d => (scaleDist r d.1, scaleDist r d.2)) = scaleDist r (gPart D) := by cases D <;> rfl
  have hf : fPart (D.map fun d => (scaleDist r d.1, scaleDist r d.2)) = scaleDist r (fPart D) := by cases D <;> rfl
  unfold j
  rw [hg, hf, f_moved hc hr m (fPart D) hd E hn S u hh edge fuel pos, g_moved hc hr m (gPart D) (by rw [hD]; exact hd) E hn S edge]
  rcases hF : DistStats.f lib u E S (fPart D) (.metric m) h edge fuel pos with _ | (_ | ⟨x, pos'⟩)
  · rfl
  · rfl
  · simp only [Run.andThen, Run.ret]
    cases hG : g lib E S (gPart D) (.metric m) edge with
    | error e => rfl
    | ok y =>
      obtain ⟨bg, sg⟩ := g_support hG
      obtain ⟨bf, sf⟩ := f_support hF
      rw [hD] at sg
      have hxy : x.1 = y.1 := by
        rw [sg, Except.ok.injEq, Prod.mk.injEq] at sf
        exact sf.1.symm
      have sg' := resolveSupport_moved hc hr _ hd E hn S
      rw [sg] at sg'
      simp only [Except.map, bind, Except.bind, liftPy]
      rw [alignG_same hcl interp sg, alignG_same hcl interp (x := (y.1.map (r * ·), y.2)) sg']
      simp only [alignF, hxy, hcl, if_true]
      rw [show y = (y.1, y.2) from rfl, jEnd_scale truncate y.1 y.2 x.1]
      cases jEnd truncate (y.1, y.2) (x.1, x.2) <;> rfl

/-! ### The tests -/

theorem scaleXF_one (v : XF K) : scaleXF 1 v = v := by cases v <;> simp [scaleXF]

theorem map_scaleXF_one (l : List (XF K)) : l.map (scaleXF 1) = l := by
  rw [show scaleXF (1 : K) = id from funext scaleXF_one, List.map_id]

/-- The metrics that a call of a statistic uses scale, and the two parts of the distances for J use the same one. -/
def CallScales (lib : Lib K) (r a b : K) (m : Metric) : Prop :=
  (∀ p q, lib.pdist m (rescale r r a b p) (rescale r r a b q) = r * lib.pdist m p q)
  ∧ ∀ p q, lib.pdist (.name "euclidean") (rescale r r a b p) (rescale r r a b q) = r * lib.pdist (.name "euclidean") p q

theorem CallScales.effective {a b : K} {m : Metric} (h : CallScales lib r a b m) (D : DistArg K) :
    ∀ p q, lib.pdist (effective D m) (rescale r r a b p) (rescale r r a b q) = r * lib.pdist (effective D m) p q := by
  unfold Props.effective
  cases D.isNone
  · exact h.2
  · exact h.1

theorem callStat_moved {a b : K} (hc : lib.Correct) (hr : 0 < r) (num : Num K) (hcl : ∀ s, num.allclose s s = true)
    (hroot : ∀ x, num.root (r ^ 2 * x) = r * num.root x) (call : Call) (m : Metric) (D : TestDist K)
    (hD : ∀ dg df, D = .pair dg df → effective dg m = effective df m) (hs : CallScales lib r a b m)
    (E : List (K × K)) (hn : 2 ≤ E.length) (S : SupportArg K) (u : ℕ → K) {h h' : HullArg K}
    (hh : RescaledHull lib r r a b h h') (edge : Bool) (fuel pos : ℕ) :
    callStat lib num call u (E.map (rescale r r a b)) (scaleSupport r S) (scaleTestDist r D) (.metric m) h' edge fuel pos
      = (callStat lib num call u E S D (.metric m) h edge fuel pos).andThen fun x pos =>
          Run.ret (x.1.map (r * ·), x.2.map (scaleXF (statFactor r call))) pos := by
  have hA : ∀ B B', bboxPts E = .ok B → bboxPts (E.map (rescale r r a b)) = .ok B' → areaBBox B' = r ^ 2 * areaBBox B := by
    intro B B' hB hB'
    rw [bboxPts_rescale hr hr, hB] at hB'
    simp only [Except.map, Except.ok.injEq] at hB'
    subst hB'
    have := (ofBBox_rescale hr hr a b B).area
    simpa [Hull.ofBBox, pow_two] using this
  have hr2 : 0 < r ^ 2 := pow_pos hr 2
  unfold callStat
  cases call with
  | F =>
    simp only [statFactor, map_scaleXF_one]
    cases D with
    | none => exact f_moved hc hr m .none (hs.effective _) E hn S u hh edge fuel pos
    | single d => exact f_moved hc hr m d (hs.effective _) E hn S u hh edge fuel pos
    | pair dg df => rfl
  | G =>
    simp only [statFactor, map_scaleXF_one]
    cases D with
    | none =>
      simp only [scaleTestDist, bind, Except.bind]
      have := g_moved hc hr m .none (hs.effective _) E hn S edge
      simp only [scaleDist] at this
      rw [this]
      cases g lib E S .none (.metric m) edge <;> rfl
    | single d =>
      simp only [scaleTestDist, bind, Except.bind]
      rw [g_moved hc hr m d (hs.effective _) E hn S edge]
      cases g lib E S d (.metric m) edge <;> rfl
    | pair dg df => rfl
  | J =>
    simp only [statFactor, map_scaleXF_one]
    cases D with
    | none => exact j_moved hc hr hcl num.interp m none rfl (hs.effective _) E hn S u hh edge false fuel pos
    | single d => rfl
    | pair dg df => exact j_moved hc hr hcl num.interp m (some (dg, df)) (hD dg df rfl) (hs.effective _) E hn S u hh edge false fuel pos
  | K =>
    simp only [statFactor]
    cases D with
    | none =>
      simp only [scaleTestDist, bind, Except.bind]
      have := k_moved hc hr hr2 m .none (hs.effective _) E hn hA S edge
      simp only [scaleDist] at this
      rw [this]
      cases k lib E S .none (.metric m) edge <;> rfl
    | single d =>
      simp only [scaleTestDist, bind, Except.bind]
      rw [k_moved hc hr hr2 m d (hs.effective _) E hn hA S edge]
      cases k lib E S d (.metric m) edge <;> rfl
    | pair dg df => rfl
  | L lin =>
    simp only [statFactor]
    cases D with
    | none =>
      simp only [scaleTestDist, bind, Except.bind]
      have := l_moved hc hr hr2 num.root hroot num.pi m .none (hs.effective _) E hn hA S edge lin
      simp only [scaleDist] at this
      rw [this]
      cases l lib num.root num.pi E S .none (.metric m) edge lin <;> rfl
    | single d =>
      simp only [scaleTestDist, bind, Except.bind]
      rw [l_moved hc hr hr2 num.root hroot num.pi m d (hs.effective _) E hn hA S edge lin]
      cases l lib num.root num.pi E S d (.metric m) edge lin <;> rfl
    | pair dg df => rfl

omit [FloorRing K] in
theorem simRows_map (call : Call) (g : K × K → K × K) (q : Squeezed K) :
    simRows call (mapSqueezed g q) = (simRows call q).map (List.map g) := by
  cases q <;> cases call <;> rfl

theorem replications_length {body : ℕ → ℕ → Run (List (K × K))} {n : ℕ}
    (hb : ∀ i pos l q, body i pos = some (.ok (l, q)) → l.length = n) (i s pos : ℕ) {ls : List (List (K × K))} {q : ℕ}
    (h : replications body i s pos = some (.ok (ls, q))) : ls.flatten.length = s * n := by
  induction s generalizing i pos ls q with
  | zero => simp [replications, Run.ret] at h; simp [h.1]
  | succ s ih =>
    rw [replications, Run.andThen_ok] at h
    obtain ⟨l, p, h1, h2⟩ := h
    rw [Run.andThen_ok] at h2
    obtain ⟨ls', p', h3, h4⟩ := h2
    simp only [Run.ret, Option.some.injEq, Except.ok.injEq, Prod.mk.injEq] at h4
    rw [← h4.1, List.flatten_cons, List.length_append, hb _ _ _ _ h1, ih _ _ h3]
    ring

theorem poisson_int_rows {w : Hull K} {u : ℕ → K} {n fuel pos pos' : ℕ} {q : Squeezed K} (hn : 2 ≤ n)
    (h : poisson w u none (.int n) fuel pos = some (.ok (q, pos'))) : ∃ l, q = .rows l ∧ l.length = n := by
  unfold poisson parseSizeAndIntensity at h
  simp only [bind, Except.bind, pure, Except.pure] at h
  cases hd : divArea w (n : ℤ) with
  | error e => simp [hd, Run.fail] at h
  | ok i =>
    simp only [hd] at h
    rw [if_neg (by omega), Run.andThen_ok] at h
    obtain ⟨reps, p, h1, h2⟩ := h
    simp only [Run.ret, Option.some.injEq, Except.ok.injEq, Prod.mk.injEq] at h2
    have hlen := replications_length (n := n) (fun i pos l q hl => by
      have := rejection_length _ _ _ _ _ hl
      simpa using this) _ _ _ h1
    refine ⟨reps.flatten, ?_, by simpa using hlen⟩
    rw [← h2.1]
    unfold squeeze
    simp only [Int.toNat_one, if_true, Int.toNat_natCast]
    rw [if_neg (by omega)]

theorem oneSimulation_moved {a b : K} (hc : lib.Correct) (hr : 0 < r) (num : Num K) (hcl : ∀ s, num.allclose s s = true)
    (hroot : ∀ x, num.root (r ^ 2 * x) = r * num.root x) (call : Call) (m : Metric) (hs : CallScales lib r a b m)
    (n : ℕ) (hn : 2 ≤ n) (u : ℕ → K) {H H' : HullRes K} (hH : SameRes lib r r a b H H') (empty : List (K × K))
    (support : List K) (edge : Bool) (fuel : ℕ) :
    oneSimulation lib num call u n H' (rehull H') (.metric m) (empty.map (rescale r r a b)) (support.map (r * ·)) edge fuel
      = (oneSimulation lib num call u n H (rehull H) (.metric m) empty support edge fuel).andThen fun x pos =>
          Run.ret (x.map (scaleXF (statFactor r call))) pos := by
  unfold oneSimulation
  rw [poisson_moved hr hr hH.window hH.kind]
  rcases hp : poisson (lib.hullOf H) u none (.int n) fuel 0 with _ | (_ | ⟨q, pos⟩)
  · rfl
  · rfl
  · obtain ⟨l, rfl, hl⟩ := poisson_int_rows hn hp
    simp only [Run.andThen, Run.ret, mapSqueezed, simRows]
    have key : ∀ D : TestDist K, (∀ dg df, D = .pair dg df → effective dg m = effective df m) →
        callStat lib num call u (l.map (rescale r r a b)) (.array (support.map (r * ·))) (scaleTestDist r D) (.metric m)
            (rehull H') edge fuel pos
          = (callStat lib num call u l (.array support) D (.metric m) (rehull H) edge fuel pos).andThen fun x pos =>
              Run.ret (x.1.map (r * ·), x.2.map (scaleXF (statFactor r call))) pos := fun D hD =>
      callStat_moved hc hr num hcl hroot call m D hD hs l (by omega) (.array support) u hH.again edge fuel pos
    have fin : ∀ D : TestDist K, (∀ dg df, D = .pair dg df → effective dg m = effective df m) →
        ((callStat lib num call u (l.map (rescale r r a b)) (.array (support.map (r * ·))) (scaleTestDist r D) (.metric m)
            (rehull H') edge fuel pos).andThen fun x pos => Run.ret x.2 pos)
          = ((callStat lib num call u l (.array support) D (.metric m) (rehull H) edge fuel pos).andThen fun x pos =>
              Run.ret x.2 pos).andThen fun x pos => Run.ret (x.map (scaleXF (statFactor r call))) pos := by
      intro D hD
      rw [key D hD]
      rcases callStat lib num call u l (.array support) D (.metric m) (rehull H) edge fuel pos with _ | (_ | ⟨x, p⟩) <;> rfl
    have tn := treeN_moved hc hr m hs.1 l empty (by omega)
    have tk := treeK_moved hc hr m hs.1 l l (by omega)
    cases call with
    | F =>
      simp only
      cases g1 : treeNearest lib m l empty <;>
        cases g2 : treeNearest lib m (l.map (rescale r r a b)) (empty.map (rescale r r a b))
      · simp only [g1, g2, Except.map, Except.error.injEq] at tn
        subst tn
        rfl
      · simp [g1, g2, Except.map] at tn
      · simp [g1, g2, Except.map] at tn
      · simp only [g1, g2, Except.map, Except.ok.injEq] at tn
        rename_i rows rows'
        have := fin (.single (.vec (distancesOf rows))) (fun _ _ h => by cases h)
        simp only [scaleTestDist, scaleDist] at this
        simp only [Except.map, tn]
        exact this
    | J =>
      simp only [bind, Except.bind, pure, Except.pure]
      cases g1 : treeNearest lib m l empty <;>
        cases g2 : treeNearest lib m (l.map (rescale r r a b)) (empty.map (rescale r r a b))
      · simp only [g1, g2, Except.map, Except.error.injEq] at tn
        subst tn
        rfl
      · simp [g1, g2, Except.map] at tn
      · simp [g1, g2, Except.map] at tn
      · simp only [g1, g2, Except.map, Except.ok.injEq] at tn
        cases g3 : treeKNeighbors lib m l l 1 <;>
          cases g4 : treeKNeighbors lib m (l.map (rescale r r a b)) (l.map (rescale r r a b)) 1
        · simp only [g3, g4, Except.map, Except.error.injEq] at tk
          subst tk
          rfl
        · simp [g3, g4, Except.map] at tk
        · simp [g3, g4, Except.map] at tk
        · simp only [g3, g4, Except.map, Except.ok.injEq] at tk
          rename_i e e' k k'
          have := fin (.pair (.vec (distancesOf k)) (.vec (distancesOf e))) (fun dg df h => by
            injection h with h1 h2
            rw [← h1, ← h2]; rfl)
          simp only [scaleTestDist, scaleDist] at this
          simp only [tn, tk]
          exact this
    | G => exact fin .none (fun _ _ h => by cases h)
    | K => exact fin .none (fun _ _ h => by cases h)
    | L lin => exact fin .none (fun _ _ h => by cases h)

omit [FloorRing K] in
theorem ge_scale {c : K} (hc : 0 < c) (v w : XF K) : XF.ge (scaleXF c v) (scaleXF c w) = XF.ge v w := by
  cases v <;> cases w <;> simp [XF.ge, scaleXF, hc]

omit [FloorRing K] in
theorem pvalues_scale {c : K} (hc : 0 < c) (support : List K) (observed : List (XF K)) (sims : List (List (XF K))) (n : ℤ) :
    pvalues (support.map (r * ·)) (observed.map (scaleXF c)) (sims.map (List.map (scaleXF c))) n
      = pvalues support observed sims n := by
  unfold pvalues
  simp only [List.map_eq_nil_iff]
  split
  · rw [List.map_map]; rfl
  · rw [List.zipIdx_map, List.map_map]
    refine List.map_congr_left fun o _ => ?_
    simp only [Function.comp_def, Prod.map]
    congr 1
    unfold columnP
    have hget : ∀ (x : List (XF K)) (j : ℕ), (x.map (scaleXF c)).getD j .nan = scaleXF c (x.getD j .nan) := by
      intro x j
      simp only [List.getD_eq_getElem?_getD, List.getElem?_map]
      cases x[j]? <;> simp [scaleXF]
    have e : ((sims.map (List.map (scaleXF c))).map fun s => s.getD o.2 .nan)
        = (sims.map fun s => s.getD o.2 .nan).map (scaleXF c) := by
      simp only [List.map_map, Function.comp_def, hget]
    have : (((sims.map (List.map (scaleXF c))).map fun s => s.getD o.2 .nan).filter fun s => XF.ge s (scaleXF c o.1)).length
        = ((sims.map fun s => s.getD o.2 .nan).filter fun s => XF.ge s o.1).length := by
      rw [e, List.filter_map, List.length_map]
      congr 1
      exact List.filter_congr fun x _ => ge_scale hc _ _
    simp only [id_eq, this]

theorem statFactor_pos (hr : 0 < r) (call : Call) : 0 < statFactor r call := by
  cases call <;> simp [statFactor, hr]

theorem emptyLocations_moved {a b : K} (hr : 0 < r) (call : Call) (u : ℕ → K) (E : List (K × K)) (fuel : ℕ) :
    emptyLocations call u (E.map (rescale r r a b)) fuel
      = (emptyLocations call u E fuel).andThen fun x pos => Run.ret (x.map (rescale r r a b)) pos := by
  have key : (match bboxPts (E.map (rescale r r a b)) with
      | .error e => Run.fail e
      | .ok B => (poisson (Hull.ofBBox B) u none (.tuple [1000, 1]) fuel 0).andThen fun x pos => Run.ret x.data pos)
      = (match bboxPts E with
      | .error e => Run.fail e
      | .ok B => (poisson (Hull.ofBBox B) u none (.tuple [1000, 1]) fuel 0).andThen fun x pos => Run.ret x.data pos).andThen
          fun x pos => Run.ret (x.map (rescale r r a b)) pos := by
    rw [bboxPts_rescale hr hr]
    cases bboxPts E with
    | error e => rfl
    | ok B =>
      simp only [Except.map]
      rw [poisson_moved hr hr (ofBBox_rescale hr hr a b B) rfl]
      rcases poisson (Hull.ofBBox B) u none (.tuple [1000, 1]) fuel 0 with _ | (_ | ⟨q, p⟩)
      · rfl
      · rfl
      · simp [Run.andThen, Run.ret, mapSqueezed_data]
  unfold emptyLocations
  cases call with
  | F => exact key
  | J => exact key
  | G => rfl
  | K => rfl
  | L lin => rfl

theorem testDistances_moved {a b : K} (hc : lib.Correct) (hr : 0 < r) (call : Call) (m : Metric) (hs : CallScales lib r a b m)
    (E : List (K × K)) (hn : 2 ≤ E.length) (empty : List (K × K)) (D : TestDist K) :
    testDistances lib call m (E.map (rescale r r a b)) (empty.map (rescale r r a b)) (scaleTestDist r D)
      = (testDistances lib call m E empty D).map (scaleTestDist r) := by
  have tn := treeK_moved hc hr m hs.1 E empty hn
  have tk := treeK_moved hc hr m hs.1 E E hn
  unfold testDistances
  cases D with
  | single d => rfl
  | pair dg df => rfl
  | none =>
    simp only [scaleTestDist]
    cases call with
    | G => rfl
    | K => rfl
    | L lin => rfl
    | F =>
      cases g1 : treeKNeighbors lib m E empty 1 <;>
        cases g2 : treeKNeighbors lib m (E.map (rescale r r a b)) (empty.map (rescale r r a b)) 1 <;>
        simp_all [Except.map, scaleTestDist, scaleDist]
    | J =>
      cases g1 : treeKNeighbors lib m E empty 1 <;>
        cases g2 : treeKNeighbors lib m (E.map (rescale r r a b)) (empty.map (rescale r r a b)) 1 <;>
        cases g3 : treeKNeighbors lib m E E 1 <;>
        cases g4 : treeKNeighbors lib m (E.map (rescale r r a b)) (E.map (rescale r r a b)) 1 <;>
        simp_all [Except.map, scaleTestDist, scaleDist, bind, Except.bind, pure, Except.pure]

theorem testDistances_pair (call : Call) (m : Metric) (E empty : List (K × K)) (D : TestDist K)
    (hD : ∀ dg df, D = .pair dg df → effective dg m = effective df m) {d : TestDist K}
    (h : testDistances lib call m E empty D = .ok d) : ∀ dg df, d = .pair dg df → effective dg m = effective df m := by
  unfold testDistances at h
  cases D with
  | single d' => simp only [Except.ok.injEq] at h; subst h; exact hD
  | pair dg df => simp only [Except.ok.injEq] at h; subst h; exact hD
  | none =>
    cases call with
    | G => simp only [Except.ok.injEq] at h; subst h; exact hD
    | K => simp only [Except.ok.injEq] at h; subst h; exact hD
    | L lin => simp only [Except.ok.injEq] at h; subst h; exact hD
    | F =>
      cases g1 : treeKNeighbors lib m E empty 1
      · simp [g1, Except.map] at h
      · simp only [g1, Except.map, Except.ok.injEq] at h
        subst h
        intro _ _ h'; cases h'
    | J =>
      cases g1 : treeKNeighbors lib m E empty 1
      · simp [g1, bind, Except.bind] at h
      · cases g2 : treeKNeighbors lib m E E 1
        · simp [g1, g2, bind, Except.bind] at h
        · simp only [g1, g2, bind, Except.bind, pure, Except.pure, Except.ok.injEq] at h
          subst h
          intro dg df h'
          injection h' with h1 h2
          rw [← h1, ← h2]; rfl

theorem ripleyTest_moved {a b : K} (hc : lib.Correct) (hr : 0 < r) (num : Num K) (hcl : ∀ s, num.allclose s s = true)
    (hroot : ∀ x, num.root (r ^ 2 * x) = r * num.root x) (call : Call) (m : Metric) (D : TestDist K)
    (hD : ∀ dg df, D = .pair dg df → effective dg m = effective df m) (hs : CallScales lib r a b m)
    (E : List (K × K)) (hn : 2 ≤ E.length) (S : SupportArg K) (u : ℕ → K) (gen : ℕ → ℕ → K) {h h' : HullArg K}
    (hh : RescaledHull lib r r a b h h') (edge keep : Bool) (nsim : ℤ) (fuel : ℕ) :
    ripleyTest lib num call u gen (E.map (rescale r r a b)) (scaleSupport r S) (scaleTestDist r D) (.metric m) h' edge keep nsim fuel
      = (ripleyTest lib num call u gen E S D (.metric m) h edge keep nsim fuel).andThen fun x pos =>
          Run.ret (scaleResult r (statFactor r call) x) pos := by
  unfold ripleyTest
  simp only
  cases buildBestTree lib.hasSklearn lib.kdMetrics lib.ballMetrics m with
  | error e => rfl
  | ok t =>
    simp only
    obtain ⟨hh1, hh2⟩ := prepareHull_moved hr hr a b E hh
    cases hp : prepareHull E h with
    | error e => rw [hh2 e hp]; rfl
    | ok H =>
      obtain ⟨H', hp', hH⟩ := hh1 H hp
      rw [hp']
      simp only
      rw [emptyLocations_moved hr]
      rcases emptyLocations call u E fuel with _ | (_ | ⟨empty, pos⟩)
      · rfl
      · rfl
      · simp only [Run.andThen, Run.ret]
        rw [testDistances_moved hc hr call m hs E hn]
        cases hd : testDistances lib call m E empty D with
        | error e => rfl
        | ok d =>
          simp only [Except.map]
          rw [callStat_moved hc hr num hcl hroot call m d (testDistances_pair call m E empty D hD hd) hs E hn S u hH.again]
          rcases callStat lib num call u E S d (.metric m) (rehull H) edge fuel pos with _ | (_ | ⟨obs, pos'⟩)
          · rfl
          · rfl
          · simp only [Run.andThen, Run.ret, List.length_map]
            rw [replications_map (List.map (scaleXF (statFactor r call)))
              (fun i _ => oneSimulation lib num call (gen i) E.length H (rehull H) (.metric m) empty obs.1 edge fuel) _
              (fun i _ => oneSimulation_moved hc hr num hcl hroot call m hs E.length hn (gen i) hH empty obs.1 edge fuel)]
            rcases replications (fun i _ => oneSimulation lib num call (gen i) E.length H (rehull H) (.metric m) empty obs.1
              edge fuel) 0 nsim.toNat 0 with _ | (_ | ⟨sims, p⟩)
            · rfl
            · rfl
            · simp only [Run.andThen, Run.ret, scaleResult, pvalues_scale (statFactor_pos hr call)]
              cases keep <;> rfl

end Pointpats.DistMotion
