import Verif.Props.DistanceStats
import Verif.Props.Geometry
import Mathlib.Analysis.Real.Sqrt
import Mathlib.Analysis.Real.Pi.Bounds

/-!
# Properties of `pointpats/distance_statistics.py`: J, K and L (C60-C62)
-/

set_option linter.unusedSectionVars false

namespace Pointpats.Props

open Spec Geometry Random DistStats

variable {K : Type} [Field K] [LinearOrder K] [IsStrictOrderedRing K] [FloorRing K]

/-! ### C60 -/

/-- The quotient `(1 - G) / (1 - F)` of two values as J reports it, for finite `G ≤ 1` and `F ≤ 1`: infinite if only `F` is
one, undefined if both are. -/
def quotientJ (gv fv : K) : XF K :=
  if fv < 1 then .fin ((1 - gv) / (1 - fv)) else if gv < 1 then .pinf else .nan

theorem hazard_eq (gv fv : K) (hg : gv ≤ 1) (hf : fv ≤ 1) : hazard (.fin gv) (.fin fv) = quotientJ gv fv := by
  unfold hazard quotientJ
  by_cases h1 : fv < 1
  · have hne : ¬ (1 - fv = 0) := by intro h; linarith
    have : ¬ fv = 1 := h1.ne
    simp only [XF.eq, this, decide_false, Bool.and_false, Bool.false_eq_true, if_false, XF.sub, XF.div, if_neg hne, if_pos h1]
  · have hf1 : fv = 1 := le_antisymm hf (not_lt.1 h1)
    subst hf1
    by_cases h2 : gv < 1
    · have : ¬ gv = 1 := h2.ne
      have h3 : ¬ (1 - gv = 0) := by intro h; linarith
      have h4 : 0 < 1 - gv := by linarith
      simp [XF.eq, this, XF.sub, XF.div, h2, h4]
    · have hg1 : gv = 1 := le_antisymm hg (not_lt.1 h2)
      subst hg1
      simp [XF.eq]

theorem liftPy_ok {α : Type} {x : Py α} {p : ℕ} {a : α} {q : ℕ} (hx : liftPy x p = some (.ok (a, q))) :
    x = .ok a ∧ p = q := by
  unfold liftPy at hx
  cases x with
  | error e => cases hx
  | ok b =>
    change some (Except.ok (b, p)) = _ at hx
    injection hx with hx
    injection hx with hx
    injection hx with h1 h2
    exact ⟨by rw [h1], h2⟩

theorem j_parts {lib : Lib K} {u : ℕ → K} {allclose : List K → List K → Bool}
    {interp : List K → List (XF K) → List K → Py (List (XF K))}
    {coordinates : List (K × K)} {support : SupportArg K} {distances : Option (DistArg K × DistArg K)}
    {metric : MetricArg} {hull : HullArg K} {edge truncate : Bool} {fuel pos : ℕ} {r : List K × List (XF K)} {pos' : ℕ} :
    j lib u allclose interp coordinates support distances metric hull edge truncate fuel pos = some (.ok (r, pos')) ↔
    ∃ fres gres gres' fres', f lib u coordinates support (fPart distances) metric hull edge fuel pos = some (.ok (fres, pos'))
      ∧ g lib coordinates support (gPart distances) metric edge = .ok gres
      ∧ alignG allclose interp support gres = .ok gres'
      ∧ alignF allclose interp gres' fres = .ok fres'
      ∧ jEnd truncate gres' fres' = .ok r := by
  unfold j
  rw [Run.andThen_ok]
  constructor
  · rintro ⟨fres, p1, hf, h0⟩
    obtain ⟨h, rfl⟩ := liftPy_ok h0
    cases hg : g lib coordinates support (gPart distances) metric edge with
    | error e => rw [hg] at h; cases h
    | ok gres =>
      rw [hg] at h
      change (do let gres ← alignG allclose interp support gres; let fres ← alignF allclose interp gres fres
                 jEnd truncate gres fres : Py _) = _ at h
      cases hA : alignG allclose interp support gres with
      | error e => rw [hA] at h; cases h
      | ok gres' =>
        rw [hA] at h
        change (do let fres ← alignF allclose interp gres' fres; jEnd truncate gres' fres : Py _) = _ at h
        cases hB : alignF allclose interp gres' fres with
        | error e => rw [hB] at h; cases h
        | ok fres' =>
          rw [hB] at h
          exact ⟨fres, gres, gres', fres', hf, rfl, hA, hB, h⟩
  · rintro ⟨fres, gres, gres', fres', hf, hg, hA, hB, hr⟩
    refine ⟨fres, pos', hf, ?_⟩
    rw [hg]
    change liftPy (do let gres ← alignG allclose interp support gres; let fres ← alignF allclose interp gres fres
                      jEnd truncate gres fres : Py _) _ = _
    rw [hA]
    change liftPy (do let fres ← alignF allclose interp gres' fres; jEnd truncate gres' fres : Py _) _ = _
    rw [hB]
    change liftPy (jEnd truncate gres' fres') _ = _
    rw [hr]
    rfl

theorem j_ok {lib : Lib K} {u : ℕ → K} {allclose : List K → List K → Bool}
    {interp : List K → List (XF K) → List K → Py (List (XF K))} (hclose : ∀ s, allclose s s = true)
    {coordinates : List (K × K)} {support : SupportArg K}
    {distances : Option (DistArg K × DistArg K)} (hboth : (gPart distances).isNone = (fPart distances).isNone)
    {metric : MetricArg} {hull : HullArg K} {edge truncate : Bool} {fuel pos : ℕ} {r : List K × List (XF K)} {pos' : ℕ}
    (h : j lib u allclose interp coordinates support distances metric hull edge truncate fuel pos = some (.ok (r, pos'))) :
    ∃ s gv fv, g lib coordinates support (gPart distances) metric edge = .ok (s, gv)
      ∧ f lib u coordinates support (fPart distances) metric hull edge fuel pos = some (.ok ((s, fv), pos'))
      ∧ jEnd truncate (s, gv) (s, fv) = .ok r := by
  obtain ⟨fres, gres, gres', fres', hf, hg, hA, hB, hr⟩ := j_parts.1 h
  obtain ⟨pg, dg, hpg, _, hsg⟩ := g_ok hg
  obtain ⟨pf, hpf, hf1, hf2⟩ := f_ok hf
  have hfs : fres.1 = pf.support := by
    by_cases hd : fPart distances = .none
    · obtain ⟨_, _, _, _, hs⟩ := hf1 hd
      exact (shares_support hs).1
    · obtain ⟨_, _, hs⟩ := hf2 hd
      exact (shares_support hs).1
  have hgs : gres.1 = pg.support := (shares_support hsg).1
  obtain ⟨_, _, m1, hm1, hm1', hs1⟩ := prepare_ok hpg
  obtain ⟨_, _, m2, hm2, hm2', hs2⟩ := prepare_ok hpf
  have hmm : pg.metric = pf.metric := by
    rw [hm1] at hm2
    injection hm2 with hm2
    rw [hm1', hm2', hm2, hboth]
  rw [hmm, hs2] at hs1
  have hsup : gres.1 = fres.1 := by
    rw [hgs, hfs]
    injection hs1 with hs1
    injection hs1 with hs1 _
    exact hs1.symm
  have key : gres' = gres := by
    unfold alignG at hA
    split at hA
    · next s =>
      have : gres.1 = s := by
        unfold resolveSupport at hs2
        simp only at hs2
        injection hs2 with hs2
        injection hs2 with hs2 _
        rw [hsup, hfs, ← hs2]
      rw [this, if_pos (hclose s)] at hA
      injection hA with hA
      exact hA.symm
    · injection hA with hA
      exact hA.symm
  subst key
  unfold alignF at hB
  rw [← hsup, if_pos (hclose _)] at hB
  injection hB with hB
  subst hB
  refine ⟨gres'.1, gres'.2, fres.2, hg, ?_, ?_⟩
  · rw [hf, hsup]
  · rw [← hr]
    unfold jEnd
    rfl

/-- **C60, values.** When `j` returns without truncation, its support is that of `g` and `f` on the same arguments, and every
value is the quotient `(1 - G) / (1 - F)` at the same distance where G and F are at most one; where one of them is undefined,
so is J. (The distances are given for both or for neither; `numpy.allclose` holds of equal arrays.) -/
theorem C60_j (lib : Lib K) (u : ℕ → K) (allclose : List K → List K → Bool)
    (interp : List K → List (XF K) → List K → Py (List (XF K))) (hclose : ∀ s, allclose s s = true)
    (coordinates : List (K × K)) (support : SupportArg K) (distances : Option (DistArg K × DistArg K)) (gd fd : DistArg K)
    (hd : (distances = none ∧ gd = .none ∧ fd = .none) ∨ (distances = some (gd, fd) ∧ gd.isNone = fd.isNone))
    (metric : MetricArg) (hull : HullArg K) (edge : Bool) (pos pos' : ℕ) (s : List K) (v : List (XF K))
    (h : Returns (fun fuel => j lib u allclose interp coordinates support distances metric hull edge false fuel pos)
      (.ok ((s, v), pos'))) :
    ∃ gv fv, g lib coordinates support gd metric edge = .ok (s, gv)
      ∧ Returns (fun fuel => f lib u coordinates support fd metric hull edge fuel pos) (.ok ((s, fv), pos'))
      ∧ (s ≠ [] → v.length = s.length)
      ∧ (∀ (i : ℕ) a b, gv[i]? = some (.fin a) → fv[i]? = some (.fin b) → a ≤ 1 → b ≤ 1 → v[i]? = some (quotientJ a b))
      ∧ (∀ (i : ℕ) x y, gv[i]? = some x → fv[i]? = some y → x = .nan ∨ y = .nan → v[i]? = some .nan) := by
  obtain ⟨fuel, h⟩ := h
  have hgf : gPart distances = gd ∧ fPart distances = fd ∧ gd.isNone = fd.isNone := by
    rcases hd with ⟨rfl, rfl, rfl⟩ | ⟨rfl, hd⟩
    · exact ⟨rfl, rfl, rfl⟩
    · exact ⟨rfl, rfl, hd⟩
  obtain ⟨s', gv, fv, hg, hf, hr⟩ := j_ok hclose (by rw [hgf.1, hgf.2.1, hgf.2.2]) h
  rw [hgf.1] at hg
  rw [hgf.2.1] at hf
  unfold jEnd at hr
  rw [if_neg (by simp)] at hr
  injection hr with hr
  injection hr with h1 h2
  simp only at h1 h2
  rw [h1] at hg hf
  subst h2
  refine ⟨gv, fv, hg, ⟨fuel, hf⟩, ?_, ?_, ?_⟩
  · intro hne
    obtain ⟨_, _, _, _, hsg⟩ := g_ok hg
    obtain ⟨e1, e2⟩ := shares_support hsg
    obtain ⟨pf, hpf, hf1, hf2⟩ := f_ok hf
    have hlf : fv.length = s.length := by
      by_cases hd : fd = .none
      · obtain ⟨_, _, _, _, hs⟩ := hf1 hd
        obtain ⟨e3, e4⟩ := shares_support hs
        simp only at e3 e4
        rw [← e3] at e4
        exact e4 hne
      · obtain ⟨_, _, hs⟩ := hf2 hd
        obtain ⟨e3, e4⟩ := shares_support hs
        simp only at e3 e4
        rw [← e3] at e4
        exact e4 hne
    simp only at e1 e2
    rw [← e1] at e2
    rw [List.length_zipWith, e2 hne, hlf, min_self]
  · intro i a b ha hb h1 h2
    rw [List.getElem?_zipWith, ha, hb]
    simp only [hazard_eq a b h1 h2]
  · intro i x y hx hy hn
    rw [List.getElem?_zipWith, hx, hy]
    simp only [Option.some.injEq]
    rcases hn with rfl | rfl
    · simp [hazard, XF.eq, XF.sub, XF.div]
    · cases x <;> simp [hazard, XF.eq, XF.sub, XF.div]

/-- **C60, truncation.** With truncation `j` returns what it returns without, cut before the first value that is not finite:
the support and the values are cut at the same place, all values left are finite, and the cut is not made earlier than
necessary. -/
theorem C60_j_truncate (lib : Lib K) (u : ℕ → K) (allclose : List K → List K → Bool)
    (interp : List K → List (XF K) → List K → Py (List (XF K))) (coordinates : List (K × K)) (support : SupportArg K)
    (distances : Option (DistArg K × DistArg K)) (metric : MetricArg) (hull : HullArg K) (edge : Bool) (pos pos' : ℕ)
    (s' : List K) (v' : List (XF K))
    (h : Returns (fun fuel => j lib u allclose interp coordinates support distances metric hull edge true fuel pos)
      (.ok ((s', v'), pos'))) :
    ∃ s v n, Returns (fun fuel => j lib u allclose interp coordinates support distances metric hull edge false fuel pos)
        (.ok ((s, v), pos'))
      ∧ s' = s.take n ∧ v' = v.take n
      ∧ (∀ x ∈ v', ∃ a, x = .fin a)
      ∧ (v' = v ∧ s' = s ∨ ∃ x, v[n]? = some x ∧ ∀ a, x ≠ .fin a) := by
  obtain ⟨fuel, h⟩ := h
  have : ∃ r, j lib u allclose interp coordinates support distances metric hull edge false fuel pos = some (.ok (r, pos'))
      ∧ (s', v') = truncate2 r.1 r.2 := by
    obtain ⟨fres, gres, gres', fres', hf, hg, hA, hB, hr⟩ := j_parts.1 h
    refine ⟨_, j_parts.2 ⟨fres, gres, gres', fres', hf, hg, hA, hB, rfl⟩, ?_⟩
    unfold jEnd at hr
    rw [if_pos rfl] at hr
    simp only at hr
    split at hr
    · cases hr
    · injection hr with hr
      exact hr.symm
  obtain ⟨⟨s, v⟩, hr, ht⟩ := this
  unfold truncate2 at ht
  simp only at ht
  split at ht
  · next hany =>
    injection ht with h1 h2
    refine ⟨s, v, firstInvalid v, ⟨fuel, hr⟩, h1, h2, ?_, ?_⟩
    · intro x hx
      unfold firstInvalid at h2
      rw [if_pos hany] at h2
      subst h2
      obtain ⟨i, hi⟩ := List.mem_iff_getElem?.1 hx
      rw [List.getElem?_take] at hi
      split at hi
      · next hlt =>
        have := List.not_of_lt_findIdx hlt
        have hil : i < v.length := (List.getElem?_eq_some_iff.1 hi).1
        rw [List.getElem?_eq_getElem hil] at hi
        injection hi with hi
        rw [hi] at this
        cases x with
        | fin a => exact ⟨a, rfl⟩
        | _ => simp [XF.isfinite] at this
      · cases hi
    · right
      unfold firstInvalid
      rw [if_pos hany]
      have hlt : v.findIdx (fun v => !v.isfinite) < v.length := by
        rw [List.findIdx_lt_length]
        simpa using hany
      refine ⟨_, List.getElem?_eq_getElem hlt, ?_⟩
      intro a ha
      have := List.findIdx_getElem (w := hlt)
      rw [ha] at this
      simp [XF.isfinite] at this
  · next hany =>
    injection ht with h1 h2
    refine ⟨s, v, max s.length v.length, ⟨fuel, hr⟩, ?_, ?_, ?_, Or.inl ⟨h2, h1⟩⟩
    · rw [h1, List.take_of_length_le (le_max_left _ _)]
    · rw [h2, List.take_of_length_le (le_max_right _ _)]
    · intro x hx
      rw [h2] at hx
      have : x.isfinite = true := by
        by_contra hc
        apply hany
        rw [List.any_eq_true]
        exact ⟨x, hx, by simpa using hc⟩
      cases x with
      | fin a => exact ⟨a, rfl⟩
      | _ => simp [XF.isfinite] at this

example : (j sortLib (fun _ => 0) (fun a b => decide (a = b)) (fun _ _ _ => .error .valueError) line3 (.array [0, 1, 2, 3])
      (some (.vec [1, 1, 3], .vec [1/2, 1, 2, 2])) (.metric (.name "euclidean")) .none false false 0 0
      = some (.ok (([0, 1, 2, 3], [.fin 1, .fin (4/3), .fin (2/3), .nan]), 0)))
    ∧ j sortLib (fun _ => 0) (fun a b => decide (a = b)) (fun _ _ _ => .error .valueError) line3 (.array [0, 1, 2, 3])
      (some (.vec [1, 1, 3], .vec [1/2, 1, 2, 2])) (.metric (.name "euclidean")) .none false true 0 0
      = some (.ok (([0, 1, 2], [.fin 1, .fin (4/3), .fin (2/3)]), 0)) := by
  constructor <;> decide +kernel

/-! ### C61 -/

omit [FloorRing K] [IsStrictOrderedRing K] in
theorem pairDistances_eq (d : K × K → K × K → K) (l : List (K × K)) : DistStats.pdist d l = pairDistances d l := by
  induction l with
  | nil => rfl
  | cons p ps ih => rw [DistStats.pdist, pairDistances, ih]

omit [FloorRing K] [IsStrictOrderedRing K] in
private theorem range_filter_length (c : List (K × K)) (q : K × K → Bool) :
    ((List.range c.length).filter fun j => q (c.getD j (0, 0))).length = (c.filter q).length := by
  induction c with
  | nil => rfl
  | cons a l ih =>
    rw [List.length_cons, List.range_succ_eq_map, List.filter_cons, List.filter_map, List.filter_cons]
    have e : ((fun j => q ((a :: l).getD j (0, 0))) ∘ Nat.succ) = fun j => q (l.getD j (0, 0)) := by
      funext j; simp
    rw [e]
    simp only [List.getD_cons_zero]
    split <;> simp only [List.length_cons, List.length_map, ih]

omit [FloorRing K] [IsStrictOrderedRing K] in
private theorem row_length (p : K × K) (ps : List (K × K)) (dist : K × K → K × K → K) (r : K) (i : ℕ) :
    ((List.range (ps.length + 1)).filter fun j =>
      decide (j ≠ i + 1 ∧ dist ((p :: ps).getD (i + 1) (0, 0)) ((p :: ps).getD j (0, 0)) < r)).length
    = (if dist (ps.getD i (0, 0)) p < r then 1 else 0)
      + ((List.range ps.length).filter fun j =>
          decide (j ≠ i ∧ dist (ps.getD i (0, 0)) (ps.getD j (0, 0)) < r)).length := by
  rw [List.range_succ_eq_map, List.filter_cons, List.filter_map]
  have e : ((fun j => decide (j ≠ i + 1 ∧ dist ((p :: ps).getD (i + 1) (0, 0)) ((p :: ps).getD j (0, 0)) < r)) ∘ Nat.succ)
      = fun j => decide (j ≠ i ∧ dist (ps.getD i (0, 0)) (ps.getD j (0, 0)) < r) := by
    funext j; simp
  rw [e]
  have e0 : (0 ≠ i + 1 ∧ dist ((p :: ps).getD (i + 1) (0, 0)) ((p :: ps).getD 0 (0, 0)) < r)
      ↔ dist (ps.getD i (0, 0)) p < r := by simp
  simp only [e0, decide_eq_true_eq]
  split <;> simp [Nat.add_comm]

omit [FloorRing K] [IsStrictOrderedRing K] in
private theorem sum_ones (l : List ℕ) (c : ℕ → Prop) [DecidablePred c] :
    (l.map fun i => if c i then 1 else 0).sum = (l.filter fun i => decide (c i)).length := by
  induction l with
  | nil => rfl
  | cons a l ih => rw [List.map_cons, List.sum_cons, ih, List.filter_cons]; by_cases h : c a <;> simp [h, Nat.add_comm]

omit [FloorRing K] [IsStrictOrderedRing K] in
/-- Every unordered pair below `r` is two ordered pairs. -/
theorem orderedPairsBelow_eq (dist : K × K → K × K → K) (hsym : ∀ p q, dist p q = dist q p) (l : List (K × K)) (r : K) :
    orderedPairsBelow dist l r = 2 * ((pairDistances dist l).filter fun x => decide (x < r)).length := by
  induction l with
  | nil => rfl
  | cons p ps ih =>
    unfold orderedPairsBelow at ih ⊢
    rw [List.length_flatMap] at ih ⊢
    rw [List.length_cons]
    rw [List.range_succ_eq_map, List.map_cons, List.sum_cons, List.map_map, ← List.range_succ_eq_map]
    have h1 : ((fun i => ((List.range (ps.length + 1)).filter fun j =>
        decide (j ≠ i ∧ dist ((p :: ps).getD i (0, 0)) ((p :: ps).getD j (0, 0)) < r)).length) ∘ Nat.succ)
        = fun i => (if dist (ps.getD i (0, 0)) p < r then 1 else 0)
          + ((List.range ps.length).filter fun j =>
              decide (j ≠ i ∧ dist (ps.getD i (0, 0)) (ps.getD j (0, 0)) < r)).length := by
      funext i
      exact row_length p ps dist r i
    rw [h1, List.sum_map_add, ih, sum_ones]
    have h0 : ((List.range (ps.length + 1)).filter fun j =>
        decide (j ≠ 0 ∧ dist ((p :: ps).getD 0 (0, 0)) ((p :: ps).getD j (0, 0)) < r)).length
        = (ps.filter fun q => decide (dist p q < r)).length := by
      rw [List.range_succ_eq_map, List.filter_cons, List.filter_map]
      have e : ((fun j => decide (j ≠ 0 ∧ dist ((p :: ps).getD 0 (0, 0)) ((p :: ps).getD j (0, 0)) < r)) ∘ Nat.succ)
          = fun j => decide (dist p (ps.getD j (0, 0)) < r) := by
        funext j; simp
      rw [e, ← range_filter_length ps fun q => decide (dist p q < r)]
      simp
    have h2 : ((List.range ps.length).filter fun i => decide (dist (ps.getD i (0, 0)) p < r)).length
        = (ps.filter fun q => decide (dist p q < r)).length := by
      rw [range_filter_length ps fun q => decide (dist q p < r)]
      simp only [hsym _ p]
    rw [h0, h2, pairDistances, List.filter_append, List.length_append, List.filter_map, List.length_map]
    have e3 : ((fun x => decide (x < r)) ∘ dist p) = fun q => decide (dist p q < r) := rfl
    rw [e3]
    ring

/-- The normalised pair count: area of the bounding box over the square of the number of events, times the number of ordered
pairs at distance below `d`. -/
def ripleyK (dist : K × K → K × K → K) (events : List (K × K)) (b : BBox K) (d : K) : K :=
  (b.xmax - b.xmin) * (b.ymax - b.ymin) / (events.length : K) ^ 2 * (orderedPairsBelow dist events d : K)

omit [FloorRing K] in
private theorem area_of_smallest {events : List (K × K)} (hne : events ≠ []) {b : BBox K} (hb : IsSmallestBox events b) :
    areaBBox b = (b.xmax - b.xmin) * (b.ymax - b.ymin) ∧ 0 ≤ (b.xmax - b.xmin) * (b.ymax - b.ymin) := by
  obtain ⟨p, hp⟩ := List.exists_mem_of_ne_nil events hne
  obtain ⟨h1, h2, h3, h4⟩ := hb.1 p hp
  have : 0 ≤ (b.xmax - b.xmin) * (b.ymax - b.ymin) :=
    mul_nonneg (sub_nonneg.2 (le_trans h1 h2)) (sub_nonneg.2 (le_trans h3 h4))
  exact ⟨abs_of_nonneg this, this⟩

omit [FloorRing K] in
/-- The value of K for a list of distances of which `c` are below the support value. -/
private theorem kValue (n c : ℕ) (hn : n ≠ 0) (A : K) :
    XF.div (.fin ((c : K) * 2 / (n : K))) (XF.div (.fin (n : K)) (.fin A)) = .fin (A / (n : K) ^ 2 * ((2 * c : ℕ) : K)) := by
  have hn' : (n : K) ≠ 0 := by exact_mod_cast hn
  have hpos : (0 : K) < n := by exact_mod_cast Nat.pos_of_ne_zero hn
  by_cases hA : A = 0
  · subst hA
    simp [XF.div, hpos]
  · have h1 : XF.div (.fin (n : K)) (.fin A) = .fin ((n : K) / A) := by simp [XF.div, hA]
    have h2 : (n : K) / A ≠ 0 := div_ne_zero hn' hA
    rw [h1]
    simp only [XF.div, if_neg h2]
    congr 1
    push_cast
    field_simp

omit [FloorRing K] in
/-- What `k` computes from the distances it uses. -/
theorem k_value {lib : Lib K} {coordinates : List (K × K)} {support : SupportArg K} {distances : DistArg K} {m : Metric}
    {edge : Bool} {s : List K} {v : List (XF K)} (h : k lib coordinates support distances (.metric m) edge = .ok (s, v)) :
    coordinates ≠ [] ∧ edge = false
    ∧ resolveSupport lib (effective distances m) coordinates support = .ok (s, true)
    ∧ ∃ d, kDistances lib (effective distances m) coordinates distances = .ok d
      ∧ ∀ b, IsSmallestBox coordinates b →
          v = s.map fun t => .fin ((b.xmax - b.xmin) * (b.ymax - b.ymin) / (coordinates.length : K) ^ 2
            * ((2 * (d.filter fun x => decide (x < t)).length : ℕ) : K)) := by
  obtain ⟨p, d, hp, hd, ha, h1, h2⟩ := k_ok h
  obtain ⟨he, hh, m', hm, hm', hs⟩ := prepare_ok hp
  injection hm with hm
  subst hm
  have hmm : p.metric = effective distances m := by
    rw [hm']
    unfold effective
    cases distances.isNone <;> simp
  simp only at h1 h2
  rw [← h1, ha, hmm] at hs
  rw [hmm] at hd
  have hne : coordinates ≠ [] := by
    rintro rfl
    simp [prepareHull, bboxPts, Except.map] at hh
  refine ⟨hne, he, hs, d, hd, ?_⟩
  intro b hb
  have hbox := (C23_prepare_hull coordinates b hb hne).1
  rw [hbox] at hh
  injection hh with hh
  have harea : (lib.hullOf p.hull).area = (b.xmax - b.xmin) * (b.ymax - b.ymin) := by
    rw [← hh]
    exact (area_of_smallest hne hb).1
  rw [h2, ← h1]
  apply List.map_congr_left
  intro t _
  rw [harea]
  exact kValue _ _ (by simpa using hne) _

omit [FloorRing K] in
/-- **C61, value.** When `k` returns, its values are the normalised pair counts at the distances of its support: for the bounding
box `b` of the events, `area(b) / n²` times the number of ordered pairs of events at distance below `d`. -/
theorem C61_k (lib : Lib K) (coordinates : List (K × K)) (support : SupportArg K) (m : Metric) (edge : Bool)
    (hsym : ∀ p q, lib.pdist m p q = lib.pdist m q p) (b : BBox K) (hb : IsSmallestBox coordinates b)
    (s : List K) (v : List (XF K)) (h : k lib coordinates support .none (.metric m) edge = .ok (s, v)) :
    v = s.map fun d => .fin (ripleyK (lib.pdist m) coordinates b d) := by
  obtain ⟨hne, _, _, d, hd, hv⟩ := k_value h
  rw [hv b hb]
  have he : effective (K := K) .none m = m := rfl
  rw [he] at hd
  unfold kDistances at hd
  simp only at hd
  injection hd with hd
  apply List.map_congr_left
  intro t _
  unfold ripleyK
  rw [orderedPairsBelow_eq _ hsym, ← hd, pairDistances_eq]

omit [FloorRing K] in
/-- **C61, returns.** On one or more events, for a metric name or callable other than "precomputed", `k` returns for every array
of distances. -/
theorem C61_k_returns (lib : Lib K) (coordinates : List (K × K)) (hne : coordinates ≠ []) (s : List K) (m : Metric)
    (hpre : m ≠ .name "precomputed") : ∃ v, k lib coordinates (.array s) .none (.metric m) false = .ok (s, v) := by
  obtain ⟨b, hb⟩ := bboxPts_ok hne
  have hh : prepareHull coordinates .none = .ok (.bboxOf b) := by simp only [prepareHull, hb]; rfl
  have hp : prepare lib coordinates (.array s) (!(DistArg.none : DistArg K).isNone) (.metric m) .none false
      = .ok ⟨s, true, m, .bboxOf b⟩ := by
    unfold prepare
    rw [if_neg (by simp), hh]
    change (if _ then _ else _) = _
    rw [if_neg (by simpa [DistArg.isNone] using hpre)]
    rfl
  unfold k
  rw [hp]
  exact ⟨_, rfl⟩

omit [FloorRing K] [IsStrictOrderedRing K] in
private theorem orderedPairsBelow_mono (dist : K × K → K × K → K) (l : List (K × K)) {r r' : K} (h : r ≤ r') :
    orderedPairsBelow dist l r ≤ orderedPairsBelow dist l r' := by
  unfold orderedPairsBelow
  rw [List.length_flatMap, List.length_flatMap]
  apply List.sum_le_sum
  intro i _
  apply List.Sublist.length_le
  apply List.monotone_filter_right
  intro j hj
  simp only [decide_eq_true_eq] at hj ⊢
  exact ⟨hj.1, lt_of_lt_of_le hj.2 h⟩

omit [FloorRing K] [IsStrictOrderedRing K] in
private theorem orderedPairsBelow_le (dist : K × K → K × K → K) (l : List (K × K)) (r : K) :
    orderedPairsBelow dist l r ≤ l.length * (l.length - 1) := by
  unfold orderedPairsBelow
  rw [List.length_flatMap]
  have : ∀ i ∈ List.range l.length, ((List.range l.length).filter fun j =>
      decide (j ≠ i ∧ dist (l.getD i (0, 0)) (l.getD j (0, 0)) < r)).length ≤ l.length - 1 := by
    intro i hi
    rw [List.mem_range] at hi
    rw [← length_others hi]
    apply List.Sublist.length_le
    unfold others
    apply List.monotone_filter_right
    intro j hj
    simp only [decide_eq_true_eq] at hj ⊢
    exact hj.1
  calc _ ≤ ((List.range l.length).map fun _ => l.length - 1).sum := List.sum_le_sum this
    _ = l.length * (l.length - 1) := by simp

omit [FloorRing K] in
/-- **C61, shape.** K does not decrease with the distance, it is zero at distances that are not positive, and between 0 and
`area * (n - 1) / n`. -/
theorem C61_k_shape (dist : K × K → K × K → K) (hnonneg : ∀ p q, 0 ≤ dist p q) (events : List (K × K)) (hne : events ≠ [])
    (b : BBox K) (hb : IsSmallestBox events b) :
    (∀ d d', d ≤ d' → ripleyK dist events b d ≤ ripleyK dist events b d')
    ∧ (∀ d, d ≤ 0 → ripleyK dist events b d = 0)
    ∧ ∀ d, 0 ≤ ripleyK dist events b d
        ∧ ripleyK dist events b d
            ≤ (b.xmax - b.xmin) * (b.ymax - b.ymin) * ((events.length : K) - 1) / (events.length : K) := by
  obtain ⟨_, hA⟩ := area_of_smallest hne hb
  have hn : 0 < events.length := List.length_pos_iff.2 hne
  have hnK : (0 : K) < (events.length : K) := by exact_mod_cast hn
  have hc : 0 ≤ (b.xmax - b.xmin) * (b.ymax - b.ymin) / (events.length : K) ^ 2 := by positivity
  refine ⟨?_, ?_, ?_⟩
  · intro d d' h
    unfold ripleyK
    apply mul_le_mul_of_nonneg_left _ hc
    exact_mod_cast orderedPairsBelow_mono dist events h
  · intro d hd
    unfold ripleyK
    have : orderedPairsBelow dist events d = 0 := by
      unfold orderedPairsBelow
      rw [List.length_eq_zero_iff, List.flatMap_eq_nil_iff]
      intro i _
      rw [List.filter_eq_nil_iff]
      intro j _
      simp only [decide_eq_true_eq, not_and, not_lt]
      intro _
      exact le_trans hd (hnonneg _ _)
    rw [this]
    simp
  · intro d
    unfold ripleyK
    refine ⟨by positivity, ?_⟩
    have hle : (orderedPairsBelow dist events d : K) ≤ (events.length : K) * ((events.length : K) - 1) := by
      have := orderedPairsBelow_le dist events d
      have h2 : ((events.length * (events.length - 1) : ℕ) : K) = (events.length : K) * ((events.length : K) - 1) := by
        rw [Nat.cast_mul, Nat.cast_sub (by omega)]; simp
      rw [← h2]
      exact_mod_cast this
    calc _ ≤ (b.xmax - b.xmin) * (b.ymax - b.ymin) / (events.length : K) ^ 2
          * ((events.length : K) * ((events.length : K) - 1)) := mul_le_mul_of_nonneg_left hle hc
      _ = _ := by field_simp

omit [FloorRing K] [IsStrictOrderedRing K] in
theorem pairDistances_perm (dist : K × K → K × K → K) (hsym : ∀ p q, dist p q = dist q p) {l l' : List (K × K)}
    (h : l.Perm l') : (pairDistances dist l).Perm (pairDistances dist l') := by
  induction h with
  | nil => exact List.Perm.refl _
  | cons p h ih =>
    rw [pairDistances, pairDistances]
    exact (h.map _).append ih
  | swap p q l =>
    simp only [pairDistances, List.map_cons, List.cons_append, hsym q p]
    apply List.Perm.cons
    rw [← List.append_assoc, ← List.append_assoc]
    exact List.perm_append_comm.append_right _
  | trans _ _ ih1 ih2 => exact ih1.trans ih2

omit [FloorRing K] in
/-- **C61, order.** Listing the events in another order does not change K at any distance. -/
theorem C61_k_order (lib : Lib K) (coordinates coordinates' : List (K × K)) (hperm : coordinates.Perm coordinates')
    (support support' : SupportArg K) (m : Metric) (edge : Bool) (hsym : ∀ p q, lib.pdist m p q = lib.pdist m q p)
    (s : List K) (v v' : List (XF K)) (h : k lib coordinates support .none (.metric m) edge = .ok (s, v))
    (h' : k lib coordinates' support' .none (.metric m) edge = .ok (s, v')) : v = v' := by
  obtain ⟨hne, _⟩ := k_value h
  obtain ⟨b, _, hb, _⟩ := (C19_bbox_smallest coordinates).2 hne
  have hb' : IsSmallestBox coordinates' b := by
    refine ⟨fun p hp => hb.1 p (hperm.mem_iff.2 hp), fun b' h1 => hb.2 b' fun p hp => h1 p (hperm.mem_iff.1 hp)⟩
  rw [C61_k lib coordinates support m edge hsym b hb s v h, C61_k lib coordinates' support' m edge hsym b hb' s v' h']
  apply List.map_congr_left
  intro d _
  unfold ripleyK
  rw [orderedPairsBelow_eq _ hsym, orderedPairsBelow_eq _ hsym, hperm.length_eq,
    ((pairDistances_perm _ hsym hperm).filter _).length_eq]

omit [FloorRing K] [IsStrictOrderedRing K] in
private theorem triu_matrix (d : K × K → K × K → K) (pre l : List (K × K)) :
    ((l.map fun p => (pre ++ l).map (d p)).zipIdx pre.length).flatMap (fun r => r.1.drop (r.2 + 1)) = pairDistances d l := by
  induction l generalizing pre with
  | nil => rfl
  | cons p ps ih =>
    rw [List.map_cons, List.zipIdx_cons, List.flatMap_cons, pairDistances]
    have h1 : ((pre ++ p :: ps).map (d p)).drop (pre.length + 1) = ps.map (d p) := by
      rw [← List.map_drop]
      congr 1
      rw [List.drop_append]
      simp
    have h2 := ih (pre ++ [p])
    simp only [List.append_assoc, List.singleton_append, List.length_append, List.length_singleton] at h2
    rw [h1, h2]

omit [FloorRing K] in
/-- **C61, given distances.** With the distances of the unordered pairs given as an array (in any order), or all distances as a
matrix, `k` returns the same as when it computes them (for supports that are arrays or tuples, or the Euclidean metric). -/
theorem C61_k_given (lib : Lib K) (coordinates : List (K × K)) (support : SupportArg K) (m : Metric)
    (hm : m = .name "euclidean" ∨ (support ≠ .none ∧ ∀ n, support ≠ .int n)) (edge : Bool)
    (vec : List K) (hvec : vec.Perm (pairDistances (lib.pdist m) coordinates)) (s : List K) (v : List (XF K))
    (h : k lib coordinates support .none (.metric m) edge = .ok (s, v)) :
    k lib coordinates support (.vec vec) (.metric m) edge = .ok (s, v)
    ∧ k lib coordinates support (.mat coordinates.length (distanceMatrix (lib.pdist m) coordinates)) (.metric m) edge
        = .ok (s, v) := by
  obtain ⟨p, d, hp, hd, ha, h1, h2⟩ := k_ok h
  obtain ⟨he, hh, m', hm', hpm, hs⟩ := prepare_ok hp
  injection hm' with hm'
  subst hm'
  have hpm' : p.metric = m := hpm
  have hres : resolveSupport lib (.name "euclidean") coordinates support = .ok (p.support, p.isArray) := by
    rcases hm with rfl | ⟨h3, h4⟩
    · rw [← hpm']; exact hs
    · rw [← hs]
      cases support with
      | none => exact absurd rfl h3
      | int n => exact absurd rfl (h4 n)
      | _ => rfl
  have hprep : prepare lib coordinates support true (.metric m) .none edge
      = .ok ⟨p.support, p.isArray, .name "euclidean", p.hull⟩ := by
    unfold prepare
    rw [if_neg (by simp [he]), hh]
    simp only [bind, Except.bind, Bool.not_true, Bool.false_and, Bool.false_eq_true, if_false, if_true, hres, pure,
      Except.pure]
  rw [hpm'] at hd
  unfold kDistances at hd
  simp only at hd
  injection hd with hd
  rw [pairDistances_eq] at hd
  have hlen : ∀ l : List (K × K), 2 * (pairDistances (lib.pdist m) l).length = l.length * (l.length - 1) := by
    intro l
    induction l with
    | nil => rfl
    | cons a l ih =>
      rw [pairDistances, List.length_append, List.length_map, Nat.mul_add, ih, List.length_cons]
      cases l.length with
      | zero => rfl
      | succ n => simp; ring
  have finish : ∀ (distances : DistArg K) (d' : List K), distances.isNone = false →
      kDistances lib (.name "euclidean") coordinates distances = .ok d' → d'.Perm d →
      k lib coordinates support distances (.metric m) edge = .ok (s, v) := by
    intro distances d' hn hkd hperm
    unfold k
    rw [hn]
    change (do let p ← prepare lib coordinates support true (.metric m) .none edge; _) = _
    rw [hprep]
    change (do let upper_tri_distances ← kDistances lib (.name "euclidean") coordinates distances; _) = _
    rw [hkd]
    change (if (!p.isArray) = true then _ else _) = _
    rw [if_neg (by simp [ha])]
    simp only at h1 h2
    rw [h1, h2]
    show Except.ok _ = Except.ok _
    congr 2
    apply List.map_congr_left
    intro t _
    rw [(hperm.filter _).length_eq]
  constructor
  · apply finish (.vec vec) vec rfl
    · unfold kDistances
      simp only
      rw [if_pos (by rw [hvec.length_eq, hlen])]
    · rw [← hd]; exact hvec
  · apply finish (.mat coordinates.length (distanceMatrix (lib.pdist m) coordinates)) d rfl
    · unfold kDistances
      simp only
      rw [if_pos ⟨by simp [distanceMatrix], trivial⟩]
      congr 1
      rw [← hd]
      have := triu_matrix (lib.pdist m) [] coordinates
      simp only [List.nil_append, List.length_nil] at this
      rw [← this]
      unfold triu distanceMatrix
      rw [List.flatMap_def]
    · exact List.Perm.refl _

/-- Three events in a 4 by 2 box. -/
def triangle3 : List (ℚ × ℚ) := [(0, 0), (1, 0), (4, 2)]

example : (k sortLib triangle3 (.array [0, 1, 2, 6]) .none (.metric (.name "euclidean")) false
    = .ok ([0, 1, 2, 6], [.fin 0, .fin 0, .fin (16/9), .fin (32/9)]))
    ∧ k sortLib triangle3 (.array [0, 1, 2, 6]) (.vec [6, 1, 5]) (.metric (.name "euclidean")) false
      = .ok ([0, 1, 2, 6], [.fin 0, .fin 0, .fin (16/9), .fin (32/9)]) := by
  constructor <;> decide +kernel

/-! ### C62 -/

/-- **C62.** `l` fails exactly as `k` does; when it returns, its support is that of `k`, and its value at distance `d` is
`sqrt(K(d) / π)`, minus `d` if linearized, for K the normalised pair count. Not linearized it is not negative and does not
decrease with the distance. -/
theorem C62_l (lib : Lib ℝ) (coordinates : List (ℝ × ℝ)) (support : SupportArg ℝ) (m : Metric) (edge linearized : Bool)
    (hdist : IsDistance (lib.pdist m)) (b : BBox ℝ) (hb : IsSmallestBox coordinates b) :
    (∀ e, l lib Real.sqrt Real.pi coordinates support .none (.metric m) edge linearized = .error e
        ↔ k lib coordinates support .none (.metric m) edge = .error e)
    ∧ ∀ s v, l lib Real.sqrt Real.pi coordinates support .none (.metric m) edge linearized = .ok (s, v) →
      v = s.map (fun d => .fin (Real.sqrt (ripleyK (lib.pdist m) coordinates b d / Real.pi)
        - if linearized then d else 0))
      ∧ ∀ d d', d ≤ d' → 0 ≤ Real.sqrt (ripleyK (lib.pdist m) coordinates b d / Real.pi)
        ∧ Real.sqrt (ripleyK (lib.pdist m) coordinates b d / Real.pi)
          ≤ Real.sqrt (ripleyK (lib.pdist m) coordinates b d' / Real.pi) := by
  unfold l
  cases hk : k lib coordinates support .none (.metric m) edge with
  | error e =>
    refine ⟨fun e' => ?_, fun s v h => by cases h⟩
    exact Iff.rfl
  | ok r =>
    refine ⟨fun e' => ⟨fun h => (by cases h), fun h => (by cases h)⟩, fun s v h => ?_⟩
    change Except.ok _ = Except.ok _ at h
    injection h with h
    injection h with h1 h2
    subst h1
    have hv := C61_k lib coordinates support m edge hdist.symm b hb r.1 r.2 hk
    obtain ⟨hne, _⟩ := k_value (s := r.1) (v := r.2) hk
    obtain ⟨hmono, _, _⟩ := C61_k_shape (lib.pdist m) hdist.nonneg coordinates hne b hb
    refine ⟨?_, fun d d' hd => ⟨Real.sqrt_nonneg _, ?_⟩⟩
    · rw [← h2, hv]
      cases linearized with
      | false =>
        simp [Function.comp_def, lTransform]
      | true =>
        rw [if_pos rfl, List.map_map]
        clear hv h2 hk hmono
        induction r.1 with
        | nil => rfl
        | cons a l ih =>
          simp only [List.map_cons, List.zipWith_cons_cons, ih]
          simp [lTransform, XF.sub]
    · exact Real.sqrt_le_sqrt (div_le_div_of_nonneg_right (hmono d d' hd) Real.pi_pos.le)

/-- A library over the real numbers with the Manhattan distance. -/
noncomputable def realLib : Lib ℝ where
  hasSklearn := false
  kdMetrics := []
  ballMetrics := []
  query := fun _ _ _ _ => .error .valueError
  pdist := fun _ p q => |p.1 - q.1| + |p.2 - q.2|
  hull := fun _ => Hull.ofBBox ⟨0, 0, 1, 1⟩

example : IsDistance (realLib.pdist (.name "euclidean"))
    ∧ (∃ b, IsSmallestBox [((0 : ℝ), (0 : ℝ)), (1, 0), (4, 2)] b)
    ∧ ∃ s v, l realLib Real.sqrt Real.pi [(0, 0), (1, 0), (4, 2)] (.array [0, 1, 2]) .none (.metric (.name "euclidean")) false
        true = .ok (s, v) := by
  refine ⟨⟨fun p q => ?_, fun p q => add_nonneg (abs_nonneg _) (abs_nonneg _)⟩, ?_, ?_⟩
  · show |p.1 - q.1| + |p.2 - q.2| = |q.1 - p.1| + |q.2 - p.2|
    rw [abs_sub_comm p.1, abs_sub_comm p.2]
  · obtain ⟨b, _, hb, _⟩ := (C19_bbox_smallest [((0 : ℝ), (0 : ℝ)), (1, 0), (4, 2)]).2 (by simp)
    exact ⟨b, hb⟩
  · obtain ⟨v, hv⟩ := C61_k_returns realLib [(0, 0), (1, 0), (4, 2)] (by simp) [0, 1, 2] (.name "euclidean") (by decide)
    have h : ∃ r, l realLib Real.sqrt Real.pi [(0, 0), (1, 0), (4, 2)] (.array [0, 1, 2]) .none
        (.metric (.name "euclidean")) false true = .ok r := by
      unfold l
      rw [hv]
      exact ⟨_, rfl⟩
    obtain ⟨⟨s, v⟩, h⟩ := h
    exact ⟨s, v, h⟩

end Pointpats.Props
