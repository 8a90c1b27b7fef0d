import Verif.Props.DistanceTests
import Verif.Props.Knn
import Verif.Props.Knox

/-!
# C140: functions that report the same quantity agree
-/

set_option linter.unusedSectionVars false

namespace Pointpats.Props

open DistStats Geometry Spec Spacetime

variable {K : Type} [Field K] [LinearOrder K] [IsStrictOrderedRing K] [FloorRing K]

omit [FloorRing K] [IsStrictOrderedRing K] in
private theorem pairDistances_pairs (d : K × K → K × K → K) (l : List (K × K)) :
    pairDistances d l = (pairs l).map fun p => d p.1 p.2 := by
  induction l with
  | nil => rfl
  | cons a l ih => simp [pairDistances, pairs, ih, List.map_map, Function.comp_def]

omit [FloorRing K] [IsStrictOrderedRing K] in
/-- The answer of the index has as many pairs as there are close pairs. -/
private theorem listsPairs_length (dist : K × K → K × K → K) (l : List (K × K)) (r : K) {out : List (ℕ × ℕ)}
    (h : ListsPairs l.length (fun i j => dist (l.getD i 0) (l.getD j 0) ≤ r) out) :
    out.length = closePairs (fun p q => dist p q ≤ r) l := by
  rw [h.perm.length_eq, closePairs_index _ l 0, List.countP_eq_length_filter]

/-- **C140, close pairs.** The number of pairs of places that `find_pairs(delta)` lists is the number `NS` of pairs close in space that
the Knox test of the same places reports, whatever the times are. -/
theorem C140_knox_pairs (cdf : K → XF K → XF K) {sdist : K × K → K × K → K} (hd : IsSpaceDistance sdist)
    (delta tau : K) (E : List (Event K)) (sball tball : List (List ℕ)) (hs : AnswersSpace sdist delta E sball)
    (ht : AnswersTime tau E tball) (perms : List (List ℕ)) (hperm : ∀ p ∈ perms, IsShuffle E.length p)
    (queryPairs : K → List (ℕ × ℕ))
    (hq : ∀ r, ListsPairs E.length (fun i j => sdist ((E.map Prod.fst).getD i 0) ((E.map Prod.fst).getD j 0) ≤ r)
      (queryPairs r)) :
    ∃ r, knoxGlobal cdf sball tball perms = .ok r
      ∧ r.ns = ((PointPattern.findPairs queryPairs delta).length : K) := by
  obtain ⟨r, o, hr, -, h1, -⟩ := C74_knox_counts_pairs cdf hd delta tau E sball tball hs ht perms hperm false
  refine ⟨r, hr, ?_⟩
  have := listsPairs_length sdist (E.map Prod.fst) delta (out := queryPairs delta)
    (by simpa only [List.length_map] using hq delta)
  rw [h1, PointPattern.findPairs, this, closePairs_map]
  rfl

/-- **C140, Ripley's K, part.** Let `pairs` be what `find_pairs(d)` lists, `area` the area of the bounding box and `n` the number
of events. At a distance `d` that is not the distance of two events, K is `2 * len(pairs) * area / n ^ 2`. At every other distance
it is not larger. Missing: equality at the distances that occur, where `find_pairs` counts the pair and `k` does not
(`C140_k_refuted`). -/
theorem C140_k_partial (lib : Lib K) (coordinates : List (K × K)) (support : SupportArg K) (m : Metric) (edge : Bool)
    (hsym : ∀ p q, lib.pdist m p q = lib.pdist m q p) (b : BBox K) (hb : IsSmallestBox coordinates b)
    (s : List K) (v : List (XF K)) (h : k lib coordinates support .none (.metric m) edge = .ok (s, v))
    (queryPairs : K → List (ℕ × ℕ))
    (hq : ∀ r, ListsPairs coordinates.length
      (fun i j => lib.pdist m (coordinates.getD i 0) (coordinates.getD j 0) ≤ r) (queryPairs r)) :
    ∃ w : List K, v = w.map .fin ∧ w.length = s.length ∧ ∀ (i : ℕ) d y, s[i]? = some d → w[i]? = some y →
      y ≤ 2 * ((PointPattern.findPairs queryPairs d).length : K) * ((b.xmax - b.xmin) * (b.ymax - b.ymin))
          / (coordinates.length : K) ^ 2
      ∧ ((∀ p ∈ pairs coordinates, lib.pdist m p.1 p.2 ≠ d) →
        y = 2 * ((PointPattern.findPairs queryPairs d).length : K) * ((b.xmax - b.xmin) * (b.ymax - b.ymin))
          / (coordinates.length : K) ^ 2) := by
  have hv := C61_k lib coordinates support m edge hsym b hb s v h
  refine ⟨s.map fun d => ripleyK (lib.pdist m) coordinates b d, by rw [hv, List.map_map]; rfl, by simp, ?_⟩
  intro i d y hi hy
  rw [List.getElem?_map, hi] at hy
  simp only [Option.map_some, Option.some.injEq] at hy
  subst hy
  have hlen := listsPairs_length (lib.pdist m) coordinates d (hq d)
  have hrip : ripleyK (lib.pdist m) coordinates b d
      = 2 * ((closePairs (fun p q => lib.pdist m p q < d) coordinates : ℕ) : K)
        * ((b.xmax - b.xmin) * (b.ymax - b.ymin)) / (coordinates.length : K) ^ 2 := by
    rw [ripleyK, orderedPairsBelow_eq _ hsym, pairDistances_pairs, List.filter_map, List.length_map]
    have : ((pairs coordinates).filter ((fun x => decide (x < d)) ∘ fun p => lib.pdist m p.1 p.2)).length
        = closePairs (fun p q => lib.pdist m p q < d) coordinates := by
      rw [closePairs, List.countP_eq_length_filter]; rfl
    rw [this]
    push_cast
    ring
  rw [PointPattern.findPairs, hlen, hrip]
  constructor
  · by_cases hne : coordinates = []
    · subst hne; simp
    have ha : 0 ≤ (b.xmax - b.xmin) * (b.ymax - b.ymin) := by
      obtain ⟨p, hp⟩ := List.exists_mem_of_ne_nil _ hne
      obtain ⟨h1, h2, h3, h4⟩ := hb.1 p hp
      exact mul_nonneg (sub_nonneg.2 (le_trans h1 h2)) (sub_nonneg.2 (le_trans h3 h4))
    have hc : ((closePairs (fun p q => lib.pdist m p q < d) coordinates : ℕ) : K)
        ≤ ((closePairs (fun p q => lib.pdist m p q ≤ d) coordinates : ℕ) : K) := by
      exact_mod_cast closePairs_mono (fun _ _ h => le_of_lt h) coordinates
    gcongr
  · intro hno
    have : closePairs (fun p q => lib.pdist m p q < d) coordinates
        = closePairs (fun p q => lib.pdist m p q ≤ d) coordinates := by
      rw [closePairs, closePairs]
      refine List.countP_congr fun p hp => ?_
      simp only [decide_eq_true_eq]
      exact ⟨le_of_lt, fun h => lt_of_le_of_ne h (hno p hp)⟩
    rw [this]

/-- **C140 is false of `k`.** For any two events and the distance between them as support, K is zero, although `find_pairs` lists the
pair at this distance. -/
theorem C140_k_refuted (lib : Lib K) (m : Metric) (hpre : m ≠ .name "precomputed")
    (hsym : ∀ p q, lib.pdist m p q = lib.pdist m q p) (p q : K × K) (queryPairs : K → List (ℕ × ℕ))
    (hq : ∀ r, ListsPairs 2 (fun i j => lib.pdist m ([p, q].getD i 0) ([p, q].getD j 0) ≤ r) (queryPairs r)) :
    k lib [p, q] (.array [lib.pdist m p q]) .none (.metric m) false = .ok ([lib.pdist m p q], [.fin 0])
    ∧ (0, 1) ∈ PointPattern.findPairs queryPairs (lib.pdist m p q) := by
  obtain ⟨v, hv⟩ := C61_k_returns lib [p, q] (by simp) [lib.pdist m p q] m hpre
  obtain ⟨b, -, hb, -⟩ := (C19_bbox_smallest [p, q]).2 (by simp)
  have := C61_k lib [p, q] _ m false hsym b hb _ _ hv
  refine ⟨?_, ((hq _).mem 0 1).2 ⟨by norm_num, by norm_num, le_refl _⟩⟩
  rw [hv, this]
  simp [ripleyK, orderedPairsBelow_eq _ hsym, pairDistances]

/-- **C140, nearest neighbours.** The distances that `PointPattern.nnd` reports are the ones `g` works with: given `nnd` as
distances, `g` returns what it returns when it computes them itself, for every array as support. -/
theorem C140_nnd_g (lib : Lib K) (hc : lib.Correct) (coordinates : List (K × K)) (hn : 2 ≤ coordinates.length)
    (hself : ∀ p q, lib.pdist (.name "euclidean") p p ≤ lib.pdist (.name "euclidean") p q)
    (query : ℕ → List (List (K × ℕ)))
    (hq : CorrectIndex (fun i j => lib.pdist (.name "euclidean") (coordinates.getD i 0) (coordinates.getD j 0))
      coordinates.length query) :
    ∃ nnd, PointPattern.nndFrom query = .ok nnd
      ∧ ∀ (s : List K) (r : List K × List (XF K)),
        g lib coordinates (.array s) .none (.metric (.name "euclidean")) false = .ok r →
        g lib coordinates (.array s) (.vec nnd) (.metric (.name "euclidean")) false = .ok r := by
  obtain ⟨v, hv, hlen, hval⟩ := C13_nnd _ coordinates.length hn (fun i j => hself _ _) query hq
  refine ⟨v, hv, ?_⟩
  intro s r h
  obtain ⟨p, d, hp, hd, hs⟩ := g_ok h
  obtain ⟨-, hh, m', hm, hm', hsup⟩ := prepare_ok hp
  injection hm with hm
  subst hm
  have hme : p.metric = .name "euclidean" := by rw [hm']; simp
  rw [hme] at hd
  obtain ⟨g1, g2⟩ := gDistances_none hc hn hd
  have hp' : prepare lib coordinates (.array s) (!(DistArg.vec v).isNone) (.metric (.name "euclidean")) .none
      false = .ok p := by
    rw [← hp]
    unfold prepare
    simp [DistArg.isNone]
  have hdv : d = v := by
    apply List.ext_getElem (by omega)
    intro i hi hi'
    have hic : i < coordinates.length := by omega
    obtain ⟨x, hx, ⟨j, y, hj, hji, he⟩, hall⟩ := g2 i _ (List.getElem?_eq_getElem hi)
    obtain ⟨⟨j', hj', hji', he'⟩, hall'⟩ := hval i hi'
    have hget : ∀ (a : ℕ) z, coordinates[a]? = some z → coordinates.getD a 0 = z := by
      intro a z hz; rw [List.getD_eq_getElem?_getD, hz]; rfl
    have hjl : j < coordinates.length := by
      by_contra hge
      rw [List.getElem?_eq_none (by omega)] at hj
      cases hj
    apply le_antisymm
    · rw [he', hget i x hx]
      exact hall j' _ (by rw [List.getD_eq_getElem?_getD, List.getElem?_eq_getElem hj']; rfl) hji'
    · rw [he]
      have := hall' j hjl hji
      rwa [hget i x hx, hget j y hj] at this
  subst hdv
  unfold g
  rw [hp']
  change (do let d ← gDistances lib p.metric coordinates (.vec d); shares d p.support) = _
  simp only [gDistances, g1, if_true]
  exact hs

/-! ### The hypotheses are met -/

/-- An index answers for the events at 0, 1 and 4 on a line. -/
private def queryLine : ℕ → List (List (ℚ × ℕ))
  | 0 => [[], [], []]
  | 1 => [[(0, 0)], [(0, 1)], [(0, 2)]]
  | 2 => [[(0, 0), (1, 1)], [(0, 1), (1, 0)], [(0, 2), (3, 1)]]
  | _ => [[(0, 0), (1, 1), (4, 2)], [(0, 1), (1, 0), (3, 2)], [(0, 2), (3, 1), (4, 0)]]

private theorem queryLine_correct : CorrectIndex
    (fun i j => sortLib.pdist (.name "euclidean") (line3.getD i 0) (line3.getD j 0)) 3 queryLine := by
  have hm : ∀ m, m ≤ 3 → m = 0 ∨ m = 1 ∨ m = 2 ∨ m = 3 := by omega
  refine ⟨?_, ?_⟩
  · intro m h
    rcases hm m h with rfl | rfl | rfl | rfl <;> rfl
  · intro m h i hi
    have hlen : (queryLine m).length = 3 := by rcases hm m h with rfl | rfl | rfl | rfl <;> rfl
    rw [hlen] at hi
    have hi' : i = 0 ∨ i = 1 ∨ i = 2 := by omega
    rcases hm m h with rfl | rfl | rfl | rfl <;> rcases hi' with rfl | rfl | rfl <;>
      simp only [queryLine, List.getElem_cons_zero, List.getElem_cons_succ] <;>
      exact ⟨by decide +kernel, by decide +kernel, by decide +kernel, by decide +kernel, by decide +kernel,
        by decide +kernel⟩

/-- Three events on a line: `nnd` is `[1, 1, 3]`, and `g` gives the same with it as on its own. -/
example : PointPattern.nndFrom queryLine = .ok [1, 1, 3]
    ∧ g sortLib line3 (.array [0, 1, 2, 3]) .none (.metric (.name "euclidean")) false
      = .ok ([0, 1, 2, 3], [.fin 0, .fin 0, .fin (2/3), .fin 1])
    ∧ g sortLib line3 (.array [0, 1, 2, 3]) (.vec [1, 1, 3]) (.metric (.name "euclidean")) false
      = .ok ([0, 1, 2, 3], [.fin 0, .fin 0, .fin (2/3), .fin 1])
    ∧ CorrectIndex (fun i j => sortLib.pdist (.name "euclidean") (line3.getD i 0) (line3.getD j 0)) line3.length
      queryLine :=
  ⟨by decide +kernel, by decide +kernel, by decide +kernel, queryLine_correct⟩

/-- There is always an index as in `C140_knox_pairs`, `C140_k_partial` and `C140_k_refuted`. -/
example (dist : K × K → K × K → K) (l : List (K × K)) : ∃ queryPairs : K → List (ℕ × ℕ),
    ∀ r, ListsPairs l.length (fun i j => dist (l.getD i 0) (l.getD j 0) ≤ r) (queryPairs r) :=
  ⟨fun _ => _, fun _ => listsPairs_filter _ _⟩

/-- Two of three events are at distance 1: K is zero at distance 1 and `2 * 1 * 8 / 3 ^ 2` at distance 2. -/
example : k sortLib triangle3 (.array [1, 2]) .none (.metric (.name "euclidean")) false
    = .ok ([1, 2], [.fin 0, .fin (16 / 9)]) := by decide +kernel

end Pointpats.Props
