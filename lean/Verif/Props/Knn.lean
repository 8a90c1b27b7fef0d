import Verif.Model.PointPattern
import Verif.Lemmas.Neighbours
import Verif.Lemmas.Pairs
import Verif.Lemmas.PointPattern
import Mathlib.Algebra.Order.BigOperators.Group.List

/-!
# C11 – C15: neighbours, close pairs and the area of the hull
-/

namespace Pointpats.Props

open PointPattern Spec

/-! ### C11, C12 -/

/-- The index over `n` events at distances `dist` answers every query for at most `n` neighbours of its
own points correctly (in any of the correct ways). -/
structure CorrectIndex {D : Type} [LinearOrder D] (dist : ℕ → ℕ → D) (n : ℕ)
    (query : ℕ → List (List (D × ℕ))) : Prop where
  length : ∀ m, m ≤ n → (query m).length = n
  rows : ∀ m, m ≤ n → ∀ i (h : i < (query m).length), NearestRow (dist i) (List.range n) m (query m)[i]

variable {D : Type} [LinearOrder D]

theorem tail_row {dist : ℕ → D} {n k i : ℕ} {row : List (D × ℕ)} (hi : i < n)
    (hmin : ∀ j, j < n → dist i ≤ dist j) (h : NearestRow dist (List.range n) (k + 1) row) :
    row.tail.map Prod.fst = smallest dist (others n i) k
    ∧ ((∀ j, j < n → j ≠ i → dist i < dist j) → ∃ t, row = (dist i, i) :: t) := by
  have h1 := h.distances List.nodup_range
  rw [smallest_cons_min hi hmin] at h1
  rcases row with _ | ⟨⟨d, j⟩, t⟩
  · simp at h1
  · simp only [List.map_cons, List.cons.injEq] at h1
    refine ⟨h1.2, fun hpos => ⟨t, ?_⟩⟩
    have hj : j < n := by simpa using h.stored (d, j) (by simp)
    have hd : d = dist j := h.true_dist (d, j) (by simp)
    have : j = i := by
      by_contra hne
      have := hpos j hj hne
      rw [← hd, h1.1] at this
      exact lt_irrefl _ this
    rw [this, h1.1]

/-- **C11.** For distances with `dist i i ≤ dist i j` (an event is at least as close to itself as to the
others), whatever way the index breaks ties: `knn(k)` raises `ValueError` for `k < 1`; for `1 ≤ k ≤ n - 1` it
returns `n` rows, and the distances in row `i` are the `k` smallest distances from `i` to the other events,
in increasing order, each the true distance of the id beside it, with different ids. If all other events
are at another location than `i`, row `i` is a correct list of the `k` nearest other events (none is `i`). -/
theorem C11_knn (dist : ℕ → ℕ → D) (n : ℕ) (hself : ∀ i j, dist i i ≤ dist i j)
    (query : ℕ → List (List (D × ℕ))) (hq : CorrectIndex dist n query) (k : ℤ) :
    (k < 1 → knn query k = .error .valueError)
    ∧ (1 ≤ k → k ≤ n - 1 → ∃ out, knn query k = .ok out ∧ out.length = n
        ∧ ∀ i (h : i < out.length),
            out[i].map Prod.fst = smallest (dist i) (others n i) k.toNat
            ∧ (∀ e ∈ out[i], e.2 < n ∧ e.1 = dist i e.2) ∧ (out[i].map Prod.snd).Nodup
            ∧ ((∀ j, j < n → j ≠ i → dist i i < dist i j) →
                NearestRow (dist i) (others n i) k.toNat out[i])) := by
  refine ⟨fun h => by simp [knn, h], fun h1 h2 => ?_⟩
  have hm : k.toNat + 1 ≤ n := by omega
  refine ⟨(query (k.toNat + 1)).map List.tail, ?_, ?_, ?_⟩
  · simp only [knn]; rw [if_neg (by omega)]
  · rw [List.length_map, hq.length _ hm]
  · intro i h
    rw [List.length_map] at h
    have hi : i < n := by rw [← hq.length _ hm]; exact h
    have hrow := hq.rows _ hm i h
    simp only [List.getElem_map]
    generalize (query (k.toNat + 1))[i] = row at hrow
    obtain ⟨t1, t2⟩ := tail_row hi (fun j _ => hself i j) hrow
    have hsub : row.tail.Sublist row := List.tail_sublist row
    refine ⟨t1, ?_, ?_, ?_⟩
    · intro e he
      have := hsub.subset he
      exact ⟨by simpa using hrow.stored e this, hrow.true_dist e this⟩
    · exact hrow.nodup.sublist (hsub.map _)
    · intro hpos
      obtain ⟨t, rfl⟩ := t2 hpos
      have hnd := hrow.nodup
      simp only [List.map_cons, List.nodup_cons] at hnd
      refine ⟨?_, ?_, hnd.2, ?_, ?_, ?_⟩
      · have := hrow.length; simpa using this
      · intro e he
        rw [mem_others]
        refine ⟨by simpa using hrow.stored e (by simp [List.mem_of_mem_tail, show e ∈ t from he]), ?_⟩
        rintro rfl
        exact hnd.1 (List.mem_map.2 ⟨e, he, rfl⟩)
      · intro e he; exact hrow.true_dist e (List.mem_cons_of_mem _ he)
      · exact (List.pairwise_cons.1 hrow.sorted).2
      · intro j hj hjn e he
        rw [mem_others] at hj
        refine hrow.nearest j (by simpa using hj.1) ?_ e (List.mem_cons_of_mem _ he)
        simp only [List.map_cons, List.mem_cons, not_or]
        exact ⟨hj.2, hjn⟩

/-- **C12, what holds.** If event `i` is listed as its own neighbour by `knn(k)`, then another event is at
the same place: for patterns without coincident events it never happens. -/
theorem C12_not_own_neighbour_partial (dist : ℕ → ℕ → D) (n : ℕ) (hself : ∀ i j, dist i i ≤ dist i j)
    (query : ℕ → List (List (D × ℕ))) (hq : CorrectIndex dist n query) (k : ℤ) (h1 : 1 ≤ k) (h2 : k ≤ n - 1)
    (out : List (List (D × ℕ))) (hout : knn query k = .ok out) (i : ℕ) (h : i < out.length)
    (hmem : i ∈ out[i].map Prod.snd) : ∃ j, j < n ∧ j ≠ i ∧ dist i j = dist i i := by
  by_contra hcon
  push Not at hcon
  obtain ⟨out', ho, -, hrow⟩ := (C11_knn dist n hself query hq k).2 h1 h2
  rw [hout] at ho
  injection ho with ho
  subst ho
  have := (hrow i h).2.2.2 fun j hj hji => lt_of_le_of_ne (hself i j) fun he => hcon j hj hji he.symm
  obtain ⟨e, he, hei⟩ := List.mem_map.1 hmem
  have := this.stored e he
  rw [mem_others] at this
  exact this.2 hei

/-- Distances of the examples: events 0 and 1 coincide, event 2 is 5 away from both. -/
private def dcoin (i j : ℕ) : ℕ := if i = 2 ∧ j ≠ 2 ∨ i ≠ 2 ∧ j = 2 then 5 else 0

private def qcoin : ℕ → List (List (ℕ × ℕ))
  | 0 => [[], [], []]
  | 1 => [[(0, 1)], [(0, 1)], [(0, 2)]]
  | 2 => [[(0, 1), (0, 0)], [(0, 0), (0, 1)], [(0, 2), (5, 0)]]
  | _ => [[(0, 1), (0, 0), (5, 2)], [(0, 0), (0, 1), (5, 2)], [(0, 2), (5, 0), (5, 1)]]

private theorem qcoin_correct : CorrectIndex dcoin 3 qcoin := by
  have hm : ∀ m, m ≤ 3 → m = 0 ∨ m = 1 ∨ m = 2 ∨ m = 3 := by omega
  refine ⟨?_, ?_⟩
  · intro m h
    rcases hm m h with rfl | rfl | rfl | rfl <;> rfl
  · intro m h i hi
    have hlen : (qcoin m).length = 3 := by rcases hm m h with rfl | rfl | rfl | rfl <;> rfl
    rw [hlen] at hi
    have hi' : i = 0 ∨ i = 1 ∨ i = 2 := by omega
    rcases hm m h with rfl | rfl | rfl | rfl <;> rcases hi' with rfl | rfl | rfl <;>
      simp only [qcoin, List.getElem_cons_zero, List.getElem_cons_succ] <;>
      exact ⟨by decide, by decide, by decide, by decide, by decide, by decide⟩

/-- **C12, refuted.** With two coincident events, a correct index may list the other one first, and then
`knn` reports event 0 as the neighbour of event 0. -/
theorem C12_own_neighbour_refuted :
    ∃ (dist : ℕ → ℕ → ℕ) (n : ℕ) (query : ℕ → List (List (ℕ × ℕ))) (out : List (List (ℕ × ℕ))),
      (∀ i j, dist i i ≤ dist i j) ∧ CorrectIndex dist n query
      ∧ knn query 1 = .ok out ∧ (out[0]?.map fun r => r.map Prod.snd) = some [0] := by
  refine ⟨dcoin, 3, qcoin, _, ?_, qcoin_correct, rfl, by decide⟩
  intro i j
  have : dcoin i i = 0 := by unfold dcoin; split <;> omega
  omega

/-! ### C13 -/

/-- **C13, nearest neighbour distances.** For at least two events, `nnd` has one entry per event: the
distance to some other event, such that no other event is closer. -/
theorem C13_nnd (dist : ℕ → ℕ → D) (n : ℕ) (hn : 2 ≤ n) (hself : ∀ i j, dist i i ≤ dist i j)
    (query : ℕ → List (List (D × ℕ))) (hq : CorrectIndex dist n query) :
    ∃ v, nndFrom query = .ok v ∧ v.length = n
      ∧ ∀ i (h : i < v.length), (∃ j, j < n ∧ j ≠ i ∧ v[i] = dist i j)
          ∧ ∀ j, j < n → j ≠ i → v[i] ≤ dist i j := by
  obtain ⟨out, ho, hlen, hrow⟩ := (C11_knn dist n hself query hq 1).2 le_rfl (by omega)
  have hone : ∀ i (h : i < out.length), ∃ d, out[i].map Prod.fst = [d]
      ∧ (∃ j, j < n ∧ j ≠ i ∧ d = dist i j) ∧ ∀ j, j < n → j ≠ i → d ≤ dist i j := by
    intro i h
    obtain ⟨h1, -⟩ := hrow i h
    rw [h1]
    have hi : i < n := by omega
    have hs := mergeSort_sorted ((others n i).map (dist i))
    have hp := List.mergeSort_perm ((others n i).map (dist i)) (fun a b => decide (a ≤ b))
    have hl := hp.length_eq
    rw [List.length_map, length_others hi] at hl
    unfold smallest
    rcases hm : ((others n i).map (dist i)).mergeSort (fun a b => decide (a ≤ b)) with _ | ⟨d, t⟩
    · rw [hm] at hl; simp at hl; omega
    · rw [hm] at hs hp
      refine ⟨d, rfl, ?_, ?_⟩
      · have := hp.subset (List.mem_cons_self)
        obtain ⟨j, hj, hjd⟩ := List.mem_map.1 this
        rw [mem_others] at hj
        exact ⟨j, hj.1, hj.2, hjd.symm⟩
      · intro j hj hji
        have : dist i j ∈ d :: t := hp.symm.subset (List.mem_map.2 ⟨j, mem_others.2 ⟨hj, hji⟩, rfl⟩)
        rcases List.mem_cons.1 this with h | h
        · exact h.ge
        · exact (List.pairwise_cons.1 hs).1 _ h
  choose f hf1 hf2 hf3 using hone
  have hflat : (out.flatMap fun r => r.map Prod.fst) = List.ofFn fun i : Fin out.length => f i i.2 := by
    have : out.map (fun r => r.map Prod.fst) = List.ofFn fun i : Fin out.length => [f i i.2] := by
      apply List.ext_getElem
      · simp
      · intro i h1 h2
        simp only [List.getElem_map, List.getElem_ofFn]
        exact hf1 i _
    rw [List.flatMap_def, this]
    have e : (List.ofFn fun i : Fin out.length => [f i i.2])
        = (List.ofFn fun i : Fin out.length => f i i.2).map fun d => [d] := by
      rw [List.map_ofFn]; rfl
    rw [e, ← List.flatMap_def, List.flatMap_singleton']
  refine ⟨out.flatMap fun r => r.map Prod.fst, by unfold nndFrom; rw [ho]; rfl, ?_, ?_⟩
  · rw [hflat, List.length_ofFn, hlen]
  · intro i h
    have hi : i < out.length := by rw [hflat, List.length_ofFn] at h; exact h
    have : (out.flatMap fun r => r.map Prod.fst)[i] = f i hi := by
      simp only [hflat, List.getElem_ofFn]
    rw [this]
    exact ⟨hf2 i hi, hf3 i hi⟩

/-- **C13, summaries.** `min_nnd`, `max_nnd` and `mean_nnd` of a non-empty distance vector are an attained
lower bound, an attained upper bound and the mean, and `min_nnd ≤ mean_nnd ≤ max_nnd`. -/
theorem C13_nnd_summaries {K : Type} [Field K] [LinearOrder K] [IsStrictOrderedRing K] (v : List K)
    (hv : v ≠ []) :
    ∃ lo mean hi, vecMin v = .ok lo ∧ vecMax v = .ok hi ∧ vecMean v = .ok mean
      ∧ lo ∈ v ∧ (∀ d ∈ v, lo ≤ d) ∧ hi ∈ v ∧ (∀ d ∈ v, d ≤ hi)
      ∧ mean * v.length = v.sum ∧ lo ≤ mean ∧ mean ≤ hi := by
  rcases v with _ | ⟨a, l⟩
  · exact absurd rfl hv
  · have hpos : (0 : K) < ((a :: l).length : K) := by simp; positivity
    have hlo : ∀ d ∈ a :: l, listMin a l ≤ d := fun d hd => listMin_le hd
    have hhi : ∀ d ∈ a :: l, d ≤ listMax a l := fun d hd => le_listMax hd
    refine ⟨listMin a l, (a :: l).sum / ((a :: l).length : K), listMax a l, rfl, rfl, rfl, listMin_mem a l,
      hlo, listMax_mem a l, hhi, div_mul_cancel₀ _ hpos.ne', ?_, ?_⟩
    · rw [le_div_iff₀ hpos, mul_comm, ← nsmul_eq_mul]
      exact List.card_nsmul_le_sum _ _ hlo
    · rw [div_le_iff₀ hpos, mul_comm, ← nsmul_eq_mul]
      exact List.sum_le_card_nsmul _ _ hhi

/-- **C13, `knn_other`.** For the distances `dist i j` from location `i` to event `j` of the queried pattern
(`n` events), `knn_other` with `1 ≤ k ≤ n` returns for every location the `k` nearest events; the distances
are the `k` smallest, so they do not change when the events are listed in another order. -/
theorem C13_knn_other (dist : ℕ → ℕ → D) (n : ℕ) (query : ℕ → List (List (D × ℕ))) (k : ℤ)
    (hq : ∀ m, m ≤ n → ∀ i (h : i < (query m).length),
      NearestRow (dist i) (List.range n) m (query m)[i]) :
    (k < 1 → knnOther query k = .error .valueError)
    ∧ (1 ≤ k → k ≤ n → ∃ out, knnOther query k = .ok out ∧ out.length = (query k.toNat).length
        ∧ ∀ i (h : i < out.length),
            NearestRow (dist i) (List.range n) k.toNat out[i]
            ∧ out[i].map Prod.fst = smallest (dist i) (List.range n) k.toNat
            ∧ ∀ σ : ℕ → ℕ, ((List.range n).map σ).Perm (List.range n) →
                out[i].map Prod.fst = smallest (fun j => dist i (σ j)) (List.range n) k.toNat) := by
  refine ⟨fun h => by simp [knnOther, h], fun h1 h2 => ?_⟩
  refine ⟨query k.toNat, by simp only [knnOther]; rw [if_neg (by omega)], rfl, ?_⟩
  intro i h
  have hr := hq _ (by omega) i h
  have hd := hr.distances List.nodup_range
  refine ⟨hr, hd, fun σ hσ => ?_⟩
  rw [hd]
  apply smallest_perm
  have := (hσ.map (dist i)).symm
  rwa [List.map_map] at this

example : CorrectIndex dcoin 3 qcoin ∧ nndFrom qcoin = .ok [0, 0, 5] := ⟨qcoin_correct, by decide⟩

/-! ### C14 -/

/-- **C14.** `query_pairs` is SciPy's; its contract is that it lists the pairs `i < j` at distance at most `r`,
each once. `find_pairs` passes its argument through: its answer lists exactly these pairs, whatever their
order; it grows with `r`, and has at most `n(n-1)/2` elements, exactly so many if `r` is at least all
distances. -/
theorem C14_find_pairs (dist : ℕ → ℕ → D) (n : ℕ) (queryPairs : D → List (ℕ × ℕ))
    (hq : ∀ r, ListsPairs n (fun i j => dist i j ≤ r) (queryPairs r)) (r : D) :
    (∀ i j, (i, j) ∈ findPairs queryPairs r ↔ i < j ∧ j < n ∧ dist i j ≤ r)
    ∧ (findPairs queryPairs r).Nodup
    ∧ (∀ r', r ≤ r' → ∀ p ∈ findPairs queryPairs r, p ∈ findPairs queryPairs r')
    ∧ (findPairs queryPairs r).length ≤ n * (n - 1) / 2
    ∧ ((∀ i j, i < n → j < n → dist i j ≤ r) → (findPairs queryPairs r).length = n * (n - 1) / 2) := by
  refine ⟨(hq r).mem, (hq r).nodup, ?_, (hq r).length_le, ?_⟩
  · rintro r' hr ⟨i, j⟩ hp
    have := ((hq r).mem i j).1 hp
    exact ((hq r').mem i j).2 ⟨this.1, this.2.1, this.2.2.trans hr⟩
  · intro hall
    rw [← length_allPairs]
    apply List.Perm.length_eq
    refine (hq r).perm.trans ?_
    rw [List.filter_eq_self.2]
    rintro ⟨i, j⟩ hp
    rw [mem_allPairs] at hp
    simpa using hall i j (by omega) hp.2

example : ListsPairs 3 (fun i j => dcoin i j ≤ 2) [(0, 1)] ∧ dcoin 0 1 ≤ 2 :=
  ⟨⟨by decide, by
    intro i j
    simp only [List.mem_singleton, Prod.mk.injEq]
    constructor
    · rintro ⟨rfl, rfl⟩; decide
    · rintro ⟨h1, h2, h3⟩
      have : j = 1 ∨ j = 2 := by omega
      rcases this with rfl | rfl
      · exact ⟨by omega, rfl⟩
      · have : i = 0 ∨ i = 1 := by omega
        rcases this with rfl | rfl <;> revert h3 <;> decide⟩, by decide⟩

/-! ### C15 -/

variable {K : Type} [Field K] [LinearOrder K] [IsStrictOrderedRing K]

omit [LinearOrder K] [IsStrictOrderedRing K] in
private theorem sum_zipWith_add {α β : Type} (f g : α → β → K) (a : List α) (b : List β) :
    (List.zipWith (fun x y => f x y + g x y) a b).sum = (List.zipWith f a b).sum + (List.zipWith g a b).sum := by
  induction a generalizing b with
  | nil => simp
  | cons x a ih =>
    cases b with
    | nil => simp
    | cons y b => simp only [List.zipWith_cons_cons, List.sum_cons, ih]; ring

omit [LinearOrder K] [IsStrictOrderedRing K] in
private theorem sum_zipWith_mul (c : K) {α β : Type} (f : α → β → K) (a : List α) (b : List β) :
    (List.zipWith (fun x y => c * f x y) a b).sum = c * (List.zipWith f a b).sum := by
  induction a generalizing b with
  | nil => simp
  | cons x a ih =>
    cases b with
    | nil => simp
    | cons y b => simp only [List.zipWith_cons_cons, List.sum_cons, ih]; ring

omit [LinearOrder K] [IsStrictOrderedRing K] in
private theorem sum_zipWith_diff {α : Type} (f : α → K) (a b : List α) (h : a.Perm b) :
    (List.zipWith (fun x y => f x - f y) a b).sum = 0 := by
  have key : ∀ a b : List α, a.length = b.length →
      (List.zipWith (fun x y => f x - f y) a b).sum = (a.map f).sum - (b.map f).sum := by
    intro a
    induction a with
    | nil => intro b hb; cases b <;> simp_all
    | cons x a ih =>
      intro b hb
      cases b with
      | nil => simp at hb
      | cons y b =>
        simp only [List.zipWith_cons_cons, List.sum_cons, List.map_cons]
        rw [ih b (by simpa using hb)]; ring
  rw [key a b h.length_eq, (h.map f).sum_eq, sub_self]

omit [LinearOrder K] [IsStrictOrderedRing K] in
private theorem shoelace_map_aux (v : List (K × K)) (t : K × K) :
    shoelace (v.map fun p => (p.1 + t.1, p.2 + t.2)) = shoelace v := by
  unfold shoelace
  rw [← List.map_rotate, List.zipWith_map]
  have hperm : v.Perm (v.rotate 1) := (List.rotate_perm v 1).symm
  have e : (List.zipWith (fun p q : K × K => (p.1 + t.1) * (q.2 + t.2) - (q.1 + t.1) * (p.2 + t.2)) v (v.rotate 1))
      = List.zipWith (fun p q : K × K => (p.1 * q.2 - q.1 * p.2)
          + (t.2 * (p.1 - q.1) + (-t.1) * (p.2 - q.2))) v (v.rotate 1) := by
    congr 1; funext p q; ring
  rw [e, sum_zipWith_add, sum_zipWith_add, sum_zipWith_mul, sum_zipWith_mul,
    sum_zipWith_diff Prod.fst _ _ hperm, sum_zipWith_diff Prod.snd _ _ hperm]
  ring

/-- **C15.** The area computed from a non-empty list of hull vertices is the same for every starting vertex,
whether or not the first vertex is repeated at the end, and after any translation; it is multiplied
by `c²` when the pattern is scaled by `c`. -/
theorem C15_hull_area_invariance (p : K × K) (ps : List (K × K)) :
    (∀ k, ringArea ((p :: ps).rotate k) = ringArea (p :: ps))
    ∧ ringArea (p :: ps ++ [p]) = ringArea (p :: ps)
    ∧ (∀ t : K × K, ringArea ((p :: ps).map fun q => (q.1 + t.1, q.2 + t.2)) = ringArea (p :: ps))
    ∧ (∀ c : K, ringArea ((p :: ps).map fun q => (c * q.1, c * q.2))
          = (ringArea (p :: ps)).map fun a => c ^ 2 * a) := by
  have hne : ∀ v : List (K × K), v ≠ [] → ringArea v = .ok (shoelace v) := by
    intro v hv
    rw [← areaOfHull_eq]
    simp [areaOfHull, hv]
  refine ⟨fun k => ?_, ?_, fun t => ?_, fun c => ?_⟩
  · rw [hne _ (by simp), hne _ (by simp)]
    congr 1
    unfold shoelace
    have : (List.zipWith (fun p q : K × K => p.1 * q.2 - q.1 * p.2) ((p :: ps).rotate k)
        (((p :: ps).rotate k).rotate 1))
        = (List.zipWith (fun p q : K × K => p.1 * q.2 - q.1 * p.2) (p :: ps) ((p :: ps).rotate 1)).rotate k := by
      rw [List.zipWith_rotate_distrib _ _ _ _ (by simp), List.rotate_rotate, List.rotate_rotate, add_comm]
    rw [this]
    rw [(List.rotate_perm _ k).sum_eq]
  · rw [hne _ (by simp), hne _ (by simp)]
    congr 1
    unfold shoelace
    simp only [List.cons_append, List.rotate_cons_succ, List.rotate_zero]
    have : ∀ (a : K × K) (l : List (K × K)),
        (List.zipWith (fun p q : K × K => p.1 * q.2 - q.1 * p.2) (a :: (l ++ [p])) (l ++ [p] ++ [p])).sum
          = (List.zipWith (fun p q : K × K => p.1 * q.2 - q.1 * p.2) (a :: l) (l ++ [p])).sum := by
      intro a l
      induction l generalizing a with
      | nil => simp
      | cons b l ih =>
        have := ih b
        simp only [List.cons_append, List.zipWith_cons_cons, List.sum_cons] at this ⊢
        rw [this]
    rw [this p ps]
  · rw [hne _ (by simp), hne _ (by simp), shoelace_map_aux]
  · rw [hne _ (by simp), hne _ (by simp)]
    simp only [Except.map]
    congr 1
    unfold shoelace
    rw [← List.map_rotate, List.zipWith_map]
    have e : (fun p q : K × K => c * p.1 * (c * q.2) - c * q.1 * (c * p.2))
        = fun p q : K × K => c ^ 2 * (p.1 * q.2 - q.1 * p.2) := by funext p q; ring
    rw [e, sum_zipWith_mul]; ring

/-- The vertices are in convex position, listed counter-clockwise: every three of them, in list order, make a
left turn (or are collinear). -/
def CounterClockwise (v : List (K × K)) : Prop :=
  ∀ i j k (hi : i < j) (hj : j < k) (hk : k < v.length),
    0 ≤ (v[j].1 - v[i].1) * (v[k].2 - v[i].2) - (v[k].1 - v[i].1) * (v[j].2 - v[i].2)

/-- **C15, sign.** The area of a counter-clockwise convex ring is not negative. -/
theorem C15_hull_area_nonneg (v : List (K × K)) (hv : v ≠ []) (hccw : CounterClockwise v) :
    ∃ a, ringArea v = .ok a ∧ 0 ≤ a := by
  rcases v with _ | ⟨p, ps⟩
  · exact absurd rfl hv
  · refine ⟨shoelace (p :: ps), by rw [← areaOfHull_eq]; simp [areaOfHull], ?_⟩
    rw [← shoelace_map_aux (p :: ps) (-p.1, -p.2)]
    unfold shoelace
    apply div_nonneg _ zero_le_two
    simp only [List.map_cons, List.rotate_cons_succ, List.rotate_zero]
    apply List.sum_nonneg
    intro x hx
    obtain ⟨m, hm, rfl⟩ := List.mem_iff_getElem.1 hx
    simp only [List.length_zipWith, List.length_cons, List.length_map, List.length_append,
      List.length_nil, zero_add, min_self] at hm
    rw [List.getElem_zipWith]
    rcases m with _ | m
    · simp
    · rcases Nat.lt_or_ge (m + 1) ps.length with h | h
      · have := hccw 0 (m + 1) (m + 1 + 1) (by omega) (by omega) (by simp; omega)
        simp only [List.getElem_cons_zero, List.getElem_cons_succ] at this
        rw [List.getElem_append_left (by simpa using h)]
        simp only [List.getElem_cons_succ, List.getElem_map, ← sub_eq_add_neg]
        exact this
      · rw [List.getElem_append_right (by simpa using h)]
        simp

/-- **C15, rectangles.** The area of a rectangle is width times height, from any starting corner. -/
theorem C15_hull_area_rectangle (x y w h : K) (k : ℕ) :
    ringArea (([(x, y), (x + w, y), (x + w, y + h), (x, y + h)] : List (K × K)).rotate k) = .ok (w * h) := by
  rw [(C15_hull_area_invariance _ _).1 k, ← areaOfHull_eq]
  simp [areaOfHull, shoelace]
  ring

example : CounterClockwise ([(0, 0), (4, 0), (4, 1), (2, 3)] : List (ℚ × ℚ))
    ∧ ringArea ([(0, 0), (4, 0), (4, 1), (2, 3)] : List (ℚ × ℚ)) = .ok 7 := by
  refine ⟨?_, by decide +kernel⟩
  intro i j k hi hj hk
  simp only [List.length_cons, List.length_nil] at hk
  have : (i = 0 ∧ j = 1 ∧ k = 2) ∨ (i = 0 ∧ j = 1 ∧ k = 3) ∨ (i = 0 ∧ j = 2 ∧ k = 3)
      ∨ (i = 1 ∧ j = 2 ∧ k = 3) := by omega
  rcases this with ⟨rfl, rfl, rfl⟩ | ⟨rfl, rfl, rfl⟩ | ⟨rfl, rfl, rfl⟩ | ⟨rfl, rfl, rfl⟩ <;>
    simp only [List.getElem_cons_zero, List.getElem_cons_succ] <;> norm_num

end Pointpats.Props
