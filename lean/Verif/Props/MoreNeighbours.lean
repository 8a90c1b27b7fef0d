import Verif.Props.Knn
import Verif.Props.SpacetimeStats
import Verif.Props.NoInteraction

/-!
# C182: asking for more neighbours never removes a neighbour
-/

set_option linter.unusedSectionVars false

namespace Pointpats.Props

open PointPattern Spec Spacetime

variable {K : Type} [Field K] [LinearOrder K] [IsStrictOrderedRing K]

/-- No event has two others, or itself and another, at the same distance. -/
def NoTies {D : Type} [LinearOrder D] (dist : ℕ → ℕ → D) (n : ℕ) : Prop :=
  ∀ i < n, ∀ j < n, ∀ l < n, j ≠ l → dist i j ≠ dist i l

/-! ### knn -/

/-- **C182, knn, distances.** Ties or not, the distances that `knn(k)` lists for an event are the first `k` of those that it
lists for a larger number. -/
theorem C182_knn_distances {D : Type} [LinearOrder D] (dist : ℕ → ℕ → D) (n : ℕ) (hself : ∀ i j, dist i i ≤ dist i j)
    (query : ℕ → List (List (D × ℕ))) (hq : CorrectIndex dist n query) (k k' : ℕ) (hk : 1 ≤ k) (hkk : k ≤ k') (hn : k' < n) :
    ∃ out out', knn query k = .ok out ∧ knn query k' = .ok out' ∧ out.length = n ∧ out'.length = n
      ∧ ∀ i (h : i < out.length) (h' : i < out'.length), out[i].map Prod.fst = (out'[i].map Prod.fst).take k := by
  obtain ⟨out, h1, h2, h3⟩ := (C11_knn dist n hself query hq k).2 (by omega) (by omega)
  obtain ⟨out', h1', h2', h3'⟩ := (C11_knn dist n hself query hq k').2 (by omega) (by omega)
  refine ⟨out, out', h1, h1', h2, h2', fun i h h' => ?_⟩
  rw [(h3 i h).1, (h3' i h').1]
  simp only [smallest, Int.toNat_natCast, List.take_take, min_eq_left hkk]

private theorem eq_of_map_fst {D : Type} {l l' : List (D × ℕ)} (h : l.map Prod.fst = l'.map Prod.fst)
    (hinj : ∀ e ∈ l, ∀ e' ∈ l', e.1 = e'.1 → e = e') : l = l' := by
  induction l generalizing l' with
  | nil => cases l' <;> simp_all
  | cons a l ih =>
    cases l' with
    | nil => simp at h
    | cons b l' =>
      simp only [List.map_cons, List.cons.injEq] at h
      rw [hinj a (by simp) b (by simp) h.1, ih h.2 fun e he e' he' =>
        hinj e (List.mem_cons_of_mem _ he) e' (List.mem_cons_of_mem _ he')]

/-- **C182, knn, what holds.** Without ties, the neighbours that `knn(k)` lists for an event are the first `k` of those that it
lists for a larger number. Missing: with ties the index may answer the two questions differently (`C182_knn_refuted`). -/
theorem C182_knn_partial {D : Type} [LinearOrder D] (dist : ℕ → ℕ → D) (n : ℕ) (hself : ∀ i j, dist i i ≤ dist i j)
    (hties : NoTies dist n) (query : ℕ → List (List (D × ℕ))) (hq : CorrectIndex dist n query)
    (k k' : ℕ) (hk : 1 ≤ k) (hkk : k ≤ k') (hn : k' < n) :
    ∃ out out', knn query k = .ok out ∧ knn query k' = .ok out' ∧ out.length = n ∧ out'.length = n
      ∧ ∀ i (h : i < out.length) (h' : i < out'.length), out[i] = out'[i].take k := by
  obtain ⟨out, out', h1, h1', h2, h2', h3⟩ := C182_knn_distances dist n hself query hq k k' hk hkk hn
  obtain ⟨o, g1, -, g3⟩ := (C11_knn dist n hself query hq k).2 (by omega) (by omega)
  obtain ⟨o', g1', -, g3'⟩ := (C11_knn dist n hself query hq k').2 (by omega) (by omega)
  rw [h1] at g1
  cases g1
  rw [h1'] at g1'
  cases g1'
  refine ⟨out, out', h1, h1', h2, h2', fun i h h' => eq_of_map_fst ?_ ?_⟩
  · rw [h3 i h h', List.map_take]
  · intro e he e' he' hee
    obtain ⟨a1, a2⟩ := (g3 i h).2.1 e he
    obtain ⟨b1, b2⟩ := (g3' i h').2.1 e' (List.mem_of_mem_take he')
    refine Prod.ext hee ?_
    by_contra hne
    exact hties i (by omega) e.2 a1 e'.2 b1 hne (by rw [← a2, ← b2, hee])

/-- Squared distances of the places (0, 0), (1, 0), (0, 1) and (-1, 0). -/
private def dtie (i j : ℕ) : ℕ :=
  (([[0, 1, 1, 1], [1, 0, 2, 4], [1, 2, 0, 2], [1, 4, 2, 0]] : List (List ℕ)).getD i []).getD j (if i = j then 0 else 9)

private def qtie : ℕ → List (List (ℕ × ℕ))
  | 0 => [[], [], [], []]
  | 1 => [[(0, 0)], [(0, 1)], [(0, 2)], [(0, 3)]]
  | 2 => [[(0, 0), (1, 1)], [(0, 1), (1, 0)], [(0, 2), (1, 0)], [(0, 3), (1, 0)]]
  | 3 => [[(0, 0), (1, 2), (1, 3)], [(0, 1), (1, 0), (2, 2)], [(0, 2), (1, 0), (2, 1)], [(0, 3), (1, 0), (2, 2)]]
  | _ => [[(0, 0), (1, 1), (1, 2), (1, 3)], [(0, 1), (1, 0), (2, 2), (4, 3)], [(0, 2), (1, 0), (2, 1), (2, 3)],
      [(0, 3), (1, 0), (2, 2), (4, 1)]]

private theorem qtie_correct : CorrectIndex dtie 4 qtie := by
  have hm : ∀ m, m ≤ 4 → m = 0 ∨ m = 1 ∨ m = 2 ∨ m = 3 ∨ m = 4 := by omega
  refine ⟨?_, ?_⟩
  · intro m h
    rcases hm m h with rfl | rfl | rfl | rfl | rfl <;> rfl
  · intro m h i hi
    have hlen : (qtie m).length = 4 := by rcases hm m h with rfl | rfl | rfl | rfl | rfl <;> rfl
    rw [hlen] at hi
    have hi' : i = 0 ∨ i = 1 ∨ i = 2 ∨ i = 3 := by omega
    rcases hm m h with rfl | rfl | rfl | rfl | rfl <;> rcases hi' with rfl | rfl | rfl | rfl <;>
      simp only [qtie, List.getElem_cons_zero, List.getElem_cons_succ] <;>
      exact ⟨by decide, by decide, by decide, by decide, by decide, by decide⟩

/-- **C182 is false of `knn` with ties.** Three events at the same distance from event 0: a correct index may list the first of
them as the nearest, and the two others as the two nearest. -/
theorem C182_knn_refuted : ∃ (dist : ℕ → ℕ → ℕ) (n : ℕ) (query : ℕ → List (List (ℕ × ℕ))) (out out' : List (List (ℕ × ℕ))),
    (∀ i j, dist i i ≤ dist i j) ∧ (∀ i < n, ∀ j < n, i ≠ j → 0 < dist i j) ∧ CorrectIndex dist n query
      ∧ knn query 1 = .ok out ∧ knn query 2 = .ok out'
      ∧ (out[0]?.map fun r => r.map Prod.snd) = some [1] ∧ (out'[0]?.map fun r => r.map Prod.snd) = some [2, 3] := by
  refine ⟨dtie, 4, qtie, _, _, ?_, by decide, qtie_correct, rfl, rfl, by decide, by decide⟩
  intro i j
  have h : dtie i i = 0 := by
    rcases Nat.lt_or_ge i 4 with h | h
    · have : i = 0 ∨ i = 1 ∨ i = 2 ∨ i = 3 := by omega
      rcases this with rfl | rfl | rfl | rfl <;> rfl
    · unfold dtie
      rw [List.getD_eq_getElem?_getD (l := [[0, 1, 1, 1], [1, 0, 2, 4], [1, 2, 0, 2], [1, 4, 2, 0]]),
        List.getElem?_eq_none (by simpa using h)]
      simp
  omega

/-! ### jacquez -/

/-- **C182, jacquez, what holds.** Without ties in space and in time, the statistic of `jacquez` never gets smaller when more
neighbours are asked for. Missing: with ties it may (`C182_jacquez_refuted`). -/
theorem C182_jacquez_partial {D D' : Type} [LinearOrder D] [LinearOrder D'] (sd : ℕ → ℕ → D) (td : ℕ → ℕ → D') (n : ℕ)
    (hsd : NoTies sd n) (htd : NoTies td n) (k k' : ℕ) (hkk : k ≤ k') (nns nnt nns' nnt' : List (List ℕ))
    (hs : NearestLists sd n k nns) (ht : NearestLists td n k nnt) (hs' : NearestLists sd n k' nns')
    (ht' : NearestLists td n k' nnt') (perms perms' : List (List (List ℕ))) :
    (jacquez (K := K) n nnt nns perms).1 ≤ (jacquez (K := K) n nnt' nns' perms').1 := by
  have weak : ∀ {E : Type} [LinearOrder E] {d : ℕ → ℕ → E}, NoTies d n →
      ∀ i < n, ∀ j < n, ∀ l < n, j ≠ i → l ≠ i → j ≠ l → d i j ≠ d i l :=
    fun h i hi j hj l hl _ _ hjl => h i hi j hj l hl hjl
  rw [C71_jacquez_nearest (K := K) sd td n k nns nnt hs ht (weak hsd) (weak htd) perms,
    C71_jacquez_nearest (K := K) sd td n k' nns' nnt' hs' ht' (weak hsd) (weak htd) perms']
  refine (List.monotone_filter_right _ ?_).length_le
  intro p hp
  simp only [Bool.and_eq_true, decide_eq_true_eq] at hp ⊢
  obtain ⟨⟨a1, a2, a3⟩, b1, b2, b3⟩ := hp
  exact ⟨⟨a1, a2, by omega⟩, b1, b2, by omega⟩

/-- **C182, jacquez, bounds.** Ties or not, the statistic for `k` of `n - 1` possible neighbours is at most `n * k` and at least
`n * (2 * k - (n - 1))`; when all other events are neighbours it is `n * (n - 1)` and shows nothing. -/
theorem C182_jacquez_bounds {D D' : Type} [LinearOrder D] [LinearOrder D'] (sd : ℕ → ℕ → D) (td : ℕ → ℕ → D') (n k : ℕ)
    (nns nnt : List (List ℕ)) (hs : NearestLists sd n k nns) (ht : NearestLists td n k nnt)
    (perms : List (List (List ℕ))) :
    (jacquez (K := K) n nnt nns perms).1 ≤ n * k
      ∧ n * (2 * k) ≤ (jacquez (K := K) n nnt nns perms).1 + n * (n - 1)
      ∧ (k = n - 1 → (jacquez (K := K) n nnt nns perms).1 = n * (n - 1)) := by
  have h1 := (C71_jacquez_counts (K := K) sd n k nns nnt hs perms).2
  have h0 : (jacquez (K := K) n nnt nns perms).1 = sharedNeighbours n nnt nns := by
    unfold jacquez
    split_ifs <;> rfl
  have h2 : n * (2 * k) ≤ (jacquez (K := K) n nnt nns perms).1 + n * (n - 1) := by
    rw [h0, sharedNeighbours]
    have hrow : ∀ i < n, 2 * k ≤ ((nnt.getD i []).toFinset ∩ (nns.getD i []).toFinset).card + (n - 1) := by
      intro i hi
      have hu : ((nnt.getD i []).toFinset ∪ (nns.getD i []).toFinset).card ≤ n - 1 := by
        have hsub : (nnt.getD i []).toFinset ∪ (nns.getD i []).toFinset ⊆ (others n i).toFinset := by
          intro j hj
          rw [Finset.mem_union, List.mem_toFinset, List.mem_toFinset] at hj
          rw [List.mem_toFinset, mem_others]
          rcases hj with hj | hj
          · exact ht.other i hi j hj
          · exact hs.other i hi j hj
        refine (Finset.card_le_card hsub).trans ?_
        rw [List.toFinset_card_of_nodup (nodup_others n i), length_others hi]
      have := Finset.card_union_add_card_inter (nnt.getD i []).toFinset (nns.getD i []).toFinset
      rw [List.toFinset_card_of_nodup (ht.nodup i hi), List.toFinset_card_of_nodup (hs.nodup i hi), ht.size i hi,
        hs.size i hi] at this
      omega
    have gen : ∀ l : List ℕ, (∀ i ∈ l, i < n) → l.length * (2 * k)
        ≤ (l.map fun i => ((nnt.getD i []).toFinset ∩ (nns.getD i []).toFinset).card).sum + l.length * (n - 1) := by
      intro l
      induction l with
      | nil => intro _; simp
      | cons a l ih =>
        intro hl
        have i1 := ih fun i hi => hl i (List.mem_cons_of_mem _ hi)
        have i2 := hrow a (hl a (by simp))
        simp only [List.map_cons, List.sum_cons, List.length_cons, add_mul, one_mul]
        omega
    have := gen (List.range n) fun i hi => List.mem_range.1 hi
    rwa [List.length_range] at this
  refine ⟨h1, h2, ?_⟩
  rintro rfl
  have : n * (2 * (n - 1)) = n * (n - 1) + n * (n - 1) := by ring
  omega

/-- **C182 is false of `jacquez` with ties.** Five events at the same place and at different times: an index may answer so that
all five nearest neighbours are shared, and none of the ten two nearest. -/
theorem C182_jacquez_refuted : ∃ (E : List (Event ℚ)) (nns nnt nns' nnt' : List (List ℕ)),
    NearestLists (fun i j => lineDist (ev E i).1 (ev E j).1) E.length 1 nns
    ∧ NearestLists (fun i j => |(ev E i).2 - (ev E j).2|) E.length 1 nnt
    ∧ NearestLists (fun i j => lineDist (ev E i).1 (ev E j).1) E.length 2 nns'
    ∧ NearestLists (fun i j => |(ev E i).2 - (ev E j).2|) E.length 2 nnt'
    ∧ jacquez (K := ℚ) E.length nnt nns [] = (5, none) ∧ jacquez (K := ℚ) E.length nnt' nns' [] = (0, none) := by
  refine ⟨[((0, 0), 0), ((0, 0), 1), ((0, 0), 3), ((0, 0), 7), ((0, 0), 12)], [[1], [0], [1], [2], [3]],
    [[1], [0], [1], [2], [3]], [[3, 4], [3, 4], [3, 4], [0, 1], [0, 1]], [[1, 2], [0, 2], [1, 0], [2, 4], [3, 2]],
    ?_, ?_, ?_, ?_, by decide +kernel, by decide +kernel⟩
  all_goals
    constructor
    · decide +kernel
    · decide +kernel
    · decide +kernel
    · decide +kernel
    · decide +kernel

/-- Non-vacuity: three places on a line, without ties. -/
example : NoTies (fun i j => |([0, 1, 3] : List ℤ).getD i 0 - ([0, 1, 3] : List ℤ).getD j 0|) 3
    ∧ NearestLists (fun i j => |([0, 1, 3] : List ℤ).getD i 0 - ([0, 1, 3] : List ℤ).getD j 0|) 3 1 [[1], [0], [1]]
    ∧ NearestLists (fun i j => |([0, 1, 3] : List ℤ).getD i 0 - ([0, 1, 3] : List ℤ).getD j 0|) 3 2 [[1, 2], [0, 2], [1, 0]] := by
  refine ⟨?_, ⟨rfl, by decide, by decide, by decide, by decide⟩, ⟨rfl, by decide, by decide, by decide, by decide⟩⟩
  have key : ∀ i < 3, ∀ j < 3, ∀ l < 3, ¬ (j ≠ l ∧ |([0, 1, 3] : List ℤ).getD i 0 - ([0, 1, 3] : List ℤ).getD j 0|
        = |([0, 1, 3] : List ℤ).getD i 0 - ([0, 1, 3] : List ℤ).getD l 0|) := by decide
  intro i hi j hj l hl h3 h4
  exact key i hi j hj l hl ⟨h3, h4⟩

end Pointpats.Props
