import Verif.Props.Knn

/-!
# C138: neighbours are events
-/

namespace Pointpats.Props

open PointPattern Spec

variable {K : Type} [LinearOrder K]

private theorem padded_fst {dist : ℕ → K} {n m : ℕ} {row : List (XF K × ℕ)} (h : PaddedRow dist n m row) :
    row.length = m := by
  obtain ⟨core, hc, rfl⟩ := h
  rw [List.length_append, List.length_map, hc.length, List.length_replicate]
  omega

/-- **C138, partial.** For `1 ≤ k < n`, every neighbour that `knn(k)` lists is an event, at its true distance, and for
`1 ≤ k ≤ n` so is every neighbour listed by `knn_other(other, k)` for a pattern with `n` events. Missing: larger `k`. -/
theorem C138_neighbours_partial (dist : ℕ → ℕ → K) (n : ℕ) (query : ℕ → List (List (XF K × ℕ)))
    (hq : ∀ m i (h : i < (query m).length), PaddedRow (dist i) n m (query m)[i]) (k : ℤ) (h1 : 1 ≤ k) :
    (k < n → ∃ out, knn query k = .ok out
        ∧ ∀ i (h : i < out.length), out[i].length = k.toNat ∧ ∀ e ∈ out[i], e.2 < n ∧ e.1 = .fin (dist i e.2))
    ∧ (k ≤ n → ∃ out, knnOther query k = .ok out
        ∧ ∀ i (h : i < out.length), out[i].length = k.toNat ∧ ∀ e ∈ out[i], e.2 < n ∧ e.1 = .fin (dist i e.2)) := by
  have key : ∀ m ≤ n, ∀ i (h : i < (query m).length), ∀ e ∈ (query m)[i], e.2 < n ∧ e.1 = .fin (dist i e.2) := by
    intro m hm i h e he
    obtain ⟨core, hc, hrow⟩ := hq m i h
    rw [hrow, Nat.sub_eq_zero_of_le hm, List.replicate_zero, List.append_nil, List.mem_map] at he
    obtain ⟨e', he', rfl⟩ := he
    refine ⟨by simpa using hc.stored e' he', ?_⟩
    rw [hc.true_dist e' he']
  constructor
  · intro hk
    refine ⟨(query (k.toNat + 1)).map List.tail, by simp only [knn]; rw [if_neg (by omega)], ?_⟩
    intro i h
    rw [List.length_map] at h
    rw [List.getElem_map]
    refine ⟨?_, fun e he => key _ (by omega) i h e (List.mem_of_mem_tail he)⟩
    rw [List.length_tail, padded_fst (hq _ i h)]
    omega
  · intro hk
    refine ⟨query k.toNat, by simp only [knnOther]; rw [if_neg (by omega)], ?_⟩
    intro i h
    exact ⟨padded_fst (hq _ i h), key _ (by omega) i h⟩

/-- **C138, refuted.** For every pattern of `n ≥ 1` events and every `k ≥ n`, `knn(k)` raises no exception. For every event it lists
the distances to the `n - 1` other events, and then `k - n + 1` neighbours with the number `n`, which is not an event, and an
infinite distance. So the nearest neighbour distance of the only event of a pattern is infinite. -/
theorem C138_missing_neighbours_refuted (dist : ℕ → ℕ → K) (hself : ∀ i j, dist i i ≤ dist i j) (n : ℕ) (hn : 1 ≤ n)
    (query : ℕ → List (List (XF K × ℕ))) (hlen : ∀ m, (query m).length = n)
    (hq : ∀ m i (h : i < (query m).length), PaddedRow (dist i) n m (query m)[i]) (k : ℤ) (hk : (n : ℤ) ≤ k) :
    (∃ out, knn query k = .ok out ∧ out.length = n
      ∧ ∀ i (h : i < out.length), ∃ core : List (K × ℕ), core.map Prod.fst = smallest (dist i) (others n i) (n - 1)
        ∧ core.length = n - 1 ∧ (core.map Prod.snd).Nodup ∧ (∀ e ∈ core, e.2 < n ∧ e.1 = dist i e.2)
        ∧ out[i] = core.map (fun e => (XF.fin e.1, e.2)) ++ List.replicate (k.toNat - (n - 1)) (XF.pinf, n)
        ∧ (XF.pinf, n) ∈ out[i])
    ∧ (n = 1 → nndFrom query = .ok [XF.pinf]) := by
  have hrows : ∀ i (h : i < (query (k.toNat + 1)).length), ∃ core : List (K × ℕ),
      core.map Prod.fst = smallest (dist i) (others n i) (n - 1) ∧ core.length = n - 1 ∧ (core.map Prod.snd).Nodup
      ∧ (∀ e ∈ core, e.2 < n ∧ e.1 = dist i e.2)
      ∧ (query (k.toNat + 1))[i].tail = core.map (fun e => (XF.fin e.1, e.2))
          ++ List.replicate (k.toNat - (n - 1)) (XF.pinf, n) := by
    intro i h
    have hi : i < n := by rw [← hlen (k.toNat + 1)]; exact h
    obtain ⟨core, hc, hrow⟩ := hq _ i h
    rw [Nat.min_eq_right (by omega)] at hc
    obtain ⟨m, rfl⟩ : ∃ m, n = m + 1 := ⟨n - 1, by omega⟩
    have ht := (tail_row hi (fun j _ => hself i j) hc).1
    have hl := hc.length
    obtain ⟨c, cs, rfl⟩ : ∃ c cs, core = c :: cs := by
      cases core with
      | nil => simp at hl
      | cons c cs => exact ⟨c, cs, rfl⟩
    refine ⟨cs, ht, by simpa using hl, ?_, ?_, ?_⟩
    · have := hc.nodup
      rw [List.map_cons] at this
      exact this.of_cons
    · intro e he
      have he' : e ∈ c :: cs := List.mem_cons_of_mem _ he
      exact ⟨by simpa using hc.stored e he', hc.true_dist e he'⟩
    · rw [hrow, List.map_cons, List.cons_append, List.tail_cons]
      congr 2
      omega
  constructor
  · refine ⟨(query (k.toNat + 1)).map List.tail, by simp only [knn]; rw [if_neg (by omega)],
      by rw [List.length_map, hlen], ?_⟩
    intro i h
    rw [List.length_map] at h
    obtain ⟨core, c0, c1, c2, c3, c4⟩ := hrows i h
    refine ⟨core, c0, c1, c2, c3, by rw [List.getElem_map, c4], ?_⟩
    rw [List.getElem_map, c4]
    exact List.mem_append_right _ (List.mem_replicate.2 ⟨by omega, rfl⟩)
  · rintro rfl
    obtain ⟨row, hrow⟩ := List.length_eq_one_iff.1 (hlen 2)
    obtain ⟨core, hc, hcr⟩ := hq 2 0 (by rw [hlen]; omega)
    obtain ⟨c, rfl⟩ := List.length_eq_one_iff.1 (by simpa using hc.length : core.length = 1)
    simp only [hrow, List.getElem_cons_zero] at hcr
    unfold nndFrom knn
    rw [if_neg (by omega)]
    show (Except.ok ((query 2).map List.tail) : Py _).map _ = _
    rw [hrow, hcr]
    rfl

/-- The same happens in `knn_other(other, k)` for every `k` greater than the number of events of the pattern. -/
theorem C138_missing_other_refuted (dist : ℕ → ℕ → K) (n : ℕ) (query : ℕ → List (List (XF K × ℕ)))
    (hq : ∀ m i (h : i < (query m).length), PaddedRow (dist i) n m (query m)[i]) (k : ℤ) (hk : (n : ℤ) < k) :
    ∃ out, knnOther query k = .ok out ∧ ∀ i (h : i < out.length), ∃ core, NearestRow (dist i) (List.range n) n core
      ∧ out[i] = core.map (fun e => (XF.fin e.1, e.2)) ++ List.replicate (k.toNat - n) (XF.pinf, n)
      ∧ (XF.pinf, n) ∈ out[i] := by
  refine ⟨query k.toNat, by simp only [knnOther]; rw [if_neg (by omega)], ?_⟩
  intro i h
  obtain ⟨core, hc, hrow⟩ := hq _ i h
  rw [Nat.min_eq_right (by omega)] at hc
  refine ⟨core, hc, hrow, ?_⟩
  rw [hrow]
  exact List.mem_append_right _ (List.mem_replicate.2 ⟨by omega, rfl⟩)

/-- The hypotheses are met by the index of one event. -/
example : ∀ m i (h : i < [(([(XF.fin (0 : ℚ), 0)] : List (XF ℚ × ℕ)).take m ++ List.replicate (m - 1) (XF.pinf, 1))].length),
    PaddedRow (fun _ : ℕ => (0 : ℚ)) 1 m [([(XF.fin (0 : ℚ), 0)] : List (XF ℚ × ℕ)).take m ++ List.replicate (m - 1) (XF.pinf, 1)][i] := by
  intro m i h
  obtain rfl : i = 0 := by simpa using h
  refine ⟨[((0 : ℚ), 0)].take m, ?_, ?_⟩
  · have : m = 0 ∨ 1 ≤ m := by omega
    rcases this with rfl | hm
    · exact ⟨by decide, by decide, by decide, by decide, by decide, by simp⟩
    · rw [Nat.min_eq_right hm, List.take_of_length_le (by simpa using hm)]
      refine ⟨by decide, by decide, by decide, by decide, by decide, ?_⟩
      intro j _ _ e he
      simp only [List.mem_singleton] at he
      rw [he]
  · rw [List.getElem_cons_zero, List.map_take]
    rfl

end Pointpats.Props
