import Verif.Props.KnoxExpected
import Verif.Props.Level

/-!
# C167: the mean of the Mantel statistic over all rearrangements
-/

set_option linter.unusedSectionVars false

namespace Pointpats.Props

open Spec Spacetime

/-- A sum over the pairs of a list, by positions. -/
private theorem sum_pairs_ofFn {α : Type} (g : α → α → ℝ) : ∀ {n : ℕ} (f : Fin n → α),
    ((pairs (List.ofFn f)).map fun q => g q.1 q.2).sum = ∑ i, ∑ j, if i < j then g (f i) (f j) else 0
  | 0, f => by simp [pairs]
  | n + 1, f => by
    rw [List.ofFn_succ, pairs, List.map_append, List.sum_append, sum_pairs_ofFn g, Fin.sum_univ_succ]
    congr 1
    · rw [List.map_map, List.map_ofFn, List.sum_ofFn, Fin.sum_univ_succ]
      simp [Fin.succ_pos]
    · refine Finset.sum_congr rfl fun i _ => ?_
      rw [Fin.sum_univ_succ]
      simp

private theorem sum_pairs {α : Type} (g : α → α → ℝ) (l : List α) (d : α) {n : ℕ} (hn : l.length = n) :
    ((pairs l).map fun q => g q.1 q.2).sum
      = ∑ i : Fin n, ∑ j : Fin n, if i < j then g (l.getD i d) (l.getD j d) else 0 := by
  subst hn
  have := sum_pairs_ofFn g (fun i : Fin l.length => l[i])
  simpa [List.getD_eq_getElem?_getD] using this

/-- The deviations from the mean add up to zero. -/
private theorem sum_deviations (v : List ℝ) : (v.map fun a => a - Spacetime.mean v).sum = 0 := by
  cases v with
  | nil => rfl
  | cons a l =>
    have h : ∀ (c : ℝ) (w : List ℝ), (w.map fun a => a - c).sum = w.sum - w.length * c := by
      intro c w
      induction w with
      | nil => simp
      | cons x w ih => simp only [List.map_cons, List.sum_cons, ih, List.length_cons]; push_cast; ring
    rw [h, Spacetime.mean, mul_div_cancel₀ _ (by simp; positivity), sub_self]

/-- One of the two means can be left out of a sum of products of deviations. -/
private theorem sumProducts_eq (L : List (ℝ × ℝ)) :
    sumProducts L = (L.map fun q => q.1 * (q.2 - Spacetime.mean (L.map Prod.snd))).sum := by
  have h := sum_deviations (L.map Prod.snd)
  rw [List.map_map] at h
  unfold sumProducts
  generalize Spacetime.mean (L.map Prod.fst) = c at *
  generalize Spacetime.mean (L.map Prod.snd) = m at *
  have : (L.map fun q => (q.1 - c) * (q.2 - m)).sum + c * (L.map ((fun a => a - m) ∘ Prod.snd)).sum
      = (L.map fun q => q.1 * (q.2 - m)).sum := by
    clear h
    induction L with
    | nil => simp
    | cons x L ih =>
      simp only [List.map_cons, List.sum_cons, Function.comp_apply] at ih ⊢
      linear_combination ih
  rw [← this, h]
  ring

private theorem retime_fst {p : List ℕ} {E : List (Event ℝ)} (hp : IsShuffle E.length p) :
    (retime p E).map Prod.fst = E.map Prod.fst := by
  rw [retime, List.map_fst_zip (by simp [hp.length])]

/-- **C167.** Over all rearrangements of the times, each equally likely, the statistic that `mantel` reports has mean zero: for
every distance, every four numbers that transform the distances, and every three or more events for which it reports a number. -/
theorem C167_mantel_mean (sdist : ℝ × ℝ → ℝ × ℝ → ℝ) (E : List (Event ℝ)) (hn : 3 ≤ E.length) (scon spow tcon tpow r₀ : ℝ)
    (h0 : mantel sdist (E.map Prod.fst) (E.map Prod.snd) [] scon spow tcon tpow = .ok (.fin r₀, none)) :
    ∃ r : Equiv.Perm (Fin E.length) → ℝ,
      (∀ σ, mantel sdist (E.map Prod.fst) (shuffle 0 (permList σ) (E.map Prod.snd)) [] scon spow tcon tpow
        = .ok (.fin (r σ), none))
      ∧ (∑ σ, r σ) / (Fintype.card (Equiv.Perm (Fin E.length)) : ℝ) = 0 := by
  have hdef : AllDefined sdist scon spow tcon tpow E := by
    by_contra hdef
    rw [C70_undefined _ hn _ _ _ _ hdef [] (by simp)] at h0
    cases h0
  set A := sumSquares ((mantelPairs sdist scon spow tcon tpow E).map Prod.fst) with hA
  set B := sumSquares ((mantelPairs sdist scon spow tcon tpow E).map Prod.snd) with hB
  have hz : ¬ (A = 0 ∨ B = 0) := by
    intro hz
    rw [mantel_nil, if_pos hdef, pearsonr_pairs, if_pos hz] at h0
    split_ifs at h0 <;> cases h0
  refine ⟨fun σ => sumProducts (mantelPairs sdist scon spow tcon tpow (retime (permList σ) E)) / (√A * √B), ?_, ?_⟩
  · intro σ
    have hsh : IsShuffle E.length (permList σ) := isShuffle_permList σ
    have e2 : (retime (permList σ) E).map Prod.snd = shuffle 0 (permList σ) (E.map Prod.snd) := by
      rw [retime, List.map_snd_zip (by simp [hsh.length])]; rfl
    obtain ⟨z1, z2⟩ := mantel_nan sdist scon spow tcon tpow E (permList σ) hsh
    have hlen := length_mantelPairs sdist scon spow tcon tpow (retime (permList σ) E) (by rw [length_retime hsh]; exact hn)
    rw [← e2, ← retime_fst hsh, mantel_nil, if_pos (allDefined_retime hsh hdef), pearsonr_pairs, if_neg (by omega), z1, z2,
      if_neg hz]
    rfl
  · rw [← Finset.sum_div]
    suffices h : ∑ σ : Equiv.Perm (Fin E.length), sumProducts (mantelPairs sdist scon spow tcon tpow (retime (permList σ) E)) = 0 by
      rw [h, zero_div, zero_div]
    -- the spatial part does not depend on the rearrangement
    have e2 : ∀ E' : List (Event ℝ), (mantelPairs sdist scon spow tcon tpow E').map Prod.snd
        = (pairs (E'.map Prod.fst)).map fun q => (sdist q.2 q.1 + scon) ^ spow := by
      intro E'
      rw [pairs_map, mantelPairs, List.map_map, List.map_map]
      rfl
    set m := Spacetime.mean ((mantelPairs sdist scon spow tcon tpow E).map Prod.snd) with hm
    let s : Fin E.length → Fin E.length → ℝ := fun i j =>
      if i < j then (sdist (ev E j).1 (ev E i).1 + scon) ^ spow - m else 0
    let t : Fin E.length → Fin E.length → ℝ := fun i j => if i = j then 0 else (|(ev E j).2 - (ev E i).2| + tcon) ^ tpow
    have hS : ∑ i, ∑ j, s i j = 0 := by
      have h := sum_deviations ((mantelPairs sdist scon spow tcon tpow E).map Prod.snd)
      rw [← hm, mantelPairs, List.map_map, List.map_map] at h
      have h' := sum_pairs (fun a b : Event ℝ => (sdist b.1 a.1 + scon) ^ spow - m) E ((0, 0), 0) rfl
      exact h'.symm.trans h
    have hprod : ∀ σ : Equiv.Perm (Fin E.length), sumProducts (mantelPairs sdist scon spow tcon tpow (retime (permList σ) E))
        = ∑ i, ∑ j, s i j * t (σ i) (σ j) := by
      intro σ
      have hsh : IsShuffle E.length (permList σ) := isShuffle_permList σ
      have hg : ∀ j : Fin E.length, (permList σ).getD j 0 = (σ j : ℕ) := fun j => by
        simp [permList, List.getD_eq_getElem?_getD]
      have hm' : Spacetime.mean ((mantelPairs sdist scon spow tcon tpow (retime (permList σ) E)).map Prod.snd) = m := by
        rw [hm, e2, e2, retime_fst hsh]
      rw [sumProducts_eq, hm', mantelPairs, List.map_map]
      refine (sum_pairs (fun a b : Event ℝ => (|b.2 - a.2| + tcon) ^ tpow * ((sdist b.1 a.1 + scon) ^ spow - m))
        (retime (permList σ) E) ((0, 0), 0) (length_retime hsh)).trans ?_
      refine Finset.sum_congr rfl fun i _ => Finset.sum_congr rfl fun j _ => ?_
      have h1 := retime_ev hsh i.2
      have h2 := retime_ev hsh j.2
      rw [hg] at h1 h2
      rw [ev] at h1 h2
      rw [h1, h2]
      by_cases hij : i < j
      · have : ¬ σ i = σ j := fun h => hij.ne (σ.injective h)
        simp only [s, t, if_pos hij, if_neg this]
        ring
      · simp only [s, if_neg hij, zero_mul]
    have key := sum_rearranged_products s t (fun i => by simp [s]) (fun i => by simp [t])
    rw [hS, zero_mul, mul_zero] at key
    simp only [hprod]
    have hn3 : (3 : ℝ) ≤ (E.length : ℝ) := by exact_mod_cast hn
    exact (mul_eq_zero.1 key).resolve_right (mul_ne_zero (by linarith) (by linarith))

/-- Non-vacuity: three events on a line, with the exponents 1, for which `mantel` reports a number. -/
example : ∃ r₀, mantel euclid (threeEvents.map Prod.fst) (threeEvents.map Prod.snd) [] 1 1 1 1 = .ok (.fin r₀, none) := by
  have m1 : ((((0, 0), 0), ((1, 0), 1)) : Event ℝ × Event ℝ) ∈ pairs threeEvents := by simp [pairs, threeEvents]
  have m2 : ((((0, 0), 0), ((3, 0), 3)) : Event ℝ × Event ℝ) ∈ pairs threeEvents := by simp [pairs, threeEvents]
  have h9 : √(9 : ℝ) = 3 := by
    rw [show (9 : ℝ) = 3 ^ 2 by norm_num, Real.sqrt_sq (by norm_num)]
  obtain ⟨r, h, -⟩ := C70_mantel_is_correlation euclid threeEvents (by simp [threeEvents]) 1 1 1 1
    (fun q _ => ⟨PowerDefined.one _, PowerDefined.one _⟩)
    ⟨_, m1, _, m2, by simp only [euclid, Real.rpow_one]; norm_num [h9]⟩
    ⟨_, m1, _, m2, by simp only [Real.rpow_one]; norm_num⟩
  exact ⟨r, h⟩

/-! ### jacquez -/

variable {K : Type} [Field K] [LinearOrder K] [IsStrictOrderedRing K]

/-- The number of members of a list below `n` that occur once. -/
private theorem sum_mem {n k : ℕ} {l : List ℕ} (hl : l.length = k) (hnd : l.Nodup) (hlt : ∀ j ∈ l, j < n) :
    (∑ j : Fin n, if (j : ℕ) ∈ l then (1 : K) else 0) = k := by
  rw [Finset.sum_boole]
  congr 1
  rw [← hl, ← List.toFinset_card_of_nodup hnd, ← Finset.card_map Fin.valEmbedding]
  congr 1
  ext j
  simp only [Finset.mem_map, Finset.mem_filter, Finset.mem_univ, true_and, Fin.valEmbedding_apply, List.mem_toFinset]
  constructor
  · rintro ⟨a, h, rfl⟩
    exact h
  · intro h
    exact ⟨⟨j, hlt j h⟩, h, rfl⟩

private theorem closer_card {n : ℕ} (td : ℕ → ℕ → K) (i j : Fin n) :
    ((others n i).filter fun l => decide (td i l < td i j)).length
      = (Finset.univ.filter fun l : Fin n => l ≠ i ∧ td i l < td i j).card := by
  rw [← List.toFinset_card_of_nodup ((nodup_others n i).filter _),
    ← Finset.card_map (s := Finset.univ.filter fun l : Fin n => l ≠ i ∧ td i l < td i j) Fin.valEmbedding]
  congr 1
  ext l
  simp only [Finset.mem_map, Finset.mem_filter, Finset.mem_univ, true_and, Fin.valEmbedding_apply, List.mem_toFinset,
    List.mem_filter, mem_others, decide_eq_true_eq]
  constructor
  · rintro ⟨⟨a, b⟩, c⟩
    exact ⟨⟨l, a⟩, ⟨fun h => b (congrArg Fin.val h), c⟩, rfl⟩
  · rintro ⟨a, ⟨b, c⟩, rfl⟩
    exact ⟨⟨a.2, fun h => b (Fin.ext h)⟩, c⟩

/-- The neighbours in time follow the times. -/
private theorem amongNearest_retime {n k : ℕ} (td td' : ℕ → ℕ → K) (σ : Equiv.Perm (Fin n))
    (h : ∀ i j : Fin n, td' i j = td (σ i) (σ j)) (i j : Fin n) :
    AmongNearest td' n k i j ↔ AmongNearest td n k (σ i) (σ j) := by
  unfold AmongNearest
  rw [closer_card, closer_card]
  have hc : (Finset.univ.filter fun l : Fin n => l ≠ i ∧ td' i l < td' i j).card
      = (Finset.univ.filter fun l : Fin n => l ≠ σ i ∧ td (σ i) l < td (σ i) (σ j)).card := by
    refine Finset.card_equiv σ fun l => ?_
    simp only [Finset.mem_filter, Finset.mem_univ, true_and, h, ne_eq, EmbeddingLike.apply_eq_iff_eq]
  rw [hc]
  simp only [Fin.is_lt, true_and]
  refine and_congr_left fun _ => not_congr ?_
  constructor
  · intro e
    rw [Fin.ext e]
  · intro e
    rw [σ.injective (Fin.ext e)]

/-- **C167, jacquez.** If no event has two others at the same distance in time, the statistic of `jacquez` has the mean
`n k² / (n − 1)` over all rearrangements of the times, each equally likely: each of the `n k` neighbours in space is a
neighbour in time with probability `k / (n − 1)`. -/
theorem C167_jacquez_mean {D : Type} [LinearOrder D] (sd : ℕ → ℕ → D) (k : ℕ) (nns : List (List ℕ)) (t : List K)
    (hn : 2 ≤ t.length) (hs : NearestLists sd t.length k nns) (nnt : Equiv.Perm (Fin t.length) → List (List ℕ))
    (ht : ∀ σ, NearestLists (fun i j => |(shuffle 0 (permList σ) t).getD i 0 - (shuffle 0 (permList σ) t).getD j 0|)
      t.length k (nnt σ))
    (hties : ∀ i < t.length, ∀ j < t.length, ∀ l < t.length, j ≠ i → l ≠ i → j ≠ l →
      |t.getD i 0 - t.getD j 0| ≠ |t.getD i 0 - t.getD l 0|) :
    (∑ σ, ((jacquez (K := K) t.length (nnt σ) nns []).1 : K)) / (Fintype.card (Equiv.Perm (Fin t.length)) : K)
      = (t.length : K) * (k : K) ^ 2 / ((t.length : K) - 1) := by
  let td : ℕ → ℕ → K := fun i j => |t.getD i 0 - t.getD j 0|
  have hσ : ∀ (σ : Equiv.Perm (Fin t.length)) (i : Fin t.length), (shuffle 0 (permList σ) t).getD i 0 = t.getD (σ i) 0 := by
    intro σ i
    simp [shuffle, permList, List.getD_eq_getElem?_getD]
  have htd : ∀ (σ : Equiv.Perm (Fin t.length)) (i j : Fin t.length),
      |(shuffle 0 (permList σ) t).getD i 0 - (shuffle 0 (permList σ) t).getD j 0| = td (σ i) (σ j) := by
    intro σ i j
    rw [hσ, hσ]
  have hmem : ∀ (σ : Equiv.Perm (Fin t.length)) (i j : Fin t.length), (j : ℕ) ∈ (nnt σ).getD i [] ↔ AmongNearest td t.length k (σ i) (σ j) := by
    intro σ i j
    rw [mem_nearestLists (ht σ) ?_ i.2, amongNearest_retime td _ σ (htd σ) i j]
    intro a ha b hb c hc h1 h2 h3
    have e1 := htd σ ⟨a, ha⟩ ⟨b, hb⟩
    have e2 := htd σ ⟨a, ha⟩ ⟨c, hc⟩
    simp only at e1 e2
    rw [e1, e2]
    refine hties _ (σ _).2 _ (σ _).2 _ (σ _).2 ?_ ?_ ?_
    all_goals
      intro h
      have := congrArg Fin.val (σ.injective (Fin.ext h))
      simp only at this
      omega
  let s : Fin t.length → Fin t.length → K := fun i j => if (j : ℕ) ∈ nns.getD i [] then 1 else 0
  let u : Fin t.length → Fin t.length → K := fun i j => if AmongNearest td t.length k i j then 1 else 0
  have hS : ∑ i, ∑ j, s i j = (t.length : K) * k := by
    have : ∀ i : Fin t.length, ∑ j, s i j = k := fun i =>
      sum_mem (hs.size i i.2) (hs.nodup i i.2) (fun j hj => (hs.other i i.2 j hj).1)
    simp [this]
  have hU : ∑ i, ∑ j, u i j = (t.length : K) * k := by
    have : ∀ i : Fin t.length, ∑ j, u i j = k := by
      intro i
      have h1 := sum_mem (K := K) ((ht 1).size i i.2) ((ht 1).nodup i i.2) (fun j hj => ((ht 1).other i i.2 j hj).1)
      rw [← h1]
      refine Finset.sum_congr rfl fun j _ => ?_
      refine if_congr ?_ rfl rfl
      rw [hmem 1 i j]
      rfl
    simp [this]
  have hstat : ∀ σ : Equiv.Perm (Fin t.length), ((jacquez (K := K) t.length (nnt σ) nns []).1 : K) = ∑ i, ∑ j, s i j * u (σ i) (σ j) := by
    intro σ
    rw [(C71_jacquez_counts (K := K) sd t.length k nns (nnt σ) hs []).1,
      filter_orderedPairs_length t.length fun i j => decide (j ∈ nns.getD i []) && decide (j ∈ (nnt σ).getD i [])]
    rw [← List.map_coe_finRange_eq_range, List.map_map, ← List.ofFn_eq_map, List.sum_ofFn]
    push_cast
    refine Finset.sum_congr rfl fun i _ => ?_
    simp only [s, u, Function.comp_apply, ite_mul, one_mul, zero_mul, ← ite_and, Finset.sum_boole]
    rw [List.map_coe_finRange_eq_range]
    congr 1
    rw [← List.toFinset_card_of_nodup (List.nodup_range.filter _), ← Finset.card_map Fin.valEmbedding]
    congr 1
    ext j
    simp only [Finset.mem_map, Finset.mem_filter, Finset.mem_univ, true_and, Fin.valEmbedding_apply, List.mem_toFinset,
      List.mem_filter, List.mem_range, Bool.and_eq_true, decide_eq_true_eq]
    constructor
    · rintro ⟨a, b, c⟩
      exact ⟨⟨j, a⟩, ⟨b, (hmem σ i ⟨j, a⟩).1 c⟩, rfl⟩
    · rintro ⟨a, ⟨b, c⟩, rfl⟩
      exact ⟨a.2, b, (hmem σ i a).2 c⟩
  have key := sum_rearranged_products s u
    (fun i => if_neg fun h => (hs.other i i.2 i h).2 rfl) (fun i => if_neg fun h => h.2.1 rfl)
  rw [hS, hU] at key
  have hn2 : (2 : K) ≤ (t.length : K) := by exact_mod_cast hn
  have h1 : (t.length : K) ≠ 0 := by linarith
  have h2 : (t.length : K) - 1 ≠ 0 := by linarith
  have h3 : (Fintype.card (Equiv.Perm (Fin t.length)) : K) ≠ 0 := by exact_mod_cast Fintype.card_ne_zero
  simp only [hstat]
  rw [div_eq_div_iff h3 h2]
  refine mul_right_cancel₀ h1 ?_
  linear_combination key

/-- Non-vacuity: three events on a line and three times, one neighbour each. -/
example : NearestLists (fun i j => |([0, 1, 3] : List ℤ).getD i 0 - ([0, 1, 3] : List ℤ).getD j 0|) 3 1 [[1], [0], [1]]
    ∧ (∀ σ : Equiv.Perm (Fin 3), NearestLists
      (fun i j => |(shuffle 0 (permList σ) ([0, 5, 1] : List ℚ)).getD i 0 - (shuffle 0 (permList σ) [0, 5, 1]).getD j 0|) 3 1
      (List.ofFn fun i => [((σ⁻¹ (![2, 2, 0] (σ i)) : Fin 3) : ℕ)]))
    ∧ ∀ i < 3, ∀ j < 3, ∀ l < 3, j ≠ i → l ≠ i → j ≠ l →
      |([0, 5, 1] : List ℚ).getD i 0 - ([0, 5, 1] : List ℚ).getD j 0|
        ≠ |([0, 5, 1] : List ℚ).getD i 0 - ([0, 5, 1] : List ℚ).getD l 0| := by
  refine ⟨⟨rfl, by decide, by decide, by decide, by decide⟩, fun σ => ⟨by simp, ?_, ?_, ?_, ?_⟩, ?_⟩
  · revert σ; decide +kernel
  · revert σ; decide +kernel
  · revert σ; decide +kernel
  · revert σ; decide +kernel
  · have key : ∀ i < 3, ∀ j < 3, ∀ l < 3, ¬ (j ≠ i ∧ l ≠ i ∧ j ≠ l ∧
        |([0, 5, 1] : List ℚ).getD i 0 - ([0, 5, 1] : List ℚ).getD j 0|
          = |([0, 5, 1] : List ℚ).getD i 0 - ([0, 5, 1] : List ℚ).getD l 0|) := by decide +kernel
    intro i hi j hj l hl h1 h2 h3 h4
    exact key i hi j hj l hl ⟨h1, h2, h3, h4⟩

end Pointpats.Props
