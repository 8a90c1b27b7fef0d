import Verif.Lemmas.Level
import Verif.Props.Knox
import Verif.Props.Mantel
import Mathlib.Algebra.BigOperators.Fin

/-!
# C104: the level of the permutation tests

Under the null hypothesis the times are given to the locations at random: the given times are rearranged by a uniformly
distributed rearrangement, independent of those of the shuffles, which are uniformly distributed too. `Spec.share` is the
probability.
-/

set_option linter.unusedSectionVars false

namespace Pointpats.Props

open Spec Spacetime

variable {K : Type} [Field K] [LinearOrder K] [IsStrictOrderedRing K]

private theorem getD_permList {n : ℕ} (σ : Equiv.Perm (Fin n)) (i : Fin n) : (permList σ).getD i 0 = (σ i : ℕ) := by
  simp [permList, List.getD_eq_getElem?_getD]

theorem shuffle_permList {α : Type} (a0 : α) (t : List α) (τ σ : Equiv.Perm (Fin t.length)) :
    shuffle a0 (permList σ) (shuffle a0 (permList τ) t) = shuffle a0 (permList (τ * σ)) t := by
  unfold shuffle
  apply List.ext_getElem
  · simp [permList]
  · intro i h1 h2
    simp [permList, List.getD_eq_getElem?_getD]

theorem length_shuffle_permList {α : Type} (a0 : α) {n : ℕ} (t : List α) (σ : Equiv.Perm (Fin n)) :
    (shuffle a0 (permList σ) t).length = n := by simp [shuffle, permList]

theorem length_permList {n : ℕ} (σ : Equiv.Perm (Fin n)) : (permList σ).length = n := by simp [permList]

/-- The events with rearranged times. -/
theorem retime_eq (E : List (Event K)) (p : List ℕ) : retime p E = (E.map Prod.fst).zip (shuffle 0 p (E.map Prod.snd)) := rfl

theorem retime_permList (E : List (Event K)) (τ σ : Equiv.Perm (Fin E.length)) :
    retime (permList σ) (retime (permList τ) E) = retime (permList (τ * σ)) E := by
  apply List.ext_getElem
  · simp [retime, permList]
  · intro i h1 h2
    simp [retime, permList, List.getD_eq_getElem?_getD]

/-- The general form: `f` is the statistic, as a function of the events. -/
theorem events_level {L : Type} [LinearOrder L] (f : List (Event K) → L) (E : List (Event K)) (R : ℕ) (α : K) (hα : 0 ≤ α) :
    share K (Rearrangements E.length R) (fun ω =>
      ((((shuffles ω).map fun q => f (retime q (retime (assignment ω) E))).countP
        (fun x => decide (f (retime (assignment ω) E) ≤ x)) : ℕ) + 1 : K) / ((R : K) + 1) ≤ α) ≤ α := by
  refine le_trans (le_of_eq ?_) (rank_share (K := K) (fun σ : Equiv.Perm (Fin E.length) => f (retime (permList σ) E)) R α hα)
  refine Eq.trans ?_ (share_equiv (independentEquiv E.length R) _)
  congr 1
  funext ω
  simp only [independentEquiv_zero, independentEquiv_succ, shuffles, assignment, List.map_ofFn, Function.comp_def,
    retime_permList]
  rfl

/-- The same for a statistic of the list of times. -/
theorem times_level {L : Type} [LinearOrder L] (f : List K → L) (t : List K) (R : ℕ) (α : K) (hα : 0 ≤ α) :
    share K (Rearrangements t.length R) (fun ω =>
      ((((shuffles ω).map fun q => f (shuffle 0 q (shuffle 0 (assignment ω) t))).countP
        (fun x => decide (f (shuffle 0 (assignment ω) t) ≤ x)) : ℕ) + 1 : K) / ((R : K) + 1) ≤ α) ≤ α := by
  refine le_trans (le_of_eq ?_) (rank_share (K := K) (fun σ : Equiv.Perm (Fin t.length) => f (shuffle 0 (permList σ) t)) R α hα)
  refine Eq.trans ?_ (share_equiv (independentEquiv t.length R) _)
  congr 1
  funext ω
  simp only [independentEquiv_zero, independentEquiv_succ, shuffles, assignment, List.map_ofFn, Function.comp_def,
    shuffle_permList]
  rfl

theorem length_shuffles {n R : ℕ} (ω : Rearrangements n R) : (shuffles ω).length = R := by simp [shuffles]

theorem isShuffle_shuffles {n R : ℕ} (ω : Rearrangements n R) : ∀ p ∈ shuffles ω, IsShuffle n p := by
  intro p hp
  obtain ⟨i, rfl⟩ := (List.mem_ofFn' _ _).1 hp
  exact isShuffle_permList _

theorem shuffles_ne_nil {n R : ℕ} (hR : 0 < R) (ω : Rearrangements n R) : shuffles ω ≠ [] := by
  rw [← List.length_pos_iff_ne_nil, length_shuffles]
  exact hR

/-- **C104, Knox.** Under the null hypothesis the probability that the simulated p-value of the `Knox` test is at most `α` is
at most `α`, whatever the locations, the times, the thresholds and the number of permutations. -/
theorem C104_knox_class_level [FloorRing K] (cdf : K → XF K → XF K) {sdist : K × K → K × K → K}
    (hd : IsSpaceDistance sdist) (delta tau : K) (E : List (Event K)) (sball : List (List ℕ))
    (hs : AnswersSpace sdist delta E sball) (R : ℕ) (hR : 0 < R) (tball : Rearrangements E.length R → List (List ℕ))
    (ht : ∀ ω, AnswersTime tau (retime (assignment ω) E) (tball ω)) (keep : Bool) (α : K) (hα : 0 ≤ α) :
    share K (Rearrangements E.length R) (fun ω => ∃ o p,
      knoxInit cdf sball (tball ω) (shuffles ω) keep = .ok o ∧ o.p_sim = some p ∧ p ≤ α) ≤ α := by
  refine le_trans (share_mono ?_) (events_level (fun E => closePairs (NearBoth sdist delta tau) E) E R α hα)
  rintro ω ⟨o, p, ho, hp, hle⟩
  have hsh : IsShuffle E.length (assignment ω) := isShuffle_permList _
  have hl := length_retime (E := E) hsh
  have hs' : AnswersSpace sdist delta (retime (assignment ω) E) sball := by
    refine ⟨by rw [hl]; exact hs.length, ?_⟩
    intro i hi j
    rw [hl] at hi ⊢
    rw [hs.mem i hi j]
    refine and_congr_right fun hj => ?_
    rw [NearSpace, NearSpace, retime_ev hsh hi, retime_ev hsh hj]
  obtain ⟨o', p', h1, h2, -, h4, -⟩ := C75_permutations_relabel_time cdf hd delta tau (retime (assignment ω) E) sball (tball ω) hs'
    (ht ω) (shuffles ω) (by rw [hl]; exact isShuffle_shuffles ω) (shuffles_ne_nil hR ω) keep
  rw [ho] at h1
  cases h1
  rw [hp] at h2
  cases h2
  rw [h4, pseudoP, ← List.countP_eq_length_filter, List.length_map, length_shuffles] at hle
  exact hle

/-- **C104, modified_knox.** The same for `modified_knox`, for at least two events. -/
theorem C104_modified_knox_level (sdist : K × K → K × K → K) (E : List (Event K)) (hn : 2 ≤ E.length) (delta tau : K)
    (R : ℕ) (hR : 0 < R) (α : K) (hα : 0 ≤ α) :
    share K (Rearrangements E.length R) (fun ω => ∃ p,
      (modifiedKnox sdist (E.map Prod.fst) (shuffle 0 (assignment ω) (E.map Prod.snd)) delta tau (shuffles ω)).2 = some p
        ∧ p ≤ α) ≤ α := by
  have hfin : ∀ E' : List (Event K), ∃ x : K, E'.length ≠ 1 →
      (modifiedKnox sdist (E'.map Prod.fst) (E'.map Prod.snd) delta tau []).1 = .fin x := by
    intro E'
    by_cases h : E'.length = 1
    · exact ⟨0, fun h' => absurd h h'⟩
    · obtain ⟨x, hx⟩ := modifiedKnox_finite sdist E' h delta tau []
      exact ⟨x, fun _ => hx⟩
  choose f hf using hfin
  refine le_trans (share_mono ?_) (events_level f E R α hα)
  rintro ω ⟨p, hp, hle⟩
  have hsh : IsShuffle E.length (assignment ω) := isShuffle_permList _
  have hl := length_retime (E := E) hsh
  have e1 : (retime (assignment ω) E).map Prod.fst = E.map Prod.fst := by
    rw [retime_eq, List.map_fst_zip (by simp [shuffle, assignment, length_permList])]
  have e2 : (retime (assignment ω) E).map Prod.snd = shuffle 0 (assignment ω) (E.map Prod.snd) := by
    rw [retime_eq, List.map_snd_zip (by simp [shuffle, assignment, length_permList])]
  obtain ⟨stat, sims, p', h1, h2, h3, -⟩ := C67_modified_knox_pvalue sdist (retime (assignment ω) E) (by omega) delta tau
    (shuffles ω) (by rw [hl]; exact isShuffle_shuffles ω) (shuffles_ne_nil hR ω)
  rw [← e1, ← e2, h1] at hp
  cases hp
  have hstat : stat = f (retime (assignment ω) E) := by
    have a := hf (retime (assignment ω) E) (by omega)
    have b := congrArg Prod.fst h1
    rw [modifiedKnox_stat] at a b
    rw [a] at b
    exact (XF.fin.inj b).symm
  have hsims : sims = (shuffles ω).map fun q => f (retime q (retime (assignment ω) E)) := by
    have : sims.map XF.fin = ((shuffles ω).map fun q => f (retime q (retime (assignment ω) E))).map XF.fin := by
      rw [h2, List.map_map]
      refine List.map_congr_left ?_
      intro q hq
      have hq' : IsShuffle (retime (assignment ω) E).length q := by rw [hl]; exact isShuffle_shuffles ω q hq
      exact hf _ (by rw [length_retime hq']; omega)
    exact List.map_injective_iff.2 (fun a b h => XF.fin.inj h) this
  rw [h3, pseudoPnum, ← List.countP_eq_length_filter, hsims, hstat, List.length_map, length_shuffles] at hle
  exact hle

/-- **C104, jacquez.** The same for `jacquez`; `knnTime` is the function that lists the neighbours in time. -/
theorem C104_jacquez_level (knnTime : List K → List (List ℕ)) (nns : List (List ℕ)) (t : List K) (R : ℕ) (hR : 0 < R)
    (α : K) (hα : 0 ≤ α) :
    share K (Rearrangements t.length R) (fun ω => ∃ p : K,
      (jacquez t.length (knnTime (shuffle 0 (assignment ω) t)) nns
        ((shuffles ω).map fun q => knnTime (shuffle 0 q (shuffle 0 (assignment ω) t)))).2 = some p ∧ p ≤ α) ≤ α := by
  refine le_trans (share_mono ?_) (times_level (fun t' => sharedNeighbours t.length (knnTime t') nns) t R α hα)
  rintro ω ⟨p, hp, hle⟩
  have hne : (shuffles ω).map (fun q => knnTime (shuffle 0 q (shuffle 0 (assignment ω) t))) ≠ [] := by
    simpa using shuffles_ne_nil hR ω
  obtain ⟨p', h1, h2, -⟩ := C67_jacquez_pvalue (K := K) t.length (knnTime (shuffle 0 (assignment ω) t)) nns _ hne
  rw [hp] at h1
  cases h1
  rw [h2, pseudoP, ← List.countP_eq_length_filter, List.length_map, List.length_map, length_shuffles, List.map_map] at hle
  exact hle

/-! ### mantel -/

/-- Whether the correlation is a number does not depend on which time belongs to which location. -/
theorem mantel_nan (sdist : ℝ × ℝ → ℝ × ℝ → ℝ) (scon spow tcon tpow : ℝ) (E : List (Event ℝ)) (p : List ℕ)
    (hp : IsShuffle E.length p) :
    sumSquares ((mantelPairs sdist scon spow tcon tpow (retime p E)).map Prod.fst)
        = sumSquares ((mantelPairs sdist scon spow tcon tpow E).map Prod.fst)
      ∧ sumSquares ((mantelPairs sdist scon spow tcon tpow (retime p E)).map Prod.snd)
        = sumSquares ((mantelPairs sdist scon spow tcon tpow E).map Prod.snd) := by
  have hl : p.length = E.length := hp.length
  have e1 : ∀ E' : List (Event ℝ), (mantelPairs sdist scon spow tcon tpow E').map Prod.fst
      = (pairs (E'.map Prod.snd)).map fun q => (|q.2 - q.1| + tcon) ^ tpow := by
    intro E'
    rw [pairs_map, mantelPairs, List.map_map, List.map_map]
    rfl
  have e2 : ∀ E' : List (Event ℝ), (mantelPairs sdist scon spow tcon tpow E').map Prod.snd
      = (pairs (E'.map Prod.fst)).map fun q => (sdist q.2 q.1 + scon) ^ spow := by
    intro E'
    rw [pairs_map, mantelPairs, List.map_map, List.map_map]
    rfl
  have s1 : (retime p E).map Prod.snd = shuffle 0 p (E.map Prod.snd) := by
    rw [retime_eq, List.map_snd_zip (by simp [shuffle, hl])]
  have s2 : (retime p E).map Prod.fst = E.map Prod.fst := by
    rw [retime_eq, List.map_fst_zip (by simp [shuffle, hl])]
  refine ⟨?_, by rw [e2, e2, s2]⟩
  rw [e1, e1, s1]
  refine sumSquares_perm (pairs_perm (fun a b : ℝ => (|b - a| + tcon) ^ tpow) ?_ (shuffle_perm 0 (by simpa using hp)))
  intro a b
  rw [abs_sub_comm]

/-- Nor does it depend on which time belongs to which location whether the transformed distances are numbers. -/
theorem allDefined_retime {sdist : ℝ × ℝ → ℝ × ℝ → ℝ} {scon spow tcon tpow : ℝ} {E : List (Event ℝ)} {p : List ℕ}
    (hp : IsShuffle E.length p) (h : AllDefined sdist scon spow tcon tpow E) :
    AllDefined sdist scon spow tcon tpow (retime p E) := by
  have hl : p.length = E.length := hp.length
  have e1 : ∀ E' : List (Event ℝ), (pairs E').map (fun q => PowerDefined (|q.2.2 - q.1.2| + tcon) tpow)
      = (pairs (E'.map Prod.snd)).map fun q => PowerDefined (|q.2 - q.1| + tcon) tpow := by
    intro E'
    rw [pairs_map, List.map_map]
    rfl
  have e2 : ∀ E' : List (Event ℝ), (pairs E').map (fun q => PowerDefined (sdist q.2.1 q.1.1 + scon) spow)
      = (pairs (E'.map Prod.fst)).map fun q => PowerDefined (sdist q.2 q.1 + scon) spow := by
    intro E'
    rw [pairs_map, List.map_map]
    rfl
  have s1 : (retime p E).map Prod.snd = shuffle 0 p (E.map Prod.snd) := by
    rw [retime_eq, List.map_snd_zip (by simp [shuffle, hl])]
  have s2 : (retime p E).map Prod.fst = E.map Prod.fst := by
    rw [retime_eq, List.map_fst_zip (by simp [shuffle, hl])]
  intro q hq
  constructor
  · have hperm := pairs_perm (fun a b : ℝ => PowerDefined (|b - a| + tcon) tpow) (fun a b => by rw [abs_sub_comm])
      (shuffle_perm 0 (l := E.map Prod.snd) (by simpa using hp) : (shuffle 0 p (E.map Prod.snd)).Perm (E.map Prod.snd))
    have hm := List.mem_map_of_mem (f := fun q => PowerDefined (|q.2.2 - q.1.2| + tcon) tpow) hq
    rw [e1, s1] at hm
    have hm' := hperm.mem_iff.1 hm
    rw [← e1] at hm'
    obtain ⟨q', hq', he⟩ := List.mem_map.1 hm'
    rw [← he]
    exact (h q' hq').1
  · have hm := List.mem_map_of_mem (f := fun q => PowerDefined (sdist q.2.1 q.1.1 + scon) spow) hq
    rw [e2, s2, ← e2] at hm
    obtain ⟨q', hq', he⟩ := List.mem_map.1 hm
    rw [← he]
    exact (h q' hq').2

/-- A p-value that `mantel` reports with a number as statistic is the rank of the statistic among those of the events with permuted
times. -/
theorem mantel_rank (sdist : ℝ × ℝ → ℝ × ℝ → ℝ) (scon spow tcon tpow : ℝ) (f : List (Event ℝ) → ℝ)
    (hf : ∀ E' r, mantel sdist (E'.map Prod.fst) (E'.map Prod.snd) [] scon spow tcon tpow = .ok (.fin r, none) → r = f E')
    (E : List (Event ℝ)) (hn : 3 ≤ E.length) (perms : List (List ℕ)) (hperm : ∀ p ∈ perms, IsShuffle E.length p)
    (hne : perms ≠ []) (r p : ℝ)
    (h : mantel sdist (E.map Prod.fst) (E.map Prod.snd) perms scon spow tcon tpow = .ok (.fin r, some p)) :
    p = (((perms.map fun q => f (retime q E)).countP (fun x => decide (f E ≤ x)) : ℕ) + 1 : ℝ) / ((perms.length : ℝ) + 1) := by
  obtain ⟨stat, sims, p', h1, h2, h3, -⟩ := C67_mantel_pvalue sdist E hn scon spow tcon tpow perms hperm hne
  rw [h1] at h
  cases h
  -- the reported statistic
  have h0 : mantel sdist (E.map Prod.fst) (E.map Prod.snd) [] scon spow tcon tpow = .ok (.fin r, none) := by
    unfold mantel at h1 ⊢
    simp only at h1 ⊢
    split at h1
    · cases h1
    · rename_i st hst
      rw [if_neg hne] at h1
      split at h1
      · cases h1
      · cases h1
        simp only [if_true]
  have hr := hf _ r h0
  -- the simulated statistics
  have hdef : AllDefined sdist scon spow tcon tpow E := by
    by_contra hdef
    rw [C70_undefined _ hn _ _ _ _ hdef [] (by simp)] at h0
    cases h0
  have hz : ¬ (sumSquares ((mantelPairs sdist scon spow tcon tpow E).map Prod.fst) = 0
      ∨ sumSquares ((mantelPairs sdist scon spow tcon tpow E).map Prod.snd) = 0) := by
    intro hz
    rw [mantel_nil, if_pos hdef, pearsonr_pairs, if_pos hz] at h0
    split_ifs at h0 <;> cases h0
  have hlen2 := length_mantelPairs sdist scon spow tcon tpow E hn
  have hsims : sims = perms.map fun q => .fin (f (retime q E)) := by
    rw [← List.forall₂_eq_eq_eq, List.forall₂_map_right_iff]
    refine List.Forall₂.flip ?_
    have : List.Forall₂ (fun q m => mantel sdist ((retime q E).map Prod.fst)
        ((retime q E).map Prod.snd) [] scon spow tcon tpow = .ok (m, none)
        ∧ IsShuffle E.length q) perms sims := by
      rw [List.forall₂_iff_get] at h2 ⊢
      exact ⟨h2.1, fun i a b => ⟨h2.2 i a b, hperm _ (List.get_mem _ _)⟩⟩
    refine this.imp ?_
    rintro q m ⟨hm, hq⟩
    obtain ⟨z1, z2⟩ := mantel_nan sdist scon spow tcon tpow E q hq
    have hm' := hm
    have hlen3 := length_mantelPairs sdist scon spow tcon tpow (retime q E) (by rw [length_retime hq]; exact hn)
    rw [mantel_nil, if_pos (allDefined_retime hq hdef), pearsonr_pairs, if_neg (by omega), z1, z2, if_neg hz] at hm'
    cases hm'
    show XF.fin _ = _
    rw [hf _ _ hm]
  rw [h3, ← List.countP_eq_length_filter, hsims, List.countP_map, List.countP_map, ← hr]
  rfl

/-- **C104, mantel.** The same for `mantel`, whenever it reports a number as statistic. -/
theorem C104_mantel_level_partial (sdist : ℝ × ℝ → ℝ × ℝ → ℝ) (E : List (Event ℝ)) (hn : 3 ≤ E.length)
    (scon spow tcon tpow : ℝ) (R : ℕ) (hR : 0 < R) (α : ℝ) (hα : 0 ≤ α) :
    share ℝ (Rearrangements E.length R) (fun ω => ∃ r p,
      mantel sdist (E.map Prod.fst) (shuffle 0 (assignment ω) (E.map Prod.snd)) (shuffles ω) scon spow tcon tpow
        = .ok (.fin r, some p) ∧ p ≤ α) ≤ α := by
  have hfin : ∀ E' : List (Event ℝ), ∃ x : ℝ, ∀ r, mantel sdist (E'.map Prod.fst) (E'.map Prod.snd) [] scon spow tcon tpow
      = .ok (.fin r, none) → r = x := by
    intro E'
    by_cases h : ∃ r, mantel sdist (E'.map Prod.fst) (E'.map Prod.snd) [] scon spow tcon tpow = .ok (.fin r, none)
    · obtain ⟨x, hx⟩ := h
      refine ⟨x, fun r hr => ?_⟩
      rw [hx] at hr
      cases hr
      rfl
    · exact ⟨0, fun r hr => absurd ⟨r, hr⟩ h⟩
  choose f hf using hfin
  refine le_trans (share_mono ?_) (events_level f E R α hα)
  rintro ω ⟨r, p, hp, hle⟩
  have hsh : IsShuffle E.length (assignment ω) := isShuffle_permList _
  have hl := length_retime (E := E) hsh
  have e1 : (retime (assignment ω) E).map Prod.fst = E.map Prod.fst := by
    rw [retime_eq, List.map_fst_zip (by simp [shuffle, assignment, length_permList])]
  have e2 : (retime (assignment ω) E).map Prod.snd = shuffle 0 (assignment ω) (E.map Prod.snd) := by
    rw [retime_eq, List.map_snd_zip (by simp [shuffle, assignment, length_permList])]
  rw [← e1, ← e2] at hp
  rw [mantel_rank sdist scon spow tcon tpow f hf (retime (assignment ω) E) (by omega) (shuffles ω)
    (by rw [hl]; exact isShuffle_shuffles ω) (shuffles_ne_nil hR ω) r p hp, length_shuffles] at hle
  exact hle

/-- **C104, mantel, refuted.** If all times are equal `mantel` has no correlation to report; it reports `nan` with the smallest
possible p-value `1 / (R + 1)`, whatever the rearrangements. -/
theorem C104_mantel_level_refuted (sdist : ℝ × ℝ → ℝ × ℝ → ℝ) (s : List (ℝ × ℝ)) (hn : 3 ≤ s.length) (c : ℝ)
    (scon spow tcon tpow : ℝ) (R : ℕ) (hR : 0 < R) :
    share ℝ (Rearrangements s.length R) (fun ω =>
      mantel sdist s (shuffle 0 (assignment ω) (List.replicate s.length c)) (shuffles ω) scon spow tcon tpow
        = .ok (.nan, some (1 / ((R : ℝ) + 1)))) = 1 := by
  classical
  set E : List (Event ℝ) := s.map fun x => (x, c) with hE
  have hlen : E.length = s.length := by simp [hE]
  have h1 : E.map Prod.fst = s := by simp [hE, List.map_map, Function.comp_def]
  have h2 : E.map Prod.snd = List.replicate s.length c := by
    simp [hE, List.map_map, Function.comp_def]
  have hrep : ∀ p : List ℕ, IsShuffle s.length p → shuffle 0 p (List.replicate s.length c) = List.replicate s.length c := by
    intro p hp
    rw [List.eq_replicate_iff]
    refine ⟨by simp [shuffle, hp.length], ?_⟩
    intro b hb
    obtain ⟨i, hi, rfl⟩ := List.mem_map.1 hb
    have := hp.mem.1 hi
    simp [List.getD_eq_getElem?_getD, this]
  have hre : ∀ p : List ℕ, IsShuffle s.length p → retime p E = E := by
    intro p hp
    rw [retime_eq, h1, h2, hrep p hp]
    apply List.ext_getElem
    · simp [hE]
    · intro i a b
      simp [hE]
  have hz : sumSquares ((mantelPairs sdist scon spow tcon tpow E).map Prod.fst) = 0 := by
    have : (mantelPairs sdist scon spow tcon tpow E).map Prod.fst
        = List.replicate (mantelPairs sdist scon spow tcon tpow E).length ((|c - c| + tcon) ^ tpow) := by
      rw [List.eq_replicate_iff]
      refine ⟨by simp, ?_⟩
      intro b hb
      obtain ⟨q, hq, rfl⟩ := List.mem_map.1 hb
      obtain ⟨x, hx, rfl⟩ := List.mem_map.1 hq
      have hm := mem_pairs_mem hx
      obtain ⟨y1, _, e1⟩ := List.mem_map.1 hm.1
      obtain ⟨y2, _, e2⟩ := List.mem_map.1 hm.2
      rw [← e1, ← e2]
    have hl := length_mantelPairs sdist scon spow tcon tpow E (by omega)
    rw [this]
    generalize (mantelPairs sdist scon spow tcon tpow E).length = m at hl
    have hm : mean (List.replicate m ((|c - c| + tcon) ^ tpow)) = (|c - c| + tcon) ^ tpow := by
      have : (m : ℝ) ≠ 0 := by positivity
      rw [mean, List.sum_replicate, List.length_replicate, nsmul_eq_mul]
      field_simp
    rw [sumSquares, hm]
    simp
  have hnan : mantel sdist (E.map Prod.fst) (E.map Prod.snd) [] scon spow tcon tpow = .ok (.nan, none) := by
    by_cases hdef : AllDefined sdist scon spow tcon tpow E
    · rw [mantel_nil, if_pos hdef, pearsonr_pairs,
        if_neg (by have := length_mantelPairs sdist scon spow tcon tpow E (by omega); omega), if_pos (Or.inl hz)]
      rfl
    · exact C70_undefined E (by omega) _ _ _ _ hdef [] (by simp)
  have hall : ∀ ω : Rearrangements s.length R,
      mantel sdist s (shuffle 0 (assignment ω) (List.replicate s.length c)) (shuffles ω) scon spow tcon tpow
        = .ok (.nan, some (1 / ((R : ℝ) + 1))) := by
    intro ω
    rw [hrep (assignment ω) (isShuffle_permList _), ← h2]
    have hs : ∀ x, mantel sdist s x (shuffles ω) scon spow tcon tpow
        = mantel sdist (E.map Prod.fst) x (shuffles ω) scon spow tcon tpow := by
      intro x
      exact congrArg (fun s' => mantel sdist s' x (shuffles ω) scon spow tcon tpow) h1.symm
    rw [hs]
    obtain ⟨stat, sims, p', g1, g2, g3, -⟩ := C67_mantel_pvalue sdist E (by omega) scon spow tcon tpow
      (shuffles ω) (by rw [hlen]; exact isShuffle_shuffles ω) (shuffles_ne_nil hR ω)
    rw [g1]
    have hstat : stat = .nan := by
      unfold mantel at g1 hnan
      simp only at g1 hnan
      split at g1
      · cases g1
      · rename_i st hst
        simp only [hst, if_true] at hnan
        cases hnan
        rw [if_neg (shuffles_ne_nil hR ω)] at g1
        split at g1 <;> cases g1
        rfl
    rw [g3, hstat, length_shuffles]
    have : (sims.filter fun m => XF.ge m (.nan : XF ℝ)) = [] := by
      rw [List.filter_eq_nil_iff]
      intro m _
      cases m <;> simp [XF.ge]
    rw [this]
    simp
  rw [share_eq, Finset.filter_true_of_mem (fun ω _ => hall ω), Finset.card_univ, div_self]
  exact Nat.cast_ne_zero.2 Fintype.card_ne_zero

/-! ### knox -/

/-- **C104 is false of `knox`.** If all times are equal, or the permutations leave the count unchanged for another reason, the
p-value is the smallest possible one, `1 / (R + 1)`, with probability one. -/
theorem C104_knox_level_refuted (pairs : List (ℕ × ℕ)) (hp : pairs ≠ []) (n : ℕ) (c tau : K) (R : ℕ) (hR : 0 < R) :
    share K (Rearrangements n R) (fun ω => ∃ r,
      knox pairs (shuffle 0 (assignment ω) (List.replicate n c)) tau (shuffles ω) = .ok r
        ∧ r.pvalue = some (1 / ((R : K) + 1))) = 1 := by
  classical
  have hrep : ∀ p : List ℕ, IsShuffle n p → shuffle 0 p (List.replicate n c) = List.replicate n c := by
    intro p hp
    rw [List.eq_replicate_iff]
    refine ⟨by simp [shuffle, hp.length], ?_⟩
    intro b hb
    obtain ⟨i, hi, rfl⟩ := List.mem_map.1 hb
    have := hp.mem.1 hi
    simp [List.getD_eq_getElem?_getD, this]
  have htimes : ∀ ps : List (List ℕ), (∀ p ∈ ps, IsShuffle n p) →
      timesAfter (List.replicate n c) ps = List.replicate ps.length (List.replicate n c) := by
    intro ps
    induction ps with
    | nil => intro _; rfl
    | cons p ps ih =>
      intro h
      rw [timesAfter, hrep p (h p (by simp)), ih (fun q hq => h q (by simp [hq]))]
      rfl
  have hall : ∀ ω : Rearrangements n R, ∃ r,
      knox pairs (shuffle 0 (assignment ω) (List.replicate n c)) tau (shuffles ω) = .ok r
        ∧ r.pvalue = some (1 / ((R : K) + 1)) := by
    intro ω
    rw [hrep (assignment ω) (isShuffle_permList _), knox, if_neg hp, if_neg (shuffles_ne_nil hR ω)]
    refine ⟨_, rfl, ?_⟩
    simp only [knoxPvalue, knoxLoop_eq, htimes _ (isShuffle_shuffles ω), length_shuffles, List.map_replicate,
      List.countP_replicate, le_refl, decide_true, if_true, sub_self]
    rw [if_pos (by exact_mod_cast hR)]
    simp
  rw [share_eq, Finset.filter_true_of_mem (fun ω _ => hall ω), Finset.card_univ, div_self]
  exact Nat.cast_ne_zero.2 Fintype.card_ne_zero

/-- The shuffles of `knox` work in place, so they accumulate; the resulting assignments are again arbitrary. -/
def cumulativeEquiv (n R : ℕ) : Rearrangements n R ≃ Rearrangements n R where
  toFun ω := ω 0 • Fin.partialProd fun i => ω i.succ
  invFun ρ := Fin.cons (ρ 0) fun i => (ρ i.castSucc)⁻¹ * ρ i.succ
  left_inv ω := by
    funext j
    refine Fin.cases ?_ (fun i => ?_) j
    · simp
    · simp only [Fin.cons_succ, Pi.smul_apply, smul_eq_mul, mul_inv_rev]
      rw [mul_assoc, inv_mul_cancel_left, Fin.partialProd_right_inv]
  right_inv ρ := Fin.partialProd_left_inv ρ

private theorem timesAfter_cumulative (t : List K) : ∀ (R : ℕ) (g : Equiv.Perm (Fin t.length))
    (f : Fin R → Equiv.Perm (Fin t.length)),
    timesAfter (shuffle 0 (permList g) t) (List.ofFn fun i => permList (f i))
      = List.ofFn fun i : Fin R => shuffle 0 (permList (g * Fin.partialProd f i.succ)) t := by
  intro R
  induction R with
  | zero => intro g f; rfl
  | succ R ih =>
    intro g f
    rw [List.ofFn_succ, List.ofFn_succ, timesAfter, shuffle_permList, ih (g * f 0) fun i => f i.succ]
    congr 1
    · congr 3
      rw [Fin.partialProd_succ]
      simp
    · congr 1
      funext i
      rw [Fin.partialProd_succ' f i.succ, ← mul_assoc]
      rfl

/-- **C104, knox, what holds.** The level is kept as long as the p-value is not flipped: the probability that at most half of the
permuted counts are at least the observed one and the p-value is at most `α` is at most `α`. -/
theorem C104_knox_level_partial (pairs : List (ℕ × ℕ)) (t : List K) (tau : K) (R : ℕ) (hR : 0 < R) (α : K) (hα : 0 ≤ α) :
    share K (Rearrangements t.length R) (fun ω => ∃ r p,
      knox pairs (shuffle 0 (assignment ω) t) tau (shuffles ω) = .ok r ∧ r.pvalue = some p ∧ p ≤ α
        ∧ 2 * ((timesAfter (shuffle 0 (assignment ω) t) (shuffles ω)).countP
            fun t' => decide (r.stat ≤ timeClose pairs t' tau)) ≤ R) ≤ α := by
  refine le_trans (share_mono ?_) (le_trans (le_of_eq (share_equiv (cumulativeEquiv t.length R) _)) (rank_share (K := K)
    (fun σ : Equiv.Perm (Fin t.length) => timeClose pairs (shuffle 0 (permList σ) t) tau) R α hα))
  rintro ω ⟨r, p, hk, hp, hle, hhalf⟩
  unfold knox at hk
  rw [if_neg (shuffles_ne_nil hR ω)] at hk
  split_ifs at hk with h1
  cases hk
  have hta := timesAfter_cumulative t R (ω 0) (fun i => ω i.succ)
  simp only [assignment, shuffles] at hp hhalf
  simp only [knoxPvalue, knoxLoop_eq, List.length_ofFn] at hp
  rw [hta] at hp hhalf
  rw [List.countP_map] at hp
  have z : (cumulativeEquiv t.length R ω) 0 = ω 0 := by
    show ω 0 * Fin.partialProd _ 0 = ω 0
    rw [Fin.partialProd_zero, mul_one]
  have zs : ∀ i : Fin R, (cumulativeEquiv t.length R ω) i.succ = ω 0 * Fin.partialProd (fun i => ω i.succ) i.succ := by
    intro i; rfl
  simp only [z, zs]
  have hof : (List.ofFn fun i : Fin R => timeClose pairs
        (shuffle 0 (permList (ω 0 * Fin.partialProd (fun i => ω i.succ) i.succ)) t) tau)
      = (List.ofFn fun i : Fin R => shuffle 0 (permList (ω 0 * Fin.partialProd (fun i => ω i.succ) i.succ)) t).map
          fun t' => timeClose pairs t' tau := by
    rw [List.map_ofFn]
    rfl
  rw [hof, List.countP_map]
  simp only [Function.comp_def] at hp ⊢
  generalize hc : List.countP _ _ = c at hp
  have h2 : 2 * c ≤ R := by
    rw [← hc]
    exact hhalf
  rw [if_neg (by omega)] at hp
  cases hp
  simpa using hle

/-- Non-vacuity: the index answers the theorem about `Knox` asks for exist for all events and thresholds, and the other theorems
ask for nothing but enough events. -/
example (n : ℕ) (close : ℕ → ℕ → Prop) [DecidableRel close] :
    AnswersBall n close ((List.range n).map fun i => (List.range n).filter fun j => decide (close i j)) := by
  refine ⟨by simp, ?_⟩
  intro i hi j
  simp [List.getD_eq_getElem?_getD, hi]
example : share ℚ (Rearrangements 4 9) (fun ω => ∃ p,
    (modifiedKnox lineDist [(0, 0), (1, 0), (2, 0), (5, 0)] (shuffle 0 (assignment ω) [1, 4, 4, 7]) 1 2 (shuffles ω)).2 = some p
      ∧ p ≤ 1 / 10) ≤ 1 / 10 :=
  C104_modified_knox_level lineDist [((0, 0), 1), ((1, 0), 4), ((2, 0), 4), ((5, 0), 7)] (by decide) 1 2 9 (by norm_num) _
    (by norm_num)

end Pointpats.Props
