import Verif.Lemmas.Knox
import Verif.Props.SpacetimeStats
import Mathlib.Data.Finset.Sort

/-!
# Properties C73, C74, C75: the global Knox test

`sball` and `tball` are what the two spatial indexes answer for the events `E`; they may list neighbours in
any order.
-/

set_option linter.unusedSectionVars false

namespace Pointpats.Props

open Spec Spacetime

variable {K : Type} [Field K] [LinearOrder K] [IsStrictOrderedRing K]

/-- Event number `i`. -/
def ev (E : List (Event K)) (i : ℕ) : Event K := E.getD i ((0, 0), 0)

/-- `sball` answers, for every event, which events are at most `delta` away in space. -/
def AnswersSpace (sdist : K × K → K × K → K) (delta : K) (E : List (Event K)) (sball : List (List ℕ)) : Prop :=
  AnswersBall E.length (fun i j => NearSpace sdist delta (ev E i) (ev E j)) sball

/-- `tball` answers, for every event, which events are at most `tau` away in time. -/
def AnswersTime (tau : K) (E : List (Event K)) (tball : List (List ℕ)) : Prop :=
  AnswersBall E.length (fun i j => NearTime tau (ev E i) (ev E j)) tball

theorem closePairs_ev (close : Event K → Event K → Prop) [DecidableRel close] (E : List (Event K)) :
    closePairs close E = (allPairs E.length).countP fun p => decide (close (ev E p.1) (ev E p.2)) :=
  closePairs_index close E _

theorem halfTotal_eq {close : Event K → Event K → Prop} [DecidableRel close] (hs : ∀ a b, close a b ↔ close b a)
    (E : List (Event K)) :
    halfTotal (K := K) ((List.range E.length).map (nbr E.length fun i j => close (ev E i) (ev E j)))
      = (closePairs close E : K) := by
  rw [halfTotal, sum_card_nbr _ _ (fun i _ j _ => hs _ _), ← closePairs_ev]
  push_cast
  field_simp

theorem nearTime_symm (tau : K) (a b : Event K) : NearTime tau a b ↔ NearTime tau b a := by
  simp only [NearTime, abs_sub_comm a.2 b.2]

theorem retime_ev {p : List ℕ} {E : List (Event K)} (hp : IsShuffle E.length p) {i : ℕ} (hi : i < E.length) :
    ev (retime p E) i = ((ev E i).1, (ev E (p.getD i 0)).2) := by
  have hl : p.length = E.length := hp.length
  have hi' : i < p.length := by omega
  have h2 := IsShuffle.getD_lt hp hi
  have h3 : p[i] < E.length := by simpa [List.getD_eq_getElem?_getD, hi'] using h2
  simp [ev, retime, List.getD_eq_getElem?_getD, hi, hi', h3]

theorem length_retime {p : List ℕ} {E : List (Event K)} (hp : IsShuffle E.length p) :
    (retime p E).length = E.length := by
  have hl : p.length = E.length := hp.length
  simp [retime, hl]

/-- The permuted statistic is the count of close pairs after rearranging the times. -/
theorem permutedCount_eq {sdist : K × K → K × K → K} (hd : IsSpaceDistance sdist) (delta tau : K) (E : List (Event K))
    {p : List ℕ} (hp : IsShuffle E.length p) :
    permutedCount (K := K) ((List.range E.length).map (nbr E.length fun i j => NearSpace sdist delta (ev E i) (ev E j)))
        ((List.range E.length).map (nbr E.length fun i j => NearTime tau (ev E i) (ev E j))) p
      = (closePairs (NearBoth sdist delta tau) (retime p E) : K) := by
  rw [permutedCount, List.length_map, List.length_range, ← halfTotal_eq (nearBoth_symm hd delta tau), halfTotal]
  congr 3
  rw [length_retime hp, List.map_map]
  refine List.map_congr_left ?_
  intro i hi
  have hi' := List.mem_range.1 hi
  have hpi := IsShuffle.getD_lt hp hi'
  rw [getD_map_range _ hi', getD_map_range _ hpi, filter_nbr hp hi', Function.comp_apply]
  congr 1
  ext j
  simp only [mem_nbr]
  constructor
  · rintro ⟨a, b, c, d⟩
    refine ⟨a, b, ?_⟩
    rw [retime_ev hp hi', retime_ev hp a]
    exact ⟨c, d⟩
  · rintro ⟨a, b, c⟩
    rw [retime_ev hp hi', retime_ev hp a] at c
    exact ⟨a, b, c.1, c.2⟩

/-- Everything `_knox` computes, in terms of the events. -/
theorem knoxGlobal_eq (cdf : K → XF K → XF K) {sdist : K × K → K × K → K} (hd : IsSpaceDistance sdist) (delta tau : K)
    (E : List (Event K)) {sball tball : List (List ℕ)} (hs : AnswersSpace sdist delta E sball)
    (ht : AnswersTime tau E tball) (perms : List (List ℕ)) (hperm : ∀ p ∈ perms, IsShuffle E.length p) :
    ∃ r, knoxGlobal cdf sball tball perms = .ok r ∧
      r.ns = (closePairs (NearSpace sdist delta) E : K) ∧ r.nt = (closePairs (NearTime tau) E : K) ∧
      r.nst = (closePairs (NearBoth sdist delta tau) E : K) ∧
      r.pairs = (E.length : K) * ((E.length : K) - 1) / 2 ∧
      r.observed = (r.nst, r.ns - r.nst, r.nt - r.nst, r.pairs - r.nst - (r.ns - r.nst) - (r.nt - r.nst)) ∧
      r.expected = (XF.div (.fin (r.ns * r.nt)) (.fin r.pairs),
        XF.sub (.fin r.ns) (XF.div (.fin (r.ns * r.nt)) (.fin r.pairs)),
        XF.sub (.fin r.nt) (XF.div (.fin (r.ns * r.nt)) (.fin r.pairs)),
        XF.sub (.fin r.pairs) (xadd (xadd (XF.div (.fin (r.ns * r.nt)) (.fin r.pairs))
          (XF.sub (.fin r.ns) (XF.div (.fin (r.ns * r.nt)) (.fin r.pairs))))
          (XF.sub (.fin r.nt) (XF.div (.fin (r.ns * r.nt)) (.fin r.pairs))))) ∧
      r.p_value_poisson = XF.sub (.fin 1) (cdf r.nst (XF.div (.fin (r.ns * r.nt)) (.fin r.pairs))) ∧
      r.sneighbors = (List.range E.length).map (nbr E.length fun i j => NearSpace sdist delta (ev E i) (ev E j)) ∧
      r.tneighbors = (List.range E.length).map (nbr E.length fun i j => NearTime tau (ev E i) (ev E j)) ∧
      r.stneighbors = (List.range E.length).map (nbr E.length fun i j => NearBoth sdist delta tau (ev E i) (ev E j)) ∧
      (∀ i j, (i, j) ∈ r.st_pairs ↔ i < j ∧ j < E.length ∧ NearBoth sdist delta tau (ev E i) (ev E j)) ∧
      r.sim = (if perms = [] then none else
        some (pseudoPnum r.nst (perms.map fun p => (closePairs (NearBoth sdist delta tau) (retime p E) : K)),
          ((perms.map fun p => (closePairs (NearBoth sdist delta tau) (retime p E) : K)).countP
            fun m => decide (r.nst ≤ m)),
          perms.map fun p => (closePairs (NearBoth sdist delta tau) (retime p E) : K))) := by
  have es := neighbourSets_eq hs
  have et := neighbourSets_eq ht
  have est : List.zipWith (· ∩ ·)
      ((List.range E.length).map (nbr E.length fun i j => NearSpace sdist delta (ev E i) (ev E j)))
      ((List.range E.length).map (nbr E.length fun i j => NearTime tau (ev E i) (ev E j)))
      = (List.range E.length).map (nbr E.length fun i j => NearBoth sdist delta tau (ev E i) (ev E j)) := by
    rw [zipWith_inter]
    refine List.map_congr_left fun i _ => ?_
    ext j
    rw [mem_nbr, mem_nbr]
    exact Iff.rfl
  have hsim : (perms.map fun rids => permutedCount (K := K)
        ((List.range E.length).map (nbr E.length fun i j => NearSpace sdist delta (ev E i) (ev E j)))
        ((List.range E.length).map (nbr E.length fun i j => NearTime tau (ev E i) (ev E j))) rids)
      = perms.map fun p => (closePairs (NearBoth sdist delta tau) (retime p E) : K) :=
    List.map_congr_left fun p hp => permutedCount_eq hd delta tau E (hperm p hp)
  unfold knoxGlobal
  simp only [es, et, hs.length]
  rw [if_neg (by simp)]
  refine ⟨_, rfl, ?_⟩
  simp only [est, hsim, halfTotal_eq (nearSpace_symm hd delta), halfTotal_eq (nearTime_symm tau),
    halfTotal_eq (nearBoth_symm hd delta tau), true_and]
  refine ⟨?_, ?_⟩
  · intro i j
    rw [mem_stPairs (fun i _ j _ => nearBoth_symm hd delta tau _ _)]
  · by_cases h : perms = []
    · rw [if_pos h, if_pos h]
    · rw [if_neg h, if_neg h, pseudoPnum, List.countP_eq_length_filter, List.length_map]

/-- **C74.** The counts of the Knox test are the numbers of unordered pairs of events close in space, in time
and in both; the attribute `statistic_` is the last of them as an integer; `st_pairs` holds each of these
pairs once, with the smaller index first. -/
theorem C74_knox_counts_pairs [FloorRing K] (cdf : K → XF K → XF K) {sdist : K × K → K × K → K}
    (hd : IsSpaceDistance sdist) (delta tau : K) (E : List (Event K)) (sball tball : List (List ℕ))
    (hs : AnswersSpace sdist delta E sball) (ht : AnswersTime tau E tball) (perms : List (List ℕ))
    (hperm : ∀ p ∈ perms, IsShuffle E.length p) (keep : Bool) :
    ∃ r o, knoxGlobal cdf sball tball perms = .ok r ∧ knoxInit cdf sball tball perms keep = .ok o ∧
      r.ns = (closePairs (NearSpace sdist delta) E : K) ∧ r.nt = (closePairs (NearTime tau) E : K) ∧
      r.nst = (closePairs (NearBoth sdist delta tau) E : K) ∧
      o.statistic_ = (closePairs (NearBoth sdist delta tau) E : ℤ) ∧ o.nst = o.statistic_ ∧
      (∀ i j, (i, j) ∈ r.st_pairs ↔ i < j ∧ j < E.length ∧ NearBoth sdist delta tau (ev E i) (ev E j)) ∧
      r.st_pairs.card = closePairs (NearBoth sdist delta tau) E := by
  obtain ⟨r, hr, h1, h2, h3, -, -, -, -, -, -, -, h5, -⟩ := knoxGlobal_eq cdf hd delta tau E hs ht perms hperm
  have hint : pyInt r.nst = (closePairs (NearBoth sdist delta tau) E : ℤ) := by
    rw [h3, pyInt, if_pos (Nat.cast_nonneg _)]
    simp
  refine ⟨r, _, hr, by rw [knoxInit, hr]; rfl, h1, h2, h3, hint, rfl, h5, ?_⟩
  have hL := listsPairs_filter E.length (fun i j => NearBoth sdist delta tau (ev E i) (ev E j))
  rw [closePairs_ev, List.countP_eq_length_filter, ← List.toFinset_card_of_nodup hL.nodup]
  congr 1
  ext ⟨i, j⟩
  rw [h5, List.mem_toFinset, hL.mem]

/-- **C74, thresholds.** The counts grow with `delta` and `tau`. -/
theorem C74_counts_grow (cdf : K → XF K → XF K) {sdist : K × K → K × K → K} (hd : IsSpaceDistance sdist)
    (delta delta' tau tau' : K) (hdelta : delta ≤ delta') (htau : tau ≤ tau') (E : List (Event K))
    (sball tball sball' tball' : List (List ℕ))
    (hs : AnswersSpace sdist delta E sball) (ht : AnswersTime tau E tball)
    (hs' : AnswersSpace sdist delta' E sball') (ht' : AnswersTime tau' E tball') :
    ∃ r r', knoxGlobal cdf sball tball [] = .ok r ∧ knoxGlobal cdf sball' tball' [] = .ok r' ∧
      r.ns ≤ r'.ns ∧ r.nt ≤ r'.nt ∧ r.nst ≤ r'.nst := by
  obtain ⟨r, hr, h1, h2, h3, -⟩ := knoxGlobal_eq cdf hd delta tau E hs ht [] (by simp)
  obtain ⟨r', hr', h1', h2', h3', -⟩ := knoxGlobal_eq cdf hd delta' tau' E hs' ht' [] (by simp)
  refine ⟨r, r', hr, hr', ?_, ?_, ?_⟩
  · rw [h1, h1', Nat.cast_le]
    exact closePairs_mono (fun a b h => le_trans h hdelta) E
  · rw [h2, h2', Nat.cast_le]
    exact closePairs_mono (fun a b h => le_trans h htau) E
  · rw [h3, h3', Nat.cast_le]
    exact closePairs_mono (fun a b h => ⟨le_trans h.1 hdelta, le_trans h.2 htau⟩) E

/-- **C74, the two interfaces.** When some pair is close in space, the deprecated function `knox` reports the
same count as the class `Knox`. -/
theorem C74_agrees_with_knox [FloorRing K] (cdf : K → XF K → XF K) {sdist : K × K → K × K → K}
    (hd : IsSpaceDistance sdist) (delta tau : K) (htau : 0 ≤ tau) (E : List (Event K)) (sball tball : List (List ℕ))
    (hs : AnswersSpace sdist delta E sball) (ht : AnswersTime tau E tball)
    (pairs : List (ℕ × ℕ)) (hp : AnswersPairs sdist delta (E.map Prod.fst) pairs)
    (hne : 0 < closePairs (NearSpace sdist delta) E) :
    ∃ r o, knox pairs (E.map Prod.snd) tau [] = .ok r ∧ knoxInit cdf sball tball [] false = .ok o ∧
      (r.stat : ℤ) = o.statistic_ := by
  obtain ⟨r, hr, hrs⟩ := C66_knox_counts_pairs_partial sdist E delta tau htau pairs hp hne []
  obtain ⟨g, o, -, ho, -, -, -, hos, -⟩ := C74_knox_counts_pairs cdf hd delta tau E sball tball hs ht [] (by simp) false
  exact ⟨r, o, hr, ho, by rw [hrs, hos]⟩

/-- The pairs close in space or in time, by exclusion: at most all pairs. -/
theorem inclusion_exclusion {α : Type} (R S T : α → α → Prop) [DecidableRel R] [DecidableRel S] [DecidableRel T]
    (hT : ∀ a b, T a b ↔ R a b ∧ S a b) (l : List α) :
    closePairs R l + closePairs S l ≤ closePairs T l + (pairs l).length := by
  unfold closePairs
  generalize pairs l = L
  induction L with
  | nil => simp
  | cons p L ih =>
    simp only [List.countP_cons, List.length_cons, decide_eq_true_eq]
    have h3 := hT p.1 p.2
    by_cases h1 : R p.1 p.2 <;> by_cases h2 : S p.1 p.2 <;> simp only [h1, h2, h3, and_self, and_true,
      and_false, if_true, if_false] <;> omega

/-- **C73, observed.** The observed table has rows and columns adding up to `NS` and `NT`, no negative
cell, and a total of `n (n - 1) / 2`; `NST` is at most `NS` and `NT`. -/
theorem C73_observed_table (cdf : K → XF K → XF K) {sdist : K × K → K × K → K} (hd : IsSpaceDistance sdist)
    (delta tau : K) (E : List (Event K)) (sball tball : List (List ℕ)) (hs : AnswersSpace sdist delta E sball)
    (ht : AnswersTime tau E tball)
    (perms : List (List ℕ)) (hperm : ∀ p ∈ perms, IsShuffle E.length p) :
    ∃ r a b c d, knoxGlobal cdf sball tball perms = .ok r ∧ r.observed = (a, b, c, d) ∧
      a + b = (closePairs (NearSpace sdist delta) E : K) ∧ a + c = (closePairs (NearTime tau) E : K) ∧
      a + b + c + d = (E.length : K) * ((E.length : K) - 1) / 2 ∧ 0 ≤ a ∧ 0 ≤ b ∧ 0 ≤ c ∧ 0 ≤ d ∧
      r.nst ≤ r.ns ∧ r.nst ≤ r.nt := by
  obtain ⟨r, hr, h1, h2, h3, h4, h5, -⟩ := knoxGlobal_eq cdf hd delta tau E hs ht perms hperm
  have hl := length_pairs E
  have hie := inclusion_exclusion (NearSpace sdist delta) (NearTime tau) (NearBoth sdist delta tau)
    (fun a b => Iff.rfl) E
  have m1 : (closePairs (NearBoth sdist delta tau) E : K) ≤ (closePairs (NearSpace sdist delta) E : K) :=
    Nat.cast_le.2 (closePairs_mono (fun a b h => h.1) E)
  have m2 : (closePairs (NearBoth sdist delta tau) E : K) ≤ (closePairs (NearTime tau) E : K) :=
    Nat.cast_le.2 (closePairs_mono (fun a b h => h.2) E)
  have hie' : (closePairs (NearSpace sdist delta) E : K) + closePairs (NearTime tau) E
      ≤ closePairs (NearBoth sdist delta tau) E + (Spec.pairs E).length := by exact_mod_cast hie
  have hp : r.pairs = ((Spec.pairs E).length : K) := by
    rw [h4]
    have h2 : (2 : K) * ((Spec.pairs E).length : K) = (E.length : K) * ((E.length : K) - 1) := by
      rcases Nat.eq_zero_or_pos E.length with h0 | h0
      · rw [h0] at hl ⊢
        have : (Spec.pairs E).length = 0 := by omega
        rw [this]; simp
      · have : ((2 * (Spec.pairs E).length : ℕ) : K) = ((E.length * (E.length - 1) : ℕ) : K) := by rw [hl]
        push_cast [Nat.cast_sub h0] at this
        exact this
    rw [← h2]
    field_simp
  refine ⟨r, _, _, _, _, hr, h5, ?_, ?_, ?_, ?_, ?_, ?_, ?_, ?_, ?_⟩
  · rw [← h1]; ring
  · rw [← h2]; ring
  · rw [← h4]; ring
  · rw [h3]; exact Nat.cast_nonneg _
  · rw [h1, h3]; linarith
  · rw [h2, h3]; linarith
  · rw [hp, h1, h2, h3]; linarith
  · rw [h1, h3]; exact m1
  · rw [h2, h3]; exact m2

/-- **C73, expected.** With at least two events the expected table consists of numbers that are not negative,
with the margins of the observed table and the same total; its first cell is `NS * NT / pairs`. -/
theorem C73_expected_table (cdf : K → XF K → XF K) {sdist : K × K → K × K → K} (hd : IsSpaceDistance sdist)
    (delta tau : K) (E : List (Event K)) (hn : 2 ≤ E.length) (sball tball : List (List ℕ))
    (hs : AnswersSpace sdist delta E sball) (ht : AnswersTime tau E tball)
    (perms : List (List ℕ)) (hperm : ∀ p ∈ perms, IsShuffle E.length p) :
    ∃ r a b c d, knoxGlobal cdf sball tball perms = .ok r ∧ r.expected = (.fin a, .fin b, .fin c, .fin d) ∧
      a = (closePairs (NearSpace sdist delta) E : K) * (closePairs (NearTime tau) E : K)
        / ((E.length : K) * ((E.length : K) - 1) / 2) ∧
      a + b = (closePairs (NearSpace sdist delta) E : K) ∧ a + c = (closePairs (NearTime tau) E : K) ∧
      a + b + c + d = (E.length : K) * ((E.length : K) - 1) / 2 ∧ 0 ≤ a ∧ 0 ≤ b ∧ 0 ≤ c ∧ 0 ≤ d := by
  obtain ⟨r, hr, h1, h2, h3, h4, h5, h6, -⟩ := knoxGlobal_eq cdf hd delta tau E hs ht perms hperm
  have hn2 : (2 : K) ≤ (E.length : K) := by exact_mod_cast hn
  have hP : (0 : K) < (E.length : K) * ((E.length : K) - 1) / 2 := by
    have : (0 : K) < (E.length : K) - 1 := by linarith
    positivity
  have hPne : r.pairs ≠ 0 := by rw [h4]; exact hP.ne'
  have hl := length_pairs E
  have hp : r.pairs = ((Spec.pairs E).length : K) := by
    rw [h4]
    have : ((2 * (Spec.pairs E).length : ℕ) : K) = ((E.length * (E.length - 1) : ℕ) : K) := by rw [hl]
    push_cast [Nat.cast_sub (show 1 ≤ E.length by omega)] at this
    rw [← this]
    field_simp
  have b1 : (closePairs (NearSpace sdist delta) E : K) ≤ r.pairs := by
    rw [hp]; exact Nat.cast_le.2 (closePairs_le _ _)
  have b2 : (closePairs (NearTime tau) E : K) ≤ r.pairs := by
    rw [hp]; exact Nat.cast_le.2 (closePairs_le _ _)
  have p1 : (0 : K) ≤ (closePairs (NearSpace sdist delta) E : K) := Nat.cast_nonneg _
  have p2 : (0 : K) ≤ (closePairs (NearTime tau) E : K) := Nat.cast_nonneg _
  have hPp : 0 < r.pairs := by rw [h4]; exact hP
  have hdiv : XF.div (.fin (r.ns * r.nt)) (.fin r.pairs) = .fin (r.ns * r.nt / r.pairs) := by
    simp only [XF.div, if_neg hPne]
  rw [hdiv] at h6
  simp only [XF.sub, xadd] at h6
  refine ⟨r, _, _, _, _, hr, h6, ?_, ?_, ?_, ?_, ?_, ?_, ?_, ?_⟩
  · rw [h1, h2, h4]
  · rw [← h1]; ring
  · rw [← h2]; ring
  · rw [← h4]; ring
  · rw [h1, h2]; positivity
  · rw [h1, h2, sub_nonneg, div_le_iff₀ hPp]
    exact mul_le_mul_of_nonneg_left b2 p1
  · rw [h1, h2, sub_nonneg, div_le_iff₀ hPp, mul_comm]
    exact mul_le_mul_of_nonneg_left b1 p2
  · rw [h1, h2]
    have : r.pairs - ((closePairs (NearSpace sdist delta) E : K) * closePairs (NearTime tau) E / r.pairs
        + ((closePairs (NearSpace sdist delta) E : K)
          - (closePairs (NearSpace sdist delta) E : K) * closePairs (NearTime tau) E / r.pairs)
        + ((closePairs (NearTime tau) E : K)
          - (closePairs (NearSpace sdist delta) E : K) * closePairs (NearTime tau) E / r.pairs))
      = (r.pairs - closePairs (NearSpace sdist delta) E) * (r.pairs - closePairs (NearTime tau) E) / r.pairs := by
      field_simp
      ring
    rw [this]
    exact div_nonneg (mul_nonneg (sub_nonneg.2 b1) (sub_nonneg.2 b2)) hPp.le

/-- **C75.** Every permuted statistic is the Knox count of the events with the times assigned in permuted
order, and the pseudo p-value is one more than the number of permuted counts that are at least the observed
one, over one more than the number of permutations; it is between `1 / (P + 1)` and 1. -/
theorem C75_permutations_relabel_time [FloorRing K] (cdf : K → XF K → XF K) {sdist : K × K → K × K → K}
    (hd : IsSpaceDistance sdist) (delta tau : K) (E : List (Event K)) (sball tball : List (List ℕ))
    (hs : AnswersSpace sdist delta E sball) (ht : AnswersTime tau E tball) (perms : List (List ℕ))
    (hperm : ∀ p ∈ perms, IsShuffle E.length p) (hne : perms ≠ []) (keep : Bool) :
    ∃ o p, knoxInit cdf sball tball perms keep = .ok o ∧ o.p_sim = some p ∧
      o.sim = (if keep then some (perms.map fun q => (closePairs (NearBoth sdist delta tau) (retime q E) : K)) else none) ∧
      p = pseudoP K (closePairs (NearBoth sdist delta tau) E)
        (perms.map fun q => closePairs (NearBoth sdist delta tau) (retime q E)) ∧
      1 / ((perms.length : K) + 1) ≤ p ∧ p ≤ 1 := by
  obtain ⟨r, hr, h1, h2, h3, h4, -, -, -, -, -, -, -, h5⟩ := knoxGlobal_eq cdf hd delta tau E hs ht perms hperm
  rw [if_neg hne] at h5
  have hp : pseudoPnum r.nst (perms.map fun p => (closePairs (NearBoth sdist delta tau) (retime p E) : K))
      = pseudoP K (closePairs (NearBoth sdist delta tau) E)
        (perms.map fun q => closePairs (NearBoth sdist delta tau) (retime q E)) := by
    rw [pseudoPnum, pseudoP, List.length_map, List.length_map, h3]
    congr 2
    rw [List.filter_map, List.length_map, List.filter_map, List.length_map]
    congr 2
    refine List.filter_congr fun q _ => ?_
    simp
  have hb := pseudoPnum_bounds r.nst (perms.map fun p => (closePairs (NearBoth sdist delta tau) (retime p E) : K))
  rw [List.length_map] at hb
  refine ⟨_, _, by rw [knoxInit, hr]; rfl, by simp only [h5, Option.map_some], ?_, hp, hb.1, hb.2⟩
  simp only [h5, Option.map_some]

/-! ### A concrete case -/

/-- The events of the example and the answers of the two indexes. -/
theorem someEvents_space : AnswersSpace lineDist 1 someEvents [[0, 1], [1, 0, 2], [2, 1], [3]] where
  length := rfl
  mem := by
    have key : ∀ i < 4, ∀ j < 4, j ∈ ([[0, 1], [1, 0, 2], [2, 1], [3]] : List (List ℕ)).getD i [] ↔
        NearSpace lineDist 1 (ev someEvents i) (ev someEvents j) := by decide +kernel
    have key2 : ∀ i < 4, ∀ j ∈ ([[0, 1], [1, 0, 2], [2, 1], [3]] : List (List ℕ)).getD i [], j < 4 := by
      decide +kernel
    intro i hi j
    constructor
    · intro h
      exact ⟨key2 i hi j h, (key i hi j (key2 i hi j h)).1 h⟩
    · rintro ⟨h1, h2⟩
      exact (key i hi j h1).2 h2

theorem someEvents_time : AnswersTime 2 someEvents [[0, 1, 3], [3, 1, 0], [2], [0, 1, 3]] where
  length := rfl
  mem := by
    have key : ∀ i < 4, ∀ j < 4, j ∈ ([[0, 1, 3], [3, 1, 0], [2], [0, 1, 3]] : List (List ℕ)).getD i [] ↔
        NearTime 2 (ev someEvents i) (ev someEvents j) := by decide +kernel
    have key2 : ∀ i < 4, ∀ j ∈ ([[0, 1, 3], [3, 1, 0], [2], [0, 1, 3]] : List (List ℕ)).getD i [], j < 4 := by
      decide +kernel
    intro i hi j
    constructor
    · intro h
      exact ⟨key2 i hi j h, (key i hi j (key2 i hi j h)).1 h⟩
    · rintro ⟨h1, h2⟩
      exact (key i hi j h1).2 h2

/-- Non-vacuity of C73, C74 and C75: two pairs close in space, three in time, one in both. -/
def someResults : Py (KnoxResults ℚ) :=
  knoxGlobal (fun _ _ => XF.fin (1/2)) [[0, 1], [1, 0, 2], [2, 1], [3]] [[0, 1, 3], [3, 1, 0], [2], [0, 1, 3]]
    [[1, 0, 3, 2]]

example : IsShuffle someEvents.length [1, 0, 3, 2] ∧
    someResults.map (fun r => (r.ns, r.nt, r.nst, r.pairs)) = .ok (2, 3, 1, 6) ∧
    someResults.map (fun r => r.observed) = .ok (1, 1, 2, 2) ∧
    someResults.map (fun r => r.expected) = .ok (.fin 1, .fin 1, .fin 2, .fin 2) ∧
    someResults.map (fun r => r.sim) = .ok (some (1, 1, [2])) := by
  refine ⟨by decide +kernel, by decide +kernel, by decide +kernel, by decide +kernel, by decide +kernel⟩

end Pointpats.Props
