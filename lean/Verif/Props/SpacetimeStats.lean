import Verif.Props.Spacetime
import Verif.Spec.Neighbours
import Verif.Lemmas.Neighbours
import Mathlib.Algebra.Order.BigOperators.Group.List

/-!
# Properties C67, C68 (Knox and modified Knox), C71, C72
-/

set_option linter.unusedSectionVars false

namespace Pointpats.Props

open Spec Spacetime

variable {K : Type} [Field K] [LinearOrder K] [IsStrictOrderedRing K]

/-! ### C68, knox -/

theorem nearBoth_symm {sdist : K × K → K × K → K} (hd : IsSpaceDistance sdist) (delta tau : K) (a b : Event K) :
    NearBoth sdist delta tau a b ↔ NearBoth sdist delta tau b a := by
  simp only [NearBoth, NearSpace, NearTime, hd.symm a.1 b.1, abs_sub_comm a.2 b.2]

theorem nearSpace_symm {sdist : K × K → K × K → K} (hd : IsSpaceDistance sdist) (delta : K) (a b : Event K) :
    NearSpace sdist delta a b ↔ NearSpace sdist delta b a := by
  simp only [NearSpace, hd.symm a.1 b.1]

/-- **C68, knox.** Listing the events in another order gives the same statistic (or the same error). -/
theorem C68_knox_order {sdist : K × K → K × K → K} (hd : IsSpaceDistance sdist) (E E' : List (Event K))
    (hE : E.Perm E') (delta tau : K) (htau : 0 ≤ tau) (pairs pairs' : List (ℕ × ℕ))
    (hp : AnswersPairs sdist delta (E.map Prod.fst) pairs)
    (hp' : AnswersPairs sdist delta (E'.map Prod.fst) pairs') (perms perms' : List (List ℕ)) :
    (knox pairs (E.map Prod.snd) tau perms).map KnoxCall.stat
      = (knox pairs' (E'.map Prod.snd) tau perms').map KnoxCall.stat := by
  have h1 := closePairs_perm (NearSpace sdist delta) (nearSpace_symm hd delta) hE
  have h2 := closePairs_perm (NearBoth sdist delta tau) (nearBoth_symm hd delta tau) hE
  by_cases h0 : closePairs (NearSpace sdist delta) E = 0
  · rw [C66_no_close_pair_refuted sdist E delta tau pairs hp h0 perms,
      C66_no_close_pair_refuted sdist E' delta tau pairs' hp' (h1 ▸ h0) perms']
  · obtain ⟨r, hr, hs⟩ := C66_knox_counts_pairs_partial sdist E delta tau htau pairs hp (by omega) perms
    obtain ⟨r', hr', hs'⟩ := C66_knox_counts_pairs_partial sdist E' delta tau htau pairs' hp' (by omega) perms'
    rw [hr, hr']
    simp only [Except.map, hs, hs', h2]

/-- Non-vacuity: the example events in another order, with the answers of the index for both. -/
example : someEvents.Perm someEvents.reverse ∧ lineDist (1, 0) (2, 0) ≤ 1 ∧
    (knox [(1, 2), (2, 3)] (someEvents.reverse.map Prod.snd) 2 []).map KnoxCall.stat = .ok 1 := by
  refine ⟨by decide +kernel, by decide +kernel, by decide +kernel⟩

/-! ### Modified Knox -/

/-- The number of other events (by position) close to event `i`. -/
def neighbourCount {α : Type} (close : α → α → Prop) [DecidableRel close] (E : List α) (d : α) (i : ℕ) : ℕ :=
  ((others E.length i).filter fun j => decide (close (E.getD i d) (E.getD j d))).length

theorem countP_index {α : Type} (f : α → Bool) (l : List α) (d : α) :
    l.countP f = (List.range l.length).countP fun j => f (l.getD j d) := by
  conv_lhs => rw [← shuffle_range d l]
  rw [shuffle, List.countP_map]
  rfl

theorem neighbourCount_eq {α : Type} (close : α → α → Prop) [DecidableRel close] (hself : ∀ a, close a a)
    (E : List α) (d : α) {i : ℕ} (hi : i < E.length) :
    (E.countP fun b => decide (close (E.getD i d) b)) = neighbourCount close E d i + 1 := by
  rw [countP_index _ E d, (range_perm_cons_others hi).countP_eq, List.countP_cons, neighbourCount,
    List.countP_eq_length_filter]
  simp [hself]

theorem thresholded_distanceMatrix {α : Type} (d : α → α → K) (l : List α) (c : K) :
    thresholded (distanceMatrix d l) c = l.map fun a => l.map fun b => decide (d a b ≤ c) := by
  simp [thresholded, distanceMatrix, Function.comp_def]

theorem columnSums_eq {α : Type} (r : α → α → Bool) (l : List α) :
    columnSumsMinusOne (l.map fun a => l.map fun b => r a b) l.length
      = l.map fun b => ((l.countP fun a => r a b : ℕ) : ℤ) - 1 := by
  apply List.ext_getElem
  · simp [columnSumsMinusOne]
  · intro i h1 h2
    have hi : i < l.length := by simpa using h2
    simp only [columnSumsMinusOne, List.getElem_map, List.getElem_range, List.countP_map]
    congr 2
    refine List.countP_congr ?_
    intro a _
    simp [List.getD_eq_getElem?_getD, hi]

theorem zipWith_maps {α β γ δ : Type} (f : β → γ → δ) (g : α → β) (h : α → γ) (l : List α) :
    List.zipWith f (l.map g) (l.map h) = l.map fun a => f (g a) (h a) := by
  induction l with
  | nil => rfl
  | cons a l ih => simp [ih]

/-- The number of ordered pairs of events close in space and time, counting every event with itself. -/
def orderedClose (sdist : K × K → K × K → K) (delta tau : K) (E : List (Event K)) : ℕ :=
  (E.map fun a => E.countP fun b => decide (NearBoth sdist delta tau a b)).sum

/-- The sum of the products of the numbers of neighbours in space and in time. -/
def neighbourProducts (sdist : K × K → K × K → K) (delta tau : K) (E : List (Event K)) : ℤ :=
  (E.map fun b => (((E.countP fun a => decide (NearSpace sdist delta a b) : ℕ) : ℤ) - 1)
    * (((E.countP fun a => decide (NearTime tau a b) : ℕ) : ℤ) - 1)).sum

theorem modifiedKnoxStat_eq (sdist : K × K → K × K → K) (delta tau : K) (E : List (Event K)) :
    modifiedKnoxStat (K := K) E.length
        (thresholded (distanceMatrix (fun a b : K => |a - b|) (E.map Prod.snd)) tau)
        (thresholded (distanceMatrix sdist (E.map Prod.fst)) delta)
      = XF.div (XF.sub (.fin ((((orderedClose sdist delta tau E : ℕ) : ℤ) - (E.length : ℤ) : ℤ) : K))
          (XF.div (.fin ((neighbourProducts sdist delta tau E : ℤ) : K)) (.fin ((E.length : K) - 1)))) (.fin 2) := by
  have e1 : thresholded (distanceMatrix (fun a b : K => |a - b|) (E.map Prod.snd)) tau
      = E.map fun a => E.map fun b => decide (NearTime tau a b) := by
    rw [thresholded_distanceMatrix]
    simp only [List.map_map, Function.comp_def]
    rfl
  have e2 : thresholded (distanceMatrix sdist (E.map Prod.fst)) delta
      = E.map fun a => E.map fun b => decide (NearSpace sdist delta a b) := by
    rw [thresholded_distanceMatrix]
    simp only [List.map_map, Function.comp_def]
    rfl
  rw [modifiedKnoxStat, e1, e2, columnSums_eq, columnSums_eq, zipWith_maps, zipWith_maps]
  simp only [zipWith_maps, List.countP_map]
  have e3 : (E.map fun a => E.countP (id ∘ fun b => (decide (NearTime tau a b) && decide (NearSpace sdist delta a b)))).sum
      = orderedClose sdist delta tau E := by
    rw [orderedClose]
    congr 1
    refine List.map_congr_left ?_
    intro a _
    refine List.countP_congr ?_
    intro b _
    simp only [Function.comp_apply, id_eq, Bool.and_eq_true, decide_eq_true_eq]
    exact and_comm
  rw [e3]
  rfl

theorem modifiedKnox_stat (sdist : K × K → K × K → K) (delta tau : K) (E : List (Event K)) (perms : List (List ℕ)) :
    (modifiedKnox sdist (E.map Prod.fst) (E.map Prod.snd) delta tau perms).1
      = XF.div (XF.sub (.fin ((((orderedClose sdist delta tau E : ℕ) : ℤ) - (E.length : ℤ) : ℤ) : K))
          (XF.div (.fin ((neighbourProducts sdist delta tau E : ℤ) : K)) (.fin ((E.length : K) - 1)))) (.fin 2) := by
  rw [← modifiedKnoxStat_eq]
  simp only [modifiedKnox, List.length_map]
  split_ifs <;> rfl

/-- **C68, modified_knox.** Listing the events in another order gives the same statistic. -/
theorem C68_modified_knox_order (sdist : K × K → K × K → K) (E E' : List (Event K)) (hE : E.Perm E')
    (delta tau : K) (perms perms' : List (List ℕ)) :
    (modifiedKnox sdist (E.map Prod.fst) (E.map Prod.snd) delta tau perms).1
      = (modifiedKnox sdist (E'.map Prod.fst) (E'.map Prod.snd) delta tau perms').1 := by
  rw [modifiedKnox_stat, modifiedKnox_stat, hE.length_eq]
  have e1 : orderedClose sdist delta tau E = orderedClose sdist delta tau E' := by
    have h : ∀ a, (E.countP fun b => decide (NearBoth sdist delta tau a b))
        = E'.countP fun b => decide (NearBoth sdist delta tau a b) := fun a => hE.countP_eq _
    simp only [orderedClose, h]
    exact (hE.map _).sum_eq
  have e2 : neighbourProducts sdist delta tau E = neighbourProducts sdist delta tau E' := by
    have h : ∀ b, (E.countP fun a => decide (NearSpace sdist delta a b))
        = E'.countP fun a => decide (NearSpace sdist delta a b) := fun a => hE.countP_eq _
    have h' : ∀ b, (E.countP fun a => decide (NearTime tau a b))
        = E'.countP fun a => decide (NearTime tau a b) := fun a => hE.countP_eq _
    simp only [neighbourProducts, h, h']
    exact (hE.map _).sum_eq
  rw [e1, e2]

theorem natCast_list_sum (l : List ℕ) : ((l.sum : ℕ) : ℤ) = (l.map fun (x : ℕ) => (x : ℤ)).sum := by
  induction l with
  | nil => rfl
  | cons a l ih => simp [ih]

theorem sum_map_index {α : Type} (f : α → ℤ) (l : List α) (d : α) :
    (l.map f).sum = ((List.range l.length).map fun i => f (l.getD i d)).sum := by
  conv_lhs => rw [← shuffle_range d l]
  rw [shuffle, List.map_map]
  rfl

/-- **C72.** With at least two events and thresholds that are not negative, the statistic of `modified_knox`
is the Knox count minus the expectation: half the sum over events of the number of neighbours in space times
the number of neighbours in time, over `n - 1`. -/
theorem C72_modified_knox_formula {sdist : K × K → K × K → K} (hd : IsSpaceDistance sdist) (E : List (Event K))
    (hn : 2 ≤ E.length) (delta tau : K) (hdelta : 0 ≤ delta) (htau : 0 ≤ tau) (perms : List (List ℕ)) :
    (modifiedKnox sdist (E.map Prod.fst) (E.map Prod.snd) delta tau perms).1
      = .fin ((closePairs (NearBoth sdist delta tau) E : K)
          - (((List.range E.length).map fun i =>
              neighbourCount (NearSpace sdist delta) E ((0, 0), 0) i * neighbourCount (NearTime tau) E ((0, 0), 0) i).sum : ℕ)
            / ((E.length : K) - 1) / 2) := by
  rw [modifiedKnox_stat]
  have hself : ∀ a : Event K, NearBoth sdist delta tau a a := by
    intro a
    simp [NearBoth, NearSpace, NearTime, hd.self, hdelta, htau]
  have e1 : orderedClose sdist delta tau E = 2 * closePairs (NearBoth sdist delta tau) E + E.length := by
    rw [orderedClose, sum_countP_eq _ (nearBoth_symm hd delta tau)]
    congr 1
    rw [List.countP_eq_length]
    simp [hself]
  have e2 : neighbourProducts sdist delta tau E = (((List.range E.length).map fun i =>
      neighbourCount (NearSpace sdist delta) E ((0, 0), 0) i * neighbourCount (NearTime tau) E ((0, 0), 0) i).sum : ℕ) := by
    rw [neighbourProducts, sum_map_index _ E ((0, 0), 0), natCast_list_sum, List.map_map]
    congr 1
    refine List.map_congr_left ?_
    intro i hi
    have hi' := List.mem_range.1 hi
    have c1 : (E.countP fun a => decide (NearSpace sdist delta a (E.getD i ((0, 0), 0))))
        = neighbourCount (NearSpace sdist delta) E ((0, 0), 0) i + 1 := by
      rw [← neighbourCount_eq _ (fun a => by simp [NearSpace, hd.self, hdelta]) E _ hi']
      refine List.countP_congr fun b _ => ?_
      simp [nearSpace_symm hd delta b]
    have c2 : (E.countP fun a => decide (NearTime tau a (E.getD i ((0, 0), 0))))
        = neighbourCount (NearTime tau) E ((0, 0), 0) i + 1 := by
      rw [← neighbourCount_eq _ (fun a => by simp [NearTime, htau]) E _ hi']
      refine List.countP_congr fun b _ => ?_
      simp [NearTime, abs_sub_comm b.2]
    rw [c1, c2]
    push_cast
    simp only [Function.comp_apply]
    push_cast
    ring
  rw [e1, e2]
  have hn1 : ((E.length : K) - 1) ≠ 0 := by
    have : (2 : K) ≤ (E.length : K) := by exact_mod_cast hn
    intro h
    linarith
  simp only [XF.div, XF.sub, if_neg hn1]
  rw [if_neg (two_ne_zero)]
  congr 1
  push_cast
  ring

/-- Non-vacuity of `C72_modified_knox_formula`: one pair close in both, expected 4/3. -/
example : 2 ≤ someEvents.length ∧ closePairs (NearBoth lineDist 2 2) someEvents = 1 ∧
    (modifiedKnox lineDist (someEvents.map Prod.fst) (someEvents.map Prod.snd) 2 2 []).1 = .fin (1 - 4/3) ∧
    (modifiedKnox lineDist (someEvents.map Prod.fst) (someEvents.map Prod.snd) 1 1 [[1, 0, 3, 2]])
      = (.fin 0, some 1) := by
  decide +kernel

/-! ### C67, modified_knox -/

/-- The p-value the documentation describes, for statistics that are numbers. -/
def pseudoPnum (stat : K) (sims : List K) : K :=
  (((sims.filter fun m => decide (stat ≤ m)).length : K) + 1) / ((sims.length : K) + 1)

theorem pvalueGe_num (stat : K) (sims : List K) :
    pvalueGe (.fin stat) (sims.map XF.fin) sims.length = pseudoPnum stat sims := by
  rw [pvalueGe, pseudoPnum, List.countP_map, List.countP_eq_length_filter]
  rfl

theorem pseudoPnum_bounds (stat : K) (sims : List K) :
    1 / ((sims.length : K) + 1) ≤ pseudoPnum stat sims ∧ pseudoPnum stat sims ≤ 1 :=
  pvalue_bounds (List.length_filter_le _ _)

theorem pseudoPnum_all (stat : K) (sims : List K) (h : ∀ m ∈ sims, stat ≤ m) : pseudoPnum stat sims = 1 := by
  rw [pseudoPnum, List.filter_eq_self.2 (by simpa using h)]
  have hP : (sims.length : K) + 1 ≠ 0 := by positivity
  exact div_self hP

theorem pseudoPnum_perm (stat : K) {sims sims' : List K} (h : sims.Perm sims') :
    pseudoPnum stat sims = pseudoPnum stat sims' := by
  rw [pseudoPnum, pseudoPnum, (h.filter _).length_eq, h.length_eq]

/-- The statistic of `modified_knox` is a number as soon as there are two events. -/
theorem modifiedKnox_finite (sdist : K × K → K × K → K) (E : List (Event K)) (hn : E.length ≠ 1) (delta tau : K)
    (perms : List (List ℕ)) :
    ∃ x : K, (modifiedKnox sdist (E.map Prod.fst) (E.map Prod.snd) delta tau perms).1 = .fin x := by
  rw [modifiedKnox_stat]
  have hn1 : ((E.length : K) - 1) ≠ 0 := by
    intro h
    rw [sub_eq_zero] at h
    exact hn (by exact_mod_cast h)
  simp only [XF.div, XF.sub, if_neg hn1]
  rw [if_neg (two_ne_zero)]
  exact ⟨_, rfl⟩

/-- **C67, modified_knox.** With permutations and at least two events, the p-value is the documented one for
the statistics of the events with permuted times; it is between `1 / (P + 1)` and 1, does not depend on the
order of the permutations, and is 1 if all permuted statistics are at least the observed one. -/
theorem C67_modified_knox_pvalue (sdist : K × K → K × K → K) (E : List (Event K)) (hn : 2 ≤ E.length)
    (delta tau : K) (perms : List (List ℕ)) (hperm : ∀ p ∈ perms, IsShuffle E.length p) (hne : perms ≠ []) :
    ∃ (stat : K) (sims : List K) (p : K),
      modifiedKnox sdist (E.map Prod.fst) (E.map Prod.snd) delta tau perms = (.fin stat, some p) ∧
      sims.map XF.fin = perms.map (fun q => (modifiedKnox sdist ((retime q E).map Prod.fst)
        ((retime q E).map Prod.snd) delta tau []).1) ∧
      p = pseudoPnum stat sims ∧ 1 / ((perms.length : K) + 1) ≤ p ∧ p ≤ 1 ∧
      (∀ perms' : List (List ℕ), perms.Perm perms' →
        (modifiedKnox sdist (E.map Prod.fst) (E.map Prod.snd) delta tau perms').2 = some p) ∧
      ((∀ m ∈ sims, stat ≤ m) → p = 1) := by
  have hret : ∀ q, IsShuffle E.length q → ((retime q E).map Prod.fst = E.map Prod.fst ∧
      (retime q E).map Prod.snd = shuffle 0 q (E.map Prod.snd) ∧ (retime q E).length = E.length) := by
    intro q hq
    have hl : q.length = E.length := hq.length
    refine ⟨?_, ?_, ?_⟩
    · rw [retime, List.map_fst_zip (by simp [hl])]
    · rw [retime, List.map_snd_zip (by simp [hl])]; rfl
    · simp [retime, hl]
  have hsim : ∀ q, IsShuffle E.length q →
      modifiedKnoxStat E.length (thresholded (shuffleMatrix (distanceMatrix (fun a b : K => |a - b|) (E.map Prod.snd)) q) tau)
        (thresholded (distanceMatrix sdist (E.map Prod.fst)) delta)
      = (modifiedKnox sdist ((retime q E).map Prod.fst) ((retime q E).map Prod.snd) delta tau []).1 := by
    intro q hq
    obtain ⟨h1, h2, h3⟩ := hret q hq
    rw [shuffleMatrix_distanceMatrix _ 0 _ (fun i hi => by simpa using hq.mem.1 hi), ← h2, ← h1, ← h3]
    rw [modifiedKnoxStat_eq, modifiedKnox_stat]
  obtain ⟨stat, hstat⟩ := modifiedKnox_finite sdist E (by omega) delta tau ([] : List (List ℕ))
  have hfin : ∀ q, ∃ x : K, (modifiedKnox sdist ((retime q E).map Prod.fst) ((retime q E).map Prod.snd) delta tau []).1
      = .fin x ∨ ¬ IsShuffle E.length q := by
    intro q
    by_cases hq : IsShuffle E.length q
    · obtain ⟨x, hx⟩ := modifiedKnox_finite sdist (retime q E) (by rw [(hret q hq).2.2]; omega) delta tau []
      exact ⟨x, Or.inl hx⟩
    · exact ⟨0, Or.inr hq⟩
  choose g hg using hfin
  have hstat' : modifiedKnoxStat E.length
        (thresholded (distanceMatrix (fun a b : K => |a - b|) (E.map Prod.snd)) tau)
        (thresholded (distanceMatrix sdist (E.map Prod.fst)) delta) = .fin stat := by
    rw [modifiedKnoxStat_eq, ← modifiedKnox_stat _ _ _ _ [], hstat]
  have hval : ∀ ps : List (List ℕ), ps ≠ [] → (∀ q ∈ ps, IsShuffle E.length q) →
      modifiedKnox sdist (E.map Prod.fst) (E.map Prod.snd) delta tau ps
        = (.fin stat, some (pseudoPnum stat (ps.map g))) := by
    intro ps hps hsh
    simp only [modifiedKnox, List.length_map, hstat', if_neg hps]
    rw [← pvalueGe_num, List.length_map]
    have : ps.map (fun p => modifiedKnoxStat (K := K) E.length
        (thresholded (shuffleMatrix (distanceMatrix (fun a b : K => |a - b|) (E.map Prod.snd)) p) tau)
        (thresholded (distanceMatrix sdist (E.map Prod.fst)) delta)) = (ps.map g).map XF.fin := by
      rw [List.map_map]
      refine List.map_congr_left ?_
      intro q hq
      rw [hsim q (hsh q hq)]
      rcases hg q with h | h
      · exact h
      · exact absurd (hsh q hq) h
    rw [this]
  have hb := pseudoPnum_bounds stat (perms.map g)
  rw [List.length_map] at hb
  refine ⟨stat, perms.map g, _, hval perms hne hperm, ?_, rfl, hb.1, hb.2, ?_, ?_⟩
  · rw [List.map_map]
    refine List.map_congr_left ?_
    intro q hq
    rcases hg q with h | h
    · exact h.symm
    · exact absurd (hperm q hq) h
  · intro perms' hpp
    have hne' : perms' ≠ [] := by
      rintro rfl
      exact hne hpp.eq_nil
    rw [hval perms' hne' (fun q hq => hperm q (hpp.mem_iff.2 hq))]
    simp only [Option.some.injEq]
    exact pseudoPnum_perm _ (hpp.symm.map _)
  · exact pseudoPnum_all _ _

/-- Non-vacuity: two permutations of the example events. -/
example : IsShuffle someEvents.length [3, 2, 1, 0] ∧ IsShuffle someEvents.length [2, 1, 0, 3] ∧
    (modifiedKnox lineDist (someEvents.map Prod.fst) (someEvents.map Prod.snd) 1 1 [[3, 2, 1, 0], [2, 1, 0, 3]])
      = (.fin 0, some (2/3)) := by
  decide +kernel

/-! ### C71 -/

/-- All ordered pairs of numbers below `n`. -/
def orderedPairs (n : ℕ) : List (ℕ × ℕ) := (List.range n).flatMap fun i => (List.range n).map fun j => (i, j)

/-- `j` is among the `k` nearest of the others of `i`: fewer than `k` others are strictly closer. -/
def AmongNearest {D : Type} [LinearOrder D] (dist : ℕ → ℕ → D) (n k i j : ℕ) : Prop :=
  j < n ∧ j ≠ i ∧ ((others n i).filter fun l => decide (dist i l < dist i j)).length < k

instance {D : Type} [LinearOrder D] (dist : ℕ → ℕ → D) (n k i j : ℕ) : Decidable (AmongNearest dist n k i j) :=
  inferInstanceAs (Decidable (_ ∧ _ ∧ _))

theorem filter_orderedPairs_length (n : ℕ) (r : ℕ → ℕ → Bool) :
    ((orderedPairs n).filter fun p => r p.1 p.2).length
      = ((List.range n).map fun i => ((List.range n).filter fun j => r i j).length).sum := by
  rw [orderedPairs, ← List.countP_eq_length_filter, List.countP_flatMap]
  congr 1
  refine List.map_congr_left ?_
  intro i _
  rw [Function.comp_apply, List.countP_map, List.countP_eq_length_filter]
  rfl

/-- **C71.** The statistic of `jacquez` is the number of ordered pairs `(i, j)` such that `j` is listed among
the `k` nearest neighbours of `i` in space and in time, whatever way ties are broken; it is at most `n * k`. -/
theorem C71_jacquez_counts {D : Type} [LinearOrder D] (sd : ℕ → ℕ → D)
    (n k : ℕ) (nns nnt : List (List ℕ)) (hs : NearestLists sd n k nns)
    (nntPerm : List (List (List ℕ))) :
    (jacquez (K := K) n nnt nns nntPerm).1
        = ((orderedPairs n).filter fun p =>
            decide (p.2 ∈ nns.getD p.1 []) && decide (p.2 ∈ nnt.getD p.1 [])).length ∧
      (jacquez (K := K) n nnt nns nntPerm).1 ≤ n * k := by
  have h0 : (jacquez (K := K) n nnt nns nntPerm).1 = sharedNeighbours n nnt nns := by
    unfold jacquez
    split_ifs <;> rfl
  rw [h0]
  constructor
  · rw [filter_orderedPairs_length n fun i j => decide (j ∈ nns.getD i []) && decide (j ∈ nnt.getD i []),
      sharedNeighbours]
    congr 1
    refine List.map_congr_left ?_
    intro i hi
    have hi' := List.mem_range.1 hi
    rw [← List.toFinset_card_of_nodup (List.nodup_range.filter _)]
    congr 1
    ext j
    simp only [Finset.mem_inter, List.mem_toFinset, List.mem_filter, List.mem_range, Bool.and_eq_true,
      decide_eq_true_eq]
    constructor
    · rintro ⟨a, b⟩
      exact ⟨(hs.other i hi' j b).1, b, a⟩
    · rintro ⟨-, b, a⟩
      exact ⟨a, b⟩
  · rw [sharedNeighbours]
    have : ∀ x ∈ (List.range n).map (fun i => ((nnt.getD i []).toFinset ∩ (nns.getD i []).toFinset).card), x ≤ k := by
      intro x hx
      obtain ⟨i, hi, rfl⟩ := List.mem_map.1 hx
      have hi' := List.mem_range.1 hi
      refine (Finset.card_le_card Finset.inter_subset_right).trans ?_
      exact (List.toFinset_card_le _).trans (hs.size i hi').le
    have := List.sum_le_card_nsmul _ k this
    simpa using this

/-- Without ties, being listed is being among the `k` nearest. -/
theorem mem_nearestLists {D : Type} [LinearOrder D] {dist : ℕ → ℕ → D} {n k : ℕ} {out : List (List ℕ)}
    (h : NearestLists dist n k out)
    (hties : ∀ i < n, ∀ j < n, ∀ l < n, j ≠ i → l ≠ i → j ≠ l → dist i j ≠ dist i l) {i j : ℕ} (hi : i < n) :
    j ∈ out.getD i [] ↔ AmongNearest dist n k i j := by
  constructor
  · intro hj
    obtain ⟨h1, h2⟩ := h.other i hi j hj
    refine ⟨h1, h2, ?_⟩
    have hsub : (others n i).filter (fun l => decide (dist i l < dist i j)) ⊆ (out.getD i []).erase j := by
      intro l hl
      rw [List.mem_filter, mem_others, decide_eq_true_eq] at hl
      obtain ⟨⟨hl1, hl2⟩, hl3⟩ := hl
      rw [(h.nodup i hi).mem_erase_iff]
      refine ⟨fun e => (by rw [e] at hl3; exact lt_irrefl _ hl3), ?_⟩
      by_contra hno
      exact absurd (h.nearest i hi j hj l hl1 hl2 hno) (not_le.2 hl3)
    have := (List.subperm_of_subset ((nodup_others n i).filter _) hsub).length_le
    rw [List.length_erase_of_mem hj, h.size i hi] at this
    have hpos : 0 < k := by
      rw [← h.size i hi]
      exact List.length_pos_of_mem hj
    omega
  · rintro ⟨h1, h2, h3⟩
    by_contra hno
    have hsub : out.getD i [] ⊆ (others n i).filter (fun l => decide (dist i l < dist i j)) := by
      intro l hl
      obtain ⟨hl1, hl2⟩ := h.other i hi l hl
      rw [List.mem_filter, mem_others, decide_eq_true_eq]
      refine ⟨⟨hl1, hl2⟩, lt_of_le_of_ne (h.nearest i hi l hl j h1 h2 hno) ?_⟩
      refine hties i hi l hl1 j h1 hl2 h2 ?_
      rintro rfl
      exact hno hl
    have := (List.subperm_of_subset (h.nodup i hi) hsub).length_le
    rw [h.size i hi] at this
    omega

/-- **C71, without ties.** When no event has two others at the same distance in space or in time, the
statistic is the number of ordered pairs `(i, j)` with `j` among the `k` nearest of `i` in space and in time. -/
theorem C71_jacquez_nearest {D D' : Type} [LinearOrder D] [LinearOrder D'] (sd : ℕ → ℕ → D) (td : ℕ → ℕ → D')
    (n k : ℕ) (nns nnt : List (List ℕ)) (hs : NearestLists sd n k nns) (ht : NearestLists td n k nnt)
    (hts : ∀ i < n, ∀ j < n, ∀ l < n, j ≠ i → l ≠ i → j ≠ l → sd i j ≠ sd i l)
    (htt : ∀ i < n, ∀ j < n, ∀ l < n, j ≠ i → l ≠ i → j ≠ l → td i j ≠ td i l)
    (nntPerm : List (List (List ℕ))) :
    (jacquez (K := K) n nnt nns nntPerm).1
      = ((orderedPairs n).filter fun p =>
          decide (AmongNearest sd n k p.1 p.2) && decide (AmongNearest td n k p.1 p.2)).length := by
  rw [(C71_jacquez_counts (K := K) sd n k nns nnt hs nntPerm).1]
  congr 1
  refine List.filter_congr ?_
  rintro ⟨i, j⟩ hp
  have hi : i < n := by
    simp only [orderedPairs, List.mem_flatMap, List.mem_range, List.mem_map, Prod.mk.injEq] at hp
    obtain ⟨a, ha, b, hb, rfl, rfl⟩ := hp
    exact ha
  simp only [mem_nearestLists hs hts hi, mem_nearestLists ht htt hi]

/-- Non-vacuity of the C71 theorems: three events with different distances. -/
example : NearestLists (fun i j => |([0, 1, 3] : List ℤ).getD i 0 - ([0, 1, 3] : List ℤ).getD j 0|) 3 1 [[1], [0], [1]] ∧
    NearestLists (fun i j => |([0, 5, 1] : List ℤ).getD i 0 - ([0, 5, 1] : List ℤ).getD j 0|) 3 1 [[2], [2], [0]] ∧
    (∀ i < 3, ∀ j < 3, ∀ l < 3, j ≠ i → l ≠ i → j ≠ l →
      |([0, 1, 3] : List ℤ).getD i 0 - ([0, 1, 3] : List ℤ).getD j 0|
        ≠ |([0, 1, 3] : List ℤ).getD i 0 - ([0, 1, 3] : List ℤ).getD l 0|) := by
  refine ⟨⟨rfl, by decide, by decide, by decide, by decide⟩, ⟨rfl, by decide, by decide, by decide, by decide⟩, ?_⟩
  have key : ∀ i < 3, ∀ j < 3, ∀ l < 3, ¬ (j ≠ i ∧ l ≠ i ∧ j ≠ l ∧
      |([0, 1, 3] : List ℤ).getD i 0 - ([0, 1, 3] : List ℤ).getD j 0|
        = |([0, 1, 3] : List ℤ).getD i 0 - ([0, 1, 3] : List ℤ).getD l 0|) := by decide
  intro i hi j hj l hl h1 h2 h3 h4
  exact key i hi j hj l hl ⟨h1, h2, h3, h4⟩

end Pointpats.Props
