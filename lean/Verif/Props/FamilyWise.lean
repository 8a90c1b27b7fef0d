import Verif.Props.AnalyticKnox

/-!
# C173: the probability that the local Knox test reports some event by chance
-/

set_option linter.unusedSectionVars false

namespace Pointpats.Props

open Spec Spacetime

variable {K : Type} [Field K] [LinearOrder K] [IsStrictOrderedRing K]

private theorem share_exists_le {Ω : Type} [Fintype Ω] (n : ℕ) (P : ℕ → Ω → Prop) :
    share K Ω (fun ω => ∃ i < n, P i ω) ≤ ∑ i ∈ Finset.range n, share K Ω (P i) := by
  classical
  simp only [share_eq]
  rw [← Finset.sum_div]
  refine div_le_div_of_nonneg_right ?_ (Nat.cast_nonneg _)
  have e : (Finset.univ.filter fun ω => ∃ i < n, P i ω) = (Finset.range n).biUnion fun i => Finset.univ.filter (P i) := by
    ext ω
    simp
  rw [e]
  exact_mod_cast Finset.card_biUnion_le

/-- **C173 (partial).** Under the null hypothesis that the times are given to the locations at random, the probability that some
event has an analytical p-value of at most `α` is at most `α` times the number of events. In particular, with the significance
level divided by the number of events, the probability of reporting any event is at most the level. Missing: the bound by `α`
itself, which `C173_some_event_refuted` shows to be false. -/
theorem C173_some_event_partial [FloorRing K] {ι : Type} (default : ℕ → ι) (cdf : K → XF K → XF K) (hg : ℤ → ℕ → ℕ → ℕ → K)
    (hhg : IsHypergeomCdf hg) {sdist : K × K → K × K → K} (hd : IsSpaceDistance sdist) (delta tau : K) (E : List (Event K))
    (sball : List (List ℕ)) (tball gperms perms : Equiv.Perm (Fin E.length) → List (List ℕ))
    (order : Equiv.Perm (Fin E.length) → List (ℕ × ℕ))
    (h : ∀ σ, LocalAnswers cdf sdist delta tau (retime (permList σ) E) sball (tball σ) (gperms σ) (perms σ) (order σ))
    (keep : Bool) (ids : Option (List ι)) (hids : ∀ l, ids = some l → l.length = E.length) (α : K) (hα : 0 ≤ α) :
    share K (Equiv.Perm (Fin E.length)) (fun σ => ∃ i < E.length, ∃ o p,
      knoxLocalInit default cdf hg true true (E.map Prod.fst) (shuffle 0 (permList σ) (E.map Prod.snd)) sball (tball σ)
        (gperms σ) (perms σ) keep ids (order σ) = .ok o
      ∧ o.p_hypergeom[i]? = some p ∧ p ≤ α) ≤ E.length * α := by
  refine le_trans (share_exists_le E.length _) ?_
  refine le_trans (Finset.sum_le_sum fun i hi =>
    C162_analytic_level default cdf hg hhg hd delta tau E sball tball gperms perms order h keep ids hids i
      (Finset.mem_range.1 hi) α hα) ?_
  rw [Finset.sum_const, Finset.card_range, nsmul_eq_mul]

/-! ### Two separate pairs of neighbours -/

/-- Two pairs of neighbouring places; two of the four events happen at the same time. -/
def twinEvents : List (Event ℚ) := [((0, 0), 0), ((1, 0), 0), ((10, 0), 10), ((11, 0), 20)]

/-- What the index of the times answers. -/
def ballOfTimes (tau : ℚ) (E : List (Event ℚ)) : List (List ℕ) :=
  (List.range E.length).map fun i => (List.range E.length).filter fun j => decide (NearTime tau (ev E i) (ev E j))

private theorem ballOfTimes_answers (tau : ℚ) (E : List (Event ℚ)) : AnswersTime tau E (ballOfTimes tau E) where
  length := by simp [ballOfTimes]
  mem := by
    intro i hi j
    rw [ballOfTimes, getD_map_range _ hi]
    simp

/-- What the index of the places answers, whatever the times. -/
def twinBall : List (List ℕ) := [[0, 1], [0, 1], [2, 3], [2, 3]]

private theorem twin_space (σ : Equiv.Perm (Fin twinEvents.length)) :
    AnswersSpace lineDist 1 (retime (permList σ) twinEvents) twinBall := by
  have hl : (retime (permList σ) twinEvents).length = 4 := length_retime (isShuffle_permList σ)
  have key : ∀ σ : Equiv.Perm (Fin twinEvents.length), ∀ i < 4, ∀ j < 4, j ∈ twinBall.getD i [] ↔
      NearSpace lineDist 1 (ev (retime (permList σ) twinEvents) i) (ev (retime (permList σ) twinEvents) j) := by decide +kernel
  have key2 : ∀ i < 4, ∀ j ∈ twinBall.getD i [], j < 4 := by decide +kernel
  refine ⟨by rw [hl]; rfl, fun i hi j => ?_⟩
  rw [hl] at hi ⊢
  exact ⟨fun h => ⟨key2 i hi j h, (key σ i hi j (key2 i hi j h)).1 h⟩, fun h => (key σ i hi j h.1).2 h.2⟩

private theorem twin_answers (σ : Equiv.Perm (Fin twinEvents.length)) : ∃ order,
    LocalAnswers (fun _ _ => XF.fin (1/2)) lineDist 1 1 (retime (permList σ) twinEvents) twinBall
      (ballOfTimes 1 (retime (permList σ) twinEvents)) [] [] order := by
  cases hg : knoxGlobal (K := ℚ) (fun _ _ => XF.fin (1/2)) twinBall (ballOfTimes 1 (retime (permList σ) twinEvents)) [] with
  | error e =>
    exact ⟨[], twin_space σ, ballOfTimes_answers _ _, by simp, by simp, by simp, fun g h => by rw [hg] at h; cases h⟩
  | ok g =>
    refine ⟨g.st_pairs.toList, twin_space σ, ballOfTimes_answers _ _, by simp, by simp, Finset.nodup_toList _, fun g' h p => ?_⟩
    rw [hg] at h
    cases h
    exact Finset.mem_toList

private theorem share_cast {n m : ℕ} (h : n = m) (f : ∀ k, Equiv.Perm (Fin k) → Prop) :
    share ℚ (Equiv.Perm (Fin n)) (f n) = share ℚ (Equiv.Perm (Fin m)) (f m) := by
  subst h
  rfl

/-- **C173 (refuted).** Four events for which the probability that some event has an analytical p-value of at most 1/6 is at least
1/3 under the null hypothesis. -/
theorem C173_some_event_refuted :
    ∃ (tball : Equiv.Perm (Fin twinEvents.length) → List (List ℕ)) (order : Equiv.Perm (Fin twinEvents.length) → List (ℕ × ℕ)),
      (∀ σ, LocalAnswers (fun _ _ => XF.fin (1/2)) lineDist 1 1 (retime (permList σ) twinEvents) twinBall (tball σ) [] [] (order σ))
      ∧ 1 / 3 ≤ share ℚ (Equiv.Perm (Fin twinEvents.length)) (fun σ => ∃ i < twinEvents.length, ∃ o p,
        knoxLocalInit (id : ℕ → ℕ) (fun _ _ => XF.fin (1/2)) exactHypergeom true true (twinEvents.map Prod.fst)
          (shuffle 0 (permList σ) (twinEvents.map Prod.snd)) twinBall (tball σ) [] [] true none (order σ) = .ok o
        ∧ o.p_hypergeom[i]? = some p ∧ p ≤ 1 / 6) := by
  choose order hord using twin_answers
  refine ⟨_, order, hord, ?_⟩
  have h3 : (1 / 3 : ℚ) = share ℚ (Equiv.Perm (Fin twinEvents.length)) (fun σ =>
      1 ≤ closeEvents lineDist 1 1 (retime (permList σ) twinEvents) 0
        ∨ 1 ≤ closeEvents lineDist 1 1 (retime (permList σ) twinEvents) 2) := by
    rw [share_eq]
    decide +kernel
  have h6 : ∀ i < 4, share ℚ (Equiv.Perm (Fin twinEvents.length)) (fun σ =>
      1 ≤ closeEvents lineDist 1 1 (retime (permList σ) twinEvents) i) = 1 / 6 := by
    simp only [share_eq]
    decide +kernel
  rw [h3]
  refine share_mono fun σ hσ => ?_
  have main : ∀ i < 4, 1 ≤ closeEvents lineDist 1 1 (retime (permList σ) twinEvents) i → ∃ o p,
        knoxLocalInit (id : ℕ → ℕ) (fun _ _ => XF.fin (1/2)) exactHypergeom true true (twinEvents.map Prod.fst)
          (shuffle 0 (permList σ) (twinEvents.map Prod.snd)) twinBall (ballOfTimes 1 (retime (permList σ) twinEvents)) [] [] true
          none (order σ) = .ok o
        ∧ o.p_hypergeom[i]? = some p ∧ p ≤ 1 / 6 := by
    intro i hi h1
    have hl : (retime (permList σ) twinEvents).length = twinEvents.length := length_retime (isShuffle_permList σ)
    obtain ⟨o, ho, -, hp⟩ := C162_analytic_exact (id : ℕ → ℕ) exactHypergeom exactHypergeom_isCdf lineDist_isDistance (hord σ) true
      none (by simp)
    have e1 : (retime (permList σ) twinEvents).map Prod.fst = twinEvents.map Prod.fst := by
      rw [retime, List.map_fst_zip (by simp [permList])]
    have e2 : (retime (permList σ) twinEvents).map Prod.snd = shuffle 0 (permList σ) (twinEvents.map Prod.snd) := by
      rw [retime, List.map_snd_zip (by simp [permList])]
      rfl
    rw [e1, e2] at ho
    refine ⟨o, _, ho, hp ⟨i, by rw [hl]; exact hi⟩, ?_⟩
    rw [share_cast hl fun k (τ : Equiv.Perm (Fin k)) => closeEvents lineDist 1 1 (retime (permList σ) twinEvents) i
      ≤ closeEvents lineDist 1 1 (retime (permList τ) (retime (permList σ) twinEvents)) i]
    simp only [retime_permList]
    refine le_trans (le_of_eq (share_equiv (Equiv.mulLeft σ) fun τ => closeEvents lineDist 1 1 (retime (permList σ) twinEvents) i
      ≤ closeEvents lineDist 1 1 (retime (permList τ) twinEvents) i)) ?_
    rw [← h6 i hi]
    exact share_mono fun τ hτ => le_trans h1 hτ
  rcases hσ with h | h
  · exact ⟨0, by decide, main 0 (by decide) h⟩
  · exact ⟨2, by decide, main 2 (by decide) h⟩

/-- Non-vacuity of `C173_some_event_partial`: its hypothesis holds of the four events, for which the bound at level 1/24 is 1/6. -/
example : ∃ order : Equiv.Perm (Fin twinEvents.length) → List (ℕ × ℕ), share ℚ (Equiv.Perm (Fin twinEvents.length)) (fun σ => ∃ i < twinEvents.length, ∃ o p,
      knoxLocalInit (id : ℕ → ℕ) (fun _ _ => XF.fin (1/2)) exactHypergeom true true (twinEvents.map Prod.fst)
        (shuffle 0 (permList σ) (twinEvents.map Prod.snd)) twinBall (ballOfTimes 1 (retime (permList σ) twinEvents)) [] [] true none
        (order σ) = .ok o ∧ o.p_hypergeom[i]? = some p ∧ p ≤ 1 / 24) ≤ 1 / 6 := by
  choose order hord using twin_answers
  refine ⟨order, le_trans (C173_some_event_partial (id : ℕ → ℕ) _ exactHypergeom exactHypergeom_isCdf lineDist_isDistance 1 1
    twinEvents twinBall _ (fun _ => []) (fun _ => []) order hord true none (by simp) (1 / 24) (by norm_num)) ?_⟩
  norm_num [twinEvents]

end Pointpats.Props
