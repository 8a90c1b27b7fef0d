import Verif.Props.Level
import Verif.Props.KnoxLocal
import Mathlib.GroupTheory.GroupAction.Defs
import Mathlib.Algebra.BigOperators.Field

/-!
# C105: the level of the local Knox test
-/

set_option linter.unusedSectionVars false

namespace Pointpats.Props

open Spec Spacetime

variable {K : Type} [Field K] [LinearOrder K] [IsStrictOrderedRing K]

/-! ### Rearrangements that keep one event -/

/-- The rearrangements that keep `i`. -/
abbrev Keep {n : ℕ} (i : Fin n) : Type := {h : Equiv.Perm (Fin n) // h i = i}

/-- A rearrangement is an exchange of `i` with another thing after a rearrangement that keeps `i`. -/
def keepEquiv {n : ℕ} (i : Fin n) : Equiv.Perm (Fin n) ≃ Fin n × Keep i where
  toFun σ := (σ i, ⟨Equiv.swap i (σ i) * σ, by simp⟩)
  invFun x := Equiv.swap i x.1 * x.2.1
  left_inv σ := by
    ext j
    simp
  right_inv x := by
    obtain ⟨a, h, hh⟩ := x
    have : (Equiv.swap i a * h) i = a := by simp [hh]
    refine Prod.ext this (Subtype.ext ?_)
    change Equiv.swap i ((Equiv.swap i a * h) i) * (Equiv.swap i a * h) = h
    rw [this]
    ext j
    simp

/-- The rearrangement of the code that keeps event `i` is the second part. -/
theorem focalPermutation_permList {n : ℕ} (i : Fin n) (σ : Equiv.Perm (Fin n)) :
    focalPermutation (permList σ) i = permList (Equiv.swap i (σ i) * σ) := by
  apply List.ext_getElem
  · simp [focalPermutation, permList]
  · intro j h1 h2
    have hj : j < n := by simpa [permList] using h2
    have hg : (permList σ).getD i 0 = (σ i : ℕ) := by simp [permList, List.getD_eq_getElem?_getD]
    simp only [focalPermutation, hg, List.getElem_set, List.getElem_map]
    by_cases hij : (i : ℕ) = j
    · have : (⟨j, hj⟩ : Fin n) = i := Fin.ext hij.symm
      rw [if_pos hij]
      simp [permList, this]
    · rw [if_neg hij]
      have hne : (⟨j, hj⟩ : Fin n) ≠ i := fun h => hij (congrArg Fin.val h).symm
      simp only [permList, List.getElem_ofFn, Equiv.Perm.mul_apply]
      by_cases hv : σ ⟨j, hj⟩ = i
      · rw [hv, if_pos rfl, Equiv.swap_apply_left]
      · rw [if_neg (fun h => hv (Fin.ext h)), Equiv.swap_apply_of_ne_of_ne hv (fun h => hne (σ.injective h))]

/-- If the probability is at most `α` whatever the first part, it is at most `α`. -/
theorem share_prod_le {B Ω : Type} [Fintype B] [Fintype Ω] (P : B × Ω → Prop) (α : K) (hα : 0 ≤ α)
    (h : ∀ b, share K Ω (fun ω => P (b, ω)) ≤ α) : share K (B × Ω) P ≤ α := by
  classical
  rcases isEmpty_or_nonempty Ω with hΩ | hΩ
  · rw [share_eq]
    simpa using hα
  · rcases isEmpty_or_nonempty B with hB | hB
    · rw [share_eq]
      simpa using hα
    · have hN : (0 : K) < (Fintype.card Ω : K) := Nat.cast_pos.2 Fintype.card_pos
      have hM : (0 : K) < (Fintype.card (B × Ω) : K) := Nat.cast_pos.2 Fintype.card_pos
      rw [share_eq, div_le_iff₀ hM]
      have hsum : (Finset.univ.filter P).card = ∑ b : B, (Finset.univ.filter fun ω => P (b, ω)).card := by
        simp only [Finset.card_filter]
        exact Fintype.sum_prod_type _
      rw [hsum, Nat.cast_sum]
      calc ∑ b : B, ((Finset.univ.filter fun ω => P (b, ω)).card : K) ≤ ∑ _b : B, α * (Fintype.card Ω : K) := by
            refine Finset.sum_le_sum fun b _ => ?_
            have := h b
            rwa [share_eq, div_le_iff₀ hN] at this
        _ = α * (Fintype.card (B × Ω) : K) := by
            rw [Finset.sum_const, Fintype.card_prod, nsmul_eq_mul, Finset.card_univ]
            push_cast
            ring

/-- Independent elements of the stabiliser applied to the first one. -/
private def keepIndependent {n : ℕ} (i : Fin n) (R : ℕ) : (Fin (R + 1) → Keep i) ≃ (Fin (R + 1) → Keep i) where
  toFun ω := Fin.cons (ω 0) fun k => ⟨(ω 0).1 * (ω k.succ).1, by simp [(ω 0).2, (ω k.succ).2]⟩
  invFun ρ := Fin.cons (ρ 0) fun k => ⟨(ρ 0).1⁻¹ * (ρ k.succ).1, by
    rw [Equiv.Perm.mul_apply, (ρ k.succ).2, Equiv.Perm.inv_eq_iff_eq, (ρ 0).2]⟩
  left_inv ω := by
    funext j
    refine Fin.cases ?_ (fun k => ?_) j <;> simp
  right_inv ρ := by
    funext j
    refine Fin.cases ?_ (fun k => ?_) j <;> simp

/-- The general form for a statistic of one event. -/
theorem focal_level {L : Type} [LinearOrder L] (f : List (Event K) → L) (E : List (Event K)) (i : Fin E.length) (R : ℕ)
    (α : K) (hα : 0 ≤ α) :
    share K (Rearrangements E.length R) (fun ω =>
      ((((shuffles ω).map fun q => f (retime (focalPermutation q i) (retime (assignment ω) E))).countP
        (fun x => decide (f (retime (assignment ω) E) ≤ x)) : ℕ) + 1 : K) / ((R : K) + 1) ≤ α) ≤ α := by
  let e : Rearrangements E.length R ≃ (Fin (R + 1) → Fin E.length) × (Fin (R + 1) → Keep i) :=
    (Equiv.arrowCongr (Equiv.refl _) (keepEquiv i)).trans (Equiv.arrowProdEquivProdArrow _ _ _)
  let P : (Fin (R + 1) → Fin E.length) × (Fin (R + 1) → Keep i) → Prop := fun x =>
    (((List.ofFn fun k : Fin R => f (retime (permList (Equiv.swap i (x.1 0) * (x.2 0).1 * (x.2 k.succ).1)) E)).countP
        (fun y => decide (f (retime (permList (Equiv.swap i (x.1 0) * (x.2 0).1)) E) ≤ y)) : ℕ) + 1 : K) / ((R : K) + 1) ≤ α
  have hP : share K ((Fin (R + 1) → Fin E.length) × (Fin (R + 1) → Keep i)) P ≤ α := by
    refine share_prod_le P α hα fun b => ?_
    have : Nonempty (Keep i) := ⟨⟨1, rfl⟩⟩
    refine le_trans (le_of_eq ?_) (rank_share (K := K)
      (fun h : Keep i => f (retime (permList (Equiv.swap i (b 0) * h.1)) E)) R α hα)
    refine Eq.trans ?_ (share_equiv (keepIndependent i R) _)
    congr 1
  refine le_trans (le_of_eq ?_) hP
  refine Eq.trans ?_ (share_equiv e P)
  congr 1
  funext ω
  have h0 : Equiv.swap i ((e ω).1 0) * ((e ω).2 0).1 = ω 0 := (keepEquiv i).left_inv (ω 0)
  have hk : ∀ k : Fin R, ((e ω).2 k.succ).1 = Equiv.swap i (ω k.succ i) * ω k.succ := fun k => rfl
  simp only [P, h0, hk, shuffles, assignment, List.map_ofFn, Function.comp_def, focalPermutation_permList, retime_permList]
  rfl

/-- **C105.** Under the null hypothesis that the times are given to the locations at random, the probability that the
simulated p-value `KnoxLocal` reports for an event is at most `α` is at most `α`, for every event, whatever the locations,
the times, the thresholds and the number of permutations, although all events share the same shuffles. -/
theorem C105_local_level [FloorRing K] {ι : Type} (default : ℕ → ι) (cdf : K → XF K → XF K) (hg : ℤ → ℕ → ℕ → ℕ → K)
    {sdist : K × K → K × K → K} (hd : IsSpaceDistance sdist) (delta tau : K) (E : List (Event K)) (sball : List (List ℕ))
    (R : ℕ) (hR : 0 < R) (tball gperms : Rearrangements E.length R → List (List ℕ))
    (order : Rearrangements E.length R → List (ℕ × ℕ))
    (h : ∀ ω, LocalAnswers cdf sdist delta tau (retime (assignment ω) E) sball (tball ω) (gperms ω) (shuffles ω) (order ω))
    (keep : Bool) (ids : Option (List ι)) (hids : ∀ l, ids = some l → l.length = E.length)
    (i : ℕ) (hi : i < E.length) (α : K) (hα : 0 ≤ α) :
    share K (Rearrangements E.length R) (fun ω => ∃ o ps p,
      knoxLocalInit default cdf hg true true (E.map Prod.fst) (shuffle 0 (assignment ω) (E.map Prod.snd)) sball (tball ω)
        (gperms ω) (shuffles ω) keep ids (order ω) = .ok o
      ∧ o.p_sims = some ps ∧ ps[i]? = some p ∧ p ≤ α) ≤ α := by
  refine le_trans (share_mono ?_) (focal_level (fun E => closeEvents sdist delta tau E i) E ⟨i, hi⟩ R α hα)
  rintro ω ⟨o, ps, p, ho, hps, hp, hle⟩
  have hsh : IsShuffle E.length (assignment ω) := isShuffle_permList _
  have hl := length_retime (E := E) hsh
  have e1 : (retime (assignment ω) E).map Prod.fst = E.map Prod.fst := by
    rw [retime_eq, List.map_fst_zip (by simp [shuffle, assignment, length_permList])]
  have e2 : (retime (assignment ω) E).map Prod.snd = shuffle 0 (assignment ω) (E.map Prod.snd) := by
    rw [retime_eq, List.map_snd_zip (by simp [shuffle, assignment, length_permList])]
  obtain ⟨o', ho', -, -, -, -, -, h4, -⟩ := knoxLocalInit_eq default hg hd (h ω) keep ids (by rw [hl]; exact hids)
  rw [e1, e2, ho] at ho'
  cases ho'
  rw [if_neg (shuffles_ne_nil hR ω), hps] at h4
  simp only [Option.some.injEq] at h4
  rw [h4] at hp
  simp only [hl, List.getElem?_map, List.getElem?_range hi, Option.map_some, Option.some.injEq] at hp
  rw [← hp, length_shuffles, permutedCounts] at hle
  exact hle

/-- **C105, number of false alarms.** Under the same hypothesis the expected number of events whose p-value is at most `α` is at
most `α` times the number of events. -/
theorem C105_expected_number [FloorRing K] {ι : Type} (default : ℕ → ι) (cdf : K → XF K → XF K) (hg : ℤ → ℕ → ℕ → ℕ → K)
    {sdist : K × K → K × K → K} (hd : IsSpaceDistance sdist) (delta tau : K) (E : List (Event K)) (sball : List (List ℕ))
    (R : ℕ) (hR : 0 < R) (tball gperms : Rearrangements E.length R → List (List ℕ))
    (order : Rearrangements E.length R → List (ℕ × ℕ))
    (h : ∀ ω, LocalAnswers cdf sdist delta tau (retime (assignment ω) E) sball (tball ω) (gperms ω) (shuffles ω) (order ω))
    (keep : Bool) (ids : Option (List ι)) (hids : ∀ l, ids = some l → l.length = E.length)
    (pvalues : Rearrangements E.length R → List K)
    (hp : ∀ ω, ∃ o, knoxLocalInit default cdf hg true true (E.map Prod.fst) (shuffle 0 (assignment ω) (E.map Prod.snd)) sball
        (tball ω) (gperms ω) (shuffles ω) keep ids (order ω) = .ok o ∧ o.p_sims = some (pvalues ω))
    (α : K) (hα : 0 ≤ α) :
    (∑ ω, (((pvalues ω).countP fun p => decide (p ≤ α) : ℕ) : K)) / (Fintype.card (Rearrangements E.length R) : K)
      ≤ α * E.length := by
  classical
  have hlen : ∀ ω, (pvalues ω).length = E.length := by
    intro ω
    obtain ⟨o, ho, hps⟩ := hp ω
    have hsh : IsShuffle E.length (assignment ω) := isShuffle_permList _
    have hl := length_retime (E := E) hsh
    have e1 : (retime (assignment ω) E).map Prod.fst = E.map Prod.fst := by
      rw [retime_eq, List.map_fst_zip (by simp [shuffle, assignment, length_permList])]
    have e2 : (retime (assignment ω) E).map Prod.snd = shuffle 0 (assignment ω) (E.map Prod.snd) := by
      rw [retime_eq, List.map_snd_zip (by simp [shuffle, assignment, length_permList])]
    obtain ⟨o', ho', -, -, -, -, -, h4, -⟩ := knoxLocalInit_eq default hg hd (h ω) keep ids (by rw [hl]; exact hids)
    rw [e1, e2, ho] at ho'
    cases ho'
    rw [if_neg (shuffles_ne_nil hR ω), hps] at h4
    simp only [Option.some.injEq] at h4
    rw [h4, List.length_map, List.length_range, hl]
  have hcount : ∀ ω, ((pvalues ω).countP fun p => decide (p ≤ α))
      = ∑ i : Fin E.length, if (∃ p, (pvalues ω)[(i : ℕ)]? = some p ∧ p ≤ α) then 1 else 0 := by
    intro ω
    have key : ∀ (l : List K) (n : ℕ), l.length = n → (l.countP fun p => decide (p ≤ α))
        = ∑ i : Fin n, if (∃ p, l[(i : ℕ)]? = some p ∧ p ≤ α) then 1 else 0 := by
      intro l
      induction l with
      | nil => rintro _ rfl; simp
      | cons a l ih =>
        rintro _ rfl
        rw [List.length_cons, Fin.sum_univ_succ, List.countP_cons, ih _ rfl, Nat.add_comm]
        simp
    exact key _ _ (hlen ω)
  have hsum : ∑ ω, (((pvalues ω).countP fun p => decide (p ≤ α) : ℕ) : K)
      = ∑ i : Fin E.length, ((Finset.univ.filter fun ω => ∃ p, (pvalues ω)[(i : ℕ)]? = some p ∧ p ≤ α).card : K) := by
    simp only [hcount, Nat.cast_sum, Finset.card_filter]
    rw [Finset.sum_comm]
  rw [hsum, Finset.sum_div]
  calc ∑ i : Fin E.length, ((Finset.univ.filter fun ω => ∃ p, (pvalues ω)[(i : ℕ)]? = some p ∧ p ≤ α).card : K)
        / (Fintype.card (Rearrangements E.length R) : K) ≤ ∑ _i : Fin E.length, α := by
        refine Finset.sum_le_sum fun i _ => ?_
        rw [← share_eq]
        refine le_trans (share_mono ?_) (C105_local_level default cdf hg hd delta tau E sball R hR tball gperms order h keep ids
          hids i i.2 α hα)
        rintro ω ⟨p, h1, h2⟩
        obtain ⟨o, ho, hps⟩ := hp ω
        exact ⟨o, _, p, ho, hps, h1, h2⟩
    _ = α * E.length := by
        rw [Finset.sum_const, Finset.card_univ, Fintype.card_fin, nsmul_eq_mul, mul_comm]

/-- Non-vacuity of C105: whatever the events, the thresholds and the shuffles, there are answers of the libraries that meet the
hypotheses. -/
theorem localAnswers_exist (cdf : K → XF K → XF K) {sdist : K × K → K × K → K} (hd : IsSpaceDistance sdist) (delta tau : K)
    (E : List (Event K)) : ∃ sball, ∀ p, IsShuffle E.length p → ∀ perms : List (List ℕ), (∀ q ∈ perms, IsShuffle E.length q) →
      ∃ tball order, LocalAnswers cdf sdist delta tau (retime p E) sball tball perms perms order := by
  refine ⟨(List.range E.length).map fun i => (List.range E.length).filter fun j => decide (NearSpace sdist delta (ev E i) (ev E j)), ?_⟩
  intro p hp perms hperms
  have hl := length_retime (E := E) hp
  have hs : AnswersSpace sdist delta (retime p E) ((List.range E.length).map fun i => (List.range E.length).filter fun j =>
      decide (NearSpace sdist delta (ev E i) (ev E j))) := by
    refine ⟨by simp [hl], ?_⟩
    intro i hi j
    rw [hl] at hi ⊢
    rw [getD_map_range _ hi]
    simp only [List.mem_filter, List.mem_range, decide_eq_true_eq]
    refine and_congr_right fun hj => ?_
    rw [NearSpace, NearSpace, retime_ev hp hi, retime_ev hp hj]
  have ht : AnswersTime tau (retime p E) ((List.range E.length).map fun i => (List.range E.length).filter fun j =>
      decide (NearTime tau (ev (retime p E) i) (ev (retime p E) j))) := by
    refine ⟨by simp [hl], ?_⟩
    intro i hi j
    rw [hl] at hi ⊢
    rw [getD_map_range _ hi]
    simp only [List.mem_filter, List.mem_range, decide_eq_true_eq]
  obtain ⟨g, hgl, -⟩ := knoxGlobal_eq cdf hd delta tau (retime p E) hs ht perms (by rw [hl]; exact hperms)
  refine ⟨_, g.st_pairs.toList, hs, ht, by rw [hl]; exact hperms, by rw [hl]; exact hperms, g.st_pairs.nodup_toList, ?_⟩
  intro g' hg' q
  rw [hgl] at hg'
  cases hg'
  exact Finset.mem_toList

end Pointpats.Props
