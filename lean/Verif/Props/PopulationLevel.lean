import Verif.Lemmas.PopulationLevel
import Verif.Props.LocalLevel
import Verif.Props.CsrLevel
import Mathlib.Probability.Independence.Basic
import Mathlib.Probability.UniformOn
import Mathlib.Probability.IdentDistrib

/-!
# C153: the level of the permutation tests for random events
-/

set_option linter.unusedSectionVars false

namespace Pointpats.Props

open Spec Spacetime Population MeasureTheory ProbabilityTheory

/-- Which events are close in space and which are close in time. -/
private noncomputable def closeness (sdist : ℝ × ℝ → ℝ × ℝ → ℝ) (delta tau : ℝ) {n : ℕ} (z : Fin n → Event ℝ) : Fin n → Fin n → Bool × Bool :=
  fun i j => (decide (NearSpace sdist delta (z i) (z j)), decide (NearTime tau (z i) (z j)))

private theorem closeness_measurable {sdist : ℝ × ℝ → ℝ × ℝ → ℝ} (hd : Measurable fun p : (ℝ × ℝ) × (ℝ × ℝ) => sdist p.1 p.2)
    (delta tau : ℝ) {n : ℕ} (m : Fin n → Fin n → Bool × Bool) : MeasurableSet {z : Fin n → Event ℝ | closeness sdist delta tau z = m} := by
  have : {z : Fin n → Event ℝ | closeness sdist delta tau z = m} = ⋂ i, ⋂ j,
      ({z : Fin n → Event ℝ | NearSpace sdist delta (z i) (z j) ↔ (m i j).1 = true}
        ∩ {z : Fin n → Event ℝ | NearTime tau (z i) (z j) ↔ (m i j).2 = true}) := by
    ext z
    simp only [Set.mem_ofPred_eq, Set.mem_iInter, Set.mem_inter_iff]
    constructor
    · rintro rfl i j
      simp [closeness]
    · intro h
      funext i j
      obtain ⟨h1, h2⟩ := h i j
      refine Prod.ext ?_ ?_
      · exact Bool.eq_iff_iff.2 (by simpa [closeness] using h1)
      · exact Bool.eq_iff_iff.2 (by simpa [closeness] using h2)
  rw [this]
  have hev : ∀ i, Measurable fun z : Fin n → Event ℝ => z i := fun i => measurable_pi_apply i
  refine .iInter fun i => .iInter fun j => .inter ?_ ?_
  · refine MeasurableSet.iff ?_ (.const _)
    exact measurableSet_le (hd.comp ((measurable_fst.comp (hev i)).prodMk (measurable_fst.comp (hev j)))) measurable_const
  · refine MeasurableSet.iff ?_ (.const _)
    refine measurableSet_le ?_ measurable_const
    exact continuous_abs.measurable.comp ((measurable_snd.comp (hev i)).sub (measurable_snd.comp (hev j)))

/-- A set of patterns is measurable if it only depends on which events are close. -/
private theorem measurable_of_closeness {sdist : ℝ × ℝ → ℝ × ℝ → ℝ} (hd : Measurable fun p : (ℝ × ℝ) × (ℝ × ℝ) => sdist p.1 p.2)
    (delta tau : ℝ) {n : ℕ} (A : Set (Fin n → Event ℝ))
    (h : ∀ z z', closeness sdist delta tau z = closeness sdist delta tau z' → z ∈ A → z' ∈ A) : MeasurableSet A := by
  have : A = ⋃ m ∈ {m | ∃ z ∈ A, closeness sdist delta tau z = m}, {z | closeness sdist delta tau z = m} := by
    ext z
    simp only [Set.mem_iUnion, Set.mem_ofPred_eq, exists_prop]
    constructor
    · intro hz
      exact ⟨_, ⟨z, hz, rfl⟩, rfl⟩
    · rintro ⟨m, ⟨z', hz', rfl⟩, e⟩
      exact h z' z e.symm hz'
  rw [this]
  exact MeasurableSet.biUnion (Set.to_countable _) fun m _ => closeness_measurable hd delta tau m

private theorem closeness_rearrange (sdist : ℝ × ℝ → ℝ × ℝ → ℝ) (delta tau : ℝ) {n : ℕ} (σ : Equiv.Perm (Fin n)) {z z' : Fin n → Event ℝ}
    (h : closeness sdist delta tau z = closeness sdist delta tau z') :
    closeness sdist delta tau (rearrange σ z) = closeness sdist delta tau (rearrange σ z') := by
  funext i j
  have h1 := congrFun (congrFun h i) j
  have h2 := congrFun (congrFun h (σ i)) (σ j)
  simp only [closeness, Prod.mk.injEq] at h1 h2 ⊢
  exact ⟨h1.1, h2.2⟩

private theorem both_of_closeness {sdist : ℝ × ℝ → ℝ × ℝ → ℝ} {delta tau : ℝ} {n : ℕ} {z z' : Fin n → Event ℝ}
    (h : closeness sdist delta tau z = closeness sdist delta tau z') (i j : Fin n) :
    NearBoth sdist delta tau (z i) (z j) ↔ NearBoth sdist delta tau (z' i) (z' j) := by
  have h1 := congrFun (congrFun h i) j
  simp only [closeness, Prod.mk.injEq, decide_eq_decide] at h1
  exact and_congr h1.1 h1.2

private theorem closePairs_closeness {sdist : ℝ × ℝ → ℝ × ℝ → ℝ} {delta tau : ℝ} {n : ℕ} {z z' : Fin n → Event ℝ}
    (h : closeness sdist delta tau z = closeness sdist delta tau z') :
    closePairs (NearBoth sdist delta tau) (List.ofFn z) = closePairs (NearBoth sdist delta tau) (List.ofFn z') := by
  unfold closePairs
  rw [List.ofFn_eq_map, List.ofFn_eq_map, Spacetime.pairs_map, Spacetime.pairs_map, List.countP_map, List.countP_map]
  refine List.countP_congr fun p _ => ?_
  simp only [Function.comp_apply, decide_eq_true_eq]
  exact both_of_closeness h _ _

/-- **C153, Knox.** For random events without space-time interaction and random shuffles, the probability that the simulated
p-value of `Knox` is at most `α` is at most `α`. -/
theorem C153_knox {Ω : Type} [MeasurableSpace Ω] (P : Measure Ω) [IsProbabilityMeasure P] {n R : ℕ} (X : Fin n → Ω → Event ℝ)
    (hX : NoInteraction P X) (q : Ω → Fin R → Equiv.Perm (Fin n)) (hq : UniformShuffles P X q) (hR : 0 < R)
    (cdf : ℝ → XF ℝ → XF ℝ) {sdist : ℝ × ℝ → ℝ × ℝ → ℝ} (hd : IsSpaceDistance sdist)
    (hm : Measurable fun p : (ℝ × ℝ) × (ℝ × ℝ) => sdist p.1 p.2) (delta tau : ℝ) (sball tball : Ω → List (List ℕ))
    (hs : ∀ ω, AnswersSpace sdist delta (List.ofFn fun i => X i ω) (sball ω))
    (ht : ∀ ω, AnswersTime tau (List.ofFn fun i => X i ω) (tball ω)) (keep : Bool) (α : ℝ) (hα : 0 ≤ α) :
    P.real {ω | ∃ o p, knoxInit cdf (sball ω) (tball ω) (shuffleLists (q ω)) keep = .ok o ∧ o.p_sim = some p ∧ p ≤ α} ≤ α := by
  set f : List (Event ℝ) → ℕ := fun E => closePairs (NearBoth sdist delta tau) E with hf
  refine le_trans (measureReal_mono ?_) (population_level P hX hq
    (fun E Q => (((Q.map fun q => f (retime q E)).countP (fun x => decide (f E ≤ x)) : ℕ) + 1 : ℝ) / ((R : ℝ) + 1) ≤ α) ?_ α ?_)
  · rintro ω ⟨o, p, ho, hp, hle⟩
    have hl : (List.ofFn fun i => X i ω).length = n := List.length_ofFn
    obtain ⟨o', p', h1, h2, -, h4, -⟩ := C75_permutations_relabel_time cdf hd delta tau (List.ofFn fun i => X i ω) (sball ω) (tball ω)
      (hs ω) (ht ω) (shuffleLists (q ω)) (by
        rw [hl]
        intro p hp
        obtain ⟨i, rfl⟩ := (List.mem_ofFn' _ _).1 hp
        exact isShuffle_permList _)
      (by rw [← List.length_pos_iff_ne_nil]; simpa [shuffleLists] using hR) keep
    rw [ho] at h1
    cases h1
    rw [hp] at h2
    cases h2
    rw [h4, pseudoP, ← List.countP_eq_length_filter, List.length_map] at hle
    have : (shuffleLists (q ω)).length = R := by simp [shuffleLists]
    rw [this] at hle
    exact hle
  · intro a
    refine measurable_of_closeness hm delta tau _ fun z z' h hz => ?_
    simp only [Set.mem_ofPred_eq, shuffleLists, List.map_ofFn, Function.comp_def, ← ofFn_rearrange, hf] at hz ⊢
    have e : ∀ k, closePairs (NearBoth sdist delta tau) (List.ofFn (rearrange (a k) z))
        = closePairs (NearBoth sdist delta tau) (List.ofFn (rearrange (a k) z')) :=
      fun k => closePairs_closeness (closeness_rearrange sdist delta tau (a k) h)
    simp only [closePairs_closeness h, e] at hz
    exact hz
  · rintro E rfl
    exact events_level f E R α hα

/-- **C153, modified_knox.** The same for `modified_knox`, for at least two events. -/
theorem C153_modified_knox {Ω : Type} [MeasurableSpace Ω] (P : Measure Ω) [IsProbabilityMeasure P] {n R : ℕ} (hn : 2 ≤ n)
    (X : Fin n → Ω → Event ℝ) (hX : NoInteraction P X) (q : Ω → Fin R → Equiv.Perm (Fin n)) (hq : UniformShuffles P X q) (hR : 0 < R)
    {sdist : ℝ × ℝ → ℝ × ℝ → ℝ} (hm : Measurable fun p : (ℝ × ℝ) × (ℝ × ℝ) => sdist p.1 p.2) (delta tau : ℝ) (α : ℝ) (hα : 0 ≤ α) :
    P.real {ω | ∃ p, (modifiedKnox sdist (List.ofFn fun i => (X i ω).1) (List.ofFn fun i => (X i ω).2) delta tau
      (shuffleLists (q ω))).2 = some p ∧ p ≤ α} ≤ α := by
  refine le_trans (measureReal_mono ?_) (population_level P hX hq
    (fun E Q => ∃ p, (modifiedKnox sdist (E.map Prod.fst) (E.map Prod.snd) delta tau Q).2 = some p ∧ p ≤ α) ?_ α ?_)
  · rintro ω ⟨p, hp⟩
    refine ⟨p, ?_⟩
    simp only [List.map_ofFn, Function.comp_def]
    exact hp
  · intro a
    refine measurable_of_closeness hm delta tau _ fun z z' h hz => ?_
    have key : (modifiedKnox sdist ((List.ofFn z).map Prod.fst) ((List.ofFn z).map Prod.snd) delta tau (shuffleLists a))
        = modifiedKnox sdist ((List.ofFn z').map Prod.fst) ((List.ofFn z').map Prod.snd) delta tau (shuffleLists a) := by
      have hsp : ∀ z z' : Fin n → Event ℝ, closeness sdist delta tau z = closeness sdist delta tau z' →
          thresholded (distanceMatrix sdist ((List.ofFn z).map Prod.fst)) delta
            = thresholded (distanceMatrix sdist ((List.ofFn z').map Prod.fst)) delta := by
        intro z z' h
        simp only [thresholded, distanceMatrix, List.map_map, List.ofFn_eq_map, Function.comp_def]
        refine List.map_congr_left fun i _ => List.map_congr_left fun j _ => ?_
        have := congrFun (congrFun h i) j
        simp only [closeness, Prod.mk.injEq] at this
        exact this.1
      have htm : ∀ z z' : Fin n → Event ℝ, closeness sdist delta tau z = closeness sdist delta tau z' →
          thresholded (distanceMatrix (fun a b : ℝ => |a - b|) ((List.ofFn z).map Prod.snd)) tau
            = thresholded (distanceMatrix (fun a b : ℝ => |a - b|) ((List.ofFn z').map Prod.snd)) tau := by
        intro z z' h
        simp only [thresholded, distanceMatrix, List.map_map, List.ofFn_eq_map, Function.comp_def]
        refine List.map_congr_left fun i _ => List.map_congr_left fun j _ => ?_
        have := congrFun (congrFun h i) j
        simp only [closeness, Prod.mk.injEq] at this
        exact this.2
      have hsh : ∀ (z : Fin n → Event ℝ) (σ : Equiv.Perm (Fin n)),
          shuffleMatrix (distanceMatrix (fun a b : ℝ => |a - b|) ((List.ofFn z).map Prod.snd)) (permList σ)
            = distanceMatrix (fun a b : ℝ => |a - b|) ((List.ofFn (rearrange σ z)).map Prod.snd) := by
        intro z σ
        rw [C69_shuffles_times _ _ (by simpa using isShuffle_permList σ), ofFn_rearrange]
        congr 1
        rw [retime_eq, List.map_snd_zip (by simp [shuffle, length_permList])]
      unfold modifiedKnox
      simp only [List.length_ofFn, shuffleLists, List.map_ofFn, Function.comp_def]
      have e1 := hsp z z' h
      have e2 := htm z z' h
      have e3 : ∀ k, thresholded (distanceMatrix (fun a b : ℝ => |a - b|) ((List.ofFn (rearrange (a k) z)).map Prod.snd)) tau
          = thresholded (distanceMatrix (fun a b : ℝ => |a - b|) ((List.ofFn (rearrange (a k) z')).map Prod.snd)) tau :=
        fun k => htm _ _ (closeness_rearrange sdist delta tau (a k) h)
      simp only [List.map_ofFn, Function.comp_def] at e1 e2 e3 hsh ⊢
      simp only [hsh, e1, e2, e3]
    change ∃ p, _
    rw [← key]
    exact hz
  · rintro E rfl
    have e1 : ∀ ω : Rearrangements E.length R, (retime (assignment ω) E).map Prod.fst = E.map Prod.fst := by
      intro ω
      rw [retime_eq, List.map_fst_zip (by simp [shuffle, assignment, length_permList])]
    have e2 : ∀ ω : Rearrangements E.length R, (retime (assignment ω) E).map Prod.snd = shuffle 0 (assignment ω) (E.map Prod.snd) := by
      intro ω
      rw [retime_eq, List.map_snd_zip (by simp [shuffle, assignment, length_permList])]
    simp only [e1, e2]
    exact C104_modified_knox_level sdist E hn delta tau R hR α hα

/-- **C153, jacquez.** The same for `jacquez`; `knnSpace` and `knnTime` are the functions that list the neighbours. -/
theorem C153_jacquez {Ω : Type} [MeasurableSpace Ω] (P : Measure Ω) [IsProbabilityMeasure P] {n R : ℕ}
    (X : Fin n → Ω → Event ℝ) (hX : NoInteraction P X) (q : Ω → Fin R → Equiv.Perm (Fin n)) (hq : UniformShuffles P X q) (hR : 0 < R)
    (knnSpace : List (ℝ × ℝ) → List (List ℕ)) (knnTime : List ℝ → List (List ℕ))
    (hS : ∀ r, MeasurableSet {s : Fin n → ℝ × ℝ | knnSpace (List.ofFn s) = r})
    (hT : ∀ r, MeasurableSet {t : Fin n → ℝ | knnTime (List.ofFn t) = r}) (α : ℝ) (hα : 0 ≤ α) :
    P.real {ω | ∃ p : ℝ, (jacquez n (knnTime (List.ofFn fun i => (X i ω).2)) (knnSpace (List.ofFn fun i => (X i ω).1))
      ((shuffleLists (q ω)).map fun p => knnTime (shuffle 0 p (List.ofFn fun i => (X i ω).2)))).2 = some p ∧ p ≤ α} ≤ α := by
  refine le_trans (measureReal_mono ?_) (population_level P hX hq
    (fun E Q => ∃ p : ℝ, (jacquez n (knnTime (E.map Prod.snd)) (knnSpace (E.map Prod.fst))
      (Q.map fun p => knnTime (shuffle 0 p (E.map Prod.snd)))).2 = some p ∧ p ≤ α) ?_ α ?_)
  · rintro ω ⟨p, hp⟩
    refine ⟨p, ?_⟩
    simp only [List.map_ofFn, Function.comp_def] at hp ⊢
    exact hp
  · intro a
    have hsh : ∀ (z : Fin n → Event ℝ) (σ : Equiv.Perm (Fin n)),
        shuffle 0 (permList σ) ((List.ofFn z).map Prod.snd) = List.ofFn fun i => (rearrange σ z i).2 := by
      intro z σ
      have e : List.ofFn (fun i => (rearrange σ z i).2) = (List.ofFn (rearrange σ z)).map Prod.snd := by
        simp [List.map_ofFn, Function.comp_def]
      rw [e, ofFn_rearrange, retime_eq, List.map_snd_zip (by simp [shuffle, length_permList])]
    have hz1 : Measurable fun (z : Fin n → Event ℝ) i => (z i).1 :=
      measurable_pi_lambda _ fun i => measurable_fst.comp (measurable_pi_apply i)
    have hz2 : Measurable fun (z : Fin n → Event ℝ) i => (z i).2 :=
      measurable_pi_lambda _ fun i => measurable_snd.comp (measurable_pi_apply i)
    have : {z : Fin n → Event ℝ | ∃ p : ℝ, (jacquez n (knnTime ((List.ofFn z).map Prod.snd)) (knnSpace ((List.ofFn z).map Prod.fst))
        ((shuffleLists a).map fun p => knnTime (shuffle 0 p ((List.ofFn z).map Prod.snd)))).2 = some p ∧ p ≤ α}
      = ⋃ r ∈ {r : List (List ℕ) × List (List ℕ) × (Fin R → List (List ℕ)) |
            ∃ p : ℝ, (jacquez n r.1 r.2.1 (List.ofFn r.2.2)).2 = some p ∧ p ≤ α},
          {z : Fin n → Event ℝ | knnTime (List.ofFn fun i => (z i).2) = r.1 ∧ knnSpace (List.ofFn fun i => (z i).1) = r.2.1
            ∧ ∀ k, knnTime (List.ofFn fun i => (rearrange (a k) z i).2) = r.2.2 k} := by
      ext z
      simp only [Set.mem_ofPred_eq, Set.mem_iUnion, exists_prop, shuffleLists, List.map_ofFn, Function.comp_def]
      have hsh' := fun k => hsh z (a k)
      simp only [List.map_ofFn, Function.comp_def] at hsh'
      simp only [hsh']
      constructor
      · intro h
        exact ⟨(_, _, _), h, rfl, rfl, fun _ => rfl⟩
      · rintro ⟨⟨r1, r2, r3⟩, h, e1, e2, e3⟩
        simp only at e1 e2 e3 h
        rw [e1, e2, funext e3]
        exact h
    rw [this]
    refine MeasurableSet.biUnion (Set.to_countable _) fun r _ => ?_
    have hset : {z : Fin n → Event ℝ | knnTime (List.ofFn fun i => (z i).2) = r.1 ∧ knnSpace (List.ofFn fun i => (z i).1) = r.2.1
            ∧ ∀ k, knnTime (List.ofFn fun i => (rearrange (a k) z i).2) = r.2.2 k}
        = ((fun (z : Fin n → Event ℝ) i => (z i).2) ⁻¹' {t | knnTime (List.ofFn t) = r.1})
          ∩ (((fun (z : Fin n → Event ℝ) i => (z i).1) ⁻¹' {s | knnSpace (List.ofFn s) = r.2.1})
          ∩ ⋂ k, (fun (z : Fin n → Event ℝ) i => (rearrange (a k) z i).2) ⁻¹' {t | knnTime (List.ofFn t) = r.2.2 k}) := by
      ext z
      simp
    rw [hset]
    exact (hz2 (hT _)).inter ((hz1 (hS _)).inter (.iInter fun k => (hz2.comp (rearrange_measurable (a k))) (hT _)))
  · rintro E rfl
    have e1 : ∀ ω : Rearrangements E.length R, (retime (assignment ω) E).map Prod.fst = E.map Prod.fst := by
      intro ω
      rw [retime_eq, List.map_fst_zip (by simp [shuffle, assignment, length_permList])]
    have e2 : ∀ ω : Rearrangements E.length R, (retime (assignment ω) E).map Prod.snd = shuffle 0 (assignment ω) (E.map Prod.snd) := by
      intro ω
      rw [retime_eq, List.map_snd_zip (by simp [shuffle, assignment, length_permList])]
    simp only [e1, e2]
    have := C104_jacquez_level knnTime (knnSpace (E.map Prod.fst)) (E.map Prod.snd) R hR α hα
    rw [List.length_map] at this
    exact this

private theorem closeEvents_closeness {sdist : ℝ × ℝ → ℝ × ℝ → ℝ} {delta tau : ℝ} {n : ℕ} {z z' : Fin n → Event ℝ}
    (h : closeness sdist delta tau z = closeness sdist delta tau z') (i : ℕ) (hi : i < n) :
    closeEvents sdist delta tau (List.ofFn z) i = closeEvents sdist delta tau (List.ofFn z') i := by
  unfold closeEvents neighbourCount
  rw [List.length_ofFn, List.length_ofFn]
  congr 1
  refine List.filter_congr fun j hj => ?_
  have hj' : j < n := by
    simp only [others, List.mem_filter, List.mem_range] at hj
    exact hj.1
  have e : ∀ (z : Fin n → Event ℝ) (k : ℕ) (hk : k < n), (List.ofFn z).getD k ((0, 0), 0) = z ⟨k, hk⟩ := by
    intro z k hk
    simp [List.getD_eq_getElem?_getD, hk]
  rw [e z i hi, e z j hj', e z' i hi, e z' j hj']
  exact decide_eq_decide.2 (both_of_closeness h _ _)

/-- **C153, KnoxLocal.** The same for the simulated p-value that `KnoxLocal` reports for an event, for every event. -/
theorem C153_knox_local {Ω ι : Type} [MeasurableSpace Ω] (P : Measure Ω) [IsProbabilityMeasure P] {n R : ℕ}
    (X : Fin n → Ω → Event ℝ) (hX : NoInteraction P X) (q : Ω → Fin R → Equiv.Perm (Fin n)) (hq : UniformShuffles P X q) (hR : 0 < R)
    (default : ℕ → ι) (cdf : ℝ → XF ℝ → XF ℝ) (hg : ℤ → ℕ → ℕ → ℕ → ℝ) {sdist : ℝ × ℝ → ℝ × ℝ → ℝ} (hd : IsSpaceDistance sdist)
    (hm : Measurable fun p : (ℝ × ℝ) × (ℝ × ℝ) => sdist p.1 p.2) (delta tau : ℝ) (sball tball gperms : Ω → List (List ℕ))
    (order : Ω → List (ℕ × ℕ))
    (h : ∀ ω, LocalAnswers cdf sdist delta tau (List.ofFn fun i => X i ω) (sball ω) (tball ω) (gperms ω) (shuffleLists (q ω)) (order ω))
    (keep : Bool) (ids : Option (List ι)) (hids : ∀ l, ids = some l → l.length = n) (i : ℕ) (hi : i < n) (α : ℝ) (hα : 0 ≤ α) :
    P.real {ω | ∃ o ps p, knoxLocalInit default cdf hg true true (List.ofFn fun i => (X i ω).1) (List.ofFn fun i => (X i ω).2)
        (sball ω) (tball ω) (gperms ω) (shuffleLists (q ω)) keep ids (order ω) = .ok o
      ∧ o.p_sims = some ps ∧ ps[i]? = some p ∧ p ≤ α} ≤ α := by
  set f : List (Event ℝ) → ℕ := fun E => closeEvents sdist delta tau E i with hf
  refine le_trans (measureReal_mono ?_) (population_level P hX hq
    (fun E Q => (((Q.map fun q => f (retime (focalPermutation q i) E)).countP (fun x => decide (f E ≤ x)) : ℕ) + 1 : ℝ)
      / ((R : ℝ) + 1) ≤ α) ?_ α ?_)
  · rintro ω ⟨o, ps, p, ho, hps, hp, hle⟩
    have hl : (List.ofFn fun i => X i ω).length = n := List.length_ofFn
    have hR' : (shuffleLists (q ω)).length = R := by simp [shuffleLists]
    obtain ⟨o', ho', -, -, -, -, -, h4, -⟩ := knoxLocalInit_eq default hg hd (h ω) keep ids (by rw [hl]; exact hids)
    simp only [List.map_ofFn, Function.comp_def] at ho'
    rw [ho] at ho'
    cases ho'
    rw [if_neg (List.length_pos_iff_ne_nil.1 (by rw [hR']; exact hR)), hps] at h4
    simp only [Option.some.injEq] at h4
    rw [h4] at hp
    simp only [hl, List.getElem?_map, List.getElem?_range hi, Option.map_some, Option.some.injEq] at hp
    rw [← hp, hR', permutedCounts] at hle
    exact hle
  · intro a
    refine measurable_of_closeness hm delta tau _ fun z z' h hz => ?_
    have hfp : ∀ k, focalPermutation (permList (a k)) i = permList (Equiv.swap ⟨i, hi⟩ (a k ⟨i, hi⟩) * a k) :=
      fun k => focalPermutation_permList ⟨i, hi⟩ (a k)
    simp only [Set.mem_ofPred_eq, shuffleLists, List.map_ofFn, Function.comp_def, hfp, ← ofFn_rearrange, hf] at hz ⊢
    have e := fun k => closeEvents_closeness (closeness_rearrange sdist delta tau (Equiv.swap ⟨i, hi⟩ (a k ⟨i, hi⟩) * a k) h) i hi
    simp only [closeEvents_closeness h i hi, e] at hz
    exact hz
  · rintro E rfl
    exact focal_level f E ⟨i, hi⟩ R α hα

/-- Events whose times are independent, have the same distribution and are independent of the locations show no interaction. -/
theorem noInteraction_of_independent {Ω : Type} [MeasurableSpace Ω] (P : Measure Ω) [IsProbabilityMeasure P] {n : ℕ}
    (S : Fin n → Ω → ℝ × ℝ) (T : Fin n → Ω → ℝ) (hS : ∀ i, Measurable (S i)) (hT : ∀ i, Measurable (T i)) (hind : iIndepFun T P)
    (hid : ∀ i j, P.map (T i) = P.map (T j)) (hST : IndepFun (fun ω i => S i ω) (fun ω i => T i ω) P) :
    NoInteraction P fun i ω => (S i ω, T i ω) := by
  refine ⟨fun i => (hS i).prodMk (hT i), fun σ => ?_⟩
  have hSm : Measurable fun ω i => S i ω := measurable_pi_lambda _ hS
  have hTm : ∀ σ : Equiv.Perm (Fin n), Measurable fun ω i => T (σ i) ω := fun σ => measurable_pi_lambda _ fun i => hT (σ i)
  have hφ : Measurable fun (p : (Fin n → ℝ × ℝ) × (Fin n → ℝ)) i => (p.1 i, p.2 i) :=
    measurable_pi_lambda _ fun i => ((measurable_pi_apply i).comp measurable_fst).prodMk ((measurable_pi_apply i).comp measurable_snd)
  have key : ∀ σ : Equiv.Perm (Fin n), P.map (fun ω => ((fun i => S i ω), fun i => T (σ i) ω))
      = (P.map fun ω i => S i ω).prod (Measure.pi fun i => P.map (T i)) := by
    intro σ
    have h1 : IndepFun (fun ω i => S i ω) (fun ω i => T (σ i) ω) P :=
      hST.comp (φ := id) (ψ := fun t i => t (σ i)) measurable_id (measurable_pi_lambda _ fun i => measurable_pi_apply (σ i))
    rw [(indepFun_iff_map_prod_eq_prod_map_map hSm.aemeasurable (hTm σ).aemeasurable).1 h1]
    congr 1
    have h2 : iIndepFun (fun i => T (σ i)) P := hind.precomp σ.injective
    rw [(iIndepFun_iff_map_fun_eq_pi_map (f := fun i => T (σ i)) fun i => (hT (σ i)).aemeasurable).1 h2]
    congr 1
    funext i
    exact hid _ _
  have e : ∀ σ : Equiv.Perm (Fin n), P.map (fun ω i => (S i ω, T (σ i) ω))
      = (P.map fun ω => ((fun i => S i ω), fun i => T (σ i) ω)).map fun p i => (p.1 i, p.2 i) := by
    intro σ
    rw [Measure.map_map hφ (hSm.prodMk (hTm σ))]
    rfl
  rw [e σ, key σ, ← key 1, ← e 1]
  rfl

/-- Random shuffles can be added to any random events. -/
theorem uniformShuffles_exist {Ω : Type} [MeasurableSpace Ω] (P : Measure Ω) [IsProbabilityMeasure P] {n : ℕ} (R : ℕ)
    (X : Fin n → Ω → Event ℝ) (hX : NoInteraction P X) :
    ∃ (_ : MeasurableSpace (Ω × (Fin R → Equiv.Perm (Fin n)))) (P' : Measure (Ω × (Fin R → Equiv.Perm (Fin n))))
      (_ : IsProbabilityMeasure P'), NoInteraction P' (fun i ω => X i ω.1) ∧ UniformShuffles P' (fun i ω => X i ω.1) (fun ω => ω.2) := by
  let : MeasurableSpace (Fin R → Equiv.Perm (Fin n)) := ⊤
  have hsing : MeasurableSingletonClass (Fin R → Equiv.Perm (Fin n)) := ⟨fun _ => trivial⟩
  have hU : IsProbabilityMeasure (uniformOn (Set.univ : Set (Fin R → Equiv.Perm (Fin n)))) :=
    isProbabilityMeasure_uniformOn Set.finite_univ Set.univ_nonempty
  have hXm : Measurable fun ω i => X i ω := measurable_pi_lambda _ hX.measurable
  have hfst : (P.prod (uniformOn (Set.univ : Set (Fin R → Equiv.Perm (Fin n))))).map Prod.fst = P := measurePreserving_fst.map_eq
  refine ⟨inferInstance, P.prod (uniformOn Set.univ), inferInstance, ⟨fun i => (hX.measurable i).comp measurable_fst, fun σ => ?_⟩, ⟨fun a A hA => ?_⟩⟩
  · have h1 : Measurable fun ω i => ((X i ω).1, (X (σ i) ω).2) :=
      measurable_pi_lambda _ fun i => (measurable_fst.comp (hX.measurable i)).prodMk (measurable_snd.comp (hX.measurable (σ i)))
    have := hX.exchangeable σ
    rw [← hfst, Measure.map_map h1 measurable_fst, Measure.map_map hXm measurable_fst] at this
    exact this
  · have e1 : {ω : Ω × (Fin R → Equiv.Perm (Fin n)) | (fun i => X i ω.1) ∈ A ∧ ω.2 = a} = ((fun ω i => X i ω) ⁻¹' A) ×ˢ {a} := by
      ext ω; simp
    have e2 : {ω : Ω × (Fin R → Equiv.Perm (Fin n)) | (fun i => X i ω.1) ∈ A} = ((fun ω i => X i ω) ⁻¹' A) ×ˢ Set.univ := by
      ext ω; simp
    rw [e1, e2, Measure.prod_prod, Measure.prod_prod, measure_univ, mul_one, uniformOn_univ]
    simp [ENNReal.div_eq_inv_mul, mul_comm]

/-- Non-vacuity: twenty events, uniform on the unit square, at independent uniform times, and 99 random shuffles. The
`modified_knox` test reports a p-value of at most `1/20` with probability at most `1/20`. -/
example : ∃ (Ω : Type) (_ : MeasurableSpace Ω) (P : Measure Ω) (_ : IsProbabilityMeasure P) (X : Fin 20 → Ω → Event ℝ)
    (q : Ω → Fin 99 → Equiv.Perm (Fin 20)), NoInteraction P X ∧ UniformShuffles P X q
    ∧ P.real {ω | ∃ p, (modifiedKnox (fun a b => |a.1 - b.1| + |a.2 - b.2|) (List.ofFn fun i => (X i ω).1) (List.ofFn fun i => (X i ω).2)
        (1 / 10) (1 / 5) (shuffleLists (q ω))).2 = some p ∧ p ≤ 1 / 20} ≤ 1 / 20 := by
  have hv : volume (Set.Icc 0 1 ×ˢ Set.Icc 0 1 : Set (ℝ × ℝ)) = 1 := by
    rw [Measure.volume_eq_prod, Measure.prod_prod, Real.volume_Icc]
    norm_num
  obtain ⟨P, hP, hX, hU, hXU⟩ := completelyRandom_exists 20 (W := Set.Icc 0 1 ×ˢ Set.Icc 0 1) (by rw [hv]; norm_num) (by rw [hv]; norm_num)
  have hN : NoInteraction P fun (i : Fin 20) ω => (ω.1 i, ω.2 i) := by
    refine noInteraction_of_independent P (fun i ω => ω.1 i) (fun i ω => ω.2 i) hX.measurable (fun i => hU.measurable i)
      (hU.independent.precomp Fin.val_injective) (fun i j => by rw [hU.distribution, hU.distribution]) ?_
    exact hXU.comp (φ := id) (ψ := fun u (i : Fin 20) => u i) measurable_id (measurable_pi_lambda _ fun i => measurable_pi_apply _)
  obtain ⟨_, P', hP', h1, h2⟩ := uniformShuffles_exist P 99 _ hN
  refine ⟨_, _, P', hP', _, _, h1, h2, ?_⟩
  exact C153_modified_knox P' (by norm_num) _ h1 _ h2 (by norm_num) (by fun_prop) _ _ _ (by norm_num)

end Pointpats.Props
