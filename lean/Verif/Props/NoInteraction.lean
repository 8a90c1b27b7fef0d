import Verif.Props.KnoxLocal
import Verif.Props.SpacetimeStats
import Verif.Props.Mantel

/-!
# Property C141: events that all happen at the same time, or at the same place, show no interaction
-/

set_option linter.unusedSectionVars false

namespace Pointpats.Props

open Spec Spacetime

variable {K : Type} [Field K] [LinearOrder K] [IsStrictOrderedRing K]

/-- All events happen at the same time. -/
def SameTime (E : List (Event K)) : Prop := ∀ a ∈ E, ∀ b ∈ E, a.2 = b.2

/-- All events happen at the same place. -/
def SamePlace (E : List (Event K)) : Prop := ∀ a ∈ E, ∀ b ∈ E, a.1 = b.1

theorem shuffle_perm {p : List ℕ} {t : List K} (hp : IsShuffle t.length p) : (shuffle 0 p t).Perm t := by
  have h : (shuffle 0 p t).Perm ((List.range t.length).map fun i => t.getD i 0) := hp.map _
  refine h.trans (List.Perm.of_eq ?_)
  refine List.ext_getElem (by simp) ?_
  intro i h1 h2
  simp [List.getD_eq_getElem?_getD, List.getElem?_eq_getElem h2]

theorem retime_sameTime {E : List (Event K)} (h : SameTime E) {p : List ℕ} (hp : IsShuffle E.length p) :
    retime p E = E := by
  have hp' : IsShuffle (E.map Prod.snd).length p := by simpa using hp
  have e : shuffle 0 p (E.map Prod.snd) = E.map Prod.snd := by
    have hperm := shuffle_perm hp'
    cases E with
    | nil => simpa using hperm
    | cons a l =>
      have hall : ∀ x ∈ (a :: l).map Prod.snd, x = a.2 := by
        intro x hx
        obtain ⟨b, hb, rfl⟩ := List.mem_map.1 hx
        exact h b hb a (by simp)
      have e1 := List.eq_replicate_iff.2 ⟨rfl, hall⟩
      have e2 := List.eq_replicate_iff.2 ⟨hperm.length_eq, fun x hx => hall x (hperm.mem_iff.1 hx)⟩
      rw [e2, ← e1]
  have : retime p E = (E.map Prod.fst).zip (shuffle 0 p (E.map Prod.snd)) := rfl
  rw [this, e]
  exact (List.zip_of_prod rfl rfl).symm

theorem retime_samePlace {E : List (Event K)} (h : SamePlace E) {p : List ℕ} (hp : IsShuffle E.length p) :
    (retime p E).Perm E := by
  have hp' : IsShuffle (E.map Prod.snd).length p := by simpa using hp
  have hperm := shuffle_perm hp'
  have e0 : retime p E = (E.map Prod.fst).zip (shuffle 0 p (E.map Prod.snd)) := rfl
  cases E with
  | nil => simp [retime]
  | cons a l =>
    have hall : ∀ x ∈ (a :: l).map Prod.fst, x = a.1 := by
      intro x hx
      obtain ⟨b, hb, rfl⟩ := List.mem_map.1 hx
      exact h b hb a (by simp)
    have key : ∀ (s : List (K × K)) (t : List K), s.length = t.length → (∀ x ∈ s, x = a.1) →
        s.zip t = t.map fun c => (a.1, c) := by
      intro s
      induction s with
      | nil => intro t ht _; cases t <;> simp_all
      | cons x s ih =>
        intro t ht hs
        cases t with
        | nil => simp at ht
        | cons c t =>
          simp only [List.zip_cons_cons, List.map_cons, hs x (by simp)]
          rw [ih t (by simpa using ht) fun y hy => hs y (by simp [hy])]
    have e1 := key ((a :: l).map Prod.fst) (shuffle 0 p ((a :: l).map Prod.snd))
      (by rw [hperm.length_eq]; simp) hall
    have e2 := key ((a :: l).map Prod.fst) ((a :: l).map Prod.snd) (by simp) hall
    have e3 : ((a :: l).map Prod.fst).zip ((a :: l).map Prod.snd) = a :: l := (List.zip_of_prod rfl rfl).symm
    rw [e0, e1]
    rw [e3] at e2
    have := hperm.map fun c => (a.1, c)
    rwa [← e2] at this

theorem retime_perm_of_same {E : List (Event K)} (h : SameTime E ∨ SamePlace E) {p : List ℕ}
    (hp : IsShuffle E.length p) : (retime p E).Perm E := by
  rcases h with h | h
  · rw [retime_sameTime h hp]
  · exact retime_samePlace h hp

theorem pseudoP_all (stat : ℕ) (sims : List ℕ) (h : ∀ m ∈ sims, stat ≤ m) : pseudoP K stat sims = 1 := by
  have e : (sims.filter fun m => decide (stat ≤ m)) = sims :=
    List.filter_eq_self.2 fun m hm => decide_eq_true (h m hm)
  have : (0 : K) < (sims.length : K) + 1 := by positivity
  rw [pseudoP, e]
  exact div_self this.ne'

/-- **C141, Knox.** The simulated p-value is 1 if all events happen at the same time or at the same place. -/
theorem C141_knox_class [FloorRing K] (cdf : K → XF K → XF K) {sdist : K × K → K × K → K}
    (hd : IsSpaceDistance sdist) (delta tau : K) (E : List (Event K)) (h : SameTime E ∨ SamePlace E)
    (sball tball : List (List ℕ)) (hs : AnswersSpace sdist delta E sball) (ht : AnswersTime tau E tball)
    (perms : List (List ℕ)) (hperm : ∀ p ∈ perms, IsShuffle E.length p) (hne : perms ≠ []) (keep : Bool) :
    ∃ o, knoxInit cdf sball tball perms keep = .ok o ∧ o.p_sim = some 1 := by
  obtain ⟨o, p, h1, h2, -, h3, -⟩ := C75_permutations_relabel_time cdf hd delta tau E sball tball hs ht perms hperm hne keep
  refine ⟨o, h1, ?_⟩
  rw [h2, h3, pseudoP_all]
  intro m hm
  obtain ⟨q, hq, rfl⟩ := List.mem_map.1 hm
  refine (closePairs_perm _ ?_ (retime_perm_of_same h (hperm q hq))).ge
  intro a b
  simp only [NearBoth, NearSpace, NearTime, hd.symm a.1 b.1, abs_sub_comm a.2 b.2]

theorem count_split (close : Event K → Event K → Prop) [DecidableRel close] (E : List (Event K)) {i : ℕ}
    (hi : i < E.length) (e : Event K) :
    E.countP (fun b => decide (close e b)) = (if close e (ev E i) then 1 else 0)
      + ((others E.length i).filter fun j => decide (close e (ev E j))).length := by
  have h1 : E = (List.range E.length).map (ev E) := by
    refine List.ext_getElem (by simp) ?_
    intro k h1 h2
    simp [ev, List.getD_eq_getElem?_getD, List.getElem?_eq_getElem h1]
  conv_lhs => rw [h1]
  rw [List.countP_map, (range_perm_cons_others hi).countP_eq, List.countP_cons, ← List.countP_eq_length_filter, add_comm]
  congr 1
  simp

/-- **C141, KnoxLocal.** The simulated p-value of every event is 1, and so is the global one. -/
theorem C141_knox_local [FloorRing K] {ι : Type} (default : ℕ → ι) (cdf : K → XF K → XF K) (hg : ℤ → ℕ → ℕ → ℕ → K)
    {sdist : K × K → K × K → K} (hd : IsSpaceDistance sdist) (delta tau : K) (E : List (Event K))
    (h : SameTime E ∨ SamePlace E) (sball tball gperms perms : List (List ℕ)) (order : List (ℕ × ℕ))
    (ha : LocalAnswers cdf sdist delta tau E sball tball gperms perms order) (hne : perms ≠ []) (hgne : gperms ≠ [])
    (ids : Option (List ι)) (hids : ∀ l, ids = some l → l.length = E.length) :
    ∃ o ps, knoxLocalInit default cdf hg true true (E.map Prod.fst) (E.map Prod.snd) sball tball gperms perms true ids
        order = .ok o ∧ o.p_sim = some 1 ∧ o.p_sims = some ps ∧ ps.length = E.length ∧ ∀ i < E.length, ps.getD i 0 = 1 := by
  obtain ⟨o, sims, ps, h1, h2, h3, h4, h5⟩ := C80_simulated_pvalues default hg hd ha hne ids hids
  obtain ⟨o', sims', k1, k2, -, k4⟩ := C77_focal_event_kept default hg hd ha hne ids hids
  rw [h1] at k1
  cases k1
  rw [h2] at k2
  cases k2
  obtain ⟨o', m1, m2, -, -⟩ := C76_local_counts default hg hd ha true ids hids
  rw [h1] at m1
  cases m1
  obtain ⟨-, g2⟩ := C76_global_test default hg hd ha true ids hids o h1 true
  refine ⟨o, ps, h1, ?_, h3, h4, ?_⟩
  · rw [g2, if_neg hgne, pseudoP_all]
    intro m hm
    obtain ⟨q, hq, rfl⟩ := List.mem_map.1 hm
    refine (closePairs_perm _ ?_ (retime_perm_of_same h (ha.gshuffles q hq))).ge
    intro a b
    simp only [NearBoth, NearSpace, NearTime, hd.symm a.1 b.1, abs_sub_comm a.2 b.2]
  · intro i hi
    rw [(h5 i hi).1, pseudoP_all]
    intro m hm
    obtain ⟨hl, hk⟩ := k4 i hi
    obtain ⟨k, hk', rfl⟩ := List.getElem_of_mem hm
    obtain ⟨q, q1, -, -, q4, q5⟩ := hk k (by omega)
    rw [List.getD_eq_getElem?_getD, List.getElem?_eq_getElem hk', Option.getD_some] at q5
    rw [q5, m2, List.getD_eq_getElem?_getD, List.getElem?_map, List.getElem?_range hi, Option.map_some, Option.getD_some]
    have hP := retime_perm_of_same h q1
    have c1 := count_split (NearBoth sdist delta tau) E hi (ev E i)
    have c2 := count_split (NearBoth sdist delta tau) (retime q E) (by rw [hP.length_eq]; exact hi) (ev (retime q E) i)
    rw [q4, hP.countP_eq, hP.length_eq] at c2
    rw [q4]
    omega

/-- **C141, modified_knox.** -/
theorem C141_modified_knox (sdist : K × K → K × K → K) (delta tau : K) (E : List (Event K)) (hn : 2 ≤ E.length)
    (h : SameTime E ∨ SamePlace E) (perms : List (List ℕ)) (hperm : ∀ p ∈ perms, IsShuffle E.length p) (hne : perms ≠ []) :
    (modifiedKnox sdist (E.map Prod.fst) (E.map Prod.snd) delta tau perms).2 = some 1 := by
  obtain ⟨stat, sims, p, h1, h2, -, -, -, -, h3⟩ := C67_modified_knox_pvalue sdist E hn delta tau perms hperm hne
  rw [h1]
  refine congrArg some (h3 ?_)
  intro m hm
  have hm' : XF.fin m ∈ sims.map XF.fin := List.mem_map_of_mem hm
  rw [h2] at hm'
  obtain ⟨q, hq, e⟩ := List.mem_map.1 hm'
  have := C68_modified_knox_order sdist _ _ (retime_perm_of_same h (hperm q hq)) delta tau [] perms
  rw [e, h1] at this
  exact (XF.fin.inj this).ge

/-- **C141, jacquez.** If all events happen at the same time the p-value is 1, for an index `knn` that gives the same answer for
the same times. Missing: events at the same place (`C141_jacquez_refuted`). -/
theorem C141_jacquez_partial (knn : List K → List (List ℕ)) (nns : List (List ℕ)) (E : List (Event K)) (h : SameTime E)
    (perms : List (List ℕ)) (hperm : ∀ p ∈ perms, IsShuffle E.length p) (hne : perms ≠ []) :
    (jacquez (K := K) E.length (knn (E.map Prod.snd)) nns
      (perms.map fun p => knn ((retime p E).map Prod.snd))).2 = some 1 := by
  obtain ⟨p, h1, -, -, -, -, h2⟩ := C67_jacquez_pvalue (K := K) E.length (knn (E.map Prod.snd)) nns
    (perms.map fun p => knn ((retime p E).map Prod.snd)) (by simpa using hne)
  rw [h1, h2]
  intro nn hnn
  obtain ⟨q, hq, rfl⟩ := List.mem_map.1 hnn
  rw [retime_sameTime h (hperm q hq)]

/-- **C141 is false of `jacquez` for events at the same place.** All events are then equally near, and the index has to choose
some; for a choice that happens to agree with the times the p-value is the smallest there is. -/
theorem C141_jacquez_refuted : ∃ (E : List (Event ℚ)) (nns nnt nnt' : List (List ℕ)) (p : List ℕ),
    SamePlace E ∧ IsShuffle E.length p
    ∧ NearestLists (fun i j => lineDist (ev E i).1 (ev E j).1) E.length 1 nns
    ∧ NearestLists (fun i j => |(ev E i).2 - (ev E j).2|) E.length 1 nnt
    ∧ NearestLists (fun i j => |(ev (retime p E) i).2 - (ev (retime p E) j).2|) E.length 1 nnt'
    ∧ jacquez (K := ℚ) E.length nnt nns [nnt'] = (2, some (1 / 2)) := by
  refine ⟨[((0, 0), 0), ((0, 0), 1), ((0, 0), 3)], [[1], [0], [0]], [[1], [0], [1]], [[1], [2], [1]], [2, 1, 0], ?_,
    by decide +kernel, ?_, ?_, ?_, by decide +kernel⟩
  · intro a ha b hb
    fin_cases ha <;> fin_cases hb <;> rfl
  all_goals
    constructor
    · decide +kernel
    · decide +kernel
    · decide +kernel
    · decide +kernel
    · decide +kernel

/-- **C141 is false of `knox`.** If all events happen at the same time and some are close in space, `knox` reports the smallest
p-value there is. -/
theorem C141_knox_refuted (sdist : K × K → K × K → K) (E : List (Event K)) (h : SameTime E) (delta tau : K)
    (htau : 0 ≤ tau) (pairs : List (ℕ × ℕ)) (hp : AnswersPairs sdist delta (E.map Prod.fst) pairs)
    (hclose : 0 < closePairs (NearSpace sdist delta) E) (perms : List (List ℕ))
    (hperm : ∀ p ∈ perms, IsShuffle E.length p) (hne : perms ≠ []) :
    ∃ r, knox pairs (E.map Prod.snd) tau perms = .ok r ∧ r.pvalue = some (1 / ((perms.length : K) + 1)) := by
  obtain ⟨r, hr, hstat⟩ := C66_knox_counts_pairs_partial sdist E delta tau htau pairs hp hclose perms
  obtain ⟨sims, p, h1, h2, h3, h4, -⟩ := C67_knox_pvalue_partial sdist E delta tau htau pairs hp perms hperm hne r hr
  refine ⟨r, hr, ?_⟩
  have hfold : ∀ l : List (List ℕ), (∀ p ∈ l, IsShuffle E.length p) → l.foldl (fun E' q => retime q E') E = E := by
    intro l
    induction l with
    | nil => intro _; rfl
    | cons q l ih =>
      intro hl
      rw [List.foldl_cons, retime_sameTime h (hl q (by simp))]
      exact ih fun p hp => hl p (by simp [hp])
  have hall : (sims.filter fun m => decide (r.stat ≤ m)) = sims := by
    refine List.filter_eq_self.2 fun m hm => decide_eq_true ?_
    obtain ⟨k, hk, rfl⟩ := List.getElem_of_mem hm
    have := h3 k (by omega)
    rw [List.getElem?_eq_getElem hk, hfold _ fun p hp => hperm p (List.mem_of_mem_take hp)] at this
    rw [Option.some.inj this, hstat]
  rw [h1, h4, hall, h2]
  simp

/-- **C141 is false of `mantel`.** For three events or more that all happen at the same time the correlation is `nan`, and
`mantel` reports the smallest p-value there is. -/
theorem C141_mantel_refuted (sdist : ℝ × ℝ → ℝ × ℝ → ℝ) (E : List (Event ℝ)) (hn : 3 ≤ E.length) (h : SameTime E)
    (scon spow tcon tpow : ℝ) (perms : List (List ℕ)) (hperm : ∀ p ∈ perms, IsShuffle E.length p) (hne : perms ≠ []) :
    mantel sdist (E.map Prod.fst) (E.map Prod.snd) perms scon spow tcon tpow
      = .ok (.nan, some (1 / ((perms.length : ℝ) + 1))) := by
  have hmem : ∀ q ∈ pairs E, q.1 ∈ E ∧ q.2 ∈ E := by
    intro q hq
    exact mem_pairs_mem hq
  have hnil := C70_constant sdist E hn scon spow tcon tpow (Or.inr (by
    intro q hq q' hq'
    rw [h _ (hmem q hq).2 _ (hmem q hq).1, h _ (hmem q' hq').2 _ (hmem q' hq').1]
    simp))
  obtain ⟨stat, sims, p, h1, h2, h3, -⟩ := C67_mantel_pvalue sdist E hn scon spow tcon tpow perms hperm hne
  have hstat : stat = .nan := by
    unfold mantel at h1 hnil
    simp only at h1 hnil
    split at h1
    · cases h1
    · rename_i st hst
      simp only [hst, if_true] at hnil
      cases hnil
      rw [if_neg hne] at h1
      split at h1 <;> cases h1
      rfl
  subst hstat
  rw [h1, h3]
  have : (sims.filter fun m => XF.ge m .nan) = [] := by
    refine List.filter_eq_nil_iff.2 fun m _ => ?_
    cases m <;> simp [XF.ge]
  rw [this]
  simp

/-- The hypotheses are met: three events at time 5, and three events at the origin. -/
example : SameTime [(((0 : ℚ), (0 : ℚ)), (5 : ℚ)), ((1, 0), 5), ((4, 2), 5)]
    ∧ SamePlace [(((0 : ℚ), (0 : ℚ)), (1 : ℚ)), ((0, 0), 5), ((0, 0), 2)] := by
  constructor <;> · intro a ha b hb; fin_cases ha <;> fin_cases hb <;> rfl

/-- Three events at time 5, two of them at distance 1: `knox` reports the p-value 1/3 with two permutations. -/
example : (knox [(0, 1)] [(5 : ℚ), 5, 5] 1 [[1, 0, 2], [2, 1, 0]]).map (fun r => r.pvalue) = .ok (some (1 / 3)) := by
  decide +kernel

end Pointpats.Props
