import Verif.Model.SpacetimeArgs
import Verif.Props.KnoxLocal
import Verif.Props.Mantel
import Verif.Props.SpacetimeStats

/-!
# C134: places and times of different number; C66: negative time thresholds
-/

namespace Pointpats.Props

open Spec Spacetime

set_option linter.unusedSectionVars false

variable {K : Type} [Field K] [LinearOrder K] [IsStrictOrderedRing K]

private theorem broadcastSquare_error {a b : ℕ} {e : PyErr} (h : broadcastSquare a b = .error e) : e = .valueError := by
  unfold broadcastSquare at h
  split_ifs at h
  exact (Except.error.inj h).symm

private theorem modifiedKnoxAny_of_ne (sdist : K × K → K × K → K) {s : List (K × K)} {t : List K} (h : s.length ≠ t.length)
    (delta tau : K) (perms : List (List ℕ)) : modifiedKnoxAny sdist s t delta tau perms = .error .valueError := by
  unfold modifiedKnoxAny
  cases h1 : broadcastSquare t.length s.length with
  | error e => rw [broadcastSquare_error h1]; rfl
  | ok b =>
    cases h2 : broadcastSquare t.length b with
    | error e =>
      rw [broadcastSquare_error h2] at h2
      change (broadcastSquare t.length b >>= fun _ => _) = _
      rw [h2]
      rfl
    | ok c =>
      change (broadcastSquare t.length b >>= fun _ => _) = _
      rw [h2]
      exact if_pos h

/-- The functions with argument checks are the functions of the other theorems when every place has its time. -/
theorem C134_same_number (sdist : K × K → K × K → K) (delta tau : K) (E : List (Event K)) :
    (∀ pairs, AnswersPairs sdist delta (E.map Prod.fst) pairs → ∀ perms,
      knoxAny pairs (E.map Prod.snd) tau perms = knox pairs (E.map Prod.snd) tau perms)
    ∧ (∀ (nnt nns : List (List ℕ)) nntPerm, nnt.length = E.length → nns.length = E.length →
      jacquezAny (K := K) nnt nns nntPerm = .ok (jacquez E.length nnt nns nntPerm))
    ∧ ∀ perms, modifiedKnoxAny sdist (E.map Prod.fst) (E.map Prod.snd) delta tau perms
        = .ok (modifiedKnox sdist (E.map Prod.fst) (E.map Prod.snd) delta tau perms) := by
  refine ⟨fun pairs hp perms => ?_, fun nnt nns nntPerm h1 h2 => ?_, fun perms => ?_⟩
  · unfold knoxAny
    rw [if_neg]
    rw [Bool.not_eq_true, List.any_eq_false]
    rintro ⟨i, j⟩ hm
    obtain ⟨h1, h2, -⟩ := (hp.mem i j).1 hm
    rw [List.length_map] at h2
    simp only [List.length_map, Bool.or_eq_true, decide_eq_true_eq]
    omega
  · unfold jacquezAny
    rw [if_neg (by omega), h1]
  · unfold modifiedKnoxAny
    simp only [List.length_map]
    have hb : broadcastSquare E.length E.length = .ok E.length := if_pos rfl
    rw [hb]
    change (broadcastSquare E.length E.length >>= fun _ => _) = _
    rw [hb]
    exact if_neg (by simp)

/-- **C134, partial.** With a different number of places and times, `Knox`, `KnoxLocal` and `modified_knox` raise a
`ValueError`, whatever the thresholds and permutations (`C134_labels`: so does `KnoxLocal` with a wrong number of labels). `jacquez` raises a
`KeyError` when there are more times than places, and `knox` an `IndexError` when two close places do not both have a time.
Missing: the other calls of `jacquez` and `knox`, which return. -/
theorem C134_refused_partial [FloorRing K] {ι : Type} (default : ℕ → ι) (cdf : K → XF K → XF K) (hg : ℤ → ℕ → ℕ → ℕ → K)
    (sdist : K × K → K × K → K) (delta tau : K) (s : List (K × K)) (t : List K) (hne : s.length ≠ t.length)
    (sball tball : List (List ℕ)) (hs : sball.length = s.length) (ht : tball.length = t.length)
    (gperms perms : List (List ℕ)) (keep : Bool) (ids : Option (List ι)) (order : List (ℕ × ℕ)) :
    knoxInit cdf sball tball perms keep = .error .valueError
    ∧ knoxLocalInit default cdf hg true true s t sball tball gperms perms keep ids order = .error .valueError
    ∧ modifiedKnoxAny sdist s t delta tau perms = .error .valueError
    ∧ (∀ (nnt nns : List (List ℕ)) nntPerm, nnt.length = t.length → nns.length = s.length → s.length < t.length →
        jacquezAny (K := K) nnt nns nntPerm = .error .keyError)
    ∧ ∀ pairs, AnswersPairs sdist delta s pairs → (∃ i j, i < j ∧ j < s.length ∧ t.length ≤ j
          ∧ sdist (s.getD i 0) (s.getD j 0) ≤ delta) → knoxAny pairs t tau perms = .error .indexError := by
  refine ⟨?_, ?_, modifiedKnoxAny_of_ne sdist hne delta tau perms, fun nnt nns nntPerm h1 h2 h3 => if_pos (by omega), ?_⟩
  · have : knoxGlobal cdf sball tball perms = .error .valueError :=
      if_pos (by simpa [neighbourSets, hs, ht] using hne)
    unfold knoxInit
    rw [this]
    rfl
  · unfold knoxLocalInit
    rw [if_neg (by simp), if_neg (by simp), if_pos hne]
  · rintro pairs hp ⟨i, j, h1, h2, h3, h4⟩
    exact if_pos (List.any_eq_true.2 ⟨(i, j), (hp.mem i j).2 ⟨h1, h2, h4⟩, by simp [h3]⟩)

/-- C134 for the labels of `KnoxLocal`. -/
theorem C134_labels [FloorRing K] {ι : Type} (default : ℕ → ι) (cdf : K → XF K → XF K) (hg : ℤ → ℕ → ℕ → ℕ → K)
    (s : List (K × K)) (t : List K) (sball tball : List (List ℕ)) (gperms perms : List (List ℕ)) (keep : Bool) (ids : List ι)
    (hne : ids.length ≠ s.length) (order : List (ℕ × ℕ)) :
    knoxLocalInit default cdf hg true true s t sball tball gperms perms keep (some ids) order = .error .valueError := by
  unfold knoxLocalInit
  rw [if_neg (by simp), if_neg (by simp)]
  by_cases h : s.length ≠ t.length
  · rw [if_pos h]
  · rw [if_neg h, if_pos (by simpa using hne)]

/-- C134 for what is not a NumPy array: `KnoxLocal` raises a `ValueError` if the places or the times are given otherwise,
whatever else is given. -/
theorem C134_not_arrays [FloorRing K] {ι : Type} (default : ℕ → ι) (cdf : K → XF K → XF K) (hg : ℤ → ℕ → ℕ → ℕ → K)
    (sIsArray tIsArray : Bool) (hno : ¬ (sIsArray = true ∧ tIsArray = true)) (s : List (K × K)) (t : List K)
    (sball tball : List (List ℕ)) (gperms perms : List (List ℕ)) (keep : Bool) (ids : Option (List ι))
    (order : List (ℕ × ℕ)) :
    knoxLocalInit default cdf hg sIsArray tIsArray s t sball tball gperms perms keep ids order = .error .valueError := by
  unfold knoxLocalInit
  cases tIsArray with
  | false => rfl
  | true => cases sIsArray with
    | false => rfl
    | true => exact absurd ⟨rfl, rfl⟩ hno

private theorem two_sum_range (n : ℕ) : 2 * (List.range n).sum = n * (n - 1) := by
  induction n with
  | zero => rfl
  | succ n ih =>
    rw [List.range_succ, List.sum_append, mul_add, ih]
    simp only [List.sum_singleton, Nat.add_sub_cancel]
    cases n with
    | zero => rfl
    | succ n => simp only [Nat.add_sub_cancel]; ring

private theorem trilVec_length (m : List (List ℝ)) : 2 * (trilVec m).length = m.length * (m.length - 1) := by
  unfold trilVec
  rw [List.length_flatMap]
  simp only [List.length_map, List.length_range]
  rw [List.map_id', two_sum_range]

/-- C134 for `mantel`: a different number of places and times is a `ValueError`, and so are fewer than three events. -/
theorem C134_mantel (sdist : ℝ × ℝ → ℝ × ℝ → ℝ) (s : List (ℝ × ℝ)) (t : List ℝ) (perms : List (List ℕ))
    (scon spow tcon tpow : ℝ) (h : s.length ≠ t.length ∨ t.length < 3) :
    mantel sdist s t perms scon spow tcon tpow = .error .valueError := by
  have key : mantelStat scon spow tcon tpow (distanceMatrix (fun a b : ℝ => |a - b|) t) (distanceMatrix sdist s)
      = .error .valueError := by
    have hlen : (trilVec (distanceMatrix (fun a b : ℝ => |a - b|) t)).length ≠ (trilVec (distanceMatrix sdist s)).length
        ∨ (trilVec (distanceMatrix (fun a b : ℝ => |a - b|) t)).length < 2 := by
      have e1 := trilVec_length (distanceMatrix (fun a b : ℝ => |a - b|) t)
      have e2 := trilVec_length (distanceMatrix sdist s)
      simp only [distanceMatrix, List.length_map] at e1 e2
      by_contra hc
      push Not at hc
      simp only [distanceMatrix] at hc
      obtain ⟨h1, h2⟩ := hc
      rw [h1] at e1 h2
      rw [e1] at e2
      have ht : 3 ≤ t.length := by
        by_contra hlt
        have : t.length = 0 ∨ t.length = 1 ∨ t.length = 2 := by omega
        rcases this with h | h | h <;> rw [h] at e1 <;> omega
      have hs : 3 ≤ s.length := by
        by_contra hlt
        have : s.length = 0 ∨ s.length = 1 ∨ s.length = 2 := by omega
        rcases this with h | h | h <;> rw [h] at e2 <;> omega
      obtain ⟨a, ha⟩ := Nat.exists_eq_add_of_le ht
      obtain ⟨b, hb⟩ := Nat.exists_eq_add_of_le hs
      rw [ha, hb, show 3 + a - 1 = 2 + a by omega, show 3 + b - 1 = 2 + b by omega] at e2
      have : a = b := by
        rcases Nat.lt_trichotomy a b with hab | hab | hab
        · nlinarith
        · exact hab
        · nlinarith
      omega
    classical
    rw [mantelStat_eq]
    split_ifs
    · refine if_pos ?_
      simpa only [transformedR, List.length_map] using hlen
    · rfl
  unfold mantel
  simp only [key]

/-! ### What the code accepts -/

/-- **C134 is false of the code, for every call of `knox` with more times than places** (and some pair of close places): it
returns a result. The statistic only uses the first times; the surplus times take part in the permutations. -/
theorem C134_knox_refuted (sdist : K × K → K × K → K) (delta tau : K) (s : List (K × K)) (t : List K)
    (hlt : s.length < t.length) (pairs : List (ℕ × ℕ)) (hp : AnswersPairs sdist delta s pairs) (hne : pairs ≠ [])
    (perms : List (List ℕ)) :
    ∃ r, knoxAny pairs t tau perms = .ok r ∧ (r.pvalue = none ↔ perms = [])
      ∧ knox pairs (t.take s.length) tau [] = .ok { stat := r.stat, pvalue := none, t_coords := t.take s.length } := by
  have hin : ∀ p ∈ pairs, p.1 < s.length ∧ p.2 < s.length := by
    rintro ⟨i, j⟩ hm
    obtain ⟨h1, h2, -⟩ := (hp.mem i j).1 hm
    exact ⟨by omega, h2⟩
  have hstat : timeClose pairs (t.take s.length) tau = timeClose pairs t tau := by
    unfold timeClose
    rw [List.map_congr_left]
    intro p hm
    obtain ⟨h1, h2⟩ := hin p hm
    simp only [List.getD_eq_getElem?_getD, List.getElem?_take, h1, h2, if_true]
  have hany : ¬ (pairs.any fun p => decide (t.length ≤ p.1) || decide (t.length ≤ p.2)) = true := by
    rw [Bool.not_eq_true, List.any_eq_false]
    intro p hm
    obtain ⟨h1, h2⟩ := hin p hm
    simp only [Bool.or_eq_true, decide_eq_true_eq]
    omega
  unfold knoxAny knox
  rw [if_neg hany, if_neg hne, if_neg hne, if_pos rfl]
  by_cases hperm : perms = []
  · rw [if_pos hperm]
    exact ⟨_, rfl, by simp [hperm], by rw [hstat]⟩
  · rw [if_neg hperm]
    exact ⟨_, rfl, by simp [hperm], by rw [hstat]⟩

/-- **C134 is false of the code, for every call of `jacquez` with more places than times**: it returns a result, in which the
surplus places count as neighbours. -/
theorem C134_jacquez_refuted (s : List (K × K)) (t : List K) (hlt : t.length < s.length) (nnt nns : List (List ℕ))
    (ht : nnt.length = t.length) (hs : nns.length = s.length) (nntPerm : List (List (List ℕ))) :
    ∃ r, jacquezAny (K := K) nnt nns nntPerm = .ok r ∧ (r.2 = none ↔ nntPerm = []) := by
  unfold jacquezAny jacquez
  rw [if_neg (by omega)]
  by_cases h : nntPerm = []
  · simp [h]
  · simp [h]

/-- Non-vacuity: four places and six times; the two pairs of close places have times, and the surplus time `0` is moved to a
place by the permutation. Three places and two times for `jacquez`. Three places and two times for the other functions, the
last two places close to each other. -/
example : (knoxAny [(1, 2), (0, 1)] [0, 1, 5, 1, 9, 0] 2 [[5, 4, 3, 2, 1, 0], [5, 0, 4, 3, 2, 1]] : Py (KnoxCall ℚ))
      = .ok ⟨1, some (2 / 3), [0, 0, 1, 5, 1, 9]⟩
    ∧ jacquezAny (K := ℚ) [[1], [0]] [[1], [0], [1]] [] = .ok (2, none)
    ∧ jacquezAny (K := ℚ) [[1], [0], [1]] [[1], [0]] [] = .error .keyError
    ∧ modifiedKnoxAny lineDist [(0, 0), (5, 0), (6, 0)] [0, 1] 2 1 [] = .error .valueError
    ∧ knoxAny (K := ℚ) [(1, 2)] [0, 1] 2 [] = .error .indexError := by decide +kernel

/-! ### C66, negative thresholds -/

/-- **C66 is false of the code for negative time thresholds.** No two events are at most `-tau` apart in time, but `knox` counts
the pairs that are at most `tau` apart, because it squares the threshold. -/
theorem C66_negative_tau_refuted (pairs : List (ℕ × ℕ)) (t : List K) (tau : K) (perms : List (List ℕ)) :
    knox pairs t (-tau) perms = knox pairs t tau perms := by
  have h1 : ∀ t : List K, timeClose pairs t (-tau) = timeClose pairs t tau := by
    intro t
    unfold timeClose
    rw [neg_mul_neg]
  have h2 : ∀ (perms : List (List ℕ)) (t : List K), knoxLoop pairs (-tau) t perms = knoxLoop pairs tau t perms := by
    intro perms
    induction perms with
    | nil => intro t; rfl
    | cons p ps ih => intro t; simp only [knoxLoop, h1, ih]
  unfold knox
  rw [h1, h2]

/-- With the threshold `-2` one pair of the example is counted, although no pair is that close. -/
example : (knox [(1, 2), (0, 1)] (someEvents.map Prod.snd) (-2) []).map KnoxCall.stat = .ok 1
    ∧ closePairs (NearBoth lineDist 1 (-2)) someEvents = 0 := by decide +kernel

end Pointpats.Props
