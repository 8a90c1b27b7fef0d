import Verif.Spec.SpacetimeMotion
import Verif.Props.Mantel
import Verif.Props.KnoxLocal
import Verif.Spec.Similarity

/-!
# Property C129: the tests of space-time interaction do not depend on the units or the origins
-/

set_option linter.unusedSectionVars false

namespace Pointpats.Props

open Spec Spacetime

section

variable {K : Type} [Field K] [LinearOrder K] [IsStrictOrderedRing K]

theorem ev_move (f : K × K → K × K) (e c : K) (E : List (Event K)) {i : ℕ} (hi : i < E.length) :
    ev (E.map (moveEvent f e c)) i = moveEvent f e c (ev E i) := by
  simp [ev, List.getD_eq_getElem?_getD, hi]

theorem abs_move (e c a b : K) : |c + e * a - (c + e * b)| = |e| * |a - b| := by
  rw [← abs_mul]
  congr 1
  ring

theorem nearSpace_move {sdist : K × K → K × K → K} {r : K} {f : K × K → K × K} (hf : ScalesDistance sdist r f)
    (e c delta : K) (a b : Event K) :
    NearSpace sdist (r * delta) (moveEvent f e c a) (moveEvent f e c b) ↔ NearSpace sdist delta a b := by
  simp only [NearSpace, moveEvent, hf.dist]
  exact mul_le_mul_iff_right₀ hf.pos

theorem nearTime_move (f : K × K → K × K) {e : K} (he : e ≠ 0) (c tau : K) (a b : Event K) :
    NearTime (|e| * tau) (moveEvent f e c a) (moveEvent f e c b) ↔ NearTime tau a b := by
  simp only [NearTime, moveEvent, abs_move]
  exact mul_le_mul_iff_right₀ (abs_pos.2 he)

/-- The two answers of the index list the same pairs. -/
theorem listsPairs_congr {n : ℕ} {R S : ℕ → ℕ → Prop} (h : ∀ i < n, ∀ j < n, R i j ↔ S i j) {l l' : List (ℕ × ℕ)}
    (hl : ListsPairs n R l) (hl' : ListsPairs n S l') : l.Perm l' := by
  rw [List.perm_ext_iff_of_nodup hl.nodup hl'.nodup]
  rintro ⟨i, j⟩
  rw [hl.mem, hl'.mem]
  refine and_congr_right fun h1 => and_congr_right fun h2 => ?_
  exact h i (by omega) j h2

/-! ### `knox` -/

theorem timeClose_perm {l l' : List (ℕ × ℕ)} (h : l.Perm l') (t : List K) (tau : K) :
    timeClose l t tau = timeClose l' t tau := (h.map _).countP_eq _

theorem timeClose_move {l : List (ℕ × ℕ)} {t : List K} (hl : ∀ p ∈ l, p.1 < t.length ∧ p.2 < t.length) {e : K}
    (he : e ≠ 0) (c tau : K) :
    timeClose l (t.map fun x => c + e * x) (|e| * tau) = timeClose l t tau := by
  rw [timeClose, timeClose, List.countP_map, List.countP_map]
  refine List.countP_congr fun p hp => ?_
  obtain ⟨h1, h2⟩ := hl p hp
  simp only [Function.comp_apply, decide_eq_true_eq, List.getD_eq_getElem?_getD, List.getElem?_map,
    List.getElem?_eq_getElem h1, List.getElem?_eq_getElem h2, Option.map_some, Option.getD_some]
  have e1 : (c + e * t[p.1] - (c + e * t[p.2])) ^ 2 = |e| ^ 2 * (t[p.1] - t[p.2]) ^ 2 := by
    rw [sq_abs]
    ring
  have e2 : |e| * tau * (|e| * tau) = |e| ^ 2 * (tau * tau) := by ring
  rw [e1, e2]
  exact mul_le_mul_iff_right₀ (pow_pos (abs_pos.2 he) 2)

theorem shuffle_move {p : List ℕ} {t : List K} (hp : IsShuffle t.length p) (e c : K) :
    shuffle 0 p (t.map fun x => c + e * x) = (shuffle 0 p t).map fun x => c + e * x := by
  rw [shuffle, shuffle, List.map_map]
  refine List.map_congr_left fun i hi => ?_
  have : i < t.length := List.mem_range.1 (hp.mem_iff.1 hi)
  simp [List.getD_eq_getElem?_getD, this]

theorem length_shuffle {p : List ℕ} {t : List K} (hp : IsShuffle t.length p) : (shuffle 0 p t).length = t.length := by
  rw [shuffle, List.length_map, List.Perm.length_eq hp, List.length_range]

theorem knoxLoop_move {l : List (ℕ × ℕ)} {n : ℕ} (hl : ∀ p ∈ l, p.1 < n ∧ p.2 < n) {e : K} (he : e ≠ 0) (c tau : K)
    (perms : List (List ℕ)) (hperm : ∀ p ∈ perms, IsShuffle n p) (t : List K) (ht : t.length = n) :
    knoxLoop l (|e| * tau) (t.map fun x => c + e * x) perms
      = ((knoxLoop l tau t perms).1, (knoxLoop l tau t perms).2.map fun x => c + e * x) := by
  induction perms generalizing t with
  | nil => rfl
  | cons p ps ih =>
    have hp : IsShuffle t.length p := ht ▸ hperm p (by simp)
    have hlen : (shuffle 0 p t).length = n := by rw [length_shuffle hp, ht]
    rw [knoxLoop, knoxLoop, shuffle_move hp, ih (fun q hq => hperm q (by simp [hq])) _ hlen,
      timeClose_move (by rw [hlen]; exact hl) he]

theorem knoxLoop_perm {l l' : List (ℕ × ℕ)} (h : l.Perm l') (tau : K) (perms : List (List ℕ)) (t : List K) :
    knoxLoop l tau t perms = knoxLoop l' tau t perms := by
  induction perms generalizing t with
  | nil => rfl
  | cons p ps ih => rw [knoxLoop, knoxLoop, ih, timeClose_perm h]

/-- **C129, `knox`.** The events are moved by a map that multiplies all distances by `r`, and their times are counted in
another unit and from another origin, or backwards; the thresholds are converted. Then `knox` gives the same count and the
same p-value for the same permutations (or the same error), whatever order the index lists the pairs in; the caller's times
are rearranged in the same way. -/
theorem C129_knox {sdist : K × K → K × K → K} {r : K} {f : K × K → K × K} (hf : ScalesDistance sdist r f) {e : K}
    (he : e ≠ 0) (c delta tau : K) (E : List (Event K)) (pairs pairs' : List (ℕ × ℕ))
    (hp : AnswersPairs sdist delta (E.map Prod.fst) pairs)
    (hp' : AnswersPairs sdist (r * delta) ((E.map (moveEvent f e c)).map Prod.fst) pairs') (perms : List (List ℕ))
    (hperm : ∀ p ∈ perms, IsShuffle E.length p) :
    knox pairs' ((E.map (moveEvent f e c)).map Prod.snd) (|e| * tau) perms
      = (knox pairs (E.map Prod.snd) tau perms).map
          fun res => { res with t_coords := res.t_coords.map fun x => c + e * x } := by
  have hP : pairs'.Perm pairs := by
    rw [AnswersPairs, List.length_map, List.length_map] at hp'
    rw [AnswersPairs, List.length_map] at hp
    refine listsPairs_congr (fun i hi j hj => ?_) hp' hp
    have h := nearSpace_move hf e c delta (ev E i) (ev E j)
    simpa [NearSpace, ev, moveEvent, List.getD_eq_getElem?_getD, hi, hj] using h
  have hl : ∀ p ∈ pairs, p.1 < E.length ∧ p.2 < E.length := by
    rintro ⟨i, j⟩ h
    obtain ⟨h1, h2, -⟩ := (hp.mem i j).1 h
    rw [List.length_map] at h2
    exact ⟨by simp only; omega, h2⟩
  have ht : (E.map (moveEvent f e c)).map Prod.snd = (E.map Prod.snd).map fun x => c + e * x := by
    simp [List.map_map, Function.comp_def, moveEvent]
  rw [ht, knox, knox, timeClose_perm hP, knoxLoop_perm hP, timeClose_move (by simpa using hl) he,
    knoxLoop_move hl he c tau perms hperm _ (by simp)]
  have hnil : pairs' = [] ↔ pairs = [] := by
    constructor
    · rintro rfl
      exact hP.nil_eq.symm
    · rintro rfl
      exact hP.eq_nil
  by_cases h0 : pairs = []
  · rw [if_pos h0, if_pos (hnil.2 h0)]
    rfl
  · rw [if_neg h0, if_neg (fun h => h0 (hnil.1 h))]
    by_cases h1 : perms = []
    · rw [if_pos h1, if_pos h1]
      rfl
    · rw [if_neg h1, if_neg h1]
      rfl

/-! ### `modified_knox` -/

theorem thresholded_scale {α : Type} (d d' : α → α → K) (g : α → α) {r : K} (hr : 0 < r)
    (h : ∀ a b, d' (g a) (g b) = r * d a b) (l : List α) (delta : K) :
    thresholded (distanceMatrix d' (l.map g)) (r * delta) = thresholded (distanceMatrix d l) delta := by
  simp only [thresholded, distanceMatrix, List.map_map]
  refine List.map_congr_left fun a _ => ?_
  simp only [Function.comp_apply, List.map_map]
  refine List.map_congr_left fun b _ => ?_
  simp only [Function.comp_apply, h, mul_le_mul_iff_right₀ hr]

theorem shuffleMatrix_scale (r : K) (m : List (List K)) (p : List ℕ) :
    shuffleMatrix (m.map fun row => row.map fun x => r * x) p = (shuffleMatrix m p).map fun row => row.map fun x => r * x := by
  simp only [shuffleMatrix, List.map_map]
  refine List.map_congr_left fun i _ => ?_
  simp only [Function.comp_apply, List.map_map]
  refine List.map_congr_left fun j _ => ?_
  simp only [Function.comp_apply, List.getD_eq_getElem?_getD, List.getElem?_map]
  cases m[i]? with
  | none => simp
  | some row =>
    simp only [Option.map_some, Option.getD_some, List.getElem?_map]
    cases row[j]? <;> simp

theorem distanceMatrix_scale {α : Type} (d d' : α → α → K) (g : α → α) (r : K)
    (h : ∀ a b, d' (g a) (g b) = r * d a b) (l : List α) :
    distanceMatrix d' (l.map g) = (distanceMatrix d l).map fun row => row.map fun x => r * x := by
  simp [distanceMatrix, List.map_map, Function.comp_def, h]

theorem thresholded_mul {r : K} (hr : 0 < r) (m : List (List K)) (delta : K) :
    thresholded (m.map fun row => row.map fun x => r * x) (r * delta) = thresholded m delta := by
  simp [thresholded, List.map_map, Function.comp_def, mul_le_mul_iff_right₀ hr]

/-- **C129, `modified_knox`.** The same statistic and the same p-value for the same permutations. -/
theorem C129_modified_knox {sdist : K × K → K × K → K} {r : K} {f : K × K → K × K} (hf : ScalesDistance sdist r f) {e : K}
    (he : e ≠ 0) (c delta tau : K) (E : List (Event K)) (perms : List (List ℕ)) :
    modifiedKnox sdist ((E.map (moveEvent f e c)).map Prod.fst) ((E.map (moveEvent f e c)).map Prod.snd) (r * delta)
        (|e| * tau) perms
      = modifiedKnox sdist (E.map Prod.fst) (E.map Prod.snd) delta tau perms := by
  have hs : (E.map (moveEvent f e c)).map Prod.fst = (E.map Prod.fst).map f := by
    simp [List.map_map, Function.comp_def, moveEvent]
  have ht : (E.map (moveEvent f e c)).map Prod.snd = (E.map Prod.snd).map fun x => c + e * x := by
    simp [List.map_map, Function.comp_def, moveEvent]
  rw [hs, ht]
  unfold modifiedKnox
  rw [distanceMatrix_scale sdist sdist f r hf.dist,
    distanceMatrix_scale (fun a b : K => |a - b|) (fun a b : K => |a - b|) (fun x => c + e * x) |e| (abs_move e c)]
  simp only [thresholded_mul hf.pos, thresholded_mul (abs_pos.2 he), shuffleMatrix_scale, List.length_map]

/-! ### `jacquez` -/

theorem nearestLists_congr {D D' : Type} [LinearOrder D] [LinearOrder D'] {d : ℕ → ℕ → D} {d' : ℕ → ℕ → D'} {n k : ℕ}
    (h : ∀ i < n, ∀ j < n, ∀ l < n, d i j ≤ d i l ↔ d' i j ≤ d' i l) {out : List (List ℕ)}
    (ho : NearestLists d n k out) : NearestLists d' n k out :=
  ⟨ho.length, ho.size, ho.nodup, ho.other, fun i hi j hj l hl hli hlo =>
    (h i hi j (ho.other i hi j hj).1 l hl).1 (ho.nearest i hi j hj l hl hli hlo)⟩

/-- `res` is what `jacquez` can give for the events `E`, `k` neighbours and the permutations `perms`: the neighbour lists are
correct, with ties broken in any way. -/
def JacquezGives (sdist : K × K → K × K → K) (k : ℕ) (E : List (Event K)) (perms : List (List ℕ)) (res : ℕ × Option K) :
    Prop :=
  ∃ nns nnt nntPerm,
    NearestLists (fun i j => sdist (ev E i).1 (ev E j).1) E.length k nns ∧
    NearestLists (fun i j => |(ev E i).2 - (ev E j).2|) E.length k nnt ∧
    List.Forall₂ (fun p nn => NearestLists (fun i j => |(ev (retime p E) i).2 - (ev (retime p E) j).2|) E.length k nn)
      perms nntPerm ∧
    res = jacquez E.length nnt nns nntPerm

theorem retime_move {p : List ℕ} {E : List (Event K)} (hp : IsShuffle E.length p) (f : K × K → K × K) (e c : K) :
    retime p (E.map (moveEvent f e c)) = (retime p E).map (moveEvent f e c) := by
  have hp' : IsShuffle (E.map (moveEvent f e c)).length p := by simpa using hp
  have hl : p.length = E.length := hp.length
  apply List.ext_getElem
  · simp [retime]
  · intro i h1 h2
    have hi : i < E.length := by simpa [retime, hl] using h1
    have hi' : i < p.length := by omega
    have h3 : p[i] < E.length := List.mem_range.1 (hp.mem_iff.1 (List.getElem_mem hi'))
    simp [retime, moveEvent, List.getD_eq_getElem?_getD, h3]

/-- **C129, `jacquez`.** The results the test can give are the same before and after. -/
theorem C129_jacquez {sdist : K × K → K × K → K} {r : K} {f : K × K → K × K} (hf : ScalesDistance sdist r f) {e : K}
    (he : e ≠ 0) (c : K) (E : List (Event K)) (k : ℕ) (perms : List (List ℕ)) (hperm : ∀ p ∈ perms, IsShuffle E.length p)
    (res : ℕ × Option K) :
    JacquezGives sdist k (E.map (moveEvent f e c)) perms res ↔ JacquezGives sdist k E perms res := by
  have hs : ∀ i < E.length, ∀ j < E.length, ∀ l < E.length,
      (sdist (ev (E.map (moveEvent f e c)) i).1 (ev (E.map (moveEvent f e c)) j).1
        ≤ sdist (ev (E.map (moveEvent f e c)) i).1 (ev (E.map (moveEvent f e c)) l).1)
      ↔ sdist (ev E i).1 (ev E j).1 ≤ sdist (ev E i).1 (ev E l).1 := by
    intro i hi j hj l hl
    rw [ev_move f e c E hi, ev_move f e c E hj, ev_move f e c E hl]
    simp only [moveEvent, hf.dist]
    exact mul_le_mul_iff_right₀ hf.pos
  have ht : ∀ F : List (Event K), ∀ i < F.length, ∀ j < F.length, ∀ l < F.length,
      (|(ev (F.map (moveEvent f e c)) i).2 - (ev (F.map (moveEvent f e c)) j).2|
        ≤ |(ev (F.map (moveEvent f e c)) i).2 - (ev (F.map (moveEvent f e c)) l).2|)
      ↔ |(ev F i).2 - (ev F j).2| ≤ |(ev F i).2 - (ev F l).2| := by
    intro F i hi j hj l hl
    rw [ev_move f e c F hi, ev_move f e c F hj, ev_move f e c F hl]
    simp only [moveEvent, abs_move]
    exact mul_le_mul_iff_right₀ (abs_pos.2 he)
  have hr : ∀ p ∈ perms, ∀ nn,
      NearestLists (fun i j => |(ev (retime p (E.map (moveEvent f e c))) i).2
          - (ev (retime p (E.map (moveEvent f e c))) j).2|) E.length k nn
      ↔ NearestLists (fun i j => |(ev (retime p E) i).2 - (ev (retime p E) j).2|) E.length k nn := by
    intro p hp nn
    have hlen := length_retime (hperm p hp)
    have := ht (retime p E)
    rw [hlen] at this
    rw [retime_move (hperm p hp)]
    exact ⟨nearestLists_congr this, nearestLists_congr fun i hi j hj l hl => (this i hi j hj l hl).symm⟩
  have hforall : ∀ (ps : List (List ℕ)) (L : List (List (List ℕ))), (∀ p ∈ ps, p ∈ perms) →
      (List.Forall₂ (fun p nn => NearestLists (fun i j => |(ev (retime p (E.map (moveEvent f e c))) i).2
          - (ev (retime p (E.map (moveEvent f e c))) j).2|) E.length k nn) ps L
      ↔ List.Forall₂ (fun p nn => NearestLists (fun i j => |(ev (retime p E) i).2 - (ev (retime p E) j).2|) E.length k nn)
          ps L) := by
    intro ps
    induction ps with
    | nil => intro L _; simp
    | cons p ps ih =>
      intro L hps
      cases L with
      | nil => simp
      | cons nn L =>
        rw [List.forall₂_cons, List.forall₂_cons, hr p (hps p (by simp)), ih L fun q hq => hps q (by simp [hq])]
  unfold JacquezGives
  simp only [List.length_map]
  constructor
  · rintro ⟨nns, nnt, nntPerm, h1, h2, h3, h4⟩
    exact ⟨nns, nnt, nntPerm, nearestLists_congr hs h1, nearestLists_congr (ht E) h2,
      (hforall perms nntPerm fun p hp => hp).1 h3, h4⟩
  · rintro ⟨nns, nnt, nntPerm, h1, h2, h3, h4⟩
    exact ⟨nns, nnt, nntPerm, nearestLists_congr (fun i hi j hj l hl => (hs i hi j hj l hl).symm) h1,
      nearestLists_congr (fun i hi j hj l hl => (ht E i hi j hj l hl).symm) h2,
      (hforall perms nntPerm fun p hp => hp).2 h3, h4⟩

/-! ### `Knox` and `KnoxLocal` -/

theorem neighbourSets_congr {n : ℕ} {R S : ℕ → ℕ → Prop} (h : ∀ i < n, ∀ j < n, R i j ↔ S i j) {ball ball' : List (List ℕ)}
    (hb : AnswersBall n R ball) (hb' : AnswersBall n S ball') : neighbourSets ball = neighbourSets ball' := by
  rw [neighbourSets, neighbourSets, hb.length, hb'.length]
  refine List.map_congr_left fun i hi => ?_
  have hi := List.mem_range.1 hi
  ext j
  rw [Finset.mem_erase, Finset.mem_erase, List.mem_toFinset, List.mem_toFinset, hb.mem i hi, hb'.mem i hi]
  refine and_congr_right fun _ => and_congr_right fun hj => h i hi j hj

theorem spaceSets_move {sdist : K × K → K × K → K} {r : K} {f : K × K → K × K} (hf : ScalesDistance sdist r f)
    (e c delta : K) (E : List (Event K)) {sball sball' : List (List ℕ)} (hs : AnswersSpace sdist delta E sball)
    (hs' : AnswersSpace sdist (r * delta) (E.map (moveEvent f e c)) sball') :
    neighbourSets sball' = neighbourSets sball ∧ sball'.length = sball.length := by
  rw [AnswersSpace, List.length_map] at hs'
  refine ⟨neighbourSets_congr (fun i hi j hj => ?_) hs' hs, by rw [hs'.length, hs.length]⟩
  rw [ev_move f e c E hi, ev_move f e c E hj]
  exact nearSpace_move hf e c delta _ _

theorem timeSets_move (f : K × K → K × K) {e : K} (he : e ≠ 0) (c tau : K) (E : List (Event K))
    {tball tball' : List (List ℕ)} (ht : AnswersTime tau E tball)
    (ht' : AnswersTime (|e| * tau) (E.map (moveEvent f e c)) tball') :
    neighbourSets tball' = neighbourSets tball := by
  rw [AnswersTime, List.length_map] at ht'
  refine neighbourSets_congr (fun i hi j hj => ?_) ht' ht
  rw [ev_move f e c E hi, ev_move f e c E hj]
  exact nearTime_move f he c tau _ _

theorem knoxGlobal_move (cdf : K → XF K → XF K) {sdist : K × K → K × K → K} {r : K} {f : K × K → K × K}
    (hf : ScalesDistance sdist r f) {e : K} (he : e ≠ 0) (c delta tau : K) (E : List (Event K))
    {sball sball' tball tball' : List (List ℕ)} (hs : AnswersSpace sdist delta E sball)
    (hs' : AnswersSpace sdist (r * delta) (E.map (moveEvent f e c)) sball') (ht : AnswersTime tau E tball)
    (ht' : AnswersTime (|e| * tau) (E.map (moveEvent f e c)) tball') (perms : List (List ℕ)) :
    knoxGlobal cdf sball' tball' perms = knoxGlobal cdf sball tball perms := by
  obtain ⟨h1, h2⟩ := spaceSets_move hf e c delta E hs hs'
  have h3 := timeSets_move f he c tau E ht ht'
  unfold knoxGlobal
  rw [h1, h2, h3]

/-- **C129, `Knox`.** Every attribute is the same: the counts, both tables and both p-values. -/
theorem C129_knox_class [FloorRing K] (cdf : K → XF K → XF K) {sdist : K × K → K × K → K} {r : K} {f : K × K → K × K}
    (hf : ScalesDistance sdist r f) {e : K} (he : e ≠ 0) (c delta tau : K) (E : List (Event K))
    (sball sball' tball tball' : List (List ℕ)) (hs : AnswersSpace sdist delta E sball)
    (hs' : AnswersSpace sdist (r * delta) (E.map (moveEvent f e c)) sball') (ht : AnswersTime tau E tball)
    (ht' : AnswersTime (|e| * tau) (E.map (moveEvent f e c)) tball') (perms : List (List ℕ)) (keep : Bool) :
    knoxInit cdf sball' tball' perms keep = knoxInit cdf sball tball perms keep := by
  rw [knoxInit, knoxInit, knoxGlobal_move cdf hf he c delta tau E hs hs' ht ht']

/-- Lead and lag exchanged. -/
def reversedOrientation : Orientation → Orientation
  | .lead => .lag
  | .lag => .lead
  | .coincident => .coincident

theorem insertionSort_perm_pairs {l l' : List (ℕ × ℕ)} (h : l.Perm l') :
    l.insertionSort (fun a b => a.1 < b.1 ∨ (a.1 = b.1 ∧ a.2 ≤ b.2))
      = l'.insertionSort (fun a b => a.1 < b.1 ∨ (a.1 = b.1 ∧ a.2 ≤ b.2)) := by
  have : Std.Total (fun a b : ℕ × ℕ => a.1 < b.1 ∨ (a.1 = b.1 ∧ a.2 ≤ b.2)) := ⟨fun a b => by omega⟩
  have : IsTrans (ℕ × ℕ) (fun a b => a.1 < b.1 ∨ (a.1 = b.1 ∧ a.2 ≤ b.2)) := ⟨fun a b c h1 h2 => by omega⟩
  refine List.Perm.eq_of_pairwise ?_ (List.pairwise_insertionSort _ _) (List.pairwise_insertionSort _ _)
    (((List.perm_insertionSort _ _).trans h).trans (List.perm_insertionSort _ _).symm)
  rintro ⟨a, b⟩ ⟨c, d⟩ _ _ h1 h2
  simp only [Prod.mk.injEq] at *
  omega

theorem orientation_move {e : K} (he : e ≠ 0) (c : K) (t : List K) {i j : ℕ} (hi : i < t.length) (hj : j < t.length) :
    orientation (t.map fun x => c + e * x) i j
      = if 0 < e then orientation t i j else reversedOrientation (orientation t i j) := by
  simp only [orientation, List.getD_eq_getElem?_getD, List.getElem?_map, List.getElem?_eq_getElem hi,
    List.getElem?_eq_getElem hj, Option.map_some, Option.getD_some, add_lt_add_iff_left]
  rcases lt_or_gt_of_ne he with h | h
  · rw [if_neg h.not_gt]
    simp only [mul_lt_mul_left_of_neg h]
    rcases lt_trichotomy t[i] t[j] with h1 | h1 | h1
    · simp [h1, h1.not_gt, reversedOrientation]
    · simp [h1, reversedOrientation]
    · simp [h1, h1.not_gt, reversedOrientation]
  · rw [if_pos h]
    simp only [mul_lt_mul_iff_right₀ h]

theorem adjacency_move {e : K} (he : e ≠ 0) (c : K) (t : List K) {order order' : List (ℕ × ℕ)} (h : order'.Perm order)
    (hl : ∀ p ∈ order, p.1 < t.length ∧ p.2 < t.length) :
    adjacency (t.map fun x => c + e * x) order'
      = (adjacency t order).map fun row => (row.1, row.2.1, if 0 < e then row.2.2 else reversedOrientation row.2.2) := by
  rw [adjacency, adjacency, insertionSort_perm_pairs (h.flatMap_right _), List.map_map]
  refine List.map_congr_left fun p hp => ?_
  rw [List.mem_insertionSort, List.mem_flatMap] at hp
  obtain ⟨q, hq, hpq⟩ := hp
  obtain ⟨h1, h2⟩ := hl q hq
  simp only [List.mem_cons, List.not_mem_nil, or_false] at hpq
  rcases hpq with rfl | rfl
  · simp only [Function.comp_apply, orientation_move he c t h1 h2]
  · simp only [Function.comp_apply, orientation_move he c t h2 h1]

/-- **C129, `KnoxLocal`.** Every attribute is the same, but for the times, which are converted; if time runs backwards, lead
and lag are exchanged in the adjacency list. -/
theorem C129_knox_local [FloorRing K] {ι : Type} (default : ℕ → ι) (cdf : K → XF K → XF K) (hg : ℤ → ℕ → ℕ → ℕ → K)
    {sdist : K × K → K × K → K} (hd : IsSpaceDistance sdist) {r : K} {f : K × K → K × K} (hf : ScalesDistance sdist r f)
    {e : K} (he : e ≠ 0) (c delta tau : K) (E : List (Event K))
    (sball sball' tball tball' gperms perms : List (List ℕ)) (order order' : List (ℕ × ℕ))
    (h : LocalAnswers cdf sdist delta tau E sball tball gperms perms order)
    (h' : LocalAnswers cdf sdist (r * delta) (|e| * tau) (E.map (moveEvent f e c)) sball' tball' gperms perms order')
    (sIsArray tIsArray keep : Bool) (ids : Option (List ι)) :
    knoxLocalInit default cdf hg sIsArray tIsArray ((E.map (moveEvent f e c)).map Prod.fst)
        ((E.map (moveEvent f e c)).map Prod.snd) sball' tball' gperms perms keep ids order'
      = (knoxLocalInit default cdf hg sIsArray tIsArray (E.map Prod.fst) (E.map Prod.snd) sball tball gperms perms keep ids
          order).map fun o =>
            { o with
              times := o.times.map fun x => c + e * x
              adjlist := o.adjlist.map fun row => (row.1, row.2.1, if 0 < e then row.2.2 else reversedOrientation row.2.2) } := by
  have hG := knoxGlobal_move cdf hf he c delta tau E h.space h'.space h.time h'.time gperms
  have hS := (spaceSets_move hf e c delta E h.space h'.space).2
  have hL := h.listsPairs hd
  have hL' := h'.listsPairs hd
  have hP : order'.Perm order := by
    rw [List.length_map] at hL'
    refine listsPairs_congr (fun i hi j hj => ?_) hL' hL
    rw [ev_move f e c E hi, ev_move f e c E hj]
    exact and_congr (nearSpace_move hf e c delta _ _) (nearTime_move f he c tau _ _)
  have hl : ∀ p ∈ order, p.1 < (E.map Prod.snd).length ∧ p.2 < (E.map Prod.snd).length := by
    rintro ⟨i, j⟩ hp
    obtain ⟨h1, h2, -⟩ := (hL.mem i j).1 hp
    rw [List.length_map]
    exact ⟨by simp only; omega, h2⟩
  have hlen : sball.length = E.length := h.space.length
  have hcounts : localCounts E.length order' = localCounts E.length order := by
    apply List.ext_getElem
    · simp [length_localCounts]
    · intro i a b
      have hi : i < E.length := by simpa [length_localCounts] using a
      have hi' : i < (E.map (moveEvent f e c)).length := by simpa using hi
      have h1 := localCounts_eq (fun i _ j _ => nearBoth_symm hd delta tau _ _) hL hi
      have h2 := localCounts_eq (fun i _ j _ => nearBoth_symm hd (r * delta) (|e| * tau) _ _) hL' hi'
      rw [List.length_map] at h2
      have h3 : nbr E.length (fun i j => NearBoth sdist (r * delta) (|e| * tau) (ev (E.map (moveEvent f e c)) i)
          (ev (E.map (moveEvent f e c)) j)) i
          = nbr E.length (fun i j => NearBoth sdist delta tau (ev E i) (ev E j)) i := by
        ext j
        rw [mem_nbr, mem_nbr]
        refine and_congr_right fun hj => and_congr_right fun _ => ?_
        rw [ev_move f e c E hi, ev_move f e c E hj]
        exact and_congr (nearSpace_move hf e c delta _ _) (nearTime_move f he c tau _ _)
      rw [h3, ← h1] at h2
      simpa [List.getD_eq_getElem?_getD, a, b] using h2
  have ht : (E.map (moveEvent f e c)).map Prod.snd = (E.map Prod.snd).map fun x => c + e * x := by
    simp [List.map_map, Function.comp_def, moveEvent]
  rw [ht]
  unfold knoxLocalInit
  simp only [List.length_map]
  by_cases h1 : tIsArray = false
  · rw [if_pos h1, if_pos h1]
    rfl
  rw [if_neg h1, if_neg h1]
  by_cases h2 : sIsArray = false
  · rw [if_pos h2, if_pos h2]
    rfl
  rw [if_neg h2, if_neg h2]
  simp only [ne_eq, not_true, if_false]
  by_cases h3 : ¬ (ids.map List.length).getD E.length = E.length
  · rw [if_pos h3, if_pos h3]
    rfl
  rw [if_neg h3, if_neg h3]
  unfold knoxLocal
  simp only [hG, hS, hlen, hcounts, adjacency_move he c (E.map Prod.snd) hP hl]
  cases knoxGlobal cdf sball tball gperms with
  | error x => rfl
  | ok g => simp [Except.map, List.map_map, Function.comp_def]

/-- The same answers of the libraries serve for both, so that the hypotheses of `C129_knox_local` are met whenever those on
the original events are. -/
theorem LocalAnswers.move {cdf : K → XF K → XF K} {sdist : K × K → K × K → K} {r : K} {f : K × K → K × K}
    (hf : ScalesDistance sdist r f) {e : K} (he : e ≠ 0) (c : K) {delta tau : K} {E : List (Event K)}
    {sball tball gperms perms : List (List ℕ)} {order : List (ℕ × ℕ)}
    (h : LocalAnswers cdf sdist delta tau E sball tball gperms perms order) :
    LocalAnswers cdf sdist (r * delta) (|e| * tau) (E.map (moveEvent f e c)) sball tball gperms perms order := by
  refine ⟨⟨by rw [List.length_map]; exact h.space.length, fun i hi j => ?_⟩,
    ⟨by rw [List.length_map]; exact h.time.length, fun i hi j => ?_⟩, by simpa using h.gshuffles, by simpa using h.shuffles,
    h.nodup, h.lists⟩
  · rw [List.length_map] at hi ⊢
    rw [h.space.mem i hi]
    refine and_congr_right fun hj => ?_
    rw [ev_move f e c E hi, ev_move f e c E hj, nearSpace_move hf]
  · rw [List.length_map] at hi ⊢
    rw [h.time.mem i hi]
    refine and_congr_right fun hj => ?_
    rw [ev_move f e c E hi, ev_move f e c E hj, nearTime_move f he]

/-- A reflection, a change of the unit and a translation. -/
def mirroredPlace (p : ℚ × ℚ) : ℚ × ℚ := (3 - 2 * p.1, 1 + 2 * p.2)

theorem mirroredPlace_scales : ScalesDistance lineDist 2 mirroredPlace := by
  refine ⟨by norm_num, fun p q => ?_⟩
  have e1 : 3 - 2 * p.1 - (3 - 2 * q.1) = 2 * (q.1 - p.1) := by ring
  have e2 : 1 + 2 * p.2 - (1 + 2 * q.2) = 2 * (p.2 - q.2) := by ring
  simp only [lineDist, mirroredPlace]
  rw [e1, e2, abs_mul, abs_mul, abs_sub_comm q.1, abs_of_pos (by norm_num : (0 : ℚ) < 2)]
  ring

/-- Non-vacuity: four events, mirrored, in other units and with time running backwards; the libraries' answers exist, and
lead and lag are exchanged. -/
example : LocalAnswers (fun _ _ => XF.fin (1/2)) lineDist (2 * 1) (|(-3)| * 2)
      (someEvents.map (moveEvent mirroredPlace (-3) 10)) [[0, 1], [1, 0, 2], [2, 1], [3]] [[0, 1, 3], [3, 1, 0], [2], [0, 1, 3]]
      [[1, 0, 3, 2]] [[0, 2, 1, 3]] [(0, 1)] ∧
    (knoxLocalInit (K := ℚ) (ι := ℕ) id (fun _ _ => XF.fin (1/2)) (fun _ _ _ _ => 0) true true
      ((someEvents.map (moveEvent mirroredPlace (-3) 10)).map Prod.fst)
      ((someEvents.map (moveEvent mirroredPlace (-3) 10)).map Prod.snd) [[0, 1], [1, 0, 2], [2, 1], [3]]
      [[0, 1, 3], [3, 1, 0], [2], [0, 1, 3]] [[1, 0, 3, 2]] [[0, 2, 1, 3]] false none [(0, 1)]).map
        (fun o => (o.times, o.adjlist)) = .ok ([10, 7, -5, 7], [(0, 1, .lag), (1, 0, .lead)]) :=
  ⟨someEvents_local.move mirroredPlace_scales (e := -3) (by norm_num) 10, by decide +kernel⟩

/-- Non-vacuity of `C129_knox`: the index answers for the moved events, and the test gives a count and a p-value. -/
example : AnswersPairs lineDist (2 * 1) ((someEvents.map (moveEvent mirroredPlace (-3) 10)).map Prod.fst) [(0, 1), (1, 2)] ∧
    AnswersPairs lineDist 1 (someEvents.map Prod.fst) [(1, 2), (0, 1)] ∧
    knox [(0, 1), (1, 2)] ((someEvents.map (moveEvent mirroredPlace (-3) 10)).map Prod.snd) (|(-3)| * 2) [[2, 0, 1, 3]]
      = .ok { stat := 1, pvalue := some (1 / 2), t_coords := [-5, 10, 7, 7] } ∧
    knox [(1, 2), (0, 1)] (someEvents.map Prod.snd) 2 [[2, 0, 1, 3]]
      = .ok { stat := 1, pvalue := some (1 / 2), t_coords := [5, 0, 1, 1] } := by
  refine ⟨⟨by decide, fun i j => ?_⟩, someEvents_pairs, by decide +kernel, by decide +kernel⟩
  have hm := someEvents_pairs.mem i j
  have hs : (i, j) ∈ [(0, 1), (1, 2)] ↔ (i, j) ∈ [(1, 2), (0, 1)] := by
    simp only [List.mem_cons, List.not_mem_nil, or_false]
    tauto
  rw [hs, hm]
  have hlen : ((someEvents.map (moveEvent mirroredPlace (-3) 10)).map Prod.fst).length = (someEvents.map Prod.fst).length := by
    simp
  rw [hlen]
  refine and_congr_right fun h1 => and_congr_right fun h2 => ?_
  rw [List.length_map] at h2
  have h3 : i < someEvents.length := by omega
  have h := nearSpace_move mirroredPlace_scales (-3) 10 1 (ev someEvents i) (ev someEvents j)
  rw [← ev_move mirroredPlace (-3) 10 someEvents h3, ← ev_move mirroredPlace (-3) 10 someEvents h2] at h
  simpa [NearSpace, ev, moveEvent, List.getD_eq_getElem?_getD, h3, h2] using h.symm

/-- Non-vacuity of `C129_jacquez`: one neighbour for each of three events on a line. -/
example : JacquezGives lineDist 1 [((0, 0), 0), ((1, 0), 1), ((3, 0), 5)] [[1, 0, 2]] (3, some (1 / 2 : ℚ)) := by
  refine ⟨[[1], [0], [1]], [[1], [0], [1]], [[[1], [0], [0]]], ?_, ?_, .cons ?_ .nil, by decide +kernel⟩
  all_goals exact ⟨by decide +kernel, by decide +kernel, by decide +kernel, by decide +kernel, by decide +kernel⟩

end

/-! ### `mantel` -/

theorem trilVec_mul (a : ℝ) (m : List (List ℝ)) :
    trilVec (m.map fun row => row.map fun x => a * x) = (trilVec m).map fun x => a * x := by
  rw [trilVec_eq, trilVec_eq, List.map_map, List.length_map]
  refine List.map_congr_left fun p _ => ?_
  simp only [Function.comp_apply, List.getD_eq_getElem?_getD, List.getElem?_map]
  cases m[p.2]? with
  | none => simp
  | some row =>
    simp only [Option.map_some, Option.getD_some, List.getElem?_map]
    cases row[p.1]? <;> simp

theorem transformed_scale {a con : ℝ} (ha : 0 < a) (hc : 0 ≤ con) (pow : ℝ) {v : List ℝ} (hv : ∀ x ∈ v, 0 ≤ x) :
    transformedR (a * con) pow (v.map fun x => a * x) = (transformedR con pow v).map fun x => a ^ pow * x + 0 := by
  simp only [transformedR, List.map_map]
  refine List.map_congr_left fun x hx => ?_
  simp only [Function.comp_apply, add_zero, ← mul_add]
  exact Real.mul_rpow ha.le (add_nonneg (hv x hx) hc)

theorem pearsonr_affine_right (x y : List ℝ) {a : ℝ} (ha : 0 < a) (b : ℝ) :
    pearsonr x (y.map fun v => a * v + b) = pearsonr x y := by
  rw [pearsonr_symm_pairs, pearsonr_affine y x ha, pearsonr_symm_pairs]

theorem powerDefined_scale {a con : ℝ} (ha : 0 < a) (pow : ℝ) (v : List ℝ) :
    (∀ d ∈ v.map (fun x => a * x), PowerDefined (d + a * con) pow) ↔ ∀ d ∈ v, PowerDefined (d + con) pow := by
  simp only [List.forall_mem_map]
  refine forall_congr' fun d => imp_congr_right fun _ => ?_
  unfold PowerDefined
  rw [← mul_add, mul_pos_iff_of_pos_left ha, mul_eq_zero, mul_neg_iff]
  constructor
  · rintro (h | ⟨h | h, h'⟩ | ⟨⟨-, h⟩ | ⟨h, -⟩, h'⟩)
    · exact .inl h
    · exact absurd h ha.ne'
    · exact .inr (.inl ⟨h, h'⟩)
    · exact .inr (.inr ⟨h, h'⟩)
    · exact absurd h ha.le.not_gt
  · rintro (h | ⟨h, h'⟩ | ⟨h, h'⟩)
    · exact .inl h
    · exact .inr (.inl ⟨.inr h, h'⟩)
    · exact .inr (.inr ⟨.inl ⟨ha, h⟩, h'⟩)

theorem mantelStat_scale {a b scon tcon : ℝ} (ha : 0 < a) (hb : 0 < b) (hs : 0 ≤ scon) (ht : 0 ≤ tcon) (spow tpow : ℝ)
    {T D : List (List ℝ)} (hT : ∀ x ∈ trilVec T, 0 ≤ x) (hD : ∀ x ∈ trilVec D, 0 ≤ x) :
    mantelStat (a * scon) spow (b * tcon) tpow (T.map fun row => row.map fun x => b * x)
        (D.map fun row => row.map fun x => a * x)
      = mantelStat scon spow tcon tpow T D := by
  classical
  rw [mantelStat_eq, mantelStat_eq, trilVec_mul, trilVec_mul, transformed_scale hb ht tpow hT, transformed_scale ha hs spow hD,
    pearsonr_affine _ _ (Real.rpow_pos_of_pos hb _), pearsonr_affine_right _ _ (Real.rpow_pos_of_pos ha _), List.length_map,
    List.length_map]
  exact if_congr (and_congr (powerDefined_scale hb _ _) (powerDefined_scale ha _ _)) rfl rfl

theorem transformed_one (a con con' : ℝ) (v : List ℝ) :
    transformedR con' 1 (v.map fun x => a * x) = (transformedR con 1 v).map fun x => a * x + (con' - a * con) := by
  simp only [transformedR, List.map_map]
  refine List.map_congr_left fun x _ => ?_
  simp only [Function.comp_apply, Real.rpow_one]
  ring

theorem mantelStat_one {a b : ℝ} (ha : 0 < a) (hb : 0 < b) (scon scon' tcon tcon' : ℝ) (T D : List (List ℝ)) :
    mantelStat scon' 1 tcon' 1 (T.map fun row => row.map fun x => b * x) (D.map fun row => row.map fun x => a * x)
      = mantelStat scon 1 tcon 1 T D := by
  classical
  rw [mantelStat_eq, mantelStat_eq, trilVec_mul, trilVec_mul, transformed_one b tcon tcon', transformed_one a scon scon',
    pearsonr_affine _ _ hb, pearsonr_affine_right _ _ ha, List.length_map, List.length_map]
  refine if_congr (and_congr ?_ ?_) rfl rfl <;> exact ⟨fun _ _ _ => .one _, fun _ _ _ => .one _⟩

theorem trilVec_nonneg {m : List (List ℝ)} (h : ∀ row ∈ m, ∀ x ∈ row, 0 ≤ x) : ∀ x ∈ trilVec m, 0 ≤ x := by
  rw [trilVec_eq]
  intro x hx
  obtain ⟨p, -, rfl⟩ := List.mem_map.1 hx
  rw [List.getD_eq_getElem?_getD, List.getD_eq_getElem?_getD]
  cases h1 : m[p.2]? with
  | none => simp
  | some row =>
    rw [Option.getD_some]
    cases h2 : row[p.1]? with
    | none => simp
    | some y => exact h row (List.mem_of_getElem? h1) y (List.mem_of_getElem? h2)

theorem shuffleMatrix_nonneg {m : List (List ℝ)} (h : ∀ row ∈ m, ∀ x ∈ row, 0 ≤ x) (p : List ℕ) :
    ∀ row ∈ shuffleMatrix m p, ∀ x ∈ row, 0 ≤ x := by
  intro row hrow x hx
  simp only [shuffleMatrix, List.map_map, List.mem_map, Function.comp_apply] at hrow
  obtain ⟨i, -, rfl⟩ := hrow
  obtain ⟨j, -, rfl⟩ := List.mem_map.1 hx
  rw [List.getD_eq_getElem?_getD, List.getD_eq_getElem?_getD]
  cases h1 : m[i]? with
  | none => simp
  | some row =>
    rw [Option.getD_some]
    cases h2 : row[j]? with
    | none => simp
    | some y => exact h row (List.mem_of_getElem? h1) y (List.mem_of_getElem? h2)

theorem distanceMatrix_nonneg {α : Type} {d : α → α → ℝ} (hd : ∀ a b, 0 ≤ d a b) (l : List α) :
    ∀ row ∈ distanceMatrix d l, ∀ x ∈ row, 0 ≤ x := by
  intro row hrow x hx
  obtain ⟨a, -, rfl⟩ := List.mem_map.1 hrow
  obtain ⟨b, -, rfl⟩ := List.mem_map.1 hx
  exact hd a b

/-- **C129, `mantel`.** If the constants that are added to the distances are converted as well, the correlation and the
p-value are the same (or the same error). -/
theorem C129_mantel {sdist : ℝ × ℝ → ℝ × ℝ → ℝ} (hd : IsSpaceDistance sdist) {r : ℝ} {f : ℝ × ℝ → ℝ × ℝ}
    (hf : ScalesDistance sdist r f) {e : ℝ} (he : e ≠ 0) (c : ℝ) (E : List (Event ℝ)) (perms : List (List ℕ))
    (scon spow tcon tpow : ℝ) (hs : 0 ≤ scon) (ht : 0 ≤ tcon) :
    mantel sdist ((E.map (moveEvent f e c)).map Prod.fst) ((E.map (moveEvent f e c)).map Prod.snd) perms
        (r * scon) spow (|e| * tcon) tpow
      = mantel sdist (E.map Prod.fst) (E.map Prod.snd) perms scon spow tcon tpow := by
  have hS : (E.map (moveEvent f e c)).map Prod.fst = (E.map Prod.fst).map f := by
    simp [List.map_map, Function.comp_def, moveEvent]
  have hT : (E.map (moveEvent f e c)).map Prod.snd = (E.map Prod.snd).map fun x => c + e * x := by
    simp [List.map_map, Function.comp_def, moveEvent]
  rw [hS, hT]
  unfold mantel
  rw [distanceMatrix_scale sdist sdist f r hf.dist,
    distanceMatrix_scale (fun a b : ℝ => |a - b|) (fun a b : ℝ => |a - b|) (fun x => c + e * x) |e| (abs_move e c)]
  have hD := distanceMatrix_nonneg hd.nonneg (E.map Prod.fst)
  have hTn := distanceMatrix_nonneg (fun a b : ℝ => abs_nonneg (a - b)) (E.map Prod.snd)
  simp only [shuffleMatrix_scale]
  rw [mantelStat_scale hf.pos (abs_pos.2 he) hs ht spow tpow (trilVec_nonneg hTn) (trilVec_nonneg hD)]
  simp only [mantelStat_scale hf.pos (abs_pos.2 he) hs ht spow tpow (trilVec_nonneg (shuffleMatrix_nonneg hTn _))
    (trilVec_nonneg hD)]

/-- **C129, `mantel` without transformation.** With both exponents one the constants do not matter at all. -/
theorem C129_mantel_plain {sdist : ℝ × ℝ → ℝ × ℝ → ℝ} {r : ℝ} {f : ℝ × ℝ → ℝ × ℝ} (hf : ScalesDistance sdist r f) {e : ℝ}
    (he : e ≠ 0) (c : ℝ) (E : List (Event ℝ)) (perms : List (List ℕ)) (scon scon' tcon tcon' : ℝ) :
    mantel sdist ((E.map (moveEvent f e c)).map Prod.fst) ((E.map (moveEvent f e c)).map Prod.snd) perms scon' 1 tcon' 1
      = mantel sdist (E.map Prod.fst) (E.map Prod.snd) perms scon 1 tcon 1 := by
  have hS : (E.map (moveEvent f e c)).map Prod.fst = (E.map Prod.fst).map f := by
    simp [List.map_map, Function.comp_def, moveEvent]
  have hT : (E.map (moveEvent f e c)).map Prod.snd = (E.map Prod.snd).map fun x => c + e * x := by
    simp [List.map_map, Function.comp_def, moveEvent]
  rw [hS, hT]
  unfold mantel
  rw [distanceMatrix_scale sdist sdist f r hf.dist,
    distanceMatrix_scale (fun a b : ℝ => |a - b|) (fun a b : ℝ => |a - b|) (fun x => c + e * x) |e| (abs_move e c)]
  simp only [shuffleMatrix_scale, mantelStat_one hf.pos (abs_pos.2 he) scon scon' tcon tcon']

/-- Every similarity of the plane scales the Euclidean distance. -/
theorem IsSimilarity.scalesDistance {r : ℝ} {f : ℝ × ℝ → ℝ × ℝ} (h : IsSimilarity r f) : ScalesDistance eucl r f :=
  ⟨h.pos, h.dist⟩

theorem eucl_isSpaceDistance : IsSpaceDistance eucl where
  symm a b := by
    simp only [eucl, sqDist]
    congr 1
    ring
  self a := by simp [eucl, sqDist]
  nonneg a b := Real.sqrt_nonneg _

/-- Three events on a line. -/
def lineEvents : List (Event ℝ) := [((0, 0), 0), ((1, 0), 1), ((3, 0), 3)]

/-- Locations in half the unit. -/
def doubled (p : ℝ × ℝ) : ℝ × ℝ := (2 * p.1, 2 * p.2)

theorem doubled_scales : ScalesDistance eucl 2 doubled := by
  refine ⟨by norm_num, fun p q => ?_⟩
  simp only [eucl, sqDist, doubled]
  rw [show (2 * p.1 - 2 * q.1) ^ 2 + (2 * p.2 - 2 * q.2) ^ 2 = 2 ^ 2 * ((p.1 - q.1) ^ 2 + (p.2 - q.2) ^ 2) by ring,
    Real.sqrt_mul (by norm_num), Real.sqrt_sq (by norm_num)]

theorem eucl_line (a b : ℝ) : eucl (a, 0) (b, 0) = |a - b| := by
  simp [eucl, sqDist, Real.sqrt_sq_eq_abs]

/-- **C129, the constants of `mantel` are lengths.** With the default constants and exponents the correlation of the events
at 0, 1 and 3 with times 0, 1 and 3 is one; written in half the unit of length, with the same constants, it is not. -/
theorem C129_mantel_default_constants :
    mantel eucl (lineEvents.map Prod.fst) (lineEvents.map Prod.snd) [] 1 (-1) 1 (-1) = .ok (.fin 1, none) ∧
    mantel eucl ((lineEvents.map (moveEvent doubled 1 0)).map Prod.fst)
      ((lineEvents.map (moveEvent doubled 1 0)).map Prod.snd) [] 1 (-1) 1 (-1) ≠ .ok (.fin 1, none) := by
  have hdef := fun E => (C70_defined eucl_isSpaceDistance E 1 (-1) 1 (-1)).1 one_pos one_pos
  constructor
  · rw [mantel_nil, if_pos (hdef _), pearsonr_pairs]
    have hL : mantelPairs eucl 1 (-1) 1 (-1) lineEvents = [(1/2, 1/2), (1/4, 1/4), (1/3, 1/3)] := by
      simp only [mantelPairs, lineEvents, Spec.pairs, List.map_cons, List.map_nil, List.append_nil, List.cons_append,
        List.nil_append, eucl_line, Real.rpow_neg_one]
      norm_num [abs_of_pos]
    rw [hL, if_neg (by simp)]
    simp only [sumSquares, sumProducts, mean, List.map_cons, List.map_nil, List.sum_cons, List.sum_nil, List.length_cons,
      List.length_nil]
    rw [if_neg (by norm_num), Real.mul_self_sqrt (by norm_num)]
    norm_num [Except.map]
  · rw [mantel_nil, if_pos (hdef _), pearsonr_pairs]
    have hL : mantelPairs eucl 1 (-1) 1 (-1) (lineEvents.map (moveEvent doubled 1 0))
        = [(1/2, 1/3), (1/4, 1/7), (1/3, 1/5)] := by
      simp only [mantelPairs, lineEvents, moveEvent, doubled, Spec.pairs, List.map_cons, List.map_nil, List.append_nil,
        List.cons_append, List.nil_append, mul_zero, eucl_line, Real.rpow_neg_one]
      norm_num [abs_of_pos]
    rw [hL, if_neg (by simp)]
    simp only [sumSquares, sumProducts, mean, List.map_cons, List.map_nil, List.sum_cons, List.sum_nil, List.length_cons,
      List.length_nil]
    rw [if_neg (by norm_num)]
    intro h
    simp only [Except.map, Except.ok.injEq, Prod.mk.injEq, and_true, XF.fin.injEq] at h
    rw [← Real.sqrt_mul (by norm_num), div_eq_one_iff_eq (by norm_num)] at h
    have := congrArg (fun x => x ^ 2) h
    beta_reduce at this
    rw [Real.sq_sqrt (by norm_num)] at this
    norm_num at this

end Pointpats.Props
