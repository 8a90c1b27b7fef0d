import Verif.Model.Mantel
import Verif.Spec.Mantel
import Verif.Props.SpacetimeStats
import Verif.Lemmas.PyList

/-!
# Properties C67, C68 (mantel) and C70
-/

set_option linter.unusedSectionVars false

namespace Pointpats.Props

open Spec Spacetime

noncomputable section

/-! ### The correlation of a list of pairs of numbers -/

/-- The sum of the squared deviations from the mean. -/
def sumSquares (v : List ℝ) : ℝ := (v.map fun a => (a - mean v) ^ 2).sum

theorem sumSquares_nonneg (v : List ℝ) : 0 ≤ sumSquares v := by
  refine List.sum_nonneg ?_
  intro x hx
  obtain ⟨a, -, rfl⟩ := List.mem_map.1 hx
  positivity

/-- The sum of the products of deviations from the means. -/
def sumProducts (L : List (ℝ × ℝ)) : ℝ :=
  (L.map fun q => (q.1 - mean (L.map Prod.fst)) * (q.2 - mean (L.map Prod.snd))).sum

theorem sum_map_div (l : List ℝ) (c : ℝ) : (l.map fun x => x / c).sum = l.sum / c := by
  induction l with
  | nil => simp
  | cons a l ih => simp [ih, add_div]

theorem zipWith_fst_snd {α : Type} (f : ℝ → ℝ → α) (L : List (ℝ × ℝ)) :
    List.zipWith f (L.map Prod.fst) (L.map Prod.snd) = L.map fun q => f q.1 q.2 := zipWith_maps f _ _ L

/-- `pearsonr` of the two columns of a list of pairs: the product sum over the product of the norms. -/
theorem pearsonr_pairs (L : List (ℝ × ℝ)) :
    pearsonr (L.map Prod.fst) (L.map Prod.snd)
      = if L.length < 2 then .error .valueError
        else if sumSquares (L.map Prod.fst) = 0 ∨ sumSquares (L.map Prod.snd) = 0 then .ok .nan
        else .ok (.fin (sumProducts L /
          (Real.sqrt (sumSquares (L.map Prod.fst)) * Real.sqrt (sumSquares (L.map Prod.snd))))) := by
  unfold pearsonr
  simp only [List.length_map, ne_eq, not_true_eq_false, false_or]
  by_cases h2 : L.length < 2
  · rw [if_pos h2, if_pos h2]
  rw [if_neg h2, if_neg h2]
  simp only [List.map_map, Function.comp_def]
  have e1 : (L.map fun x => (x.1 - mean (L.map Prod.fst)) ^ 2).sum = sumSquares (L.map Prod.fst) := by
    simp [sumSquares, List.map_map, Function.comp_def]
  have e2 : (L.map fun x => (x.2 - mean (L.map Prod.snd)) ^ 2).sum = sumSquares (L.map Prod.snd) := by
    simp [sumSquares, List.map_map, Function.comp_def]
  rw [e1, e2]
  have hz : (√(sumSquares (L.map Prod.fst)) = 0 ∨ √(sumSquares (L.map Prod.snd)) = 0)
      ↔ (sumSquares (L.map Prod.fst) = 0 ∨ sumSquares (L.map Prod.snd) = 0) := by
    rw [Real.sqrt_eq_zero (sumSquares_nonneg _), Real.sqrt_eq_zero (sumSquares_nonneg _)]
  by_cases h : sumSquares (L.map Prod.fst) = 0 ∨ sumSquares (L.map Prod.snd) = 0
  · rw [if_pos h, if_pos (hz.2 h)]
  · rw [if_neg h, if_neg (fun h' => h (hz.1 h'))]
    rw [zipWith_maps, sumProducts, ← sum_map_div, List.map_map]
    congr 3
    refine List.map_congr_left ?_
    intro q _
    rw [Function.comp_apply, div_mul_div_comm]

theorem mean_perm {v w : List ℝ} (h : v.Perm w) : mean v = mean w := by
  rw [mean, mean, h.sum_eq, h.length_eq]

theorem sumSquares_perm {v w : List ℝ} (h : v.Perm w) : sumSquares v = sumSquares w := by
  rw [sumSquares, sumSquares, mean_perm h]
  exact (h.map _).sum_eq

theorem sumProducts_perm {L M : List (ℝ × ℝ)} (h : L.Perm M) : sumProducts L = sumProducts M := by
  rw [sumProducts, sumProducts, mean_perm (h.map _), mean_perm (h.map Prod.snd)]
  exact (h.map _).sum_eq

/-- The correlation does not depend on the order of the pairs. -/
theorem pearsonr_perm {L M : List (ℝ × ℝ)} (h : L.Perm M) :
    pearsonr (L.map Prod.fst) (L.map Prod.snd) = pearsonr (M.map Prod.fst) (M.map Prod.snd) := by
  rw [pearsonr_pairs, pearsonr_pairs, h.length_eq, sumSquares_perm (h.map _), sumSquares_perm (h.map Prod.snd),
    sumProducts_perm h]

/-- Cauchy-Schwarz for lists. -/
theorem cauchy_list (L : List (ℝ × ℝ)) {a b : ℝ} (ha : 0 < a) (hb : 0 < b)
    (h1 : (L.map fun q => q.1 ^ 2).sum = a ^ 2) (h2 : (L.map fun q => q.2 ^ 2).sum = b ^ 2) :
    |(L.map fun q => q.1 * q.2).sum| ≤ a * b := by
  have key : ∀ s : ℝ, s ^ 2 = 1 → s * (L.map fun q => q.1 * q.2).sum ≤ a * b := by
    intro s hs
    have h : ∀ M : List (ℝ × ℝ), 2 * (s * (M.map fun q => q.1 * q.2).sum) * (a * b)
        ≤ b ^ 2 * (M.map fun q => q.1 ^ 2).sum + a ^ 2 * (M.map fun q => q.2 ^ 2).sum := by
      intro M
      induction M with
      | nil => simp
      | cons q M ih =>
        simp only [List.map_cons, List.sum_cons]
        have hq : 0 ≤ (b * q.1 - s * a * q.2) ^ 2 := sq_nonneg _
        have : (b * q.1 - s * a * q.2) ^ 2 = b ^ 2 * q.1 ^ 2 + s ^ 2 * (a ^ 2 * q.2 ^ 2) - 2 * s * (q.1 * q.2) * (a * b) := by
          ring
        rw [hs] at this
        nlinarith
    have := h L
    rw [h1, h2] at this
    have hab : 0 < a * b := mul_pos ha hb
    nlinarith
  rw [abs_le]
  have k1 := key 1 (by norm_num)
  have k2 := key (-1) (by norm_num)
  constructor <;> linarith

theorem pearsonr_range (L : List (ℝ × ℝ)) (r : ℝ) (h : pearsonr (L.map Prod.fst) (L.map Prod.snd) = .ok (.fin r)) :
    -1 ≤ r ∧ r ≤ 1 := by
  rw [pearsonr_pairs] at h
  split_ifs at h with h1 h2
  · simp at h
  · push Not at h2
    have hr := XF.fin.inj (Except.ok.inj h)
    have p1 := Real.sqrt_pos.2 (lt_of_le_of_ne (sumSquares_nonneg _) h2.1.symm)
    have p2 := Real.sqrt_pos.2 (lt_of_le_of_ne (sumSquares_nonneg _) h2.2.symm)
    have c := cauchy_list (L.map fun q => (q.1 - mean (L.map Prod.fst), q.2 - mean (L.map Prod.snd))) p1 p2
      (by rw [Real.sq_sqrt (sumSquares_nonneg _)]; simp [sumSquares, List.map_map, Function.comp_def])
      (by rw [Real.sq_sqrt (sumSquares_nonneg _)]; simp [sumSquares, List.map_map, Function.comp_def])
    have e : ((L.map fun q => (q.1 - mean (L.map Prod.fst), q.2 - mean (L.map Prod.snd))).map fun q => q.1 * q.2).sum
        = sumProducts L := by
      simp [sumProducts, List.map_map, Function.comp_def]
    rw [e] at c
    have hp := mul_pos p1 p2
    rw [← hr, ← abs_le, abs_div, abs_of_pos hp, div_le_one hp]
    exact c

theorem sum_map_affine (v : List ℝ) (a b : ℝ) : (v.map fun x => a * x + b).sum = a * v.sum + v.length * b := by
  induction v with
  | nil => simp
  | cons x v ih => simp [ih]; ring

theorem mean_affine {v : List ℝ} (hv : v ≠ []) (a b : ℝ) : mean (v.map fun x => a * x + b) = a * mean v + b := by
  have : (v.length : ℝ) ≠ 0 := by simpa using hv
  rw [mean, mean, sum_map_affine, List.length_map]
  field_simp

theorem sum_map_mul (v : List ℝ) (c : ℝ) : (v.map fun x => c * x).sum = c * v.sum := by
  induction v with
  | nil => simp
  | cons x v ih => simp [ih]; ring

theorem sumSquares_affine {v : List ℝ} (hv : v ≠ []) (a b : ℝ) :
    sumSquares (v.map fun x => a * x + b) = a ^ 2 * sumSquares v := by
  rw [sumSquares, mean_affine hv, sumSquares, ← sum_map_mul, List.map_map, List.map_map]
  congr 1
  refine List.map_congr_left ?_
  intro x _
  simp only [Function.comp_apply]
  ring

theorem sumProducts_affine {L : List (ℝ × ℝ)} (hL : L ≠ []) (a b : ℝ) :
    sumProducts (L.map fun q => (a * q.1 + b, q.2)) = a * sumProducts L := by
  have hv : L.map Prod.fst ≠ [] := by simpa using hL
  have e1 : (L.map fun q => (a * q.1 + b, q.2)).map Prod.fst = (L.map Prod.fst).map fun x => a * x + b := by
    simp [List.map_map, Function.comp_def]
  have e2 : (L.map fun q => (a * q.1 + b, q.2)).map Prod.snd = L.map Prod.snd := by
    simp [List.map_map, Function.comp_def]
  rw [sumProducts, e1, e2, mean_affine hv, sumProducts, ← sum_map_mul, List.map_map, List.map_map]
  congr 1
  refine List.map_congr_left ?_
  intro q _
  simp only [Function.comp_apply]
  ring

/-- A positive affine transform of the first column leaves the correlation. -/
theorem pearsonr_affine_pairs (L : List (ℝ × ℝ)) {a : ℝ} (ha : 0 < a) (b : ℝ) :
    pearsonr ((L.map Prod.fst).map fun x => a * x + b) (L.map Prod.snd)
      = pearsonr (L.map Prod.fst) (L.map Prod.snd) := by
  by_cases hL : L = []
  · subst hL; rfl
  have hv : L.map Prod.fst ≠ [] := by simpa using hL
  have e1 : (L.map fun q => (a * q.1 + b, q.2)).map Prod.fst = (L.map Prod.fst).map fun x => a * x + b := by
    simp [List.map_map, Function.comp_def]
  have e2 : (L.map fun q => (a * q.1 + b, q.2)).map Prod.snd = L.map Prod.snd := by
    simp [List.map_map, Function.comp_def]
  have := pearsonr_pairs (L.map fun q => (a * q.1 + b, q.2))
  rw [sumProducts_affine hL, e1, e2, sumSquares_affine hv] at this
  rw [this, pearsonr_pairs, List.length_map]
  have ha2 : a ^ 2 ≠ 0 := by positivity
  rw [Real.sqrt_mul (sq_nonneg a), Real.sqrt_sq ha.le]
  by_cases h2 : L.length < 2
  · rw [if_pos h2, if_pos h2]
  rw [if_neg h2, if_neg h2]
  have hz : (a ^ 2 * sumSquares (L.map Prod.fst) = 0 ∨ sumSquares (L.map Prod.snd) = 0)
      ↔ (sumSquares (L.map Prod.fst) = 0 ∨ sumSquares (L.map Prod.snd) = 0) := by
    rw [mul_eq_zero, or_iff_right ha2]
  by_cases h : sumSquares (L.map Prod.fst) = 0 ∨ sumSquares (L.map Prod.snd) = 0
  · rw [if_pos h, if_pos (hz.2 h)]
  · rw [if_neg h, if_neg (fun h' => h (hz.1 h')), mul_assoc a, mul_div_mul_left _ _ ha.ne']

theorem pearsonr_symm_pairs (x y : List ℝ) : pearsonr x y = pearsonr y x := by
  by_cases hl : x.length = y.length
  · have hx : x = (x.zip y).map Prod.fst := (List.map_fst_zip hl.le).symm
    have hy : y = (x.zip y).map Prod.snd := (List.map_snd_zip hl.ge).symm
    have hx' : x = ((x.zip y).map Prod.swap).map Prod.snd := by
      rw [List.map_map]
      simpa [Function.comp_def] using hx
    have hy' : y = ((x.zip y).map Prod.swap).map Prod.fst := by
      rw [List.map_map]
      simpa [Function.comp_def] using hy
    have h1 := pearsonr_pairs (x.zip y)
    have h2 := pearsonr_pairs ((x.zip y).map Prod.swap)
    rw [← hx, ← hy] at h1
    rw [← hx', ← hy'] at h2
    rw [h1, h2, List.length_map]
    have e : sumProducts ((x.zip y).map Prod.swap) = sumProducts (x.zip y) := by
      rw [sumProducts, sumProducts, ← hx', ← hy', ← hx, ← hy, List.map_map]
      congr 1
      refine List.map_congr_left ?_
      intro q _
      simp only [Function.comp_apply, Prod.fst_swap, Prod.snd_swap]
      ring
    rw [e, mul_comm (Real.sqrt (sumSquares y))]
    by_cases h : sumSquares x = 0 ∨ sumSquares y = 0
    · rw [if_pos h, if_pos (Or.symm h)]
    · rw [if_neg h, if_neg (show ¬ (sumSquares y = 0 ∨ sumSquares x = 0) from fun h' => h (Or.symm h'))]
  · rw [pearsonr, pearsonr, if_pos (Or.inl hl), if_pos (Or.inl (Ne.symm hl))]

theorem zip_eq_pairs {x y : List ℝ} (hl : x.length = y.length) :
    x = (x.zip y).map Prod.fst ∧ y = (x.zip y).map Prod.snd :=
  ⟨(List.map_fst_zip hl.le).symm, (List.map_snd_zip hl.ge).symm⟩

theorem pearsonr_affine (x y : List ℝ) {a : ℝ} (ha : 0 < a) (b : ℝ) :
    pearsonr (x.map fun v => a * v + b) y = pearsonr x y := by
  by_cases hl : x.length = y.length
  · obtain ⟨hx, hy⟩ := zip_eq_pairs hl
    have := pearsonr_affine_pairs (x.zip y) ha b
    rwa [← hx, ← hy] at this
  · rw [pearsonr, pearsonr, if_pos (Or.inl (by simpa using hl)), if_pos (Or.inl hl)]

/-! ### The vectors of `mantel` -/

theorem trilVec_eq (m : List (List ℝ)) :
    trilVec m = (allPairs m.length).map fun p => (m.getD p.2 []).getD p.1 0 := by
  rw [trilVec, allPairs, List.map_flatMap]
  simp [List.map_map, Function.comp_def]

theorem trilVec_distanceMatrix {α : Type} (d : α → α → ℝ) (l : List α) (a0 : α) :
    trilVec (distanceMatrix d l) = (allPairs l.length).map fun p => d (l.getD p.2 a0) (l.getD p.1 a0) := by
  rw [trilVec_eq]
  have hlen : (distanceMatrix d l).length = l.length := by simp [distanceMatrix]
  rw [hlen]
  refine List.map_congr_left ?_
  rintro ⟨i, j⟩ h
  obtain ⟨h1, h2⟩ := mem_allPairs.1 h
  have hi : i < l.length := by omega
  simp [distanceMatrix, List.getD_eq_getElem?_getD, hi, h2]

/-- The power is a number. -/
theorem power_eq (b p : ℝ) : (PowerDefined b p → power b p = .fin (b ^ p))
    ∧ (¬ PowerDefined b p → ∀ x, power b p ≠ .fin x) := by
  unfold power PowerDefined
  constructor
  · intro h
    rw [if_neg ?_, if_neg ?_]
    · rintro ⟨h1, h2⟩
      rcases h with h | ⟨h, h'⟩ | ⟨h, h'⟩ <;> linarith
    · rintro ⟨h1, h2⟩
      rcases h with h | ⟨h, h'⟩ | ⟨h, h'⟩
      · linarith
      · linarith
      · obtain ⟨z, rfl⟩ := h'
        exact h2 (by rw [Int.floor_intCast])
  · intro h x hx
    push Not at h
    obtain ⟨h1, h2, h3⟩ := h
    split_ifs at hx with c1 c2
    rcases h1.lt_or_eq with hb | hb
    · refine c1 ⟨hb, fun he => h3 hb ⌊p⌋ he.symm⟩
    · exact c2 ⟨hb, h2 hb⟩

/-- The transformed distances as numbers. -/
def transformedR (con pow : ℝ) (v : List ℝ) : List ℝ := v.map fun d => (d + con) ^ pow

theorem finites_transformed (con pow : ℝ) (v : List ℝ) :
    ((∀ d ∈ v, PowerDefined (d + con) pow) → finites (transformed con pow v) = some (transformedR con pow v))
    ∧ ((∃ d ∈ v, ¬ PowerDefined (d + con) pow) → finites (transformed con pow v) = none) := by
  induction v with
  | nil => exact ⟨fun _ => rfl, fun ⟨d, hd, _⟩ => by simp at hd⟩
  | cons d v ih =>
    have hcons : transformed con pow (d :: v) = power (d + con) pow :: transformed con pow v := rfl
    constructor
    · intro h
      rw [hcons, (power_eq _ _).1 (h d (by simp)), finites, ih.1 fun e he => h e (by simp [he])]
      rfl
    · rintro ⟨e, he, hne⟩
      rw [hcons]
      by_cases hd : PowerDefined (d + con) pow
      · rw [(power_eq _ _).1 hd, finites, ih.2 ?_, Option.map_none]
        rcases List.mem_cons.1 he with rfl | he
        · exact absurd hd hne
        · exact ⟨e, he, hne⟩
      · have := (power_eq _ _).2 hd
        cases hp : power (d + con) pow with
        | fin x => exact absurd hp (this x)
        | _ => rfl

open Classical in
/-- The statistic of two matrices is the correlation of the transformed entries, if all of them are numbers. -/
theorem mantelStat_eq (scon spow tcon tpow : ℝ) (T D : List (List ℝ)) :
    mantelStat scon spow tcon tpow T D
      = if (∀ d ∈ trilVec T, PowerDefined (d + tcon) tpow) ∧ ∀ d ∈ trilVec D, PowerDefined (d + scon) spow then
          pearsonr (transformedR tcon tpow (trilVec T)) (transformedR scon spow (trilVec D))
        else if (trilVec T).length ≠ (trilVec D).length ∨ (trilVec T).length < 2 then .error .valueError
        else .ok .nan := by
  have hl : ∀ con pow v, (transformed con pow v).length = v.length := fun con pow v => List.length_map ..
  unfold mantelStat pearsonrX
  rw [hl, hl]
  by_cases h1 : ∀ d ∈ trilVec T, PowerDefined (d + tcon) tpow
  · rw [(finites_transformed _ _ _).1 h1]
    by_cases h2 : ∀ d ∈ trilVec D, PowerDefined (d + scon) spow
    · rw [(finites_transformed _ _ _).1 h2]
      exact (if_pos (And.intro h1 h2)).symm
    · rw [(finites_transformed _ _ _).2 (by push Not at h2; exact h2)]
      exact (if_neg (fun h : (∀ d ∈ trilVec T, _) ∧ _ => h2 h.2)).symm
  · rw [(finites_transformed _ _ _).2 (by push Not at h1; exact h1)]
    exact (if_neg (fun h : _ ∧ (∀ d ∈ trilVec D, _) => h1 h.1)).symm

/-- The pairs (transformed time difference, transformed distance) over all pairs of events. -/
def mantelPairs (sdist : ℝ × ℝ → ℝ × ℝ → ℝ) (scon spow tcon tpow : ℝ) (E : List (Event ℝ)) : List (ℝ × ℝ) :=
  (pairs E).map fun q => ((|q.2.2 - q.1.2| + tcon) ^ tpow, (sdist q.2.1 q.1.1 + scon) ^ spow)

theorem trilVec_events (sdist : ℝ × ℝ → ℝ × ℝ → ℝ) (E : List (Event ℝ)) :
    trilVec (distanceMatrix (fun a b : ℝ => |a - b|) (E.map Prod.snd))
        = ((allPairs E.length).map fun p => (E.getD p.1 ((0, 0), 0), E.getD p.2 ((0, 0), 0))).map
          (fun q => |q.2.2 - q.1.2|)
    ∧ trilVec (distanceMatrix sdist (E.map Prod.fst))
        = ((allPairs E.length).map fun p => (E.getD p.1 ((0, 0), 0), E.getD p.2 ((0, 0), 0))).map
          (fun q => sdist q.2.1 q.1.1) := by
  constructor
  all_goals
    rw [trilVec_distanceMatrix _ _ 0, List.map_map, List.length_map]
    refine List.map_congr_left ?_
    rintro ⟨i, j⟩ h
    obtain ⟨h1, h2⟩ := mem_allPairs.1 h
    have hi : i < E.length := by omega
    simp [List.getD_eq_getElem?_getD, hi, h2]

open Classical in
theorem mantelStat_events (sdist : ℝ × ℝ → ℝ × ℝ → ℝ) (scon spow tcon tpow : ℝ) (E : List (Event ℝ)) :
    mantelStat scon spow tcon tpow (distanceMatrix (fun a b : ℝ => |a - b|) (E.map Prod.snd))
        (distanceMatrix sdist (E.map Prod.fst))
      = if AllDefined sdist scon spow tcon tpow E then
          pearsonr ((mantelPairs sdist scon spow tcon tpow E).map Prod.fst)
            ((mantelPairs sdist scon spow tcon tpow E).map Prod.snd)
        else if (pairs E).length < 2 then .error .valueError else .ok .nan := by
  obtain ⟨e1, e2⟩ := trilVec_events sdist E
  have hP := allPairs_map_perm E ((0, 0), 0)
  generalize (allPairs E.length).map (fun p => (E.getD p.1 ((0, 0), 0), E.getD p.2 ((0, 0), 0))) = Q at e1 e2 hP
  rw [mantelStat_eq, e1, e2]
  have hdef : ((∀ d ∈ Q.map (fun q => |q.2.2 - q.1.2|), PowerDefined (d + tcon) tpow)
      ∧ ∀ d ∈ Q.map (fun q => sdist q.2.1 q.1.1), PowerDefined (d + scon) spow) ↔ AllDefined sdist scon spow tcon tpow E := by
    simp only [AllDefined, List.forall_mem_map]
    constructor
    · rintro ⟨h1, h2⟩ q hq
      exact ⟨h1 q (hP.mem_iff.2 hq), h2 q (hP.mem_iff.2 hq)⟩
    · intro h
      exact ⟨fun q hq => (h q (hP.mem_iff.1 hq)).1, fun q hq => (h q (hP.mem_iff.1 hq)).2⟩
  by_cases h : AllDefined sdist scon spow tcon tpow E
  · rw [if_pos (hdef.2 h), if_pos h]
    have hM := hP.map fun q => ((|q.2.2 - q.1.2| + tcon) ^ tpow, (sdist q.2.1 q.1.1 + scon) ^ spow)
    rw [mantelPairs, ← pearsonr_perm hM]
    simp only [transformedR, List.map_map]
    rfl
  · rw [if_neg fun hd => h (hdef.1 hd), if_neg h]
    simp only [List.length_map, ne_eq, not_true_eq_false, false_or, hP.length_eq]

open Classical in
theorem mantel_nil (sdist : ℝ × ℝ → ℝ × ℝ → ℝ) (E : List (Event ℝ)) (scon spow tcon tpow : ℝ) :
    mantel sdist (E.map Prod.fst) (E.map Prod.snd) [] scon spow tcon tpow
      = (if AllDefined sdist scon spow tcon tpow E then
          pearsonr ((mantelPairs sdist scon spow tcon tpow E).map Prod.fst)
            ((mantelPairs sdist scon spow tcon tpow E).map Prod.snd)
        else if (pairs E).length < 2 then .error .valueError else .ok .nan).map fun stat => (stat, none) := by
  unfold mantel
  simp only [mantelStat_events]
  generalize (if AllDefined sdist scon spow tcon tpow E then _ else _ : Py (XF ℝ)) = r
  cases r <;> simp [Except.map]

/-- **C68, mantel.** Listing the events in another order gives the same statistic (or the same error). -/
theorem C68_mantel_order {sdist : ℝ × ℝ → ℝ × ℝ → ℝ} (hd : IsSpaceDistance sdist) (E E' : List (Event ℝ))
    (hE : E.Perm E') (scon spow tcon tpow : ℝ) :
    mantel sdist (E.map Prod.fst) (E.map Prod.snd) [] scon spow tcon tpow
      = mantel sdist (E'.map Prod.fst) (E'.map Prod.snd) [] scon spow tcon tpow := by
  classical
  rw [mantel_nil, mantel_nil]
  have hdef : AllDefined sdist scon spow tcon tpow E ↔ AllDefined sdist scon spow tcon tpow E' := by
    have hp := pairs_perm (fun a b : Event ℝ => PowerDefined (|b.2 - a.2| + tcon) tpow ∧ PowerDefined (sdist b.1 a.1 + scon) spow)
      (fun a b => by rw [abs_sub_comm, hd.symm]) hE
    simp only [AllDefined]
    constructor
    · intro h q hq
      obtain ⟨q', h1, h2⟩ := List.mem_map.1 (hp.mem_iff.2 (List.mem_map.2 ⟨q, hq, rfl⟩))
      rw [← h2]
      exact h q' h1
    · intro h q hq
      obtain ⟨q', h1, h2⟩ := List.mem_map.1 (hp.mem_iff.1 (List.mem_map.2 ⟨q, hq, rfl⟩))
      rw [← h2]
      exact h q' h1
  have hlen : (pairs E).length = (pairs E').length := by
    have h1 := length_pairs E
    have h2 := length_pairs E'
    rw [hE.length_eq] at h1
    omega
  rw [hlen, if_congr hdef rfl rfl]
  congr 2
  refine pearsonr_perm ?_
  refine pairs_perm (fun a b : Event ℝ => ((|b.2 - a.2| + tcon) ^ tpow, (sdist b.1 a.1 + scon) ^ spow)) ?_ hE
  intro a b
  rw [abs_sub_comm, hd.symm]

theorem length_mantelPairs (sdist : ℝ × ℝ → ℝ × ℝ → ℝ) (scon spow tcon tpow : ℝ) (E : List (Event ℝ))
    (hn : 3 ≤ E.length) : 2 ≤ (mantelPairs sdist scon spow tcon tpow E).length := by
  rw [mantelPairs, List.length_map]
  have h := length_pairs E
  have : 3 * 2 ≤ E.length * (E.length - 1) := Nat.mul_le_mul hn (by omega)
  omega

theorem pearsonr_ok {L : List (ℝ × ℝ)} (h : 2 ≤ L.length) :
    ∃ r, pearsonr (L.map Prod.fst) (L.map Prod.snd) = .ok r := by
  rw [pearsonr_pairs, if_neg (by omega)]
  split_ifs
  · exact ⟨_, rfl⟩
  · exact ⟨_, rfl⟩

open Classical in
theorem mantel_ok (sdist : ℝ × ℝ → ℝ × ℝ → ℝ) (E : List (Event ℝ)) (hn : 3 ≤ E.length) (scon spow tcon tpow : ℝ) :
    ∃ r, (if AllDefined sdist scon spow tcon tpow E then
          pearsonr ((mantelPairs sdist scon spow tcon tpow E).map Prod.fst)
            ((mantelPairs sdist scon spow tcon tpow E).map Prod.snd)
        else if (pairs E).length < 2 then .error .valueError else .ok .nan : Py (XF ℝ)) = .ok r := by
  have h := length_pairs E
  have : 3 * 2 ≤ E.length * (E.length - 1) := Nat.mul_le_mul hn (by omega)
  split_ifs with h1 h2
  · exact pearsonr_ok (length_mantelPairs sdist scon spow tcon tpow E hn)
  · omega
  · exact ⟨_, rfl⟩

theorem sumSquares_pos {v : List ℝ} {a b : ℝ} (ha : a ∈ v) (hb : b ∈ v) (hab : a ≠ b) : sumSquares v ≠ 0 := by
  intro h
  have hall : ∀ x ∈ v, x = mean v := by
    intro x hx
    have : (x - mean v) ^ 2 ≤ sumSquares v := by
      refine List.single_le_sum ?_ _ (List.mem_map.2 ⟨x, hx, rfl⟩)
      intro y hy
      obtain ⟨z, -, rfl⟩ := List.mem_map.1 hy
      positivity
    rw [h] at this
    have : x - mean v = 0 := by
      have h0 := le_antisymm this (sq_nonneg _)
      exact pow_eq_zero_iff (two_ne_zero) |>.1 h0
    linarith
  exact hab ((hall a ha).trans (hall b hb).symm)

/-- **C70, correlation.** With at least three events whose transformed distances and time differences are numbers, two pairs
that differ in transformed distance and two that differ in transformed time difference, `mantel` reports a number in `[-1, 1]`: the sum of products of
deviations over the square root of the product of the sums of squared deviations, over all pairs of events. -/
theorem C70_mantel_is_correlation (sdist : ℝ × ℝ → ℝ × ℝ → ℝ) (E : List (Event ℝ)) (hn : 3 ≤ E.length)
    (scon spow tcon tpow : ℝ) (hdef : AllDefined sdist scon spow tcon tpow E)
    (hs : ∃ q ∈ pairs E, ∃ q' ∈ pairs E, (sdist q.2.1 q.1.1 + scon) ^ spow ≠ (sdist q'.2.1 q'.1.1 + scon) ^ spow)
    (ht : ∃ q ∈ pairs E, ∃ q' ∈ pairs E, (|q.2.2 - q.1.2| + tcon) ^ tpow ≠ (|q'.2.2 - q'.1.2| + tcon) ^ tpow) :
    ∃ r : ℝ, mantel sdist (E.map Prod.fst) (E.map Prod.snd) [] scon spow tcon tpow = .ok (.fin r, none) ∧
      -1 ≤ r ∧ r ≤ 1 ∧
      r = sumProducts (mantelPairs sdist scon spow tcon tpow E)
        / (Real.sqrt (sumSquares ((mantelPairs sdist scon spow tcon tpow E).map Prod.fst))
          * Real.sqrt (sumSquares ((mantelPairs sdist scon spow tcon tpow E).map Prod.snd))) := by
  rw [mantel_nil, if_pos hdef]
  have h2 := length_mantelPairs sdist scon spow tcon tpow E hn
  have hs' : sumSquares ((mantelPairs sdist scon spow tcon tpow E).map Prod.snd) ≠ 0 := by
    obtain ⟨q, hq, q', hq', hne⟩ := hs
    refine sumSquares_pos (List.mem_map.2 ⟨_, List.mem_map.2 ⟨q, hq, rfl⟩, rfl⟩)
      (List.mem_map.2 ⟨_, List.mem_map.2 ⟨q', hq', rfl⟩, rfl⟩) hne
  have ht' : sumSquares ((mantelPairs sdist scon spow tcon tpow E).map Prod.fst) ≠ 0 := by
    obtain ⟨q, hq, q', hq', hne⟩ := ht
    refine sumSquares_pos (List.mem_map.2 ⟨_, List.mem_map.2 ⟨q, hq, rfl⟩, rfl⟩)
      (List.mem_map.2 ⟨_, List.mem_map.2 ⟨q', hq', rfl⟩, rfl⟩) hne
  have hp := pearsonr_pairs (mantelPairs sdist scon spow tcon tpow E)
  rw [if_neg (by omega), if_neg (by push Not; exact ⟨ht', hs'⟩)] at hp
  have hr := pearsonr_range _ _ hp
  exact ⟨_, by rw [hp]; rfl, hr.1, hr.2, rfl⟩

/-- **C70, symmetry.** Exchanging the time matrix (with its constant and power) and the distance matrix
gives the same statistic. -/
theorem C70_mantel_symmetric (scon spow tcon tpow : ℝ) (timemat distmat : List (List ℝ)) :
    mantelStat scon spow tcon tpow timemat distmat = mantelStat tcon tpow scon spow distmat timemat := by
  classical
  rw [mantelStat_eq, mantelStat_eq, pearsonr_symm_pairs, if_congr and_comm rfl rfl]
  congr 1
  refine if_congr ?_ rfl rfl
  omega

/-- **C70, positive constants.** With positive constants the transformed distances are numbers, whatever the exponents; with
exponents one they are whatever the constants. -/
theorem C70_defined {sdist : ℝ × ℝ → ℝ × ℝ → ℝ} (hd : IsSpaceDistance sdist) (E : List (Event ℝ)) (scon spow tcon tpow : ℝ) :
    (0 < scon → 0 < tcon → AllDefined sdist scon spow tcon tpow E) ∧ AllDefined sdist scon 1 tcon 1 E :=
  ⟨fun hs ht _ _ => ⟨.of_pos (add_pos_of_nonneg_of_pos (abs_nonneg _) ht), .of_pos (add_pos_of_nonneg_of_pos (hd.nonneg _ _) hs)⟩,
    fun _ _ => ⟨.one _, .one _⟩⟩

/-- **C70, affine transforms.** A positive affine transform of the transformed distances, or of the transformed
time differences, leaves the correlation. -/
theorem C70_correlation_affine (x y : List ℝ) (a b : ℝ) (ha : 0 < a) :
    pearsonr (x.map fun v => a * v + b) y = pearsonr x y ∧ pearsonr y (x.map fun v => a * v + b) = pearsonr y x := by
  refine ⟨pearsonr_affine x y ha b, ?_⟩
  rw [pearsonr_symm_pairs y, pearsonr_affine x y ha b, pearsonr_symm_pairs]

theorem transformed_one_scale (m : List (List ℝ)) (c con con' : ℝ) :
    transformedR con' 1 ((trilVec m).map fun d => c * d)
      = (transformedR con 1 (trilVec m)).map fun v => c * v + (con' - c * con) := by
  simp only [transformedR, List.map_map, Real.rpow_one]
  refine List.map_congr_left ?_
  intro d _
  simp only [Function.comp_apply]
  ring

theorem trilVec_scale {α : Type} (d : α → α → ℝ) (l : List α) (a0 : α) (c : ℝ) :
    trilVec (distanceMatrix (fun a b => c * d a b) l) = (trilVec (distanceMatrix d l)).map fun x => c * x := by
  rw [trilVec_distanceMatrix _ l a0, trilVec_distanceMatrix _ l a0, List.map_map]
  rfl

/-- **C70, units.** With power 1, measuring space in another unit (all distances times `c > 0`) and using
another additive constant changes neither the statistic nor the p-value. -/
theorem C70_space_units (sdist : ℝ × ℝ → ℝ × ℝ → ℝ) (s : List (ℝ × ℝ)) (t : List ℝ) (perms : List (List ℕ))
    (c scon scon' tcon tpow : ℝ) (hc : 0 < c) :
    mantel (fun a b => c * sdist a b) s t perms scon' 1 tcon tpow = mantel sdist s t perms scon 1 tcon tpow := by
  have key : ∀ m, mantelStat scon' 1 tcon tpow m (distanceMatrix (fun a b => c * sdist a b) s)
      = mantelStat scon 1 tcon tpow m (distanceMatrix sdist s) := by
    intro m
    classical
    rw [mantelStat_eq, mantelStat_eq, trilVec_scale sdist s 0 c, transformed_one_scale _ c scon scon',
      (C70_correlation_affine _ _ c _ hc).2, List.length_map]
    refine if_congr (and_congr Iff.rfl ?_) rfl rfl
    exact ⟨fun _ _ _ => .one _, fun _ _ _ => .one _⟩
  simp only [mantel, key]

/-- **C70, time units.** With power 1, measuring time in another unit (all times times `c ≠ 0`) from another
origin changes neither the statistic nor the p-value. -/
theorem C70_time_units (sdist : ℝ × ℝ → ℝ × ℝ → ℝ) (s : List (ℝ × ℝ)) (t : List ℝ) (perms : List (List ℕ))
    (hperm : ∀ p ∈ perms, IsShuffle t.length p) (c o scon spow tcon tcon' : ℝ) (hc : c ≠ 0) :
    mantel sdist s (t.map fun x => c * x + o) perms scon spow tcon' 1
      = mantel sdist s t perms scon spow tcon 1 := by
  have hmat : ∀ u : List ℝ, trilVec (distanceMatrix (fun a b : ℝ => |a - b|) (u.map fun x => c * x + o))
      = (trilVec (distanceMatrix (fun a b : ℝ => |a - b|) u)).map fun x => |c| * x := by
    intro u
    rw [← trilVec_scale _ u 0]
    congr 1
    simp only [distanceMatrix, List.map_map, Function.comp_def]
    refine List.map_congr_left fun a _ => List.map_congr_left fun b _ => ?_
    rw [← abs_mul]
    congr 1
    ring
  have key : ∀ u : List ℝ, mantelStat scon spow tcon' 1
        (distanceMatrix (fun a b : ℝ => |a - b|) (u.map fun x => c * x + o)) (distanceMatrix sdist s)
      = mantelStat scon spow tcon 1 (distanceMatrix (fun a b : ℝ => |a - b|) u) (distanceMatrix sdist s) := by
    intro u
    classical
    rw [mantelStat_eq, mantelStat_eq, hmat, transformed_one_scale _ |c| tcon tcon',
      (C70_correlation_affine _ _ |c| _ (abs_pos.2 hc)).1, List.length_map]
    refine if_congr (and_congr ?_ Iff.rfl) rfl rfl
    exact ⟨fun _ _ _ => .one _, fun _ _ _ => .one _⟩
  have hsim : perms.mapM (fun p => mantelStat scon spow tcon' 1
        (shuffleMatrix (distanceMatrix (fun a b : ℝ => |a - b|) (t.map fun x => c * x + o)) p) (distanceMatrix sdist s))
      = perms.mapM (fun p => mantelStat scon spow tcon 1
        (shuffleMatrix (distanceMatrix (fun a b : ℝ => |a - b|) t) p) (distanceMatrix sdist s)) := by
    refine mapM_congr_mem fun p hp => ?_
    have hp' := hperm p hp
    rw [shuffleMatrix_distanceMatrix _ 0 t (fun i hi => hp'.mem.1 hi),
      shuffleMatrix_distanceMatrix _ 0 _ (fun i hi => by simpa using hp'.mem.1 hi),
      shuffle_map' _ 0 _ _ (fun i hi => hp'.mem.1 hi), key]
  simp only [mantel, key, hsim]

/-! ### C67, mantel -/

/-- **C67, mantel.** With permutations and at least three events, the p-value is the documented one for the
statistics of the events with permuted times; it is between `1 / (P + 1)` and 1, does not depend on the order
of the permutations, and is 1 if all permuted statistics are at least the observed one. -/
theorem C67_mantel_pvalue (sdist : ℝ × ℝ → ℝ × ℝ → ℝ) (E : List (Event ℝ)) (hn : 3 ≤ E.length)
    (scon spow tcon tpow : ℝ) (perms : List (List ℕ)) (hperm : ∀ p ∈ perms, IsShuffle E.length p)
    (hne : perms ≠ []) :
    ∃ (stat : XF ℝ) (sims : List (XF ℝ)) (p : ℝ),
      mantel sdist (E.map Prod.fst) (E.map Prod.snd) perms scon spow tcon tpow = .ok (stat, some p) ∧
      List.Forall₂ (fun q m => mantel sdist ((retime q E).map Prod.fst) ((retime q E).map Prod.snd) []
        scon spow tcon tpow = .ok (m, none)) perms sims ∧
      p = (((sims.filter fun m => XF.ge m stat).length : ℝ) + 1) / ((perms.length : ℝ) + 1) ∧
      1 / ((perms.length : ℝ) + 1) ≤ p ∧ p ≤ 1 ∧
      (∀ perms' : List (List ℕ), perms.Perm perms' →
        mantel sdist (E.map Prod.fst) (E.map Prod.snd) perms' scon spow tcon tpow = .ok (stat, some p)) ∧
      ((∀ m ∈ sims, XF.ge m stat = true) → p = 1) := by
  have hret : ∀ q, IsShuffle E.length q → ((retime q E).map Prod.fst = E.map Prod.fst ∧
      (retime q E).map Prod.snd = shuffle 0 q (E.map Prod.snd) ∧ (retime q E).length = E.length) := by
    intro q hq
    have hl : q.length = E.length := hq.length
    refine ⟨?_, ?_, ?_⟩
    · rw [retime, List.map_fst_zip (by simp [hl])]
    · rw [retime, List.map_snd_zip (by simp [hl])]; rfl
    · simp [retime, hl]
  have hsim : ∀ q, IsShuffle E.length q → ∃ m,
      mantelStat scon spow tcon tpow (shuffleMatrix (distanceMatrix (fun a b : ℝ => |a - b|) (E.map Prod.snd)) q)
        (distanceMatrix sdist (E.map Prod.fst)) = .ok m ∧
      mantel sdist ((retime q E).map Prod.fst) ((retime q E).map Prod.snd) [] scon spow tcon tpow = .ok (m, none) := by
    intro q hq
    obtain ⟨h1, h2, h3⟩ := hret q hq
    rw [shuffleMatrix_distanceMatrix _ 0 _ (fun i hi => by simpa using hq.mem.1 hi), ← h2, ← h1, mantelStat_events,
      mantel_nil]
    obtain ⟨m, hm⟩ := mantel_ok sdist (retime q E) (h3 ▸ hn) scon spow tcon tpow
    exact ⟨m, hm, by rw [hm]; rfl⟩
  have hex : ∀ q, ∃ m, IsShuffle E.length q →
      mantelStat scon spow tcon tpow (shuffleMatrix (distanceMatrix (fun a b : ℝ => |a - b|) (E.map Prod.snd)) q)
        (distanceMatrix sdist (E.map Prod.fst)) = .ok m ∧
      mantel sdist ((retime q E).map Prod.fst) ((retime q E).map Prod.snd) [] scon spow tcon tpow = .ok (m, none) := by
    intro q
    by_cases hq : IsShuffle E.length q
    · obtain ⟨m, hm⟩ := hsim q hq
      exact ⟨m, fun _ => hm⟩
    · exact ⟨.nan, fun h => absurd h hq⟩
  choose g hg using hex
  obtain ⟨stat, hstat⟩ := mantel_ok sdist E hn scon spow tcon tpow
  have hval : ∀ ps : List (List ℕ), ps ≠ [] → (∀ q ∈ ps, IsShuffle E.length q) →
      mantel sdist (E.map Prod.fst) (E.map Prod.snd) ps scon spow tcon tpow
        = .ok (stat, some (pvalueGe stat (ps.map g) ps.length)) := by
    intro ps hps hsh
    have hm : ps.mapM (fun p => mantelStat scon spow tcon tpow
        (shuffleMatrix (distanceMatrix (fun a b : ℝ => |a - b|) (E.map Prod.snd)) p)
        (distanceMatrix sdist (E.map Prod.fst))) = .ok (ps.map g) := by
      rw [mapM_ok_iff, List.forall₂_map_right_iff, List.forall₂_same]
      exact fun q hq => (hg q (hsh q hq)).1
    simp only [mantel, mantelStat_events, hstat, if_neg hps, hm]
  have hb := pvalueGe_spec stat (perms.map g)
  rw [List.length_map] at hb
  refine ⟨stat, perms.map g, _, hval perms hne hperm, ?_, ?_, hb.1, hb.2.1, ?_, hb.2.2⟩
  · rw [List.forall₂_map_right_iff, List.forall₂_same]
    exact fun q hq => (hg q (hperm q hq)).2
  · rw [pvalueGe, List.countP_eq_length_filter]
  · intro perms' hpp
    have hne' : perms' ≠ [] := by
      rintro rfl
      exact hne hpp.eq_nil
    rw [hval perms' hne' (fun q hq => hperm q (hpp.mem_iff.2 hq)), hpp.length_eq, pvalueGe_perm stat (hpp.map g)]

/-- **C70, undefined powers.** If a transformed distance or time difference is not a number, as for two events in the same place
with `scon=0` and a negative exponent, `mantel` reports `nan`, and with permutations the smallest possible p-value. -/
theorem C70_undefined {sdist : ℝ × ℝ → ℝ × ℝ → ℝ} (E : List (Event ℝ)) (hn : 3 ≤ E.length)
    (scon spow tcon tpow : ℝ) (hdef : ¬ AllDefined sdist scon spow tcon tpow E) (perms : List (List ℕ))
    (hperm : ∀ p ∈ perms, IsShuffle E.length p) :
    mantel sdist (E.map Prod.fst) (E.map Prod.snd) perms scon spow tcon tpow
      = .ok (.nan, if perms = [] then none else some (1 / ((perms.length : ℝ) + 1))) := by
  have hnil : mantel sdist (E.map Prod.fst) (E.map Prod.snd) [] scon spow tcon tpow = .ok (.nan, none) := by
    have h := length_pairs E
    have : 3 * 2 ≤ E.length * (E.length - 1) := Nat.mul_le_mul hn (by omega)
    rw [mantel_nil, if_neg hdef, if_neg (by omega)]
    rfl
  by_cases hne : perms = []
  · rw [if_pos hne, hne, hnil]
  · rw [if_neg hne]
    obtain ⟨stat, sims, p, g1, -, g3, -⟩ := C67_mantel_pvalue sdist E hn scon spow tcon tpow perms hperm hne
    rw [g1]
    have hstat : stat = .nan := by
      unfold mantel at g1 hnil
      simp only at g1 hnil
      split at g1
      · cases g1
      · rename_i st hst
        simp only [hst, if_true] at hnil
        cases hnil
        rw [if_neg hne] at g1
        split at g1 <;> cases g1
        rfl
    rw [g3, hstat]
    have : (sims.filter fun m => XF.ge m (.nan : XF ℝ)) = [] := by
      rw [List.filter_eq_nil_iff]
      intro m _
      cases m <;> simp [XF.ge]
    rw [this]
    simp

theorem sumSquares_const {v : List ℝ} (h : ∀ a ∈ v, ∀ b ∈ v, a = b) : sumSquares v = 0 := by
  cases v with
  | nil => rfl
  | cons a l =>
    have hall : a :: l = List.replicate (l.length + 1) a := by
      rw [List.eq_replicate_iff]
      exact ⟨rfl, fun b hb => h b hb a (by simp)⟩
    have hm : mean (a :: l) = a := by
      rw [hall, mean, List.sum_replicate, List.length_replicate, nsmul_eq_mul]
      have : ((l.length + 1 : ℕ) : ℝ) ≠ 0 := by positivity
      field_simp
    unfold sumSquares
    rw [hm, hall]
    simp

/-- **C70, constant distances.** If the transformed distances of all pairs are equal, or their transformed time differences,
`mantel` reports `nan`. -/
theorem C70_constant (sdist : ℝ × ℝ → ℝ × ℝ → ℝ) (E : List (Event ℝ)) (hn : 3 ≤ E.length) (scon spow tcon tpow : ℝ)
    (h : (∀ q ∈ pairs E, ∀ q' ∈ pairs E, (sdist q.2.1 q.1.1 + scon) ^ spow = (sdist q'.2.1 q'.1.1 + scon) ^ spow)
      ∨ ∀ q ∈ pairs E, ∀ q' ∈ pairs E, (|q.2.2 - q.1.2| + tcon) ^ tpow = (|q'.2.2 - q'.1.2| + tcon) ^ tpow) :
    mantel sdist (E.map Prod.fst) (E.map Prod.snd) [] scon spow tcon tpow = .ok (.nan, none) := by
  by_cases hdef : AllDefined sdist scon spow tcon tpow E
  · have hl := length_mantelPairs sdist scon spow tcon tpow E hn
    rw [mantel_nil, if_pos hdef, pearsonr_pairs, if_neg (by omega), if_pos ?_]
    · rfl
    · rcases h with h | h
      · right
        refine sumSquares_const ?_
        simp only [mantelPairs, List.map_map, List.forall_mem_map]
        exact h
      · left
        refine sumSquares_const ?_
        simp only [mantelPairs, List.map_map, List.forall_mem_map]
        exact h
  · exact C70_undefined E hn _ _ _ _ hdef [] (by simp)

/-- The Euclidean distance. -/
def euclid (a b : ℝ × ℝ) : ℝ := Real.sqrt ((a.1 - b.1) ^ 2 + (a.2 - b.2) ^ 2)

theorem euclid_isDistance : IsSpaceDistance euclid where
  symm a b := by unfold euclid; congr 1; ring
  self a := by simp [euclid]
  nonneg a b := Real.sqrt_nonneg _

/-- Three events on a line, for the examples. -/
def threeEvents : List (Event ℝ) := [((0, 0), 0), ((1, 0), 1), ((3, 0), 3)]

/-- Non-vacuity of the C70 and C67 theorems: the hypotheses hold for three events with Euclidean distances
1, 3, 2 and equal time differences. -/
example : 3 ≤ threeEvents.length ∧
    (∃ q ∈ pairs threeEvents, ∃ q' ∈ pairs threeEvents,
      (euclid q.2.1 q.1.1 + 1) ^ (1 : ℝ) ≠ (euclid q'.2.1 q'.1.1 + 1) ^ (1 : ℝ)) ∧
    (∃ q ∈ pairs threeEvents, ∃ q' ∈ pairs threeEvents,
      (|q.2.2 - q.1.2| + 1) ^ (1 : ℝ) ≠ (|q'.2.2 - q'.1.2| + 1) ^ (1 : ℝ)) ∧
    IsShuffle threeEvents.length [2, 0, 1] := by
  have m1 : ((((0, 0), 0), ((1, 0), 1)) : Event ℝ × Event ℝ) ∈ pairs threeEvents := by simp [pairs, threeEvents]
  have m2 : ((((0, 0), 0), ((3, 0), 3)) : Event ℝ × Event ℝ) ∈ pairs threeEvents := by simp [pairs, threeEvents]
  refine ⟨by simp [threeEvents], ⟨_, m1, _, m2, ?_⟩, ⟨_, m1, _, m2, ?_⟩, by simp [threeEvents]; decide⟩
  · simp only [euclid, Real.rpow_one]
    have h9 : √(9 : ℝ) = 3 := by
      rw [show (9 : ℝ) = 3 ^ 2 by norm_num, Real.sqrt_sq (by norm_num)]
    norm_num [h9]
  · simp only [Real.rpow_one]
    norm_num

/-- The transformed distances of these events are numbers for the default constants and exponents. -/
example : AllDefined euclid 1 (-1) 1 (-1) threeEvents :=
  (C70_defined euclid_isDistance threeEvents 1 (-1) 1 (-1)).1 one_pos one_pos

/-- Non-vacuity of `C70_undefined`: two of three events in the same place, the constant zero and the exponent minus one. -/
example : ¬ AllDefined euclid 0 (-1) 1 (-1) [((0, 0), 0), ((0, 0), 1), ((3, 0), 3)] := by
  intro h
  have := (h (((0, 0), 0), ((0, 0), 1)) (by simp [pairs])).2
  simp [PowerDefined, euclid] at this
  linarith

end

end Pointpats.Props
