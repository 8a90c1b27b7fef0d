import Verif.Model.Centrography
import Verif.Spec.Centrography
import Verif.Spec.Box
import Verif.Lemmas.MinMax
import Mathlib.Algebra.Order.BigOperators.Group.List
import Mathlib.Algebra.BigOperators.Ring.List
import Mathlib.Tactic.Linarith
import Mathlib.Tactic.FieldSimp
import Mathlib.Tactic.Positivity
import Mathlib.Tactic.Ring

/-!
# C24 to C27: mean centers, Manhattan median, standard distance
-/

namespace Pointpats.Props

open Centrography Spec

section Field

variable {K : Type} [Field K] [LinearOrder K] [IsStrictOrderedRing K]

/-! ### Sums -/

omit [LinearOrder K] [IsStrictOrderedRing K] in
private theorem sum_map_add' {α : Type} (l : List α) (f g : α → K) :
    (l.map fun a => f a + g a).sum = (l.map f).sum + (l.map g).sum := by
  induction l with
  | nil => simp
  | cons a l ih => simp only [List.map_cons, List.sum_cons, ih]; ring

omit [LinearOrder K] [IsStrictOrderedRing K] in
private theorem sum_map_mul' {α : Type} (l : List α) (c : K) (f : α → K) :
    (l.map fun a => c * f a).sum = c * (l.map f).sum := List.sum_map_mul_left ..

omit [LinearOrder K] [IsStrictOrderedRing K] in
private theorem sum_map_const' {α : Type} (l : List α) (c : K) :
    (l.map fun _ => c).sum = (l.length : K) * c := by
  rw [List.map_const', List.sum_replicate, nsmul_eq_mul]

private theorem sum_map_le' {α : Type} (l : List α) (f g : α → K) (h : ∀ a ∈ l, f a ≤ g a) :
    (l.map f).sum ≤ (l.map g).sum := by
  induction l with
  | nil => simp
  | cons a l ih =>
    simp only [List.map_cons, List.sum_cons]
    exact add_le_add (h a (by simp)) (ih fun b hb => h b (by simp [hb]))

omit [IsStrictOrderedRing K] in
private theorem length_pos' [IsStrictOrderedRing K] {α : Type} {l : List α} (h : l ≠ []) :
    (0 : K) < (l.length : K) := by exact_mod_cast List.length_pos_of_ne_nil h

/-! ### Weighted means in general -/

omit [LinearOrder K] [IsStrictOrderedRing K] in
/-- Steiner's identity: the weighted sum of squares is smallest at the weighted mean. -/
private theorem steiner (wp : List (K × (K × K))) (m : K × K)
    (hx : (wp.map fun a => a.1 * a.2.1).sum = (wp.map Prod.fst).sum * m.1)
    (hy : (wp.map fun a => a.1 * a.2.2).sum = (wp.map Prod.fst).sum * m.2) (q : K × K) :
    wSumSq wp q = wSumSq wp m + (wp.map Prod.fst).sum * sqDist m q := by
  have h : ∀ q : K × K, wSumSq wp q = (wp.map fun a => a.1 * (a.2.1 ^ 2 + a.2.2 ^ 2)).sum
      - 2 * q.1 * (wp.map fun a => a.1 * a.2.1).sum - 2 * q.2 * (wp.map fun a => a.1 * a.2.2).sum
      + (wp.map Prod.fst).sum * (q.1 ^ 2 + q.2 ^ 2) := by
    intro q
    unfold wSumSq sqDist
    clear hx hy
    induction wp with
    | nil => simp
    | cons a l ih => simp only [List.map_cons, List.sum_cons, ih]; ring
  rw [h q, h m, hx, hy]
  unfold sqDist
  ring

omit [Field K] [LinearOrder K] [IsStrictOrderedRing K] in
private theorem zipWith_eq_map {α β : Type} (f : K → α → β) (w : List K) (l : List α) :
    List.zipWith f w l = (w.zip l).map fun a => f a.1 a.2 := by
  rw [List.zip, List.map_zipWith]

omit [LinearOrder K] [IsStrictOrderedRing K] in
private theorem wmc_eq (points : List (K × K)) (weights : List K) (h : weights.length = points.length)
    (hw : weights.sum ≠ 0) (m : K × K) (hm : weightedMeanCenter points weights = .ok m) :
    ((weights.zip points).map fun a => a.1 * a.2.1).sum = ((weights.zip points).map Prod.fst).sum * m.1
    ∧ ((weights.zip points).map fun a => a.1 * a.2.2).sum = ((weights.zip points).map Prod.fst).sum * m.2
    ∧ ((weights.zip points).map Prod.fst) = weights := by
  have h1 : (weights.zip points).map Prod.fst = weights := List.map_fst_zip (by omega)
  unfold weightedMeanCenter at hm
  simp only [List.length_map, h, ne_eq, not_true_eq_false, if_false, Except.ok.injEq] at hm
  subst hm
  refine ⟨?_, ?_, h1⟩
  · simp only [h1, List.zipWith_map_left]
    rw [zipWith_eq_map, ← sum_map_mul']
    congr 1
    apply List.map_congr_left
    intro a _
    field_simp
  · simp only [h1, List.zipWith_map_left]
    rw [zipWith_eq_map, ← sum_map_mul']
    congr 1
    apply List.map_congr_left
    intro a _
    field_simp

/-! ### C24 -/

omit [IsStrictOrderedRing K] in
private theorem sum_map_one_mul [IsStrictOrderedRing K] (points : List (K × K)) (f : K × K → K) :
    ((points.map fun p => ((1 : K), p)).map fun a => a.1 * f a.2).sum = (points.map f).sum := by
  simp [List.map_map, Function.comp_def]

/-- **C24.** For every non-empty pattern, the mean center lies in the bounding rectangle, follows every
rescaling of the axes and translation, does not depend on the order of the points, and is the only
location with the smallest sum of squared distances to the points. -/
theorem C24_mean_center (points : List (K × K)) (hne : points ≠ []) :
    (∀ x0 y0 x1 y1, minimumBoundingRectangle points = .ok (x0, y0, x1, y1) →
        InBox ⟨x0, y0, x1, y1⟩ (meanCenter points))
    ∧ (∀ a b s t : K, meanCenter (points.map fun p => (a * p.1 + s, b * p.2 + t))
        = (a * (meanCenter points).1 + s, b * (meanCenter points).2 + t))
    ∧ (∀ points', points.Perm points' → meanCenter points' = meanCenter points)
    ∧ (∀ q, q ≠ meanCenter points → sumSq points (meanCenter points) < sumSq points q) := by
  have hn := length_pos' (K := K) hne
  refine ⟨?_, ?_, ?_, ?_⟩
  · intro x0 y0 x1 y1 hb
    have hb' : Geometry.bboxPts points = .ok ⟨x0, y0, x1, y1⟩ := by
      cases points with
      | nil => exact absurd rfl hne
      | cons p ps =>
        simp only [minimumBoundingRectangle, Except.ok.injEq, Prod.mk.injEq] at hb
        simp only [Geometry.bboxPts, hb]
    obtain ⟨h1, -⟩ := Geometry.bboxPts_spec hb'
    simp only at h1
    have lo : ∀ (f : K × K → K) (c : K), (∀ p ∈ points, c ≤ f p) →
        c ≤ (points.map f).sum / (points.length : K) := by
      intro f c h
      rw [le_div_iff₀ hn, mul_comm, ← sum_map_const' points c]
      exact sum_map_le' _ _ _ h
    have hi : ∀ (f : K × K → K) (c : K), (∀ p ∈ points, f p ≤ c) →
        (points.map f).sum / (points.length : K) ≤ c := by
      intro f c h
      rw [div_le_iff₀ hn, mul_comm, ← sum_map_const' points c]
      exact sum_map_le' _ _ _ h
    exact ⟨lo _ _ fun p hp => (h1 p hp).1, hi _ _ fun p hp => (h1 p hp).2.1,
      lo _ _ fun p hp => (h1 p hp).2.2.1, hi _ _ fun p hp => (h1 p hp).2.2.2⟩
  · intro a b s t
    unfold meanCenter
    simp only [List.map_map, Function.comp_def, List.length_map]
    rw [sum_map_add', sum_map_add', sum_map_mul', sum_map_mul', sum_map_const', sum_map_const']
    refine Prod.ext ?_ ?_ <;> simp only <;> field_simp
  · intro points' h
    unfold meanCenter
    rw [(h.map Prod.fst).sum_eq, (h.map Prod.snd).sum_eq, h.length_eq]
  · intro q hq
    have hs := steiner (points.map fun p => ((1 : K), p)) (meanCenter points)
    have e1 : ((points.map fun p => ((1 : K), p)).map Prod.fst).sum = (points.length : K) := by
      simp [List.map_map, Function.comp_def]
    have e2 : ∀ q, wSumSq (points.map fun p => ((1 : K), p)) q = sumSq points q := by
      intro q; unfold wSumSq sumSq; exact sum_map_one_mul points fun p => sqDist p q
    rw [e1] at hs
    have := hs (by rw [sum_map_one_mul points Prod.fst]; unfold meanCenter; field_simp)
      (by rw [sum_map_one_mul points Prod.snd]; unfold meanCenter; field_simp) q
    rw [e2, e2] at this
    rw [this]
    have hpos : 0 < sqDist (meanCenter points) q := by
      unfold sqDist
      by_contra hcon
      push Not at hcon
      have a1 : ((meanCenter points).1 - q.1) ^ 2 = 0 := by
        nlinarith [sq_nonneg ((meanCenter points).1 - q.1), sq_nonneg ((meanCenter points).2 - q.2)]
      have a2 : ((meanCenter points).2 - q.2) ^ 2 = 0 := by
        nlinarith [sq_nonneg ((meanCenter points).1 - q.1), sq_nonneg ((meanCenter points).2 - q.2)]
      apply hq
      exact Prod.ext (sub_eq_zero.1 (pow_eq_zero_iff two_ne_zero |>.1 a1)).symm
        (sub_eq_zero.1 (pow_eq_zero_iff two_ne_zero |>.1 a2)).symm
    linarith [mul_pos hn hpos]

example : meanCenter [((0 : ℚ), (0 : ℚ)), (3, 0), (0, 6)] = (1, 2) := by decide +kernel

/-! ### C25 -/

/-- **C25.** For every pattern and every list of positive weights of the same length: the weighted mean
center exists, lies in the bounding rectangle, does not change when all weights are multiplied by the same
non-zero factor, and is the only location with the smallest weighted sum of squared distances. -/
theorem C25_weighted_mean_center (points : List (K × K)) (hne : points ≠ []) (weights : List K)
    (hlen : weights.length = points.length) (hpos : ∀ w ∈ weights, 0 < w) :
    ∃ m, weightedMeanCenter points weights = .ok m
      ∧ (∀ x0 y0 x1 y1, minimumBoundingRectangle points = .ok (x0, y0, x1, y1) →
          InBox ⟨x0, y0, x1, y1⟩ m)
      ∧ (∀ c : K, c ≠ 0 → weightedMeanCenter points (weights.map fun w => c * w) = .ok m)
      ∧ (∀ q, q ≠ m → wSumSq (weights.zip points) m < wSumSq (weights.zip points) q) := by
  have hw : 0 < weights.sum := by
    have : weights ≠ [] := by
      rintro rfl; exact hne (List.length_eq_zero_iff.1 hlen.symm)
    exact List.sum_pos _ hpos this
  obtain ⟨m, hm⟩ : ∃ m, weightedMeanCenter points weights = .ok m := by
    unfold weightedMeanCenter; simp [hlen]
  obtain ⟨hx, hy, hfst⟩ := wmc_eq points weights hlen hw.ne' m hm
  refine ⟨m, hm, ?_, ?_, ?_⟩
  · intro x0 y0 x1 y1 hb
    have hb' : Geometry.bboxPts points = .ok ⟨x0, y0, x1, y1⟩ := by
      cases points with
      | nil => exact absurd rfl hne
      | cons p ps =>
        simp only [minimumBoundingRectangle, Except.ok.injEq, Prod.mk.injEq] at hb
        simp only [Geometry.bboxPts, hb]
    obtain ⟨h1, -⟩ := Geometry.bboxPts_spec hb'
    simp only at h1
    have hz : ∀ a ∈ weights.zip points, 0 < a.1 ∧ a.2 ∈ points := fun a ha =>
      ⟨hpos _ (List.of_mem_zip ha).1, (List.of_mem_zip ha).2⟩
    have hsum : 0 < ((weights.zip points).map Prod.fst).sum := by rw [hfst]; exact hw
    have lo : ∀ (f : K × K → K) (c v : K), (∀ p ∈ points, c ≤ f p) →
        ((weights.zip points).map fun a => a.1 * f a.2).sum
          = ((weights.zip points).map Prod.fst).sum * v → c ≤ v := by
      intro f c v h e
      have : c * ((weights.zip points).map Prod.fst).sum
          ≤ ((weights.zip points).map fun a => a.1 * f a.2).sum := by
        rw [← sum_map_mul']
        exact sum_map_le' _ _ _ fun a ha => by
          rw [mul_comm]; exact mul_le_mul_of_nonneg_left (h _ (hz a ha).2) (hz a ha).1.le
      rw [e, mul_comm] at this
      exact le_of_mul_le_mul_left this hsum
    have hi : ∀ (f : K × K → K) (c v : K), (∀ p ∈ points, f p ≤ c) →
        ((weights.zip points).map fun a => a.1 * f a.2).sum
          = ((weights.zip points).map Prod.fst).sum * v → v ≤ c := by
      intro f c v h e
      have : ((weights.zip points).map fun a => a.1 * f a.2).sum
          ≤ c * ((weights.zip points).map Prod.fst).sum := by
        rw [← sum_map_mul']
        exact sum_map_le' _ _ _ fun a ha => by
          rw [mul_comm c]; exact mul_le_mul_of_nonneg_left (h _ (hz a ha).2) (hz a ha).1.le
      rw [e, mul_comm c] at this
      exact le_of_mul_le_mul_left this hsum
    exact ⟨lo Prod.fst _ _ (fun p hp => (h1 p hp).1) hx, hi Prod.fst _ _ (fun p hp => (h1 p hp).2.1) hx,
      lo Prod.snd _ _ (fun p hp => (h1 p hp).2.2.1) hy, hi Prod.snd _ _ (fun p hp => (h1 p hp).2.2.2) hy⟩
  · intro c hc
    rw [← hm]
    unfold weightedMeanCenter
    have : (weights.map fun w => c * w).map (fun x => x * 1 / (weights.map fun w => c * w).sum)
        = weights.map fun x => x * 1 / weights.sum := by
      have := sum_map_mul' weights c id
      simp only [id, List.map_id] at this
      rw [this, List.map_map]
      apply List.map_congr_left
      intro a _
      simp only [Function.comp]
      field_simp
    simp only [this]
  · intro q hq
    rw [steiner _ m hx hy q]
    have hp : 0 < sqDist m q := by
      unfold sqDist
      by_contra hcon
      push Not at hcon
      have a1 : (m.1 - q.1) ^ 2 = 0 := by nlinarith [sq_nonneg (m.1 - q.1), sq_nonneg (m.2 - q.2)]
      have a2 : (m.2 - q.2) ^ 2 = 0 := by nlinarith [sq_nonneg (m.1 - q.1), sq_nonneg (m.2 - q.2)]
      apply hq
      exact Prod.ext (sub_eq_zero.1 (pow_eq_zero_iff two_ne_zero |>.1 a1)).symm
        (sub_eq_zero.1 (pow_eq_zero_iff two_ne_zero |>.1 a2)).symm
    rw [hfst]
    linarith [mul_pos hw hp]

/-- **C25, whole number weights.** With whole number weights, not all zero, the weighted mean center is the
mean center of the pattern in which every point is repeated as often as its weight says; in particular
equal weights give the mean center. A wrong number of weights is a `ValueError`. -/
theorem C25_integer_weights (points : List (K × K)) (weights : List ℕ) :
    (weights.length = points.length → weights.sum ≠ 0 →
      weightedMeanCenter points (weights.map (Nat.cast : ℕ → K))
        = .ok (meanCenter ((weights.zip points).flatMap fun a => List.replicate a.1 a.2)))
    ∧ (∀ c : K, c ≠ 0 → points ≠ [] →
        weightedMeanCenter points (List.replicate points.length c) = .ok (meanCenter points))
    ∧ (∀ ws : List K, ws.length ≠ points.length → weightedMeanCenter points ws = .error .valueError) := by
  refine ⟨?_, ?_, ?_⟩
  · intro hlen hsum
    have hcast : ((weights.map (Nat.cast : ℕ → K)).sum) = ((weights.sum : ℕ) : K) := by
      clear hlen hsum
      induction weights with
      | nil => simp
      | cons a l ih => simp only [List.map_cons, List.sum_cons, ih, Nat.cast_add]
    have hK : ((weights.sum : ℕ) : K) ≠ 0 := by exact_mod_cast hsum
    obtain ⟨m, hm⟩ : ∃ m, weightedMeanCenter points (weights.map (Nat.cast : ℕ → K)) = .ok m := by
      unfold weightedMeanCenter
      simp only [List.length_map, hlen, ne_eq, not_true_eq_false, if_false]
      exact ⟨_, rfl⟩
    obtain ⟨hx, hy, hfst⟩ := wmc_eq points _ (by simpa using hlen) (by rw [hcast]; exact hK) m hm
    rw [hfst, hcast] at hx hy
    rw [hm]
    have gen : ∀ (f : K × K → K), ((((weights.zip points).flatMap fun a => List.replicate a.1 a.2).map f).sum)
        = (((weights.map (Nat.cast : ℕ → K)).zip points).map fun a => a.1 * f a.2).sum := by
      intro f
      rw [List.zip_map_left, List.map_map]
      clear hlen hx hy hfst hm hcast hsum hK
      induction weights.zip points with
      | nil => simp
      | cons a l ih =>
        simp only [List.flatMap_cons, List.map_append, List.sum_append, ih, List.map_replicate,
          List.sum_replicate, nsmul_eq_mul, List.map_cons, List.sum_cons, Function.comp, Prod.map, id]
    have hl : (((weights.zip points).flatMap fun a => List.replicate a.1 a.2).length) = weights.sum := by
      rw [List.length_flatMap]
      simp only [List.length_replicate]
      congr 1
      exact List.map_fst_zip (by omega)
    unfold meanCenter
    rw [gen Prod.fst, gen Prod.snd, hl, hx, hy]
    congr 1
    refine Prod.ext ?_ ?_ <;> simp only <;> field_simp
  · intro c hc hne
    have hn := length_pos' (K := K) hne
    unfold weightedMeanCenter
    simp only [List.map_replicate, List.length_replicate, ne_eq, not_true_eq_false, if_false,
      List.sum_replicate, nsmul_eq_mul]
    have gen : ∀ (a : K) (f : K × K → K) (l : List (K × K)),
        (List.zipWith (fun x p => x * f p) (List.replicate l.length a) l).sum = a * (l.map f).sum := by
      intro a f l
      induction l with
      | nil => simp
      | cons b l ih => simp only [List.length_cons, List.replicate_succ, List.zipWith_cons_cons,
          List.sum_cons, ih, List.map_cons]; ring
    rw [gen _ Prod.fst, gen _ Prod.snd]
    unfold meanCenter
    congr 1
    refine Prod.ext ?_ ?_ <;> simp only <;> field_simp
  · intro ws h
    unfold weightedMeanCenter
    simp [h]

example : weightedMeanCenter [((0 : ℚ), (0 : ℚ)), (3, 0), (0, 6)] [1, 2, 3] = .ok (1, 3) := by
  decide +kernel

/-! ### C26 -/

/-- The median of a list of numbers minimises the sum of absolute differences. -/
theorem median_aux (l : List K) (hne : l ≠ []) (q : K) :
    (l.map fun a => |a - median l|).sum ≤ (l.map fun a => |a - q|).sum := by
  obtain ⟨s, hs⟩ : ∃ s, s = l.insertionSort (· ≤ ·) := ⟨_, rfl⟩
  have hperm : s.Perm l := hs ▸ List.perm_insertionSort _ l
  have hsort : s.Pairwise (· ≤ ·) := hs ▸ List.pairwise_insertionSort _ l
  have hlen : s.length = l.length := hperm.length_eq
  have hpos : 0 < s.length := by rw [hlen]; exact List.length_pos_of_ne_nil hne
  have hmono : ∀ i j (hi : i < s.length) (hj : j < s.length), i ≤ j → s[i] ≤ s[j] := by
    intro i j hi hj hij
    rcases Nat.lt_or_eq_of_le hij with h | rfl
    · exact List.pairwise_iff_getElem.1 hsort i j hi hj h
    · exact le_refl _
  -- the median lies between the elements of every symmetric pair
  have hmed : ∀ i (hi : i < s.length) (hi' : s.length - 1 - i < s.length), i ≤ s.length - 1 - i →
      s[i] ≤ median l ∧ median l ≤ s[s.length - 1 - i] := by
    intro i hi hi' hle
    unfold median
    rw [← hs, ← hlen]
    simp only
    split
    · next hodd =>
      rw [List.getD_eq_getElem?_getD, List.getElem?_eq_getElem (by omega), Option.getD_some]
      exact ⟨hmono _ _ _ _ (by omega), hmono _ _ _ _ (by omega)⟩
    · next heven =>
      rw [List.getD_eq_getElem?_getD, List.getElem?_eq_getElem (by omega), Option.getD_some,
        List.getD_eq_getElem?_getD, List.getElem?_eq_getElem (by omega), Option.getD_some]
      have a1 := hmono i (s.length / 2 - 1) hi (by omega) (by omega)
      have a2 := hmono i (s.length / 2) hi (by omega) (by omega)
      have a3 := hmono (s.length / 2 - 1) (s.length - 1 - i) (by omega) hi' (by omega)
      have a4 := hmono (s.length / 2) (s.length - 1 - i) (by omega) hi' (by omega)
      constructor
      · rw [le_div_iff₀ (by norm_num)]; linarith
      · rw [div_le_iff₀ (by norm_num)]; linarith
  -- twice the sum, paired from both ends
  have hpair : ∀ q : K, 2 * (l.map fun a => |a - q|).sum
      = (List.zipWith (fun a b => |a - q| + |b - q|) s s.reverse).sum := by
    intro q
    have h1 : (l.map fun a => |a - q|).sum = (s.map fun a => |a - q|).sum := (hperm.map _).sum_eq.symm
    have h2 : (s.reverse.map fun a => |a - q|).sum = (s.map fun a => |a - q|).sum :=
      ((List.reverse_perm s).map _).sum_eq
    have h3 : ∀ (u v : List K), u.length = v.length →
        (List.zipWith (fun a b => |a - q| + |b - q|) u v).sum
          = (u.map fun a => |a - q|).sum + (v.map fun a => |a - q|).sum := by
      intro u
      induction u with
      | nil => intro v h; have : v = [] := List.length_eq_zero_iff.1 h.symm; subst this; simp
      | cons a u ih =>
        intro v h
        cases v with
        | nil => simp at h
        | cons b v =>
          simp only [List.zipWith_cons_cons, List.sum_cons, List.map_cons]
          rw [ih v (by simpa using h)]
          ring
    rw [h3 _ _ (by simp), h2, h1]
    ring
  have hle : (List.zipWith (fun a b => |a - median l| + |b - median l|) s s.reverse).sum
      ≤ (List.zipWith (fun a b => |a - q| + |b - q|) s s.reverse).sum := by
    apply List.Forall₂.sum_le_sum
    rw [List.forall₂_iff_get]
    refine ⟨by simp, ?_⟩
    intro i h1 h2
    simp only [List.length_zipWith, List.length_reverse, min_self] at h1 h2
    simp only [List.get_eq_getElem, List.getElem_zipWith, List.getElem_reverse]
    have key : ∀ a b m : K, a ≤ m → m ≤ b → |a - m| + |b - m| ≤ |a - q| + |b - q| := by
      intro a b m h1 h2
      rw [abs_of_nonpos (by linarith), abs_of_nonneg (by linarith)]
      have := neg_abs_le (a - q)
      have := le_abs_self (b - q)
      linarith
    rcases Nat.le_total i (s.length - 1 - i) with h | h
    · obtain ⟨b1, b2⟩ := hmed i h1 (by omega) h
      exact key _ _ _ b1 b2
    · obtain ⟨b1, b2⟩ := hmed (s.length - 1 - i) (by omega) (by omega) (by omega)
      have e : s.length - 1 - (s.length - 1 - i) = i := by omega
      simp only [e] at b2
      have := key _ _ _ b1 b2
      linarith
  have h1 := hpair (median l)
  have h2 := hpair q
  linarith

/-- **C26.** For every non-empty pattern, with an odd or even number of points, no location has a smaller
total Manhattan distance to the points than the one returned. -/
theorem C26_manhattan_median (points : List (K × K)) (hne : points ≠ []) (q : K × K) :
    sumManhattan points (manhattanMedian points) ≤ sumManhattan points q := by
  have h : ∀ q : K × K, sumManhattan points q
      = ((points.map Prod.fst).map fun a => |a - q.1|).sum
        + ((points.map Prod.snd).map fun a => |a - q.2|).sum := by
    intro q
    unfold sumManhattan manhattan
    rw [sum_map_add', List.map_map, List.map_map]
    rfl
  rw [h, h]
  exact add_le_add (median_aux _ (by simpa using hne) _) (median_aux _ (by simpa using hne) _)

example : manhattanMedian [((0 : ℚ), (0 : ℚ)), (3, 1), (1, 6), (10, 2)] = (2, 3 / 2)
    ∧ manhattanMedian [((0 : ℚ), (0 : ℚ)), (3, 1), (1, 6)] = (1, 1)
    ∧ sumManhattan [((0 : ℚ), (0 : ℚ)), (3, 1), (1, 6)] (1, 1) = 9 := by decide +kernel

end Field

/-! ### C27 -/

private theorem var_eq (points : List (ℝ × ℝ)) (hne : points ≠ []) :
    ((points.map fun p => p.1 * p.1).sum / (points.length : ℝ) - (meanCenter points).1 * (meanCenter points).1)
      + ((points.map fun p => p.2 * p.2).sum / (points.length : ℝ)
        - (meanCenter points).2 * (meanCenter points).2)
      = sumSq points (meanCenter points) / points.length := by
  have hn := length_pos' (K := ℝ) hne
  have h : ∀ q : ℝ × ℝ, sumSq points q = (points.map fun p => p.1 * p.1).sum
      + (points.map fun p => p.2 * p.2).sum
      - 2 * q.1 * (points.map Prod.fst).sum - 2 * q.2 * (points.map Prod.snd).sum
      + points.length * (q.1 ^ 2 + q.2 ^ 2) := by
    intro q
    unfold sumSq sqDist
    clear hne hn
    induction points with
    | nil => simp
    | cons a l ih => simp only [List.map_cons, List.sum_cons, List.length_cons, ih]; push_cast; ring
  rw [h]
  unfold meanCenter
  simp only
  field_simp
  ring

/-- **C27.** For every non-empty pattern the standard distance is non-negative; its square is the mean of
the squared distances to the mean center, and also half the mean squared distance over all ordered pairs of
points; it is zero exactly if all points coincide; it does not change under translation and is multiplied
by `|c|` when all coordinates are multiplied by `c`. -/
theorem C27_std_distance (points : List (ℝ × ℝ)) (hne : points ≠ []) :
    0 ≤ stdDistance points
    ∧ stdDistance points ^ 2 = sumSq points (meanCenter points) / points.length
    ∧ stdDistance points ^ 2
        = (points.map fun p => sumSq points p).sum / (points.length : ℝ) ^ 2 / 2
    ∧ (stdDistance points = 0 ↔ ∀ p ∈ points, ∀ q ∈ points, p = q)
    ∧ (∀ c s t : ℝ, stdDistance (points.map fun p => (c * p.1 + s, c * p.2 + t))
        = |c| * stdDistance points) := by
  have hn := length_pos' (K := ℝ) hne
  have hstd : ∀ l : List (ℝ × ℝ), l ≠ [] →
      stdDistance l = Real.sqrt (sumSq l (meanCenter l) / l.length) := by
    intro l hl
    unfold stdDistance
    simp only
    rw [var_eq l hl]
  have hnn : ∀ (l : List (ℝ × ℝ)) q, 0 ≤ sumSq l q := by
    intro l q
    apply List.sum_nonneg
    intro x hx
    obtain ⟨p, -, rfl⟩ := List.mem_map.1 hx
    unfold sqDist; positivity
  have hsq : stdDistance points ^ 2 = sumSq points (meanCenter points) / points.length := by
    rw [hstd points hne, Real.sq_sqrt (div_nonneg (hnn _ _) hn.le)]
  have hsteiner : ∀ q, sumSq points q = sumSq points (meanCenter points)
      + points.length * sqDist (meanCenter points) q := by
    intro q
    have hs := steiner (points.map fun p => ((1 : ℝ), p)) (meanCenter points)
    have e1 : ((points.map fun p => ((1 : ℝ), p)).map Prod.fst).sum = (points.length : ℝ) := by
      simp [List.map_map, Function.comp_def]
    have e2 : ∀ q, wSumSq (points.map fun p => ((1 : ℝ), p)) q = sumSq points q := by
      intro q; unfold wSumSq sumSq; exact sum_map_one_mul points fun p => sqDist p q
    rw [e1] at hs
    have := hs (by rw [sum_map_one_mul points Prod.fst]; unfold meanCenter; field_simp)
      (by rw [sum_map_one_mul points Prod.snd]; unfold meanCenter; field_simp) q
    rwa [e2, e2] at this
  refine ⟨Real.sqrt_nonneg _, hsq, ?_, ?_, ?_⟩
  · rw [hsq]
    have : (points.map fun p => sumSq points p).sum = 2 * points.length * sumSq points (meanCenter points) := by
      have e : (points.map fun p => sumSq points p)
          = points.map fun p => sumSq points (meanCenter points)
            + points.length * sqDist p (meanCenter points) := by
        apply List.map_congr_left
        intro p _
        rw [hsteiner p]
        unfold sqDist; ring
      rw [e, sum_map_add', sum_map_const', sum_map_mul']
      unfold sumSq
      ring
    rw [this]
    field_simp
  · have h0 : stdDistance points = 0 ↔ sumSq points (meanCenter points) = 0 := by
      rw [← sq_eq_zero_iff, hsq, div_eq_zero_iff]
      simp [hn.ne']
    rw [h0]
    have hzero : ∀ p q : ℝ × ℝ, sqDist p q = 0 → p = q := by
      intro p q h
      unfold sqDist at h
      have a1 : (p.1 - q.1) ^ 2 = 0 := by nlinarith [sq_nonneg (p.1 - q.1), sq_nonneg (p.2 - q.2)]
      have a2 : (p.2 - q.2) ^ 2 = 0 := by nlinarith [sq_nonneg (p.1 - q.1), sq_nonneg (p.2 - q.2)]
      exact Prod.ext (sub_eq_zero.1 (pow_eq_zero_iff two_ne_zero |>.1 a1))
        (sub_eq_zero.1 (pow_eq_zero_iff two_ne_zero |>.1 a2))
    constructor
    · intro h
      have hall : ∀ p ∈ points, p = meanCenter points := by
        intro p hp
        apply hzero
        have hle : sqDist p (meanCenter points) ≤ sumSq points (meanCenter points) := by
          apply List.single_le_sum _ _ (List.mem_map.2 ⟨p, hp, rfl⟩)
          intro x hx
          obtain ⟨p, -, rfl⟩ := List.mem_map.1 hx
          unfold sqDist; positivity
        refine le_antisymm (h ▸ hle) ?_
        unfold sqDist; positivity
      intro p hp q hq
      rw [hall p hp, hall q hq]
    · intro h
      obtain ⟨p, l, rfl⟩ := List.exists_cons_of_ne_nil hne
      have hp : sumSq (p :: l) p = 0 := by
        apply List.sum_eq_zero
        intro x hx
        obtain ⟨q, hq, rfl⟩ := List.mem_map.1 hx
        rw [h q hq p (by simp)]
        simp [sqDist]
      have := hsteiner p
      rw [hp] at this
      have h1 := hnn (p :: l) (meanCenter (p :: l))
      have h2 : 0 ≤ ((p :: l).length : ℝ) * sqDist (meanCenter (p :: l)) p := by
        unfold sqDist; positivity
      linarith
  · intro c s t
    have hne' : (points.map fun p => (c * p.1 + s, c * p.2 + t)) ≠ [] := by simpa using hne
    rw [hstd _ hne', hstd _ hne, (C24_mean_center points hne).2.1 c c s t]
    have : sumSq (points.map fun p => (c * p.1 + s, c * p.2 + t))
        (c * (meanCenter points).1 + s, c * (meanCenter points).2 + t)
        = c ^ 2 * sumSq points (meanCenter points) := by
      unfold sumSq sqDist
      rw [← sum_map_mul', List.map_map]
      congr 1
      apply List.map_congr_left
      intro p _
      simp only [Function.comp]
      ring
    rw [this, List.length_map, mul_div_assoc, Real.sqrt_mul (sq_nonneg c), Real.sqrt_sq_eq_abs]

/-- Non-vacuity of C27. -/
example : stdDistance [(0, 0), (6, 8)] ^ 2 = 25 := by
  rw [(C27_std_distance [((0 : ℝ), (0 : ℝ)), (6, 8)] (by simp)).2.1]
  simp [sumSq, sqDist, meanCenter]
  norm_num

end Pointpats.Props
