import Verif.Props.Similarity
import Verif.Props.Median
import Mathlib.Analysis.LocallyConvex.Separation
import Mathlib.Analysis.Convex.Topology

/-!
# C184: the centres of a pattern lie among its events, and near each other
-/

set_option linter.unusedSectionVars false

namespace Pointpats.Props

open Centrography Spec

/-! ### In the convex hull of the events -/

/-- A location outside the convex hull of the events has all of them strictly on one side. -/
private theorem separated {points : List (ℝ × ℝ)} {m : ℝ × ℝ} (h : m ∉ convexHull ℝ {p | p ∈ points}) :
    ∃ a b : ℝ, ∀ p ∈ points, a * m.1 + b * m.2 < a * p.1 + b * p.2 := by
  have hfin : {p | p ∈ points}.Finite := List.finite_toSet points
  obtain ⟨f, u, h1, h2⟩ := geometric_hahn_banach_point_closed (convex_convexHull ℝ _) (hfin.isClosed_convexHull ℝ) h
  have hf : ∀ p : ℝ × ℝ, f p = f (1, 0) * p.1 + f (0, 1) * p.2 := by
    intro p
    have e : p = p.1 • ((1, 0) : ℝ × ℝ) + p.2 • ((0, 1) : ℝ × ℝ) := by ext <;> simp
    conv_lhs => rw [e]
    rw [map_add, map_smul, map_smul, smul_eq_mul, smul_eq_mul]
    ring
  refine ⟨f (1, 0), f (0, 1), fun p hp => ?_⟩
  rw [← hf, ← hf]
  exact lt_trans h1 (h2 p (subset_convexHull ℝ _ hp))

private theorem sum_linear (points : List (ℝ × ℝ)) (a b : ℝ) :
    (points.map fun p => a * p.1 + b * p.2).sum = a * (points.map Prod.fst).sum + b * (points.map Prod.snd).sum := by
  induction points with
  | nil => simp
  | cons p l ih => simp only [List.map_cons, List.sum_cons, ih]; ring

/-- **C184, mean_center** lies in the convex hull of the events. -/
theorem C184_mean_center (points : List (ℝ × ℝ)) (hne : points ≠ []) :
    meanCenter points ∈ convexHull ℝ {p | p ∈ points} := by
  by_contra h
  obtain ⟨a, b, hab⟩ := separated h
  have hn : (0 : ℝ) < points.length := by exact_mod_cast List.length_pos_iff.2 hne
  have h1 := List.sum_lt_sum_of_ne_nil hne (fun _ => a * (meanCenter points).1 + b * (meanCenter points).2)
    (fun p => a * p.1 + b * p.2) hab
  rw [sum_linear, List.map_const', List.sum_replicate, nsmul_eq_mul] at h1
  have e1 : (points.map Prod.fst).sum = points.length * (meanCenter points).1 := by
    simp only [meanCenter]; field_simp
  have e2 : (points.map Prod.snd).sum = points.length * (meanCenter points).2 := by
    simp only [meanCenter]; field_simp
  rw [e1, e2] at h1
  exact absurd h1 (by rw [not_lt]; exact le_of_eq (by ring))

/-- **C184, weighted_mean_center** lies in the convex hull of the events, for weights that are not negative and not all zero. -/
theorem C184_weighted_mean_center (points : List (ℝ × ℝ)) (weights : List ℝ) (hlen : weights.length = points.length)
    (hnn : ∀ w ∈ weights, 0 ≤ w) (hpos : 0 < weights.sum) :
    ∃ m, weightedMeanCenter points weights = .ok m ∧ m ∈ convexHull ℝ {p | p ∈ points} := by
  refine ⟨_, by unfold weightedMeanCenter; rw [if_neg (by simpa using hlen)], ?_⟩
  by_contra h
  obtain ⟨a, b, hab⟩ := separated h
  set M := ((List.zipWith (fun a p => a * p.1) (weights.map fun x => x * 1 / weights.sum) points).sum,
    (List.zipWith (fun a p => a * p.2) (weights.map fun x => x * 1 / weights.sum) points).sum) with hM
  have key : ∀ (W : ℝ) (ws : List ℝ) (ps : List (ℝ × ℝ)), ws.length = ps.length → 0 < W → (∀ w ∈ ws, 0 ≤ w) →
      (∀ p ∈ ps, a * M.1 + b * M.2 < a * p.1 + b * p.2) →
      let x := (List.zipWith (fun a p => a * p.1) (ws.map fun x => x * 1 / W) ps).sum
      let y := (List.zipWith (fun a p => a * p.2) (ws.map fun x => x * 1 / W) ps).sum
      (ws.sum / W * (a * M.1 + b * M.2) ≤ a * x + b * y)
        ∧ (0 < ws.sum → ws.sum / W * (a * M.1 + b * M.2) < a * x + b * y) := by
    intro W ws
    induction ws with
    | nil => intro ps _ _ _ _; simp
    | cons w ws ih =>
      intro ps hl hW hw hp
      cases ps with
      | nil => simp at hl
      | cons p ps =>
        obtain ⟨i1, i2⟩ := ih ps (by simpa using hl) hW (fun v hv => hw v (List.mem_cons_of_mem _ hv))
          fun q hq => hp q (List.mem_cons_of_mem _ hq)
        have hw0 := hw w (by simp)
        have hp0 := hp p (by simp)
        simp only [List.map_cons, List.zipWith_cons_cons, List.sum_cons] at i1 i2 ⊢
        have hwW : 0 ≤ w * 1 / W := by positivity
        have hstep : w * 1 / W * (a * M.1 + b * M.2) ≤ w * 1 / W * (a * p.1 + b * p.2) :=
          mul_le_mul_of_nonneg_left hp0.le hwW
        have e : (w + ws.sum) / W * (a * M.1 + b * M.2)
            = w * 1 / W * (a * M.1 + b * M.2) + ws.sum / W * (a * M.1 + b * M.2) := by ring
        refine ⟨by rw [e]; linarith, fun hs => ?_⟩
        rw [e]
        rcases hw0.lt_or_eq with h0 | h0
        · have hwW' : 0 < w * 1 / W := by positivity
          have := mul_lt_mul_of_pos_left hp0 hwW'
          linarith
        · have := i2 (by rw [← h0, zero_add] at hs; exact hs)
          linarith
  have h2 := (key weights.sum weights points hlen hpos hnn hab).2 hpos
  rw [div_self hpos.ne', one_mul] at h2
  exact lt_irrefl _ h2

private theorem median_in_hull (points : List (ℝ × ℝ)) (hne : points ≠ []) (m : ℝ × ℝ) (hm : IsEuclideanMedian points m) :
    m ∈ convexHull ℝ {p | p ∈ points} := by
  by_contra h
  obtain ⟨a, b, hab⟩ := separated h
  have hpos : 0 < a ^ 2 + b ^ 2 := by
    by_contra hc
    have ha : a = 0 := by nlinarith [sq_nonneg a, sq_nonneg b]
    have hb : b = 0 := by nlinarith [sq_nonneg a, sq_nonneg b]
    obtain ⟨p, hp⟩ := List.exists_mem_of_ne_nil _ hne
    have := hab p hp
    rw [ha, hb] at this
    simp at this
  have hε : ∃ ε > 0, ∀ p ∈ points, ε * (a ^ 2 + b ^ 2) < a * (p.1 - m.1) + b * (p.2 - m.2) := by
    clear hm hne h
    induction points with
    | nil => exact ⟨1, one_pos, by simp⟩
    | cons p l ih =>
      obtain ⟨ε, h1, h2⟩ := ih fun q hq => hab q (List.mem_cons_of_mem _ hq)
      have hp := hab p (by simp)
      have hd : 0 < a * (p.1 - m.1) + b * (p.2 - m.2) := by linarith
      refine ⟨min ε ((a * (p.1 - m.1) + b * (p.2 - m.2)) / (2 * (a ^ 2 + b ^ 2))), lt_min h1 (by positivity), ?_⟩
      intro q hq
      rcases List.mem_cons.1 hq with rfl | hq
      · refine lt_of_le_of_lt (mul_le_mul_of_nonneg_right (min_le_right _ _) hpos.le) ?_
        rw [div_mul_eq_mul_div, div_lt_iff₀ (by positivity)]
        nlinarith
      · exact lt_of_le_of_lt (mul_le_mul_of_nonneg_right (min_le_left _ _) hpos.le) (h2 q hq)
  obtain ⟨ε, h1, h2⟩ := hε
  have h3 := hm (m.1 + ε * a, m.2 + ε * b)
  have h4 : sumEucl points (m.1 + ε * a, m.2 + ε * b) < sumEucl points m := by
    unfold sumEucl
    refine List.sum_lt_sum_of_ne_nil hne _ _ fun p hp => ?_
    unfold eucl sqDist
    refine Real.sqrt_lt_sqrt (by positivity) ?_
    have := h2 p hp
    have hD : 0 < a * (p.1 - m.1) + b * (p.2 - m.2) := lt_trans (by positivity) this
    simp only
    nlinarith [mul_lt_mul_of_pos_left this h1, mul_pos h1 hD]
  exact absurd h3 (not_le.2 h4)

/-- **C184, euclidean_median** lies in the convex hull of the events, if the optimiser stops where no location nearby has a
smaller sum of distances. -/
theorem C184_euclidean_median (minimize : ((ℝ × ℝ) → ℝ) → ℝ × ℝ → ℝ × ℝ) (points : List (ℝ × ℝ)) (hne : points ≠ [])
    (hlocal : ∃ ε > 0, ∀ q, eucl (euclideanMedian minimize points) q < ε →
      sumEucl points (euclideanMedian minimize points) ≤ sumEucl points q) :
    euclideanMedian minimize points ∈ convexHull ℝ {p | p ∈ points} :=
  median_in_hull points hne _ (C30_euclidean_median minimize points hlocal)

/-! ### The Manhattan median -/

private theorem count_le_sorted (l : List ℝ) (k : ℕ) (hk : k < l.length) :
    k + 1 ≤ l.countP fun x => decide (x ≤ (l.insertionSort (· ≤ ·)).getD k 0) := by
  obtain ⟨s, hs⟩ : ∃ s, s = l.insertionSort (· ≤ ·) := ⟨_, rfl⟩
  have hperm : s.Perm l := hs ▸ List.perm_insertionSort _ l
  have hsort : s.Pairwise (· ≤ ·) := hs ▸ List.pairwise_insertionSort _ l
  rw [← hs, ← hperm.countP_eq]
  have hk' : k < s.length := by rw [hperm.length_eq]; exact hk
  have h1 : (s.take (k + 1)).countP (fun x => decide (x ≤ s.getD k 0)) ≤ s.countP fun x => decide (x ≤ s.getD k 0) :=
    (List.take_sublist _ _).countP_le
  refine le_trans (le_of_eq ?_) h1
  have h2 : ∀ x ∈ s.take (k + 1), decide (x ≤ s.getD k 0) = true := by
    intro x hx
    obtain ⟨i, hi, rfl⟩ := List.getElem_of_mem hx
    rw [List.length_take] at hi
    rw [List.getElem_take, decide_eq_true_eq, List.getD_eq_getElem?_getD, List.getElem?_eq_getElem hk', Option.getD_some]
    rcases Nat.lt_or_eq_of_le (show i ≤ k by omega) with h | rfl
    · exact List.pairwise_iff_getElem.1 hsort i k _ hk' h
    · exact le_rfl
  rw [List.countP_eq_length.2 h2, List.length_take]
  omega

private theorem median_mid (l : List ℝ) (hne : l ≠ []) :
    median l = ((l.insertionSort (· ≤ ·)).getD ((l.length - 1) / 2) 0 + (l.insertionSort (· ≤ ·)).getD (l.length / 2) 0) / 2 := by
  have hpos := List.length_pos_iff.2 hne
  unfold median
  simp only
  split
  · have e : (l.length - 1) / 2 = l.length / 2 := by omega
    rw [e]; ring
  · have e : (l.length - 1) / 2 = l.length / 2 - 1 := by omega
    rw [e]

private theorem both {α : Type} (l : List α) (P Q : α → Bool) (h : l.length < l.countP P + l.countP Q) :
    ∃ a ∈ l, P a = true ∧ Q a = true := by
  by_contra hc
  push Not at hc
  have : ∀ l : List α, (∀ a ∈ l, P a = true → Q a ≠ true) → l.countP P + l.countP Q ≤ l.length := by
    intro l
    induction l with
    | nil => simp
    | cons a l ih =>
      intro hl
      have i1 := ih fun x hx => hl x (List.mem_cons_of_mem _ hx)
      have i2 := hl a (by simp)
      simp only [List.countP_cons, List.length_cons]
      by_cases h1 : P a = true <;> by_cases h2 : Q a = true
      · exact absurd h2 (i2 h1)
      all_goals simp [h1, h2]; omega
  exact absurd (this l hc) (not_le.2 h)

private theorem manhattan_side (points : List (ℝ × ℝ)) (hne : points ≠ []) (a b : ℝ) (ha : 0 ≤ a) (hb : 0 ≤ b) :
    ∃ p ∈ points, a * p.1 + b * p.2 ≤ a * (manhattanMedian points).1 + b * (manhattanMedian points).2 := by
  have hn := List.length_pos_iff.2 hne
  have hx : points.map Prod.fst ≠ [] := by simpa using hne
  have hy : points.map Prod.snd ≠ [] := by simpa using hne
  have cx := count_le_sorted (points.map Prod.fst)
  have cy := count_le_sorted (points.map Prod.snd)
  have mx := median_mid _ hx
  have my := median_mid _ hy
  simp only [List.countP_map, List.length_map] at cx cy mx my
  set X := (points.map Prod.fst).insertionSort (· ≤ ·) with hX
  set Y := (points.map Prod.snd).insertionSort (· ≤ ·) with hY
  obtain ⟨p, hp, p1, p2⟩ := both points _ _ (by
    have h1 := cx ((points.length - 1) / 2) (by omega)
    have h2 := cy (points.length / 2) (by omega)
    have : points.length < ((points.length - 1) / 2 + 1) + (points.length / 2 + 1) := by omega
    exact lt_of_lt_of_le this (add_le_add h1 h2))
  obtain ⟨q, hq, q1, q2⟩ := both points _ _ (by
    have h1 := cx (points.length / 2) (by omega)
    have h2 := cy ((points.length - 1) / 2) (by omega)
    have : points.length < (points.length / 2 + 1) + ((points.length - 1) / 2 + 1) := by omega
    exact lt_of_lt_of_le this (add_le_add h1 h2))
  simp only [Function.comp_apply, decide_eq_true_eq] at p1 p2 q1 q2
  by_contra hc
  push Not at hc
  have hp' := hc p hp
  have hq' := hc q hq
  simp only [manhattanMedian, mx, my] at hp' hq'
  have := mul_le_mul_of_nonneg_left p1 ha
  have := mul_le_mul_of_nonneg_left p2 hb
  have := mul_le_mul_of_nonneg_left q1 ha
  have := mul_le_mul_of_nonneg_left q2 hb
  linarith

/-- **C184, manhattan_median** lies in the convex hull of the events. -/
theorem C184_manhattan_median (points : List (ℝ × ℝ)) (hne : points ≠ []) :
    manhattanMedian points ∈ convexHull ℝ {p | p ∈ points} := by
  by_contra h
  obtain ⟨a, b, hab⟩ := separated h
  have hsign : ∀ a : ℝ, ∃ s : ℝ, 0 ≤ a * s ∧ s * s = 1 := by
    intro a
    rcases le_total 0 a with h | h
    · exact ⟨1, by linarith, by norm_num⟩
    · exact ⟨-1, by linarith, by norm_num⟩
  obtain ⟨s, hs, hs1⟩ := hsign a
  obtain ⟨t, ht, ht1⟩ := hsign b
  have hmap := (C125_manhattan_median points hne).1 0 s 0 t
  simp only [zero_add] at hmap
  obtain ⟨p, hp, hle⟩ := manhattan_side (points.map fun p => (s * p.1, t * p.2)) (by simpa using hne) (a * s) (b * t) hs ht
  rw [hmap] at hle
  obtain ⟨q, hq, rfl⟩ := List.mem_map.1 hp
  have := hab q hq
  simp only at hle
  have e : ∀ x y : ℝ, a * s * (s * x) + b * t * (t * y) = a * x + b * y := by
    intro x y
    calc _ = a * (s * s) * x + b * (t * t) * y := by ring
      _ = _ := by rw [hs1, ht1]; ring
  rw [e, e] at hle
  linarith

/-! ### Near the mean centre -/

private theorem cauchy_list (l : List ℝ) : l.sum ^ 2 ≤ l.length * (l.map fun x => x ^ 2).sum := by
  induction l with
  | nil => simp
  | cons a l ih =>
    simp only [List.sum_cons, List.length_cons, List.map_cons]
    push_cast
    have hQ : 0 ≤ (l.map fun x => x ^ 2).sum := List.sum_nonneg (by simp only [List.mem_map]; rintro _ ⟨x, -, rfl⟩; positivity)
    generalize (l.map fun x => x ^ 2).sum = Q at *
    have hn : (0 : ℝ) ≤ l.length := by positivity
    generalize (l.length : ℝ) = n at *
    generalize l.sum = S at *
    have h : 2 * a * S ≤ n * a ^ 2 + Q := by
      refine abs_le_of_sq_le_sq' ?_ (by positivity) |>.2
      nlinarith [sq_nonneg (n * a ^ 2 - Q), mul_le_mul_of_nonneg_left ih (sq_nonneg a)]
    nlinarith

private theorem sum_eucl_le (points : List (ℝ × ℝ)) (hne : points ≠ []) :
    sumEucl points (meanCenter points) ≤ points.length * stdDistance points := by
  obtain ⟨h0, h1, -⟩ := C27_std_distance points hne
  have hn : (0 : ℝ) < points.length := by exact_mod_cast List.length_pos_iff.2 hne
  refine abs_le_of_sq_le_sq' ?_ (by positivity) |>.2
  have hc := cauchy_list (points.map fun p => eucl p (meanCenter points))
  rw [List.map_map, List.length_map] at hc
  have e : (points.map ((fun x => x ^ 2) ∘ fun p => eucl p (meanCenter points))).sum = sumSq points (meanCenter points) := by
    unfold sumSq
    congr 1
    refine List.map_congr_left fun p _ => ?_
    simp only [Function.comp_apply, eucl]
    rw [Real.sq_sqrt (by unfold sqDist; positivity)]
  rw [e] at hc
  calc _ ≤ points.length * sumSq points (meanCenter points) := hc
    _ = _ := by rw [mul_pow, h1]; field_simp

private theorem mean_le_sum (points : List (ℝ × ℝ)) (hne : points ≠ []) (c : ℝ × ℝ) :
    points.length * eucl (meanCenter points) c ≤ sumEucl points c := by
  have hn : (0 : ℝ) < points.length := by exact_mod_cast List.length_pos_iff.2 hne
  have key : ∀ l : List (ℝ × ℝ), Real.sqrt (((l.map Prod.fst).sum - l.length * c.1) ^ 2 + ((l.map Prod.snd).sum - l.length * c.2) ^ 2)
      ≤ sumEucl l c := by
    intro l
    induction l with
    | nil => simp [sumEucl]
    | cons p l ih =>
      have htri : ∀ a b x y : ℝ, Real.sqrt ((a + x) ^ 2 + (b + y) ^ 2) ≤ Real.sqrt (a ^ 2 + b ^ 2) + Real.sqrt (x ^ 2 + y ^ 2) := by
        intro a b x y
        have := norm_add_le (⟨a, b⟩ : ℂ) ⟨x, y⟩
        simp only [Complex.norm_def, Complex.normSq_apply, Complex.add_re, Complex.add_im] at this
        simpa only [← sq] using this
      have h := htri (p.1 - c.1) (p.2 - c.2) ((l.map Prod.fst).sum - l.length * c.1) ((l.map Prod.snd).sum - l.length * c.2)
      have e1 : (p.1 - c.1) + ((l.map Prod.fst).sum - l.length * c.1)
          = ((p :: l).map Prod.fst).sum - ((p :: l).length : ℕ) * c.1 := by
        simp only [List.map_cons, List.sum_cons, List.length_cons]; push_cast; ring
      have e2 : (p.2 - c.2) + ((l.map Prod.snd).sum - l.length * c.2)
          = ((p :: l).map Prod.snd).sum - ((p :: l).length : ℕ) * c.2 := by
        simp only [List.map_cons, List.sum_cons, List.length_cons]; push_cast; ring
      rw [e1, e2] at h
      refine h.trans ?_
      unfold sumEucl at ih ⊢
      rw [List.map_cons, List.sum_cons]
      exact add_le_add le_rfl ih
  refine le_trans (le_of_eq ?_) (key points)
  unfold eucl sqDist
  rw [← Real.sqrt_sq hn.le, ← Real.sqrt_mul (sq_nonneg _), Real.sqrt_sq hn.le]
  congr 1
  simp only [meanCenter]
  field_simp

/-- **C184, medians.** Neither `euclidean_median` (where the optimiser stops, as above) nor `manhattan_median` is farther from
`mean_center` than `std_distance`. -/
theorem C184_medians_near (points : List (ℝ × ℝ)) (hne : points ≠ []) :
    (∀ minimize : ((ℝ × ℝ) → ℝ) → ℝ × ℝ → ℝ × ℝ,
      (∃ ε > 0, ∀ q, eucl (euclideanMedian minimize points) q < ε →
        sumEucl points (euclideanMedian minimize points) ≤ sumEucl points q) →
      eucl (meanCenter points) (euclideanMedian minimize points) ≤ stdDistance points)
    ∧ eucl (meanCenter points) (manhattanMedian points) ≤ stdDistance points := by
  have hn : (0 : ℝ) < points.length := by exact_mod_cast List.length_pos_iff.2 hne
  obtain ⟨h0, h1, -⟩ := C27_std_distance points hne
  refine ⟨fun minimize hlocal => ?_, ?_⟩
  · have hm := C30_euclidean_median minimize points hlocal
    have h2 := mean_le_sum points hne (euclideanMedian minimize points)
    have h3 := (hm (meanCenter points)).trans (sum_eucl_le points hne)
    exact le_of_mul_le_mul_left (h2.trans h3) hn
  · -- one axis at a time
    have axis : ∀ (xs : List ℝ) (mean med : ℝ), xs.length = points.length → xs.sum = points.length * mean →
        (xs.map fun x => |x - med|).sum ≤ (xs.map fun x => |x - mean|).sum →
        points.length * (mean - med) ^ 2 ≤ (xs.map fun x => (x - mean) ^ 2).sum := by
      intro xs mean med hl hs hmed
      have a1 : points.length * |mean - med| ≤ (xs.map fun x => |x - med|).sum := by
        have gen : ∀ l : List ℝ, |l.sum - l.length * med| ≤ (l.map fun x => |x - med|).sum := by
          intro l
          induction l with
          | nil => simp
          | cons x l ih =>
            simp only [List.sum_cons, List.length_cons, List.map_cons]
            have := abs_add_le (x - med) (l.sum - l.length * med)
            have e : x - med + (l.sum - l.length * med) = x + l.sum - ((l.length + 1 : ℕ) : ℝ) * med := by push_cast; ring
            rw [e] at this
            linarith
        have := gen xs
        rw [hs, hl, ← mul_sub, abs_mul, abs_of_pos hn] at this
        exact this
      have a2 := cauchy_list (xs.map fun x => |x - mean|)
      rw [List.map_map, List.length_map, hl] at a2
      have e : (xs.map ((fun x => x ^ 2) ∘ fun x => |x - mean|)) = xs.map fun x => (x - mean) ^ 2 := by
        refine List.map_congr_left fun x _ => ?_
        simp only [Function.comp_apply, sq_abs]
      rw [e] at a2
      have a3 : (points.length * |mean - med|) ^ 2 ≤ points.length * (xs.map fun x => (x - mean) ^ 2).sum :=
        (pow_le_pow_left₀ (by positivity) (a1.trans hmed) 2).trans a2
      rw [mul_pow, sq_abs] at a3
      have : points.length * (points.length * (mean - med) ^ 2) ≤ points.length * (xs.map fun x => (x - mean) ^ 2).sum := by
        calc _ = (points.length : ℝ) ^ 2 * (mean - med) ^ 2 := by ring
          _ ≤ _ := a3
      exact le_of_mul_le_mul_left this hn
    have split : ∀ q : ℝ × ℝ, sumManhattan points q
        = ((points.map Prod.fst).map fun a => |a - q.1|).sum + ((points.map Prod.snd).map fun a => |a - q.2|).sum := by
      intro q
      unfold sumManhattan manhattan
      rw [List.map_map, List.map_map, ← List.sum_map_add]
      rfl
    have m1 := C26_manhattan_median points hne ((meanCenter points).1, (manhattanMedian points).2)
    have m2 := C26_manhattan_median points hne ((manhattanMedian points).1, (meanCenter points).2)
    rw [split, split] at m1 m2
    have b1 := axis (points.map Prod.fst) (meanCenter points).1 (manhattanMedian points).1 (by simp)
      (by simp only [meanCenter]; field_simp) (by linarith)
    have b2 := axis (points.map Prod.snd) (meanCenter points).2 (manhattanMedian points).2 (by simp)
      (by simp only [meanCenter]; field_simp) (by linarith)
    have hsq : sumSq points (meanCenter points)
        = ((points.map Prod.fst).map fun x => (x - (meanCenter points).1) ^ 2).sum
          + ((points.map Prod.snd).map fun x => (x - (meanCenter points).2) ^ 2).sum := by
      unfold sumSq sqDist
      rw [List.map_map, List.map_map, ← List.sum_map_add]
      rfl
    unfold eucl
    rw [Real.sqrt_le_left h0, h1, le_div_iff₀ hn, hsq]
    unfold sqDist
    linarith

/-- **C184, circles.** `std_distance` is at most the radius of every circle that holds all events. -/
theorem C184_circle (points : List (ℝ × ℝ)) (hne : points ≠ []) (c : ℝ × ℝ) (r : ℝ) (hr : ∀ p ∈ points, eucl p c ≤ r) :
    stdDistance points ≤ r := by
  obtain ⟨h0, h1, -⟩ := C27_std_distance points hne
  have hn : (0 : ℝ) < points.length := by exact_mod_cast List.length_pos_iff.2 hne
  have hr0 : 0 ≤ r := by
    obtain ⟨p, hp⟩ := List.exists_mem_of_ne_nil _ hne
    exact (Real.sqrt_nonneg _).trans (hr p hp)
  refine abs_le_of_sq_le_sq' ?_ hr0 |>.2
  rw [h1, div_le_iff₀ hn]
  have hmin : sumSq points (meanCenter points) ≤ sumSq points c := by
    by_cases hc : c = meanCenter points
    · rw [hc]
    · exact ((C24_mean_center points hne).2.2.2 c hc).le
  refine hmin.trans ?_
  have : ∀ x ∈ points.map (fun p => sqDist p c), x ≤ r ^ 2 := by
    intro x hx
    obtain ⟨p, hp, rfl⟩ := List.mem_map.1 hx
    have := hr p hp
    unfold eucl at this
    exact (Real.sqrt_le_left hr0).1 this
  have := List.sum_le_card_nsmul _ _ this
  rw [List.length_map, nsmul_eq_mul] at this
  unfold sumSq
  linarith

/-- Non-vacuity: three events, an optimiser that finds the middle one, and a circle that holds them. -/
example : (∃ ε > 0, ∀ q, eucl (euclideanMedian (fun _ _ => (1, 0)) [(0, 0), (1, 0), (5, 0)]) q < ε →
      sumEucl [(0, 0), (1, 0), (5, 0)] (euclideanMedian (fun _ _ => (1, 0)) [(0, 0), (1, 0), (5, 0)])
        ≤ sumEucl [(0, 0), (1, 0), (5, 0)] q)
    ∧ ∀ p ∈ ([(0, 0), (1, 0), (5, 0)] : List (ℝ × ℝ)), eucl p (2, 0) ≤ 3 := by
  constructor
  · refine ⟨1, one_pos, fun q _ => ?_⟩
    have h := C30_collinear (0, 0) (1, 0) [0, 1, 5] (by simp)
    have e : median ([0, 1, 5] : List ℝ) = 1 := by
      norm_num [median, List.insertionSort, List.orderedInsert]
    rw [e] at h
    have h' : IsEuclideanMedian [(0, 0), (1, 0), (5, 0)] (1, 0) := by simpa using h
    exact h' q
  · intro p hp
    simp only [List.mem_cons, List.not_mem_nil, or_false] at hp
    unfold eucl sqDist
    rw [Real.sqrt_le_left (by norm_num)]
    rcases hp with rfl | rfl | rfl <;> norm_num

end Pointpats.Props
