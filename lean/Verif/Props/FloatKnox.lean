import Verif.Lemmas.FloatSum
import Verif.Model.FloatKnox

/-!
# C159: `modified_knox` in floating point arithmetic
-/

namespace Pointpats.Props

open Float64 Spacetime

set_option linter.unusedSectionVars false

/-- The exact and the computed statistic from the same two integers. -/
private theorem knox_values {n : ℕ} (hn : 2 ≤ n) (T S : List (List Bool)) (hT : T.length ≤ n) (hTr : ∀ r ∈ T, r.length ≤ n)
    (hS : S.length ≤ n) :
    ∃ O E : ℤ, |(O : ℚ)| ≤ (n : ℚ) ^ 2 ∧ |(E : ℚ)| ≤ (n : ℚ) ^ 3
      ∧ modifiedKnoxStat (K := ℚ) n T S = .fin ((O - E / ((n : ℚ) - 1)) / 2)
      ∧ fmodifiedKnoxStat n T S = .fin (fl (fl (O - fl (E / ((n : ℚ) - 1))) / 2)) := by
  have hn' : (2 : ℚ) ≤ n := by exact_mod_cast hn
  have hn1 : (n : ℚ) - 1 ≠ 0 := by linarith
  refine ⟨_, _, ?_, ?_, ?_, rfl⟩
  rotate_left 2
  · simp only [modifiedKnoxStat, XF.div, XF.sub, if_neg hn1, if_neg (by norm_num : (2 : ℚ) ≠ 0)]
  · have h1 : (List.zipWith (fun a b => (List.zipWith (fun x y => (x && y)) a b).countP id) T S).sum ≤ n * n := by
      have key : ∀ (T S : List (List Bool)), (∀ r ∈ T, r.length ≤ n) →
          (List.zipWith (fun a b => (List.zipWith (fun x y => (x && y)) a b).countP id) T S).sum ≤ T.length * n := by
        intro T
        induction T with
        | nil => intro S _; simp
        | cons a T ih =>
          intro S h
          cases S with
          | nil => simp
          | cons b S =>
            rw [List.zipWith_cons_cons, List.sum_cons, List.length_cons, Nat.add_mul, one_mul, Nat.add_comm]
            have h1 : (List.zipWith (fun x y => (x && y)) a b).countP id ≤ n :=
              (List.countP_le_length).trans ((by rw [List.length_zipWith]; exact min_le_left _ _ :
                (List.zipWith (fun x y => (x && y)) a b).length ≤ a.length).trans (h a (by simp)))
            exact Nat.add_le_add (ih S fun r hr => h r (by simp [hr])) h1
      exact (key T S hTr).trans (Nat.mul_le_mul_right _ hT)
    generalize (List.zipWith (fun a b => (List.zipWith (fun x y => (x && y)) a b).countP id) T S).sum = c at *
    have hc : (c : ℚ) ≤ n * n := by exact_mod_cast h1
    have hc0 : (0 : ℚ) ≤ c := by positivity
    push_cast
    exact abs_le.2 ⟨by nlinarith, by nlinarith⟩
  · have hcol : ∀ m : List (List Bool), m.length ≤ n → ∀ x ∈ columnSumsMinusOne m n, |(x : ℚ)| ≤ n := by
      intro m hm x hx
      simp only [columnSumsMinusOne, List.mem_map] at hx
      obtain ⟨j, _, rfl⟩ := hx
      have h1 : m.countP (fun row => row.getD j false) ≤ n := List.countP_le_length.trans hm
      have h2 : ((m.countP fun row => row.getD j false : ℕ) : ℚ) ≤ n := by exact_mod_cast h1
      push_cast
      exact abs_le.2 ⟨by linarith [(Nat.cast_nonneg (m.countP fun row => row.getD j false) : (0 : ℚ) ≤ _)], by linarith⟩
    have key : ∀ (a b : List ℤ), (∀ x ∈ a, |(x : ℚ)| ≤ n) → (∀ x ∈ b, |(x : ℚ)| ≤ n) →
        |(((List.zipWith (· * ·) a b).sum : ℤ) : ℚ)| ≤ a.length * (n : ℚ) ^ 2 := by
      intro a
      induction a with
      | nil => intro b _ _; simp
      | cons x a ih =>
        intro b ha hb
        cases b with
        | nil => simp only [List.zipWith_nil_right, List.sum_nil, Int.cast_zero, abs_zero]; positivity
        | cons y b =>
          rw [List.zipWith_cons_cons, List.sum_cons, List.length_cons]
          push_cast
          have h1 := ih b (fun z hz => ha z (by simp [hz])) fun z hz => hb z (by simp [hz])
          push_cast at h1
          have h2 : |(x : ℚ) * y| ≤ (n : ℚ) ^ 2 := by
            rw [abs_mul, pow_two]
            exact mul_le_mul (ha x (by simp)) (hb y (by simp)) (abs_nonneg _) (by positivity)
          refine (abs_add_le _ _).trans ?_
          linarith
    have := key _ _ (hcol S hS) (hcol T hT)
    rw [show (columnSumsMinusOne S n).length = n by simp [columnSumsMinusOne]] at this
    rw [show (n : ℚ) ^ 3 = n * (n : ℚ) ^ 2 by ring]
    exact this

private theorem knox_err {n O E : ℚ} (hn : 2 ≤ n) (hO : |O| ≤ n ^ 2) (hE : |E| ≤ n ^ 3) :
    |fl (fl (O - fl (E / (n - 1))) / 2) - (O - E / (n - 1)) / 2| ≤ 6 * (u * n ^ 2) := by
  have hu := u_pos
  have hu1 : u ≤ 1 / 100 := by unfold u; norm_num
  have hfl := fl_err
  generalize u = u at *
  have hn1 : 0 < n - 1 := by linarith
  have he : |E / (n - 1)| ≤ 2 * n ^ 2 := by
    rw [abs_div, abs_of_pos hn1, div_le_iff₀ hn1]
    nlinarith [sq_nonneg n]
  generalize E / (n - 1) = e at *
  have hq : 0 ≤ n ^ 2 := sq_nonneg n
  generalize n ^ 2 = q at *
  have huq : u * q ≤ q / 100 := by nlinarith
  have huq0 : 0 ≤ u * q := mul_nonneg hu.le hq
  have h1 : |fl e - e| ≤ 2 * (u * q) := (hfl e).trans (by linarith [mul_le_mul_of_nonneg_left he hu.le])
  have a1 := abs_le.1 h1
  have a2 := abs_le.1 he
  have a3 := abs_le.1 hO
  have h2 : |O - fl e| ≤ 4 * q := abs_le.2 ⟨by linarith, by linarith⟩
  have h3 : |fl (O - fl e) - (O - fl e)| ≤ 4 * (u * q) := (hfl _).trans (by linarith [mul_le_mul_of_nonneg_left h2 hu.le])
  have a4 := abs_le.1 h3
  have a5 := abs_le.1 h2
  have h4 : |fl (O - fl e) / 2| ≤ 3 * q := abs_le.2 ⟨by linarith, by linarith⟩
  have h5 : |fl (fl (O - fl e) / 2) - fl (O - fl e) / 2| ≤ 3 * (u * q) :=
    (hfl _).trans (by linarith [mul_le_mul_of_nonneg_left h4 hu.le])
  have a6 := abs_le.1 h5
  exact abs_le.2 ⟨by linarith, by linarith⟩

/-- **C159 (partial).** Rounding never changes a strict order: of two arrangements of `n` events (`n` at most `2¹⁵`) the one with
the larger exact statistic has the larger computed one. Only ties can be decided wrongly. -/
theorem C159_order_partial {n : ℕ} (hn : 2 ≤ n) (hn' : n ≤ 2 ^ 15) (timebin timebin' spacbin : List (List Bool))
    (hT : timebin.length ≤ n ∧ ∀ r ∈ timebin, r.length ≤ n) (hT' : timebin'.length ≤ n ∧ ∀ r ∈ timebin', r.length ≤ n)
    (hS : spacbin.length ≤ n) :
    ∃ x y x' y' : ℚ, modifiedKnoxStat n timebin spacbin = .fin x ∧ modifiedKnoxStat n timebin' spacbin = .fin y
      ∧ fmodifiedKnoxStat n timebin spacbin = .fin x' ∧ fmodifiedKnoxStat n timebin' spacbin = .fin y' ∧ (x < y → x' < y') := by
  obtain ⟨O, E, h1, h2, h3, h4⟩ := knox_values hn timebin spacbin hT.1 hT.2 hS
  obtain ⟨O', E', k1, k2, k3, k4⟩ := knox_values hn timebin' spacbin hT'.1 hT'.2 hS
  refine ⟨_, _, _, _, h3, k3, h4, k4, ?_⟩
  intro h
  have hnq : (2 : ℚ) ≤ n := by exact_mod_cast hn
  have hnq' : (n : ℚ) ≤ 2 ^ 15 := by exact_mod_cast hn'
  have e1 := knox_err hnq h1 h2
  have e2 := knox_err hnq k1 k2
  have hm : (0 : ℚ) < n - 1 := by linarith
  have hgap : 1 / (2 * ((n : ℚ) - 1)) ≤ (O' - E' / ((n : ℚ) - 1)) / 2 - (O - E / ((n : ℚ) - 1)) / 2 := by
    have h' : (O : ℚ) * (n - 1) - E < O' * (n - 1) - E' := by
      have := mul_lt_mul_of_pos_right h (by linarith : (0 : ℚ) < 2 * ((n : ℚ) - 1))
      have a1 : (O - E / ((n : ℚ) - 1)) / 2 * (2 * ((n : ℚ) - 1)) = O * (n - 1) - E := by field_simp
      have a2 : (O' - E' / ((n : ℚ) - 1)) / 2 * (2 * ((n : ℚ) - 1)) = O' * (n - 1) - E' := by field_simp
      rwa [a1, a2] at this
    have h'' : (O * ((n : ℤ) - 1) - E) + 1 ≤ O' * ((n : ℤ) - 1) - E' := by
      have : (O * ((n : ℤ) - 1) - E) < O' * ((n : ℤ) - 1) - E' := by exact_mod_cast h'
      omega
    have h3 : (O : ℚ) * (n - 1) - E + 1 ≤ O' * (n - 1) - E' := by exact_mod_cast h''
    rw [div_le_iff₀ (by linarith)]
    have a : ((O' - E' / ((n : ℚ) - 1)) / 2 - (O - E / ((n : ℚ) - 1)) / 2) * (2 * ((n : ℚ) - 1))
        = (O' * (n - 1) - E') - (O * (n - 1) - E) := by field_simp
    rw [a]
    linarith
  have key : 2 * (6 * (u * (n : ℚ) ^ 2)) < 1 / (2 * ((n : ℚ) - 1)) := by
    rw [lt_div_iff₀ (by linarith)]
    have h3 : (n : ℚ) ^ 2 * (n - 1) ≤ (2 ^ 15) ^ 2 * 2 ^ 15 :=
      mul_le_mul (pow_le_pow_left₀ (by linarith) hnq' 2) (by linarith) hm.le (by norm_num)
    have : 2 * (6 * (u * (n : ℚ) ^ 2)) * (2 * ((n : ℚ) - 1)) = 24 * u * ((n : ℚ) ^ 2 * (n - 1)) := by ring
    rw [this]
    unfold u
    linarith
  have a := abs_le.1 e1
  have b := abs_le.1 e2
  linarith [a.2, b.1]

/-- **C159 (partial).** The p-value of `modified_knox` is at least the one that counts the permutations with a larger exact
statistic and those that leave the pairs close in time unchanged, and at most the one that counts all permutations with a
statistic at least as large. -/
theorem C159_pvalue_partial (sdistmat tdistmat : List (List ℚ)) (delta tau : ℚ) (perms : List (List ℕ))
    (hn : 2 ≤ tdistmat.length) (hn' : tdistmat.length ≤ 2 ^ 15) (ht : ∀ r ∈ tdistmat, r.length = tdistmat.length)
    (hs : sdistmat.length = tdistmat.length) (hp : ∀ p ∈ perms, p.length = tdistmat.length) :
    let exact := fun m : List (List ℚ) => modifiedKnoxStat (K := ℚ) tdistmat.length (thresholded m tau) (thresholded sdistmat delta)
    fpvalue (perms.countP fun p => decide (thresholded (shuffleMatrix tdistmat p) tau = thresholded tdistmat tau)
        || !XF.ge (exact tdistmat) (exact (shuffleMatrix tdistmat p))) perms.length
      ≤ (fmodifiedKnox sdistmat tdistmat delta tau perms).2
    ∧ (fmodifiedKnox sdistmat tdistmat delta tau perms).2
      ≤ fpvalue (perms.countP fun p => XF.ge (exact (shuffleMatrix tdistmat p)) (exact tdistmat)) perms.length := by
  intro exact
  have mono : ∀ {a b : ℕ}, a ≤ b → fpvalue a perms.length ≤ fpvalue b perms.length := by
    intro a b hab
    apply fl_mono
    apply div_le_div_of_nonneg_right _ (by positivity)
    have : (a : ℚ) ≤ b := by exact_mod_cast hab
    linarith
  have hT : (thresholded tdistmat tau).length ≤ tdistmat.length
      ∧ ∀ r ∈ thresholded tdistmat tau, r.length ≤ tdistmat.length := by
    refine ⟨by simp [thresholded], ?_⟩
    intro r hr
    simp only [thresholded, List.mem_map] at hr
    obtain ⟨a, ha, rfl⟩ := hr
    rw [List.length_map]
    exact (ht a ha).le
  have hP : ∀ p ∈ perms, (thresholded (shuffleMatrix tdistmat p) tau).length ≤ tdistmat.length
      ∧ ∀ r ∈ thresholded (shuffleMatrix tdistmat p) tau, r.length ≤ tdistmat.length := by
    intro p hpp
    refine ⟨by simp [thresholded, shuffleMatrix, hp p hpp], ?_⟩
    intro r hr
    simp only [thresholded, shuffleMatrix, List.mem_map] at hr
    obtain ⟨a, ⟨b, _, rfl⟩, rfl⟩ := hr
    simp [hp p hpp]
  have hS : (thresholded sdistmat delta).length ≤ tdistmat.length := by simp [thresholded, hs]
  simp only [fmodifiedKnox]
  rw [List.countP_map]
  constructor
  · apply mono
    apply List.countP_mono_left
    intro p hpp h
    simp only [Bool.or_eq_true, decide_eq_true_eq, Bool.not_eq_true'] at h
    rcases h with h | h
    · obtain ⟨x, _, x', _, h1, _, h3, _, _⟩ := C159_order_partial hn hn' _ _ _ hT hT hS
      simp only [Function.comp_apply, h, h3, XF.ge, le_refl, decide_true]
    · obtain ⟨x, y, x', y', h1, h2, h3, h4, h5⟩ := C159_order_partial hn hn' _ _ _ hT (hP p hpp) hS
      simp only [exact, h1, h2, XF.ge, decide_eq_false_iff_not, not_le] at h
      simp only [Function.comp_apply, h3, h4, XF.ge, decide_eq_true_eq]
      exact (h5 h).le
  · apply mono
    apply List.countP_mono_left
    intro p hpp h
    obtain ⟨y, x, y', x', h1, h2, h3, h4, h5⟩ := C159_order_partial hn hn' _ _ _ (hP p hpp) hT hS
    simp only [Function.comp_apply, h3, h4, XF.ge, decide_eq_true_eq] at h
    simp only [exact, h1, h2, XF.ge, decide_eq_true_eq]
    by_contra hlt
    exact absurd h (not_le.2 (h5 (not_le.1 hlt)))

/-- **C159, refuted.** Seven events on a line, both thresholds one. With the times in the order `p` the exact statistic is the same
(13/12), but the computed one is smaller, so that this permutation is not counted, and the p-value is 1/2 instead of 1. -/
theorem C159_ties_refuted :
    ∃ (s : List (ℚ × ℚ)) (t : List ℚ) (p : List ℕ), s.length = 7 ∧ t.length = 7 ∧ p.Perm (List.range 7)
      ∧ modifiedKnox (fun a b => |a.1 - b.1| + |a.2 - b.2|) s t 1 1 [p] = (.fin (13 / 12), some 1)
      ∧ (fmodifiedKnox (distanceMatrix (fun a b => |a.1 - b.1| + |a.2 - b.2|) s) (distanceMatrix (fun a b => |a - b|) t) 1 1 [p]).2
        = 1 / 2 := by
  refine ⟨[(0, 0), (1, 0), (3, 0), (2, 0), (1, 0), (1, 0), (1, 0)], [4, 3, 0, 3, 2, 4, 2], [5, 1, 4, 6, 3, 2, 0], ?_⟩
  decide +kernel

/-- Four events: the computed p-value is the exact one, apart from its own rounding. -/
example : (fmodifiedKnox [[0, 1, 2, 3], [1, 0, 1, 2], [2, 1, 0, 1], [3, 2, 1, 0]] [[0, 1, 5, 6], [1, 0, 4, 5], [5, 4, 0, 1], [6, 5, 1, 0]]
      1 1 [[0, 1, 2, 3], [0, 2, 1, 3], [1, 0, 3, 2]]).2 = fpvalue 2 3 := by decide +kernel

end Pointpats.Props
