import Verif.Lemmas.FloatSum
import Verif.Model.FloatChi2
import Verif.Spec.FloatChi2

/-!
# C158: the quadrat test in floating point arithmetic
-/

namespace Pointpats.Props

open Float64 Spec Quadrat

set_option linter.unusedSectionVars false

private theorem u_val : u = 1 / 2 ^ 53 := rfl

private theorem pow_le (n : ℕ) (h : n ≤ 2 ^ 50) : (1 + u) ^ n ≤ 1 + 2 * n * u := by
  induction n with
  | zero => simp
  | succ k ih =>
    have h1 := ih (by omega)
    have hk : (k : ℚ) ≤ 2 ^ 50 := by exact_mod_cast (by omega : k ≤ 2 ^ 50)
    have hu := u_pos
    have h2 : 2 * (k : ℚ) * u ≤ 1 := by
      rw [u_val]
      linarith
    rw [pow_succ]
    push_cast
    nlinarith [mul_le_mul_of_nonneg_right h2 hu.le, mul_le_mul_of_nonneg_right h1 (by linarith : (0 : ℚ) ≤ 1 + u)]

set_option maxHeartbeats 1000000 in
/-- The error of one summand. -/
private theorem fterm_err {N n o : ℚ} (hN : 1 ≤ N) (hn : 1 ≤ n) (ho : 0 ≤ o) (hoN : o ≤ N) :
    |fterm (fl (N / n)) o - (o - N / n) ^ 2 / (N / n)| ≤ 38 * u * (N * n) ∧ (o - N / n) ^ 2 / (N / n) ≤ N * n := by
  have hu := u_pos
  have hu1 : u ≤ 1 / 100 := by rw [u_val]; norm_num
  have hfl := fl_err
  generalize u = u at *
  have hn0 : 0 < n := by linarith
  obtain ⟨e, he⟩ : ∃ e, e = N / n := ⟨_, rfl⟩
  have he0 : 0 < e := by rw [he]; positivity
  have heN : e ≤ N := by rw [he]; exact div_le_self (by linarith) hn
  have hNe : N * n = N ^ 2 / e := by rw [he]; field_simp
  rw [← he]
  have h1 := hfl e
  rw [abs_of_pos he0] at h1
  obtain ⟨e', he'⟩ : ∃ e', e' = fl e := ⟨_, rfl⟩
  rw [← he'] at h1 ⊢
  have h1' := abs_le.1 h1
  have hue : u * e ≤ e / 100 := by nlinarith
  have hed : e / 2 ≤ e' := by linarith
  have he'0 : 0 < e' := by linarith
  have he'N : e' ≤ 2 * N := by linarith
  -- the difference
  have hD : |o - e| ≤ N := abs_le.2 ⟨by linarith, by linarith⟩
  have hoe : |o - e'| ≤ 2 * N := abs_le.2 ⟨by linarith, by linarith⟩
  obtain ⟨d, hd⟩ : ∃ d, d = fl (o - e') := ⟨_, rfl⟩
  have h2 : |d - (o - e')| ≤ 2 * (u * N) := by
    rw [hd]
    refine (hfl _).trans ?_
    nlinarith [mul_le_mul_of_nonneg_left hoe hu.le]
  have huN : u * e ≤ u * N := mul_le_mul_of_nonneg_left heN hu.le
  have hdD : |d - (o - e)| ≤ 3 * (u * N) := by
    have := abs_le.1 h2
    exact abs_le.2 ⟨by linarith, by linarith⟩
  have huN' : u * N ≤ N / 100 := by nlinarith
  have hdN : |d| ≤ 2 * N := by
    have := abs_le.1 hdD
    have := abs_le.1 hD
    exact abs_le.2 ⟨by linarith, by linarith⟩
  -- the square
  obtain ⟨q, hq⟩ : ∃ q, q = fl (d * d) := ⟨_, rfl⟩
  have hdd : |d * d| ≤ 4 * N ^ 2 := by
    rw [abs_mul]
    nlinarith [abs_nonneg d]
  have h3 : |q - d * d| ≤ 4 * (u * N ^ 2) := by
    rw [hq]
    refine (hfl _).trans ?_
    nlinarith [mul_le_mul_of_nonneg_left hdd hu.le]
  have h4 : |d * d - (o - e) ^ 2| ≤ 9 * (u * N ^ 2) := by
    have : d * d - (o - e) ^ 2 = (d - (o - e)) * (d + (o - e)) := by ring
    rw [this, abs_mul]
    have hs : |d + (o - e)| ≤ 3 * N := (abs_add_le _ _).trans (by linarith)
    calc |d - (o - e)| * |d + (o - e)| ≤ (3 * (u * N)) * (3 * N) :=
          mul_le_mul hdD hs (abs_nonneg _) (by positivity)
      _ = 9 * (u * N ^ 2) := by ring
  have h5 : |q - (o - e) ^ 2| ≤ 13 * (u * N ^ 2) := by
    have a := abs_le.1 h3
    have b := abs_le.1 h4
    exact abs_le.2 ⟨by linarith, by linarith⟩
  have hDD : (o - e) ^ 2 ≤ N ^ 2 := by
    rw [← sq_abs]
    exact pow_le_pow_left₀ (abs_nonneg _) hD 2
  have hqN : |q| ≤ 5 * N ^ 2 := by
    have a := abs_le.1 h5
    have b : u * N ^ 2 ≤ N ^ 2 / 100 := by nlinarith [sq_nonneg N]
    have c := sq_nonneg (o - e)
    exact abs_le.2 ⟨by nlinarith [sq_nonneg N], by nlinarith [sq_nonneg N]⟩
  -- the quotient
  have hinv : 1 / e' ≤ 2 / e := by
    rw [div_le_div_iff₀ he'0 he0]
    linarith
  have hqe : |q / e'| ≤ 10 * (N ^ 2 / e) := by
    rw [abs_div, abs_of_pos he'0, div_eq_mul_one_div]
    calc |q| * (1 / e') ≤ (5 * N ^ 2) * (2 / e) := mul_le_mul hqN hinv (by positivity) (by positivity)
      _ = _ := by ring
  have h6 : |fl (q / e') - q / e'| ≤ 10 * (u * (N ^ 2 / e)) := by
    refine (hfl _).trans ?_
    have := mul_le_mul_of_nonneg_left hqe hu.le
    linarith
  have h7 : |(q - (o - e) ^ 2) / e'| ≤ 26 * (u * (N ^ 2 / e)) := by
    rw [abs_div, abs_of_pos he'0, div_eq_mul_one_div]
    calc |q - (o - e) ^ 2| * (1 / e') ≤ (13 * (u * N ^ 2)) * (2 / e) :=
          mul_le_mul h5 hinv (by positivity) (by positivity)
      _ = _ := by ring
  have h8 : |(o - e) ^ 2 / e' - (o - e) ^ 2 / e| ≤ 2 * (u * (N ^ 2 / e)) := by
    have : (o - e) ^ 2 / e' - (o - e) ^ 2 / e = ((o - e) ^ 2 / e) * ((e - e') * (1 / e')) := by field_simp
    rw [this, abs_mul, abs_mul, abs_of_nonneg (by positivity : 0 ≤ (o - e) ^ 2 / e), abs_of_pos (by positivity : 0 < 1 / e'),
      abs_sub_comm]
    calc (o - e) ^ 2 / e * (|e' - e| * (1 / e')) ≤ (N ^ 2 / e) * ((u * e) * (2 / e)) := by gcongr
      _ = _ := by field_simp
  constructor
  · rw [hNe]
    have ht : fterm e' o = fl (q / e') := by
      unfold fterm fdiv fmul fsub
      rw [hq, hd]
    rw [ht]
    have e8 : fl (q / e') - (o - e) ^ 2 / e = (fl (q / e') - q / e') + (q - (o - e) ^ 2) / e'
        + ((o - e) ^ 2 / e' - (o - e) ^ 2 / e) := by ring
    rw [e8]
    have a := abs_le.1 h6
    have b := abs_le.1 h7
    have c := abs_le.1 h8
    exact abs_le.2 ⟨by linarith, by linarith⟩
  · rw [hNe]
    gcongr

private theorem sum_sub_le {α : Type} (l : List α) (f g : α → ℚ) (a : ℚ) (h : ∀ o ∈ l, |f o - g o| ≤ a) :
    |(l.map f).sum - (l.map g).sum| ≤ l.length * a := by
  induction l with
  | nil => simp
  | cons b l ih =>
    have h1 := abs_le.1 (h b (by simp))
    have h2 := abs_le.1 (ih fun o ho => h o (by simp [ho]))
    simp only [List.map_cons, List.sum_cons, List.length_cons]
    push_cast
    exact abs_le.2 ⟨by linarith [h1.1, h2.1], by linarith [h1.2, h2.2]⟩

private theorem sum_le {α : Type} (l : List α) (f : α → ℚ) (a : ℚ) (h : ∀ o ∈ l, f o ≤ a) : (l.map f).sum ≤ l.length * a := by
  induction l with
  | nil => simp
  | cons b l ih =>
    have h1 := h b (by simp)
    have h2 := ih fun o ho => h o (by simp [ho])
    simp only [List.map_cons, List.sum_cons, List.length_cons]
    push_cast
    linarith

/-- The sum of the squares determines the statistic. -/
private theorem exact_sum (counts : List ℕ) (e : ℚ) (he : e ≠ 0) :
    (counts.map fun o : ℕ => ((o : ℚ) - e) ^ 2 / e).sum
      = ((counts.map fun o => o ^ 2).sum : ℕ) / e - 2 * (counts.sum : ℕ) + counts.length * e := by
  induction counts with
  | nil => simp
  | cons o l ih =>
    simp only [List.map_cons, List.sum_cons, List.length_cons, ih]
    push_cast
    field_simp
    ring

private theorem exact_value (counts : List ℕ) (hN : counts.sum ≠ 0) :
    chisquare (counts.map (Nat.cast : ℕ → ℚ))
      = .fin ((counts.map fun o : ℕ => ((o : ℚ) - (counts.sum : ℚ) / counts.length) ^ 2
          / ((counts.sum : ℚ) / counts.length)).sum) := by
  have hne : counts ≠ [] := by rintro rfl; simp at hN
  have hl : (counts.length : ℚ) ≠ 0 := by simpa using hne
  have hs : (counts.sum : ℚ) ≠ 0 := by exact_mod_cast hN
  unfold chisquare
  have hc : (counts.map (Nat.cast : ℕ → ℚ)).sum = (counts.sum : ℚ) := by
    clear hN hne hl hs
    induction counts with
    | nil => simp
    | cons a l ih => rw [List.map_cons, List.sum_cons, List.sum_cons, ih, Nat.cast_add]
  simp only [hc, List.length_map]
  rw [if_neg (by simpa using hne), if_neg (div_ne_zero hs hl), List.map_map]
  rfl

private theorem float_value (S : List ℚ → ℚ) (counts : List ℕ) (hN : counts.sum ≠ 0) :
    fchisquare S counts = .fin (S (counts.map fun o : ℕ => fterm (fl ((counts.sum : ℚ) / counts.length)) (o : ℚ))) := by
  have hne : counts ≠ [] := by rintro rfl; simp at hN
  have hl : (counts.length : ℚ) ≠ 0 := by simpa using hne
  have hs : (counts.sum : ℚ) ≠ 0 := by exact_mod_cast hN
  unfold fchisquare fdiv
  rw [if_neg hne, if_neg (by rw [fl_eq_zero]; exact div_ne_zero hs hl)]

private theorem chi_err {S : List ℚ → ℚ} (hS : IsFloatSum S) (counts : List ℕ) (hN : counts.sum ≠ 0)
    (hn : counts.length ≤ 2 ^ 50) :
    |S (counts.map fun o : ℕ => fterm (fl ((counts.sum : ℚ) / counts.length)) (o : ℚ))
      - (counts.map fun o : ℕ => ((o : ℚ) - (counts.sum : ℚ) / counts.length) ^ 2
          / ((counts.sum : ℚ) / counts.length)).sum| ≤ 42 * u * (counts.sum * (counts.length : ℚ) ^ 3) := by
  have hne : counts ≠ [] := by rintro rfl; simp at hN
  have hN1 : (1 : ℚ) ≤ counts.sum := by exact_mod_cast Nat.one_le_iff_ne_zero.2 hN
  have hn1 : (1 : ℚ) ≤ counts.length := by exact_mod_cast List.length_pos_iff.2 hne
  have hterm : ∀ o ∈ counts, _ := fun o ho => fterm_err (o := (o : ℚ)) hN1 hn1 (by positivity)
    (by exact_mod_cast List.single_le_sum (by simp) o ho)
  have hS' := hS (counts.map fun o : ℕ => fterm (fl ((counts.sum : ℚ) / counts.length)) (o : ℚ))
  have hp := pow_le counts.length hn
  rw [List.length_map, ← u_val, List.map_map] at hS'
  have h1 := sum_sub_le counts (fun o : ℕ => fterm (fl ((counts.sum : ℚ) / counts.length)) (o : ℚ))
    (fun o : ℕ => ((o : ℚ) - (counts.sum : ℚ) / counts.length) ^ 2 / ((counts.sum : ℚ) / counts.length)) _
    fun o ho => (hterm o ho).1
  have h2 := sum_le counts (abs ∘ fun o : ℕ => fterm (fl ((counts.sum : ℚ) / counts.length)) (o : ℚ))
    (2 * (counts.sum * (counts.length : ℚ))) (by
      intro o ho
      obtain ⟨a, b⟩ := hterm o ho
      have a := abs_le.1 a
      have h0 : 0 ≤ ((o : ℚ) - (counts.sum : ℚ) / counts.length) ^ 2 / ((counts.sum : ℚ) / counts.length) := by positivity
      have hP : 0 ≤ (counts.sum : ℚ) * counts.length := by positivity
      have hu : 38 * u ≤ 1 := by rw [u_val]; norm_num
      have := mul_le_mul_of_nonneg_right hu hP
      exact abs_le.2 ⟨by linarith [a.1], by linarith [a.2]⟩)
  generalize S _ = s at *
  generalize (counts.map (abs ∘ fun o : ℕ => fterm (fl ((counts.sum : ℚ) / counts.length)) (o : ℚ))).sum = A at *
  generalize (counts.map fun o : ℕ => fterm (fl ((counts.sum : ℚ) / counts.length)) (o : ℚ)).sum = T at *
  generalize (counts.map fun o : ℕ => ((o : ℚ) - (counts.sum : ℚ) / counts.length) ^ 2
    / ((counts.sum : ℚ) / counts.length)).sum = X at *
  generalize (counts.sum : ℚ) = N at *
  generalize (counts.length : ℚ) = n at *
  have hu := u_pos
  have h3 : ((1 + u) ^ counts.length - 1) * A ≤ (2 * n * u) * (n * (2 * (N * n))) := by
    have hA : 0 ≤ n * (2 * (N * n)) := by positivity
    calc ((1 + u) ^ counts.length - 1) * A ≤ ((1 + u) ^ counts.length - 1) * (n * (2 * (N * n))) :=
          mul_le_mul_of_nonneg_left h2 (by linarith [one_le_pow_u counts.length])
      _ ≤ _ := mul_le_mul_of_nonneg_right (by linarith) hA
  have h4 : n * (38 * u * (N * n)) ≤ 38 * u * (N * n ^ 3) := by
    have : N * n ^ 2 ≤ N * n ^ 3 := by
      apply mul_le_mul_of_nonneg_left _ (by linarith)
      exact pow_le_pow_right₀ hn1 (by norm_num)
    have := mul_le_mul_of_nonneg_left this (by linarith : 0 ≤ 38 * u)
    linarith
  have h5 : (2 * n * u) * (n * (2 * (N * n))) = 4 * u * (N * n ^ 3) := by ring
  have a := abs_le.1 hS'
  have b := abs_le.1 h1
  exact abs_le.2 ⟨by linarith [a.1, b.1], by linarith [a.2, b.2]⟩

/-- The exact statistics of two arrays of counts with the same total, in the same number of cells. -/
private theorem gap {counts counts' : List ℕ} (hN : counts.sum ≠ 0) (hs : counts'.sum = counts.sum)
    (hl : counts'.length = counts.length) {x y : ℚ} (hx : chisquare (counts.map (Nat.cast : ℕ → ℚ)) = .fin x)
    (hy : chisquare (counts'.map (Nat.cast : ℕ → ℚ)) = .fin y) (h : x < y) :
    (counts.length : ℚ) / counts.sum ≤ y - x := by
  have hne : counts ≠ [] := by rintro rfl; simp at hN
  have hn0 : (0 : ℚ) < counts.length := by exact_mod_cast List.length_pos_iff.2 hne
  have hN0 : (0 : ℚ) < counts.sum := by exact_mod_cast Nat.pos_of_ne_zero hN
  have he : (counts.sum : ℚ) / counts.length ≠ 0 := (div_pos hN0 hn0).ne'
  rw [exact_value counts hN, exact_sum counts _ he] at hx
  rw [exact_value counts' (by rwa [hs]), hs, hl, exact_sum counts' _ he, hs, hl] at hy
  injection hx with hx
  injection hy with hy
  rw [← hx, ← hy] at h ⊢
  generalize (counts.map fun o => o ^ 2).sum = A at *
  generalize (counts'.map fun o => o ^ 2).sum = B at *
  have hAB : (A : ℚ) / ((counts.sum : ℚ) / counts.length) < (B : ℚ) / ((counts.sum : ℚ) / counts.length) := by linarith
  rw [div_lt_div_iff_of_pos_right (div_pos hN0 hn0), Nat.cast_lt] at hAB
  have hAB' : (A : ℚ) + 1 ≤ B := by exact_mod_cast hAB
  have e1 : (counts.length : ℚ) / counts.sum = 1 / ((counts.sum : ℚ) / counts.length) := by rw [one_div_div]
  have e2 : (A + 1 : ℚ) / ((counts.sum : ℚ) / counts.length) ≤ B / ((counts.sum : ℚ) / counts.length) :=
    div_le_div_of_nonneg_right hAB' (div_pos hN0 hn0).le
  rw [add_div] at e2
  linarith

/-- **C158.** The computed chi-square statistic is never negative; it is `nan` exactly if there are no events, like the
exact one; and it is zero exactly if all cells have the same count. -/
theorem C158_kind (S : List ℚ → ℚ) (hS : IsFloatSum S) (counts : List ℕ) (hn : counts.length ≤ 2 ^ 50)
    (hN : counts.sum ≤ 2 ^ 53) (hne : counts ≠ []) :
    (fchisquare S counts = .nan ↔ counts.sum = 0)
    ∧ (fchisquare S counts = .nan ↔ chisquare (counts.map (Nat.cast : ℕ → ℚ)) = .nan)
    ∧ ∀ y, fchisquare S counts = .fin y → 0 ≤ y ∧ (y = 0 ↔ ∀ o ∈ counts, ∀ o' ∈ counts, o = o') := by
  by_cases h0 : counts.sum = 0
  · have h1 : fchisquare S counts = .nan := by
      unfold fchisquare
      rw [if_neg hne, h0]
      simp [fdiv]
    have h2 : chisquare (counts.map (Nat.cast : ℕ → ℚ)) = .nan := by
      have hc : counts.map (Nat.cast : ℕ → ℚ) = counts.map fun _ => 0 := by
        apply List.map_congr_left
        intro a ha
        have := List.single_le_sum (l := counts) (by simp) a ha
        have : a = 0 := by omega
        simp [this]
      unfold chisquare
      rw [hc]
      simp [hne]
    rw [h1, h2]
    exact ⟨by simp [h0], by simp, fun y hy => by cases hy⟩
  · rw [float_value S counts h0, exact_value counts h0]
    refine ⟨by simp [h0], by simp, ?_⟩
    intro y hy
    injection hy with hy
    have hn0 : (0 : ℚ) < counts.length := by exact_mod_cast List.length_pos_iff.2 hne
    have hN0 : (0 : ℚ) < counts.sum := by exact_mod_cast Nat.pos_of_ne_zero h0
    obtain ⟨e, he⟩ : ∃ e, e = fl ((counts.sum : ℚ) / counts.length) := ⟨_, rfl⟩
    have he0 : 0 < e := by rw [he]; exact fl_pos (div_pos hN0 hn0)
    rw [← he] at hy
    have hterm : ∀ o : ℕ, 0 ≤ fterm e (o : ℚ) ∧ (fterm e (o : ℚ) = 0 ↔ (o : ℚ) = e) := by
      intro o
      unfold fterm fdiv fmul fsub
      refine ⟨fl_nonneg (div_nonneg (fl_nonneg (mul_self_nonneg _)) he0.le), ?_⟩
      rw [fl_eq_zero, div_eq_zero_iff, or_iff_left he0.ne', fl_eq_zero, mul_self_eq_zero, fl_eq_zero, sub_eq_zero]
    have hS' := hS (counts.map fun o : ℕ => fterm e (o : ℚ))
    have hp := pow_le counts.length hn
    have habs : (counts.map fun o : ℕ => fterm e (o : ℚ)).map abs = counts.map fun o : ℕ => fterm e (o : ℚ) := by
      rw [List.map_map]
      apply List.map_congr_left
      intro o _
      exact abs_of_nonneg (hterm o).1
    rw [habs, List.length_map, ← u_val, hy] at hS'
    have hT0 : 0 ≤ (counts.map fun o : ℕ => fterm e (o : ℚ)).sum :=
      List.sum_nonneg (by simp only [List.mem_map]; rintro x ⟨o, _, rfl⟩; exact (hterm o).1)
    have hTz : (counts.map fun o : ℕ => fterm e (o : ℚ)).sum = 0 ↔ ∀ o ∈ counts, (o : ℚ) = e := by
      constructor
      · intro hz o ho
        rw [← (hterm o).2]
        have := List.single_le_sum (l := counts.map fun o : ℕ => fterm e (o : ℚ))
          (by simp only [List.mem_map]; rintro x ⟨o, _, rfl⟩; exact (hterm o).1) _ (List.mem_map.2 ⟨o, ho, rfl⟩)
        exact le_antisymm (by linarith) (hterm o).1
      · intro hz
        apply List.sum_eq_zero
        simp only [List.mem_map]
        rintro x ⟨o, ho, rfl⟩
        exact (hterm o).2.2 (hz o ho)
    have hall : (∀ o ∈ counts, (o : ℚ) = e) ↔ ∀ o ∈ counts, ∀ o' ∈ counts, o = o' := by
      constructor
      · intro h o ho o' ho'
        have : (o : ℚ) = o' := by rw [h o ho, h o' ho']
        exact_mod_cast this
      · intro h o ho
        have hsum : counts.sum = counts.length * o := by
          have : counts = List.replicate counts.length o :=
            List.eq_replicate_iff.2 ⟨rfl, fun b hb => h b hb o ho⟩
          rw [this]
          simp
        have ho53 : o ≤ 2 ^ 53 := (List.single_le_sum (l := counts) (by simp) o ho).trans hN
        rw [he, hsum]
        push_cast
        rw [mul_div_cancel_left₀ _ hn0.ne', (isFloat_nat ho53).fl_eq]
    generalize (counts.map fun o : ℕ => fterm e (o : ℚ)).sum = T at *
    have hhalf : (1 + u) ^ counts.length - 1 ≤ 1 / 2 := by
      have : (counts.length : ℚ) ≤ 2 ^ 50 := by exact_mod_cast hn
      have : 2 * (counts.length : ℚ) * u ≤ 1 / 2 := by rw [u_val]; linarith
      linarith
    have hb := abs_le.1 (hS'.trans (mul_le_mul_of_nonneg_right hhalf hT0))
    refine ⟨by linarith [hb.1], ?_⟩
    rw [← hall, ← hTz]
    exact ⟨fun h => by linarith [hb.1, hb.2], fun h => by linarith [hb.1, hb.2]⟩

/-- **C158 (partial).** Rounding never changes a strict order: of two realisations with the same number of events in the same
number of cells (their product at most `2²³`), the one with the larger exact statistic has the larger computed one. Only
ties can be decided wrongly. -/
theorem C158_order_partial (S : List ℚ → ℚ) (hS : IsFloatSum S) (counts counts' : List ℕ) (hs : counts'.sum = counts.sum)
    (hl : counts'.length = counts.length) (hb : counts.sum * counts.length ≤ 2 ^ 23) (x y x' y' : ℚ)
    (hx : chisquare (counts.map (Nat.cast : ℕ → ℚ)) = .fin x) (hy : chisquare (counts'.map (Nat.cast : ℕ → ℚ)) = .fin y)
    (hx' : fchisquare S counts = .fin x') (hy' : fchisquare S counts' = .fin y') (h : x < y) : x' < y' := by
  by_cases hN : counts.sum = 0
  · exfalso
    by_cases hne : counts = []
    · subst hne
      obtain rfl : counts' = [] := List.length_eq_zero_iff.1 (by simpa using hl)
      rw [hx] at hy
      injection hy with hy
      exact h.ne hy
    · unfold fchisquare at hx'
      rw [if_neg hne, hN] at hx'
      simp [fdiv] at hx'
  · have hne : counts ≠ [] := by rintro rfl; simp at hN
    have hN1 : 1 ≤ counts.sum := Nat.one_le_iff_ne_zero.2 hN
    have hn1 : 1 ≤ counts.length := List.length_pos_iff.2 hne
    have hlen : counts.length ≤ 2 ^ 50 := by
      have : counts.length ≤ counts.sum * counts.length := Nat.le_mul_of_pos_left _ hN1
      have : (2 : ℕ) ^ 23 ≤ 2 ^ 50 := by norm_num
      omega
    have g := gap hN hs hl hx hy h
    have hN' : counts'.sum ≠ 0 := by rwa [hs]
    have e1 := chi_err hS counts hN hlen
    have e2 := chi_err hS counts' hN' (by rwa [hl])
    rw [float_value S counts hN] at hx'
    rw [float_value S counts' hN'] at hy'
    rw [exact_value counts hN] at hx
    rw [exact_value counts' hN'] at hy
    injection hx with hx
    injection hy with hy
    injection hx' with hx'
    injection hy' with hy'
    rw [hx, hx'] at e1
    rw [hy, hy', hs, hl] at e2
    have hNq : (1 : ℚ) ≤ counts.sum := by exact_mod_cast hN1
    have hnq : (1 : ℚ) ≤ counts.length := by exact_mod_cast hn1
    have hbq : (counts.sum : ℚ) * counts.length ≤ 2 ^ 23 := by exact_mod_cast hb
    generalize (counts.sum : ℚ) = N at *
    generalize (counts.length : ℚ) = n at *
    have hN0 : 0 < N := by linarith
    have hn0 : 0 < n := by linarith
    have key : 2 * (42 * u * (N * n ^ 3)) < n / N := by
      rw [lt_div_iff₀ hN0]
      have h1 : (N * n) ^ 2 ≤ (2 ^ 23) ^ 2 := pow_le_pow_left₀ (by positivity) hbq 2
      have h2 : 2 * (42 * u * (N * n ^ 3)) * N = 84 * u * (N * n) ^ 2 * n := by ring
      rw [h2]
      have h3 : 84 * u * (N * n) ^ 2 < 1 := by
        rw [u_val]
        linarith
      nlinarith
    have a := abs_le.1 e1
    have b := abs_le.1 e2
    linarith [a.2, b.1]

/-- **C158 (partial).** The simulated p-value is at least the one that counts the realisations with a larger exact statistic and
those with the observed count in every cell, and at most the one that counts those with a statistic at least as large. -/
theorem C158_pvalue_partial (S : List ℚ → ℚ) (hS : IsFloatSum S) (counts : List ℕ) (hN : counts.sum ≠ 0)
    (hb : counts.sum * counts.length ≤ 2 ^ 23) (sims : List (List ℕ))
    (hs : ∀ c ∈ sims, c.sum = counts.sum ∧ c.length = counts.length) :
    fpvalue (sims.filter fun c => decide (c = counts)
        || !XF.ge (chisquare (counts.map (Nat.cast : ℕ → ℚ))) (chisquare (c.map (Nat.cast : ℕ → ℚ)))).length sims.length
      ≤ fchi2RPvalue (fchisquare S counts) (sims.map (fchisquare S)) sims.length
    ∧ fchi2RPvalue (fchisquare S counts) (sims.map (fchisquare S)) sims.length
      ≤ fpvalue (sims.filter fun c => XF.ge (chisquare (c.map (Nat.cast : ℕ → ℚ))) (chisquare (counts.map (Nat.cast : ℕ → ℚ)))).length
        sims.length := by
  have mono : ∀ {a b : ℕ}, a ≤ b → fpvalue a sims.length ≤ fpvalue b sims.length := by
    intro a b hab
    apply fl_mono
    apply div_le_div_of_nonneg_right _ (by positivity)
    have : (a : ℚ) ≤ b := by exact_mod_cast hab
    linarith
  unfold fchi2RPvalue
  rw [List.filter_map, List.length_map]
  have count : ∀ p q : List ℕ → Bool, (∀ c ∈ sims, p c = true → q c = true) → (sims.filter p).length ≤ (sims.filter q).length := by
    intro p q h
    rw [← List.countP_eq_length_filter, ← List.countP_eq_length_filter]
    exact List.countP_mono_left h
  have ordered := C158_order_partial S hS
  obtain ⟨x, hx⟩ : ∃ x, chisquare (counts.map (Nat.cast : ℕ → ℚ)) = .fin x := ⟨_, exact_value counts hN⟩
  obtain ⟨x', hx'⟩ : ∃ x', fchisquare S counts = .fin x' := ⟨_, float_value S counts hN⟩
  rw [hx, hx']
  constructor
  · apply mono
    apply count
    intro c hc h
    obtain ⟨c1, c2⟩ := hs c hc
    have hNc : c.sum ≠ 0 := by rwa [c1]
    obtain ⟨y, hy⟩ : ∃ y, chisquare (c.map (Nat.cast : ℕ → ℚ)) = .fin y := ⟨_, exact_value c hNc⟩
    obtain ⟨y', hy'⟩ : ∃ y', fchisquare S c = .fin y' := ⟨_, float_value S c hNc⟩
    rw [hy] at h
    simp only [XF.ge, Bool.or_eq_true, decide_eq_true_eq, Bool.not_eq_true', decide_eq_false_iff_not, not_le] at h
    rcases h with rfl | h
    · simp [Function.comp, hx', XF.ge]
    have := ordered counts c c1 c2 hb x y x' y' hx hy hx' hy' h
    simp only [Function.comp, hy', XF.ge, decide_eq_true_eq]
    exact this.le
  · apply mono
    apply count
    intro c hc h
    obtain ⟨c1, c2⟩ := hs c hc
    have hNc : c.sum ≠ 0 := by rwa [c1]
    obtain ⟨y, hy⟩ : ∃ y, chisquare (c.map (Nat.cast : ℕ → ℚ)) = .fin y := ⟨_, exact_value c hNc⟩
    obtain ⟨y', hy'⟩ : ∃ y', fchisquare S c = .fin y' := ⟨_, float_value S c hNc⟩
    simp only [Function.comp, hy', XF.ge, decide_eq_true_eq] at h
    rw [hy]
    simp only [XF.ge, decide_eq_true_eq]
    by_contra hlt
    exact absurd h (not_le.2 (ordered c counts c1.symm c2.symm (by rwa [c1, c2]) y x y' x' hy hx hy' hx' (not_le.1 hlt)))

/-- **C158, refuted.** Eight events in three cells, and their mirror image: five, none and three events, or three, none and five.
The exact statistics are equal (19/4), but the computed one of the mirror image is smaller, so that a realisation that is the
mirror image of the observed pattern is not counted, and the p-value is 1/2 instead of 1. -/
theorem C158_ties_refuted :
    ∃ (points mirror : List (ℚ × ℚ)) (d d' : Dict),
      mirror = points.map (fun p => (3 - p.1, p.2))
      ∧ (rectInit points 3 1 0 0).bind rectCounts = .ok d ∧ (rectInit mirror 3 1 0 0).bind rectCounts = .ok d'
      ∧ chisquare (d.values.map (Nat.cast : ℕ → ℚ)) = .fin (19 / 4) ∧ chisquare (d'.values.map (Nat.cast : ℕ → ℚ)) = .fin (19 / 4)
      ∧ XF.ge (fchisquare fsum d'.values) (fchisquare fsum d.values) = false
      ∧ chi2RPvalue (chisquare (d.values.map (Nat.cast : ℕ → ℚ))) [chisquare (d'.values.map (Nat.cast : ℕ → ℚ))] 1 = 1
      ∧ fchi2RPvalue (fchisquare fsum d.values) [fchisquare fsum d'.values] 1 = 1 / 2 := by
  refine ⟨[(0, 0), (0, 1), (1/2, 0), (1/2, 1), (1/4, 1/2), (3, 0), (3, 1), (5/2, 1/2)], _, [(0, 5), (1, 0), (2, 3)],
    [(0, 3), (1, 0), (2, 5)], rfl, ?_⟩
  decide +kernel

/-- Adding from left to right is a sum in floating point arithmetic, and eight events in three cells are few enough. -/
example : IsFloatSum fsum ∧ [5, 0, 3].sum * [5, 0, 3].length ≤ 2 ^ 23
    ∧ chisquare ([5, 0, 3].map (Nat.cast : ℕ → ℚ)) = .fin (19 / 4) ∧ chisquare ([4, 0, 4].map (Nat.cast : ℕ → ℚ)) = .fin 4
    ∧ XF.ge (fchisquare fsum [5, 0, 3]) (fchisquare fsum [4, 0, 4]) = true
    ∧ XF.ge (fchisquare fsum [4, 0, 4]) (fchisquare fsum [5, 0, 3]) = false := by
  refine ⟨fsum_err, ?_⟩
  decide +kernel

end Pointpats.Props
