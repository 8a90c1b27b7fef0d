import Verif.Model.Quadrat
import Mathlib.Algebra.BigOperators.Group.List.Lemmas
import Mathlib.Algebra.Order.BigOperators.Group.List
import Mathlib.Algebra.BigOperators.Ring.List
import Mathlib.Tactic.Linarith
import Mathlib.Tactic.Ring
import Mathlib.Tactic.FieldSimp
import Mathlib.Tactic.Positivity
import Mathlib.Data.Rat.Floor

/-!
# C54: the chi-square statistic of quadrat counts
-/

namespace Pointpats.Props

open Quadrat

variable {K : Type} [Field K] [LinearOrder K] [IsStrictOrderedRing K]

omit [LinearOrder K] [IsStrictOrderedRing K] in
private theorem sum_sq_dev (l : List K) (e : K) :
    (l.map fun o => (o - e) ^ 2).sum
      = (l.map fun o => o ^ 2).sum - 2 * e * l.sum + (l.length : K) * e ^ 2 := by
  induction l with
  | nil => simp
  | cons a l ih => simp only [List.map_cons, List.sum_cons, List.length_cons, ih]; push_cast; ring

private theorem sum_sq_le_sq_sum (l : List K) (h : ∀ o ∈ l, 0 ≤ o) :
    (l.map fun o => o ^ 2).sum ≤ l.sum ^ 2 := by
  induction l with
  | nil => simp
  | cons a l ih =>
    have ha : 0 ≤ a := h a (by simp)
    have hl : 0 ≤ l.sum := List.sum_nonneg fun x hx => h x (by simp [hx])
    have := ih fun x hx => h x (by simp [hx])
    simp only [List.map_cons, List.sum_cons]
    nlinarith [mul_nonneg ha hl]

/-- **C54.** For every list of at least one cell counts (non-negative numbers with a positive total
`n`), with `k` cells: the chi-square statistic is a finite number `c` which is the sum of the reported
per-cell contributions `(o - n/k)² / (n/k)`; it equals `k/n Σ o² - n`; it is non-negative, zero exactly
if all counts are equal, and at most `n (k - 1)`; the degrees of freedom are `k - 1`. -/
theorem C54_chi_square (counts : List K) (hnn : ∀ o ∈ counts, 0 ≤ o) (hpos : 0 < counts.sum) :
    ∃ c, chisquare counts = .fin c
      ∧ chi2Contrib counts = counts.map (fun o =>
          .fin ((o - counts.sum / counts.length) ^ 2 / (counts.sum / counts.length)))
      ∧ c = (counts.map fun o =>
          (o - counts.sum / counts.length) ^ 2 / (counts.sum / counts.length)).sum
      ∧ c = (counts.length : K) / counts.sum * (counts.map fun o => o ^ 2).sum - counts.sum
      ∧ 0 ≤ c
      ∧ (c = 0 ↔ ∀ o ∈ counts, ∀ o' ∈ counts, o = o')
      ∧ c ≤ counts.sum * ((counts.length : K) - 1)
      ∧ df counts = (counts.length : ℤ) - 1 := by
  have hne : counts ≠ [] := by rintro rfl; simp at hpos
  have hk : (0 : K) < (counts.length : K) := by
    have : 0 < counts.length := List.length_pos_of_ne_nil hne
    exact_mod_cast this
  have he : 0 < counts.sum / (counts.length : K) := div_pos hpos hk
  set e := counts.sum / (counts.length : K) with hedef
  have hsum : counts.sum = (counts.length : K) * e := by rw [hedef]; field_simp
  have hc1 : (counts.map fun o => (o - e) ^ 2 / e).sum = (counts.map fun o => (o - e) ^ 2).sum / e := by
    simp only [div_eq_mul_inv]; rw [List.sum_map_mul_right]
  have hc2 : (counts.map fun o => (o - e) ^ 2 / e).sum
      = (counts.length : K) / counts.sum * (counts.map fun o => o ^ 2).sum - counts.sum := by
    rw [hc1, sum_sq_dev, hsum]
    field_simp
    ring
  refine ⟨(counts.map fun o => (o - e) ^ 2 / e).sum, ?_, ?_, rfl, hc2, ?_, ?_, ?_, rfl⟩
  · simp only [chisquare]; rw [if_neg hne, ← hedef, if_neg he.ne']
  · simp only [chi2Contrib]; rw [← hedef, if_pos ⟨hne, he⟩]
  · apply List.sum_nonneg
    intro x hx
    obtain ⟨o, _, rfl⟩ := List.mem_map.1 hx
    positivity
  · constructor
    · intro h0
      have hall : ∀ o ∈ counts, o = e := by
        intro o ho
        have hx : (o - e) ^ 2 / e ∈ counts.map fun o => (o - e) ^ 2 / e := List.mem_map.2 ⟨o, ho, rfl⟩
        have hle : (o - e) ^ 2 / e ≤ (counts.map fun o => (o - e) ^ 2 / e).sum := by
          apply List.single_le_sum _ _ hx
          intro x hx
          obtain ⟨o, _, rfl⟩ := List.mem_map.1 hx
          positivity
        have h1 : (o - e) ^ 2 / e = 0 := le_antisymm (h0 ▸ hle) (by positivity)
        rw [div_eq_zero_iff] at h1
        rcases h1 with h1 | h1
        · exact sub_eq_zero.1 (pow_eq_zero_iff (two_ne_zero) |>.1 h1)
        · exact absurd h1 he.ne'
      intro o ho o' ho'
      rw [hall o ho, hall o' ho']
    · intro hall
      obtain ⟨a, l, rfl⟩ := List.exists_cons_of_ne_nil hne
      have hrep : a :: l = List.replicate (a :: l).length a :=
        List.eq_replicate_iff.2 ⟨rfl, fun b hb => hall b hb a (by simp)⟩
      have hea : e = a := by
        have : (a :: l).sum = ((a :: l).length : K) * a := by
          rw [hrep, List.sum_replicate, List.length_replicate]; simp
        rw [hedef, this, mul_div_cancel_left₀ _ hk.ne']
      have : ∀ x ∈ (a :: l).map (fun o => (o - e) ^ 2 / e), x = 0 := by
        intro x hx
        obtain ⟨o, ho, rfl⟩ := List.mem_map.1 hx
        rw [hall o ho a (by simp), hea]; simp
      exact List.sum_eq_zero this
  · rw [hc2]
    have h1 := sum_sq_le_sq_sum counts hnn
    have h2 : (counts.length : K) / counts.sum * (counts.map fun o => o ^ 2).sum
        ≤ (counts.length : K) / counts.sum * counts.sum ^ 2 :=
      mul_le_mul_of_nonneg_left h1 (div_nonneg hk.le hpos.le)
    have h3 : (counts.length : K) / counts.sum * counts.sum ^ 2 = counts.length * counts.sum := by
      field_simp
    linarith

omit [IsStrictOrderedRing K] in
/-- **C54, relabelling.** The statistic does not depend on the order in which the cells are listed. -/
theorem C54_chi_square_perm (counts counts' : List K) (h : counts.Perm counts') :
    chisquare counts = chisquare counts' := by
  have h1 := h.sum_eq
  have h2 := h.length_eq
  unfold chisquare
  simp only [h1, h2]
  by_cases hn : counts = []
  · subst hn; rw [List.nil_perm] at h; subst h; rfl
  · have hn' : counts' ≠ [] := by rintro rfl; exact hn (List.perm_nil.1 h)
    rw [if_neg hn, if_neg hn']
    split
    · rfl
    · rw [(h.map _).sum_eq]

/-- Non-vacuity: counts 1, 2, 6 give chi-square 14/3. -/
example : chisquare [(1 : ℚ), 2, 6] = .fin (14 / 3) := by decide +kernel
example : (∀ o ∈ [(1 : ℚ), 2, 6], 0 ≤ o) ∧ 0 < [(1 : ℚ), 2, 6].sum := by decide +kernel

end Pointpats.Props
