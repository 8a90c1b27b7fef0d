import Verif.Model.MedianWarning
import Verif.Props.Centers

/-!
# C174: when the Manhattan median is unique, and what its warning says
-/

set_option linter.unusedSectionVars false

namespace Pointpats.Props

open Spec Centrography

variable {K : Type} [Field K] [LinearOrder K] [IsStrictOrderedRing K]

/-! ### One axis -/

private def dev (l : List K) (q : K) : K := (l.map fun a => |a - q|).sum

private theorem countP_pair (l : List K) (q : K) :
    l.countP (fun a => decide (a ≤ q)) + l.countP (fun a => decide (q < a)) = l.length := by
  rw [List.length_eq_countP_add_countP (fun a => decide (a ≤ q))]
  congr 1
  exact List.countP_congr (by simp)

/-- Moving to the right costs one for every number left behind and saves at most one for every number ahead. -/
private theorem dev_step (l : List K) {q r : K} (h : q ≤ r) :
    (r - q) * ((l.length : K) - 2 * (l.countP (fun a => decide (q < a)) : K)) ≤ dev l r - dev l q := by
  induction l with
  | nil => simp [dev]
  | cons a l ih =>
    simp only [dev, List.map_cons, List.sum_cons, List.length_cons, List.countP_cons] at ih ⊢
    push_cast
    by_cases ha : q < a
    · have : -(r - q) ≤ |a - r| - |a - q| := by
        rw [abs_of_pos (show 0 < a - q by linarith)]
        linarith [le_abs_self (a - r)]
      simp only [ha, decide_true, if_true]
      linarith
    · have : r - q ≤ |a - r| - |a - q| := by
        rw [abs_of_nonpos (show a - q ≤ 0 by linarith), abs_of_nonpos (show a - r ≤ 0 by linarith)]
        linarith
      simp only [ha, decide_false]
      simp only [Bool.false_eq_true, if_false]
      linarith

/-- The saving is exact as long as no number is passed. -/
private theorem dev_step_eq (l : List K) {q r : K} (h : q ≤ r) (hg : ∀ a ∈ l, q < a → r ≤ a) :
    (r - q) * ((l.length : K) - 2 * (l.countP (fun a => decide (q < a)) : K)) = dev l r - dev l q := by
  induction l with
  | nil => simp [dev]
  | cons a l ih =>
    have ih := ih fun b hb => hg b (List.mem_cons_of_mem _ hb)
    simp only [dev, List.map_cons, List.sum_cons, List.length_cons, List.countP_cons] at ih ⊢
    push_cast
    by_cases ha : q < a
    · have hr := hg a List.mem_cons_self ha
      have : -(r - q) = |a - r| - |a - q| := by
        rw [abs_of_pos (show 0 < a - q by linarith), abs_of_nonneg (show 0 ≤ a - r by linarith)]
        ring
      simp only [ha, decide_true, if_true]
      linarith
    · have : r - q = |a - r| - |a - q| := by
        rw [abs_of_nonpos (show a - q ≤ 0 by linarith), abs_of_nonpos (show a - r ≤ 0 by linarith)]
        ring
      simp only [ha, decide_false]
      simp only [Bool.false_eq_true, if_false]
      linarith

private theorem dev_neg (l : List K) (q : K) : dev (l.map fun a => -a) (-q) = dev l q := by
  simp only [dev, List.map_map, Function.comp_def]
  congr 2
  funext a
  rw [show -a - -q = -(a - q) by ring, abs_neg]

private theorem count_neg (l : List K) (q : K) :
    (l.map fun a => -a).countP (fun a => decide (-q < a)) = l.countP (fun a => decide (a < q)) := by
  rw [List.countP_map]
  exact List.countP_congr (by simp)

/-- The next number to the right. -/
private theorem exists_next (l : List K) (q : K) : ∃ r, q < r ∧ ∀ a ∈ l, q < a → r ≤ a := by
  induction l with
  | nil => exact ⟨q + 1, by linarith, by simp⟩
  | cons a l ih =>
    obtain ⟨r, h1, h2⟩ := ih
    by_cases ha : q < a
    · refine ⟨min r a, lt_min h1 ha, fun b hb hq => ?_⟩
      rcases List.mem_cons.1 hb with rfl | hb
      · exact min_le_right _ _
      · exact le_trans (min_le_left _ _) (h2 b hb hq)
    · refine ⟨r, h1, fun b hb hq => ?_⟩
      rcases List.mem_cons.1 hb with rfl | hb
      · exact absurd hq ha
      · exact h2 b hb hq

private theorem dev_min_right (l : List K) (q : K) :
    (∀ r, q ≤ r → dev l q ≤ dev l r) ↔ 2 * l.countP (fun a => decide (q < a)) ≤ l.length := by
  constructor
  · intro h
    obtain ⟨r, h1, h2⟩ := exists_next l q
    have e := dev_step_eq l h1.le h2
    have := h r h1.le
    have h3 : 0 ≤ (l.length : K) - 2 * (l.countP (fun a => decide (q < a)) : K) := by
      by_contra hneg
      have := mul_neg_of_pos_of_neg (sub_pos.2 h1) (not_le.1 hneg)
      linarith
    have h4 : ((2 * l.countP (fun a => decide (q < a)) : ℕ) : K) ≤ (l.length : K) := by push_cast; linarith
    exact_mod_cast h4
  · intro h r hr
    have e := dev_step l hr
    have h4 : ((2 * l.countP (fun a => decide (q < a)) : ℕ) : K) ≤ (l.length : K) := by exact_mod_cast h
    push_cast at h4
    have := mul_nonneg (sub_nonneg.2 hr) (sub_nonneg.2 h4)
    linarith

private theorem dev_min_left (l : List K) (q : K) :
    (∀ r, r ≤ q → dev l q ≤ dev l r) ↔ 2 * l.countP (fun a => decide (a < q)) ≤ l.length := by
  have := dev_min_right (l.map fun a => -a) (-q)
  rw [count_neg, List.length_map] at this
  rw [← this]
  constructor
  · intro h r hr
    have := h (-r) (by linarith)
    rw [← dev_neg l q, ← dev_neg l (-r), neg_neg] at this
    exact this
  · intro h r hr
    have := h (-r) (by linarith)
    rwa [dev_neg, dev_neg] at this

private theorem dev_min (l : List K) (q : K) : (∀ r, dev l q ≤ dev l r) ↔
    2 * l.countP (fun a => decide (a < q)) ≤ l.length ∧ 2 * l.countP (fun a => decide (q < a)) ≤ l.length := by
  rw [← dev_min_left, ← dev_min_right]
  exact ⟨fun h => ⟨fun r _ => h r, fun r _ => h r⟩, fun h r => (le_total r q).elim (h.1 r) (h.2 r)⟩

/-- Two minimisers leave exactly half of the numbers on either side of them. -/
private theorem two_minimisers (l : List K) {q r : K} (hlt : q < r) (hq : ∀ x, dev l q ≤ dev l x) (hr : ∀ x, dev l r ≤ dev l x) :
    2 * l.countP (fun a => decide (q < a)) = l.length ∧ 2 * l.countP (fun a => decide (a < r)) = l.length := by
  have main : ∀ (l : List K) {q r : K}, q < r → (∀ x, dev l q ≤ dev l x) → (∀ x, dev l r ≤ dev l x) →
      2 * l.countP (fun a => decide (q < a)) = l.length := by
    intro l q r hlt hq hr
    refine le_antisymm ((dev_min l q).1 hq).2 ?_
    have e := dev_step l hlt.le
    have := hr q
    have h3 : (l.length : K) - 2 * (l.countP (fun a => decide (q < a)) : K) ≤ 0 := by
      by_contra hpos
      have := mul_pos (sub_pos.2 hlt) (not_le.1 hpos)
      linarith
    have h4 : (l.length : K) ≤ ((2 * l.countP (fun a => decide (q < a)) : ℕ) : K) := by push_cast; linarith
    exact_mod_cast h4
  refine ⟨main l hlt hq hr, ?_⟩
  have := main (l.map fun a => -a) (neg_lt_neg hlt) (fun x => by rw [dev_neg, ← neg_neg x, dev_neg]; exact hr _)
    (fun x => by rw [dev_neg, ← neg_neg x, dev_neg]; exact hq _)
  rwa [count_neg, List.length_map] at this

private theorem countP_pair' (l : List K) (q : K) :
    l.countP (fun a => decide (a < q)) + l.countP (fun a => decide (q ≤ a)) = l.length := by
  rw [List.length_eq_countP_add_countP (fun a => decide (a < q))]
  congr 1
  exact List.countP_congr (by simp)

/-- Another minimiser exists exactly if some value has half of the numbers on its left and half on its right. -/
private theorem other_minimiser (l : List K) {m : K} (hm : ∀ x, dev l m ≤ dev l x) :
    (∃ q, q ≠ m ∧ ∀ x, dev l q ≤ dev l x) ↔
      ∃ c, 2 * l.countP (fun a => decide (a < c)) = l.length ∧ 2 * l.countP (fun a => decide (c < a)) = l.length := by
  constructor
  · have main : ∀ q r : K, q < r → (∀ x, dev l q ≤ dev l x) → (∀ x, dev l r ≤ dev l x) →
        ∃ c, 2 * l.countP (fun a => decide (a < c)) = l.length ∧ 2 * l.countP (fun a => decide (c < a)) = l.length := by
      intro q r hlt hq hr
      obtain ⟨h1, h2⟩ := two_minimisers l hlt hq hr
      refine ⟨(q + r) / 2, ?_⟩
      have hc1 : q < (q + r) / 2 := by linarith
      have hc2 : (q + r) / 2 < r := by linarith
      have e1 := countP_pair l q
      have e2 := countP_pair' l r
      have i1 : l.countP (fun a => decide (a ≤ q)) ≤ l.countP (fun a => decide (a < (q + r) / 2)) :=
        List.countP_mono_left fun a _ h => by
          simp only [decide_eq_true_eq] at h ⊢
          linarith
      have i2 : l.countP (fun a => decide (r ≤ a)) ≤ l.countP (fun a => decide ((q + r) / 2 < a)) :=
        List.countP_mono_left fun a _ h => by
          simp only [decide_eq_true_eq] at h ⊢
          linarith
      have e3 := countP_pair l ((q + r) / 2)
      have i3 : l.countP (fun a => decide (a < (q + r) / 2)) ≤ l.countP (fun a => decide (a ≤ (q + r) / 2)) :=
        List.countP_mono_left fun a _ h => by
          simp only [decide_eq_true_eq] at h ⊢
          linarith
      omega
    rintro ⟨q, hqm, hq⟩
    rcases lt_or_gt_of_ne hqm with h | h
    · exact main q m h hq hm
    · exact main m q h hm hq
  · rintro ⟨c, h1, h2⟩
    have hc : ∀ x, dev l c ≤ dev l x := (dev_min l c).2 ⟨h1.le, h2.le⟩
    obtain ⟨r, hr1, hr2⟩ := exists_next l c
    have e := dev_step_eq l hr1.le hr2
    have hz : (l.length : K) - 2 * (l.countP (fun a => decide (c < a)) : K) = 0 := by
      rw [sub_eq_zero]
      exact_mod_cast h2.symm
    rw [hz, mul_zero] at e
    have hr : ∀ x, dev l r ≤ dev l x := fun x => by rw [show dev l r = dev l c by linarith]; exact hc x
    by_cases hcm : c = m
    · exact ⟨r, by rw [← hcm]; exact hr1.ne', hr⟩
    · exact ⟨c, hcm, hc⟩

/-! ### Two axes -/

private theorem sumManhattan_dev (points : List (K × K)) (q : K × K) :
    sumManhattan points q = dev (points.map Prod.fst) q.1 + dev (points.map Prod.snd) q.2 := by
  unfold sumManhattan manhattan dev
  induction points with
  | nil => simp
  | cons p ps ih =>
    simp only [List.map_cons, List.sum_cons]
    rw [ih]
    ring

private theorem sum_min (points : List (K × K)) (q : K × K) : (∀ r, sumManhattan points q ≤ sumManhattan points r) ↔
    (∀ x, dev (points.map Prod.fst) q.1 ≤ dev (points.map Prod.fst) x)
      ∧ ∀ y, dev (points.map Prod.snd) q.2 ≤ dev (points.map Prod.snd) y := by
  simp only [sumManhattan_dev]
  constructor
  · intro h
    exact ⟨fun x => by have := h (x, q.2); simpa using this, fun y => by have := h (q.1, y); simpa using this⟩
  · rintro ⟨h1, h2⟩ r
    exact add_le_add (h1 _) (h2 _)

/-- **C174, all medians.** A location has the smallest total Manhattan distance to the events exactly if at most half of the events
are strictly on its left, on its right, below and above it. -/
theorem C174_minimisers (points : List (K × K)) (q : K × K) : (∀ r, sumManhattan points q ≤ sumManhattan points r) ↔
    2 * points.countP (fun p => decide (p.1 < q.1)) ≤ points.length
      ∧ 2 * points.countP (fun p => decide (q.1 < p.1)) ≤ points.length
      ∧ 2 * points.countP (fun p => decide (p.2 < q.2)) ≤ points.length
      ∧ 2 * points.countP (fun p => decide (q.2 < p.2)) ≤ points.length := by
  rw [sum_min, dev_min, dev_min]
  simp only [List.countP_map, List.length_map, Function.comp_def]
  tauto

private theorem ties (points : List (K × K)) (hne : points ≠ []) :
    (∃ q, q ≠ (manhattanMedianCall points).1 ∧ sumManhattan points q = sumManhattan points (manhattanMedianCall points).1) ↔
      (∃ c, 2 * points.countP (fun p => decide (p.1 < c)) = points.length
          ∧ 2 * points.countP (fun p => decide (c < p.1)) = points.length)
        ∨ ∃ c, 2 * points.countP (fun p => decide (p.2 < c)) = points.length
          ∧ 2 * points.countP (fun p => decide (c < p.2)) = points.length := by
  have hmin : ∀ r, sumManhattan points (manhattanMedian points) ≤ sumManhattan points r := C26_manhattan_median points hne
  obtain ⟨hx, hy⟩ := (sum_min points _).1 hmin
  have ox := other_minimiser (points.map Prod.fst) hx
  have oy := other_minimiser (points.map Prod.snd) hy
  simp only [List.countP_map, List.length_map, Function.comp_def] at ox oy
  rw [← ox, ← oy]
  simp only [manhattanMedianCall]
  constructor
  · rintro ⟨q, hq, e⟩
    obtain ⟨qx, qy⟩ := (sum_min points q).1 fun r => by rw [e]; exact hmin r
    by_cases h1 : q.1 = (manhattanMedian points).1
    · exact Or.inr ⟨q.2, fun h2 => hq (Prod.ext h1 h2), qy⟩
    · exact Or.inl ⟨q.1, h1, qx⟩
  · rintro (⟨x, h1, h2⟩ | ⟨y, h1, h2⟩)
    · refine ⟨(x, (manhattanMedian points).2), fun h => h1 (congrArg Prod.fst h), ?_⟩
      rw [sumManhattan_dev, sumManhattan_dev]
      exact congrArg (· + _) (le_antisymm (h2 _) (hx _))
    · refine ⟨((manhattanMedian points).1, y), fun h => h1 (congrArg Prod.snd h), ?_⟩
      rw [sumManhattan_dev, sumManhattan_dev]
      exact congrArg (_ + ·) (le_antisymm (h2 _) (hy _))

/-- **C174, silence.** If `manhattan_median` does not warn, every other location has a larger total Manhattan distance to the
events. -/
theorem C174_silence (points : List (K × K)) (hw : (manhattanMedianCall points).2 = false) (q : K × K)
    (hq : q ≠ (manhattanMedianCall points).1) :
    sumManhattan points (manhattanMedianCall points).1 < sumManhattan points q := by
  have hodd : points.length % 2 ≠ 0 := by simpa [manhattanMedianCall] using hw
  have hne : points ≠ [] := by rintro rfl; simp at hodd
  refine lt_of_le_of_ne (C26_manhattan_median points hne q) fun e => ?_
  rcases (ties points hne).1 ⟨q, hq, e.symm⟩ with ⟨c, h, -⟩ | ⟨c, h, -⟩ <;> omega

/-- **C174 (partial).** Another location is as good as the one returned exactly if some vertical or some horizontal line that meets
no event has half of the events on either side; the call then warns. Missing: a warning only in this case, which
`C174_warning_refuted` shows to be false. -/
theorem C174_warning_partial (points : List (K × K)) (hne : points ≠ []) :
    ((∃ q, q ≠ (manhattanMedianCall points).1 ∧ sumManhattan points q = sumManhattan points (manhattanMedianCall points).1) ↔
      (∃ c, 2 * points.countP (fun p => decide (p.1 < c)) = points.length
          ∧ 2 * points.countP (fun p => decide (c < p.1)) = points.length)
        ∨ ∃ c, 2 * points.countP (fun p => decide (p.2 < c)) = points.length
          ∧ 2 * points.countP (fun p => decide (c < p.2)) = points.length)
    ∧ ((∃ q, q ≠ (manhattanMedianCall points).1 ∧ sumManhattan points q = sumManhattan points (manhattanMedianCall points).1) →
      (manhattanMedianCall points).2 = true) := by
  refine ⟨ties points hne, fun ⟨q, hq, e⟩ => ?_⟩
  by_contra hw
  exact absurd e (C174_silence points (by simpa using hw) q hq).ne'

/-- **C174 (refuted).** Four events for which the call warns that the median is not unique, although every other location has a
larger total distance. -/
theorem C174_warning_refuted : ∃ points : List (ℚ × ℚ), (manhattanMedianCall points).2 = true
    ∧ ∀ q, q ≠ (manhattanMedianCall points).1 → sumManhattan points (manhattanMedianCall points).1 < sumManhattan points q := by
  refine ⟨[(-1, -2), (0, 0), (0, 0), (3, 1)], by decide +kernel, fun q hq => ?_⟩
  refine lt_of_le_of_ne (C26_manhattan_median _ (by simp) q) fun e => ?_
  have key : ∀ a b c : ℚ, a < 0 → 0 < b → ¬ (2 * ([a, 0, 0, b].countP fun x => decide (x < c)) = 4
      ∧ 2 * ([a, 0, 0, b].countP fun x => decide (c < x)) = 4) := by
    intro a b c ha hb ⟨h1, h2⟩
    simp only [List.countP_cons, List.countP_nil, decide_eq_true_eq] at h1 h2
    rcases lt_trichotomy c 0 with h | h | h
    · rw [if_neg (by linarith : ¬ b < c), if_neg (by linarith : ¬ (0 : ℚ) < c)] at h1
      split at h1 <;> omega
    · subst h
      simp [ha, hb.not_gt] at h1
    · rw [if_neg (by linarith : ¬ c < a), if_neg (by linarith : ¬ c < (0 : ℚ))] at h2
      split at h2 <;> omega
  rcases (ties _ (by simp)).1 ⟨q, hq, e.symm⟩ with ⟨c, h1, h2⟩ | ⟨c, h1, h2⟩
  · exact key (-1) 3 c (by norm_num) (by norm_num) ⟨by simpa [List.countP_cons] using h1, by simpa [List.countP_cons] using h2⟩
  · exact key (-2) 1 c (by norm_num) (by norm_num) ⟨by simpa [List.countP_cons] using h1, by simpa [List.countP_cons] using h2⟩

/-- Non-vacuity: four events with a tie, of which the call warns, and three without, of which it does not. -/
example : manhattanMedianCall [((0 : ℚ), (0 : ℚ)), (3, 1), (1, 6), (10, 2)] = ((2, 3 / 2), true)
    ∧ sumManhattan [((0 : ℚ), (0 : ℚ)), (3, 1), (1, 6), (10, 2)] (1, 2) = sumManhattan [((0 : ℚ), (0 : ℚ)), (3, 1), (1, 6), (10, 2)] (2, 3 / 2)
    ∧ manhattanMedianCall [((0 : ℚ), (0 : ℚ)), (3, 1), (1, 6)] = ((1, 1), false) := by decide +kernel

end Pointpats.Props
