import Verif.Lemmas.Circumcircle
import Mathlib.Data.Finset.Max
import Mathlib.Data.Finset.Prod

/-!
# The largest circle through three consecutive vertices of a convex polygon
-/

namespace Pointpats.Circ

open Spec

/-- The indices are met in this order on the way around. -/
def Cyc (i j k : ℕ) : Prop := (i < j ∧ j < k) ∨ (j < k ∧ k < i) ∨ (k < i ∧ i < j)

/-- The next index on the way around. -/
def nxt (n i : ℕ) : ℕ := if i + 1 < n then i + 1 else 0

/-- The previous index on the way around. -/
def prv (n i : ℕ) : ℕ := if i = 0 then n - 1 else i - 1

/-- The vertices `v 0 … v (n-1)` of a strictly convex polygon, clockwise. -/
def Ring (v : ℕ → ℝ × ℝ) (n : ℕ) : Prop := ∀ i j k, i < j → j < k → k < n → 0 < clockwiseTurn (v i) (v j) (v k)

theorem nxt_cases {n i : ℕ} (h : i < n) : (i + 1 < n ∧ nxt n i = i + 1) ∨ (i + 1 = n ∧ nxt n i = 0) := by
  unfold nxt; split_ifs <;> omega

theorem prv_cases (n i : ℕ) : (i = 0 ∧ prv n i = n - 1) ∨ (0 < i ∧ prv n i = i - 1) := by
  unfold prv; split_ifs <;> omega

theorem prv_nxt {n i : ℕ} (h : i < n) : prv n (nxt n i) = i := by
  have h1 := nxt_cases h
  have h2 := prv_cases n (nxt n i)
  omega

theorem nxt_prv {n i : ℕ} (h : i < n) : nxt n (prv n i) = i := by
  have h2 := prv_cases n i
  have h1 := nxt_cases (n := n) (i := prv n i) (by omega)
  omega

theorem nxt_lt {n i : ℕ} (h : i < n) : nxt n i < n := by
  have h1 := nxt_cases h
  omega

theorem prv_lt {n i : ℕ} (h : i < n) : prv n i < n := by
  have h1 := prv_cases n i
  omega

theorem cyc_prv_nxt {n i : ℕ} (hn : 3 ≤ n) (h : i < n) : Cyc (prv n i) i (nxt n i) := by
  have h1 := nxt_cases h
  have h2 := prv_cases n i
  unfold Cyc; omega

theorem Cyc.rot {i j k : ℕ} (h : Cyc i j k) : Cyc j k i := by unfold Cyc at *; omega

theorem Ring.pos {v : ℕ → ℝ × ℝ} {n : ℕ} (h : Ring v n) {i j k : ℕ} (hi : i < n) (hj : j < n) (hk : k < n)
    (hc : Cyc i j k) : 0 < clockwiseTurn (v i) (v j) (v k) := by
  rcases hc with ⟨a, b⟩ | ⟨a, b⟩ | ⟨a, b⟩
  · exact h i j k a b hk
  · rw [turn_cyc]; exact h j k i a b hi
  · rw [turn_cyc, turn_cyc]; exact h k i j a b hj

theorem sqDist_pos_of_turn {x y z : ℝ × ℝ} (h : clockwiseTurn x y z ≠ 0) : 0 < planeSqDist y z := by
  rcases (sqDist_nonneg y z).lt_or_eq with h' | h'
  · exact h'
  · exfalso
    unfold planeSqDist at h'
    have h1 : y.1 - z.1 = 0 := by nlinarith [sq_nonneg (y.1 - z.1), sq_nonneg (y.2 - z.2)]
    have h2 : y.2 - z.2 = 0 := by nlinarith [sq_nonneg (y.1 - z.1), sq_nonneg (y.2 - z.2)]
    apply h
    unfold clockwiseTurn
    rw [sub_eq_zero.1 h1, sub_eq_zero.1 h2]
    ring

theorem Ring.sqDist_pos {v : ℕ → ℝ × ℝ} {n : ℕ} (h : Ring v n) (hn : 3 ≤ n) {i j : ℕ} (hi : i < n) (hj : j < n)
    (hij : i ≠ j) : 0 < planeSqDist (v i) (v j) := by
  obtain ⟨k, hk, hki, hkj⟩ : ∃ k < n, k ≠ i ∧ k ≠ j := by
    by_cases h0 : 0 ≠ i ∧ 0 ≠ j
    · exact ⟨0, by omega, h0⟩
    · by_cases h1 : 1 ≠ i ∧ 1 ≠ j
      · exact ⟨1, by omega, h1⟩
      · exact ⟨2, by omega, by omega, by omega⟩
  have : Cyc k i j ∨ Cyc k j i := by unfold Cyc; omega
  rcases this with hc | hc
  · exact sqDist_pos_of_turn (h.pos hk hi hj hc).ne'
  · rw [sqDist_comm]; exact sqDist_pos_of_turn (h.pos hk hj hi hc).ne'

theorem on_circle {x y z : ℝ × ℝ} (h : clockwiseTurn x y z ≠ 0) :
    planeSqDist (cc x y z) x = r2 x y z ∧ planeSqDist (cc x y z) y = r2 x y z ∧ planeSqDist (cc x y z) z = r2 x y z := by
  refine ⟨sq_cc h, ?_, ?_⟩
  · rw [cc_cyc, r2_cyc]; exact sq_cc (by rwa [← turn_cyc])
  · rw [cc_cyc, r2_cyc, cc_cyc, r2_cyc]; exact sq_cc (by rwa [← turn_cyc, ← turn_cyc])

theorem dotAt_comm (x y z : ℝ × ℝ) : dotAt x y z = dotAt x z y := by unfold dotAt; ring

/-- The fourth corner of a quadrilateral is in the disc of the other three, if these have the largest circle. -/
theorem inside_of_largest {x y z q : ℝ × ℝ} (h1 : 0 < clockwiseTurn x y z) (h2 : 0 < clockwiseTurn y z q)
    (h4 : 0 < clockwiseTurn q x y) (m1 : r2 y z q ≤ r2 x y z) (m2 : r2 q x y ≤ r2 x y z) :
    planeSqDist (cc x y z) q ≤ r2 x y z := by
  by_contra hout
  push Not at hout
  have hsum := dot_sum x z y
  have hnn := sqDist_nonneg x z
  rcases le_or_gt 0 (dotAt x y z) with hd | hd
  · have h5 : 0 < clockwiseTurn q y z := by rw [turn_cyc]; exact h2
    have := larger_of_outside h1 h5 (sqDist_pos_of_turn h1.ne') hd hout
    rw [r2_cyc q y z] at this
    linarith
  · have hd2 : 0 ≤ dotAt z x y := by
      rw [dotAt_comm x z y] at hsum
      linarith
    have h1' : 0 < clockwiseTurn z x y := by rw [turn_cyc]; exact h1
    have hout' : r2 z x y < planeSqDist (cc z x y) q := by rw [r2_cyc, cc_cyc]; exact hout
    have := larger_of_outside h1' h4 (sqDist_pos_of_turn h1'.ne') hd2 hout'
    rw [r2_cyc z x y] at this
    linarith

/-- The circle of these vertices is the largest of the circles of three vertices. -/
def IsLargest (v : ℕ → ℝ × ℝ) (n i j k : ℕ) : Prop :=
  ∀ a < n, ∀ b < n, ∀ c < n, Cyc a b c → r2 (v a) (v b) (v c) ≤ r2 (v i) (v j) (v k)

theorem IsLargest.rot {v : ℕ → ℝ × ℝ} {n i j k : ℕ} (h : IsLargest v n i j k) : IsLargest v n j k i := by
  intro a ha b hb c hc habc
  rw [← r2_cyc (v i)]
  exact h a ha b hb c hc habc

/-- The largest circle contains all vertices. -/
theorem IsLargest.contains {v : ℕ → ℝ × ℝ} {n i j k : ℕ} (hv : Ring v n) (hi : i < n) (hj : j < n) (hk : k < n)
    (hc : Cyc i j k) (h : IsLargest v n i j k) {l : ℕ} (hl : l < n) :
    planeSqDist (cc (v i) (v j) (v k)) (v l) ≤ r2 (v i) (v j) (v k) := by
  have hp := hv.pos hi hj hk hc
  obtain ⟨e1, e2, e3⟩ := on_circle hp.ne'
  -- the vertex between the third and the first
  have key : ∀ i < n, ∀ j < n, ∀ k < n, Cyc i j k → IsLargest v n i j k → Cyc k l i →
      planeSqDist (cc (v i) (v j) (v k)) (v l) ≤ r2 (v i) (v j) (v k) := by
    intro i hi j hj k hk hc h hkl
    have c1 : Cyc j k l := by unfold Cyc at *; omega
    have c2 : Cyc l i j := by unfold Cyc at *; omega
    exact inside_of_largest (hv.pos hi hj hk hc) (hv.pos hj hk hl c1) (hv.pos hl hi hj c2) (h j hj k hk l hl c1)
      (h l hl i hi j hj c2)
  by_cases l1 : l = i
  · rw [l1, e1]
  by_cases l2 : l = j
  · rw [l2, e2]
  by_cases l3 : l = k
  · rw [l3, e3]
  have : Cyc k l i ∨ Cyc i l j ∨ Cyc j l k := by unfold Cyc at *; omega
  rcases this with h' | h' | h'
  · exact key i hi j hj k hk hc h h'
  · rw [cc_cyc, r2_cyc]; exact key j hj k hk i hi hc.rot h.rot h'
  · rw [cc_cyc, r2_cyc, cc_cyc, r2_cyc]; exact key k hk i hi j hj hc.rot.rot h.rot.rot h'

/-- If there are vertices between the third and the first, and the angle at the second is acute, then these are on the circle
and three consecutive ones have it. -/
theorem IsLargest.gap {v : ℕ → ℝ × ℝ} {n i j k : ℕ} (hv : Ring v n) (hn : 3 ≤ n) (hi : i < n) (hj : j < n) (hk : k < n)
    (hc : Cyc i j k) (h : IsLargest v n i j k) (hgap : nxt n k ≠ i) (hdot : 0 < dotAt (v j) (v k) (v i)) :
    ∃ m < n, r2 (v (prv n m)) (v m) (v (nxt n m)) = r2 (v i) (v j) (v k) := by
  have hp := hv.pos hi hj hk hc
  obtain ⟨e1, -, e3⟩ := on_circle hp.ne'
  have honc : ∀ l < n, Cyc k l i → planeSqDist (cc (v i) (v j) (v k)) (v l) = r2 (v i) (v j) (v k) := by
    intro l hl hkl
    have h1 : 0 < clockwiseTurn (v j) (v k) (v i) := by rw [← turn_cyc]; exact hp
    have h2 : clockwiseTurn (v l) (v k) (v i) < 0 := by
      have := hv.pos hk hl hi hkl
      rw [turn_cyc] at this
      rw [turn_swap]
      linarith
    have h3 : r2 (v l) (v k) (v i) ≤ r2 (v i) (v j) (v k) := by
      have := h k hk l hl i hi hkl
      rw [r2_cyc] at this
      rwa [← r2_swap (v l)]
    rw [cc_cyc, r2_cyc]
    refine larger_of_inside_opposite h1 h2 (hv.sqDist_pos hn hk hi (by unfold Cyc at hc; omega)) hdot ?_ ?_
    · rw [← cc_cyc, ← r2_cyc]; exact h.contains hv hi hj hk hc hl
    · rw [← r2_cyc (v i) (v j) (v k)]; exact h3
  have n1 : nxt n k < n := nxt_lt hk
  have n2 : nxt n (nxt n k) < n := nxt_lt n1
  have k1 := nxt_cases hk
  have k2 := nxt_cases n1
  have c1 : Cyc k (nxt n k) i := by unfold Cyc at *; omega
  have c2 : nxt n (nxt n k) = i ∨ Cyc k (nxt n (nxt n k)) i := by unfold Cyc at *; omega
  have c3 : Cyc k (nxt n k) (nxt n (nxt n k)) := by unfold Cyc at *; omega
  have p : prv n (nxt n k) = k := prv_nxt hk
  refine ⟨nxt n k, n1, ?_⟩
  rw [p]
  refine r2_unique (hv.pos hk n1 n2 c3).ne' e3 (honc _ n1 c1) ?_
  rcases c2 with c2 | c2
  · rw [c2, e1]
  · exact honc _ n2 c2

/-- Some three consecutive vertices have the largest circle. -/
theorem exists_consecutive {v : ℕ → ℝ × ℝ} {n i j k : ℕ} (hv : Ring v n) (hn : 3 ≤ n) (hi : i < n) (hj : j < n)
    (hk : k < n) (hc : Cyc i j k) (h : IsLargest v n i j k) :
    ∃ m < n, r2 (v (prv n m)) (v m) (v (nxt n m)) = r2 (v i) (v j) (v k) := by
  -- two gaps next to each other
  have two : ∀ i < n, ∀ j < n, ∀ k < n, Cyc i j k → IsLargest v n i j k → nxt n k ≠ i → nxt n i ≠ j →
      ∃ m < n, r2 (v (prv n m)) (v m) (v (nxt n m)) = r2 (v i) (v j) (v k) := by
    intro i hi j hj k hk hc h g1 g2
    have hs := dot_sum (v j) (v k) (v i)
    have hpos := hv.sqDist_pos hn hj hk (by unfold Cyc at hc; omega)
    by_cases hd : 0 < dotAt (v j) (v k) (v i)
    · exact h.gap hv hn hi hj hk hc g1 hd
    · rw [r2_cyc (v i)]
      exact h.rot.gap hv hn hj hk hi hc.rot g2 (by rw [dotAt_comm]; linarith)
  by_cases gA : nxt n k = i
  · by_cases gB : nxt n i = j
    · exact ⟨i, hi, by rw [gB, ← gA, prv_nxt hk, gA, r2_cyc (v k)]⟩
    · by_cases gC : nxt n j = k
      · exact ⟨k, hk, by rw [gA, ← gC, prv_nxt hj, gC, ← r2_cyc (v i)]⟩
      · rw [r2_cyc (v i)]; exact two j hj k hk i hi hc.rot h.rot gB gC
  · by_cases gB : nxt n i = j
    · by_cases gC : nxt n j = k
      · exact ⟨j, hj, by rw [gC, ← gB, prv_nxt hi, gB]⟩
      · rw [r2_cyc (v i), r2_cyc (v j)]; exact two k hk i hi j hj hc.rot.rot h.rot.rot gC gA
    · exact two i hi j hj k hk hc h gA gB

/-- Some three vertices have the largest circle. -/
theorem exists_largest (v : ℕ → ℝ × ℝ) {n : ℕ} (hn : 3 ≤ n) :
    ∃ i < n, ∃ j < n, ∃ k < n, Cyc i j k ∧ IsLargest v n i j k := by
  classical
  let s := ((Finset.range n ×ˢ Finset.range n ×ˢ Finset.range n).filter fun t => Cyc t.1 t.2.1 t.2.2)
  have hne : s.Nonempty := ⟨(0, 1, 2), by
    refine Finset.mem_filter.2 ⟨?_, Or.inl ⟨by decide, by decide⟩⟩
    simp only [Finset.mem_product, Finset.mem_range]
    omega⟩
  obtain ⟨⟨i, j, k⟩, hm, hmax⟩ := s.exists_max_image (fun t => r2 (v t.1) (v t.2.1) (v t.2.2)) hne
  simp only [s, Finset.mem_filter, Finset.mem_product, Finset.mem_range] at hm
  refine ⟨i, hm.1.1, j, hm.1.2.1, k, hm.1.2.2, hm.2, ?_⟩
  intro a ha b hb c hc habc
  exact hmax (a, b, c) (by simp only [s, Finset.mem_filter, Finset.mem_product, Finset.mem_range]; exact ⟨⟨ha, hb, hc⟩, habc⟩)

/-- Three consecutive vertices with a circle that is not smaller than that of any three consecutive ones have the largest
circle of all. -/
theorem isLargest_of_consecutive {v : ℕ → ℝ × ℝ} {n m : ℕ} (hv : Ring v n) (hn : 3 ≤ n)
    (hmax : ∀ l < n, r2 (v (prv n l)) (v l) (v (nxt n l)) ≤ r2 (v (prv n m)) (v m) (v (nxt n m))) :
    IsLargest v n (prv n m) m (nxt n m) := by
  obtain ⟨i, hi, j, hj, k, hk, hc, h⟩ := exists_largest v hn
  obtain ⟨l, hl, he⟩ := exists_consecutive hv hn hi hj hk hc h
  intro a ha b hb c hc' habc
  exact (h a ha b hb c hc' habc).trans (he ▸ hmax l hl)

/-- In a convex polygon the angle to the neighbours is the widest. -/
theorem obtuse_neighbours {a p s b : ℝ × ℝ} (h1 : 0 < clockwiseTurn a p s) (h2 : 0 < clockwiseTurn a s b)
    (h3 : 0 < clockwiseTurn a p b) (hd : dotAt a p s < 0) : dotAt a p b < 0 := by
  have e : clockwiseTurn a p b * dotAt a p s = clockwiseTurn a s b * planeSqDist a p + clockwiseTurn a p s * dotAt a p b := by
    unfold clockwiseTurn dotAt planeSqDist; ring
  by_contra hcon
  push Not at hcon
  have k1 := mul_neg_of_pos_of_neg h3 hd
  have k2 := mul_nonneg h2.le (sqDist_nonneg a p)
  have k3 := mul_nonneg h1.le hcon
  linarith

/-- If the largest circle is that of a vertex with its neighbours, and the angle at the previous vertex in this triangle is
obtuse, then the previous vertex has the same circle with its neighbours, and an obtuse angle. -/
theorem obtuse_prv {v : ℕ → ℝ × ℝ} {n m : ℕ} (hv : Ring v n) (hn : 3 ≤ n) (hm : m < n)
    (h : IsLargest v n (prv n m) m (nxt n m)) (hd : dotAt (v (prv n m)) (v m) (v (nxt n m)) < 0) :
    r2 (v (prv n (prv n m))) (v (prv n m)) (v m) = r2 (v (prv n m)) (v m) (v (nxt n m)) ∧
      dotAt (v (prv n m)) (v (prv n (prv n m))) (v m) < 0 := by
  have ha := prv_lt hm
  have hs := nxt_lt hm
  have hb := prv_lt ha
  have hc := cyc_prv_nxt hn hm
  have k1 := prv_cases n m
  have k2 := prv_cases n (prv n m)
  have k3 := nxt_cases hm
  by_cases heq : prv n (prv n m) = nxt n m
  · rw [heq]
    refine ⟨?_, by rwa [dotAt_comm]⟩
    rw [r2_cyc]
  · have c1 : Cyc (prv n m) (nxt n m) (prv n (prv n m)) := by unfold Cyc at *; omega
    have c2 : Cyc (prv n m) m (prv n (prv n m)) := by unfold Cyc at *; omega
    have c3 : Cyc (prv n (prv n m)) m (nxt n m) := by unfold Cyc at *; omega
    have c4 : Cyc (prv n (prv n m)) (prv n m) m := by unfold Cyc at *; omega
    have hp := hv.pos ha hm hs hc
    obtain ⟨e1, e2, -⟩ := on_circle hp.ne'
    refine ⟨?_, ?_⟩
    · have := larger_of_inside_obtuse hp (hv.pos hb hm hs c3) (hv.sqDist_pos hn hm hs (by omega)) hd
        (h.contains hv ha hm hs hc hb) (h _ hb _ hm _ hs c3)
      exact r2_unique (hv.pos hb ha hm c4).ne' this e1 e2
    · rw [dotAt_comm]
      exact obtuse_neighbours hp (hv.pos ha hs hb c1) (hv.pos ha hm hb c2) hd

/-- The same for the next vertex. -/
theorem obtuse_nxt {v : ℕ → ℝ × ℝ} {n m : ℕ} (hv : Ring v n) (hn : 3 ≤ n) (hm : m < n)
    (h : IsLargest v n (prv n m) m (nxt n m)) (hd : dotAt (v (nxt n m)) (v (prv n m)) (v m) < 0) :
    r2 (v m) (v (nxt n m)) (v (nxt n (nxt n m))) = r2 (v (prv n m)) (v m) (v (nxt n m)) ∧
      dotAt (v (nxt n m)) (v m) (v (nxt n (nxt n m))) < 0 := by
  have ha := prv_lt hm
  have hs := nxt_lt hm
  have hb := nxt_lt hs
  have hc := cyc_prv_nxt hn hm
  have k1 := prv_cases n m
  have k2 := nxt_cases hs
  have k3 := nxt_cases hm
  by_cases heq : nxt n (nxt n m) = prv n m
  · rw [heq]
    refine ⟨?_, by rwa [dotAt_comm]⟩
    rw [← r2_cyc]
  · have c3 : Cyc (nxt n (nxt n m)) (prv n m) m := by unfold Cyc at *; omega
    have c4 : Cyc m (nxt n m) (nxt n (nxt n m)) := by unfold Cyc at *; omega
    have c5 : Cyc (nxt n m) (nxt n (nxt n m)) (prv n m) := by unfold Cyc at *; omega
    have hp := hv.pos ha hm hs hc
    have hp' : 0 < clockwiseTurn (v (nxt n m)) (v (prv n m)) (v m) := by rw [turn_cyc]; exact hp
    obtain ⟨-, e2, e3⟩ := on_circle hp.ne'
    refine ⟨?_, ?_⟩
    · have := larger_of_inside_obtuse hp' (hv.pos hb ha hm c3) (hv.sqDist_pos hn ha hm (by omega)) hd
        (by rw [cc_cyc, r2_cyc]; exact h.contains hv ha hm hs hc hb)
        (by rw [r2_cyc (v (nxt n m))]; exact h _ hb _ ha _ hm c3)
      rw [cc_cyc (v (nxt n m)), r2_cyc (v (nxt n m))] at this
      exact r2_unique (hv.pos hm hs hb c4).ne' e2 e3 this
    · -- mirror image
      have q1 : 0 < clockwiseTurn (v (nxt n m)) (v (prv n m)) (v m) := hp'
      have q2 := hv.pos hs hb ha c5
      have q3 : 0 < clockwiseTurn (v (nxt n m)) (v (nxt n (nxt n m))) (v m) := by
        rw [← turn_cyc]; exact hv.pos hm hs hb c4
      have e : clockwiseTurn (v (nxt n m)) (v (nxt n (nxt n m))) (v m) * dotAt (v (nxt n m)) (v (prv n m)) (v m)
          = clockwiseTurn (v (nxt n m)) (v (nxt n (nxt n m))) (v (prv n m)) * planeSqDist (v (nxt n m)) (v m)
            + clockwiseTurn (v (nxt n m)) (v (prv n m)) (v m) * dotAt (v (nxt n m)) (v m) (v (nxt n (nxt n m))) := by
        unfold clockwiseTurn dotAt planeSqDist; ring
      by_contra hcon
      push Not at hcon
      have k1 := mul_neg_of_pos_of_neg q3 hd
      have k2 := mul_nonneg q2.le (sqDist_nonneg (v (nxt n m)) (v m))
      have k3 := mul_nonneg q1.le hcon
      linarith

end Pointpats.Circ
