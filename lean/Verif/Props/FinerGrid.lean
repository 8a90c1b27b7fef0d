import Verif.Props.QOwnQuadrats
import Verif.Props.ChiSquare
import Mathlib.Algebra.BigOperators.Ring.Finset
import Mathlib.Algebra.Order.Chebyshev

/-!
# C181: a finer grid of rectangles splits the counts of a coarser one
-/

set_option linter.unusedSectionVars false

namespace Pointpats.Props

open Quadrat Spec

variable {K : Type} [Field K] [LinearOrder K] [IsStrictOrderedRing K] [FloorRing K]

/-! ### One axis, in units of the finer cells -/

private def AxisCell (n i : ℕ) (t : K) : Prop := (i : K) ≤ t ∧ (t < i + 1 ∨ (i + 1 = n ∧ t = i + 1))

private instance (n i : ℕ) (t : K) : Decidable (AxisCell n i t) := by unfold AxisCell; infer_instance

private theorem axis_unique {n i j : ℕ} {t : K} (hi : i < n) (hj : j < n) (h : AxisCell n i t) (h' : AxisCell n j t) :
    i = j := by
  obtain ⟨h1, h2⟩ := h
  obtain ⟨h3, h4⟩ := h'
  have key : ∀ {i j : ℕ}, i < n → j < n → (i : K) ≤ t → (t < j + 1 ∨ (j + 1 = n ∧ t = j + 1)) → i ≤ j := by
    intro i j hi hj h1 h2
    rcases h2 with h2 | ⟨h2, -⟩
    · have : (i : K) < j + 1 := lt_of_le_of_lt h1 h2
      have : i < j + 1 := by exact_mod_cast this
      omega
    · omega
  exact le_antisymm (key hi hj h1 h4) (key hj hi h3 h2)

private theorem axis_split {n a k : ℕ} (ha : 0 < a) (hk : k < n) (t : K) :
    (∑ i ∈ Finset.range a, if AxisCell (a * n) (i + k * a) t then 1 else 0) = if AxisCell n k (t / a) then 1 else 0 := by
  have haK : (0 : K) < a := by exact_mod_cast ha
  have hlt : ∀ i < a, i + k * a < a * n := by
    intro i hi
    calc i + k * a < a + k * a := by omega
      _ = (k + 1) * a := by ring
      _ ≤ n * a := Nat.mul_le_mul_right _ hk
      _ = a * n := by ring
  have up : ∀ i < a, AxisCell (a * n) (i + k * a) t → AxisCell n k (t / a) := by
    rintro i hi ⟨h1, h2⟩
    have hiK : (i : K) + 1 ≤ a := by exact_mod_cast hi
    have hi0 : (0 : K) ≤ i := by positivity
    push_cast at h1 h2
    refine ⟨by rw [le_div_iff₀ haK]; linarith, ?_⟩
    rcases h2 with h2 | ⟨h2, h3⟩
    · left; rw [div_lt_iff₀ haK]; linarith
    · have hia : i + 1 = a ∧ k + 1 = n := by
        have h4 : i + 1 + k * a = a * n := by omega
        have h5 : k + 1 = n := by
          by_contra hne
          have : (k + 1) + 1 ≤ n := by omega
          have := Nat.mul_le_mul_left a this
          have : a * (k + 1 + 1) = k * a + a + a := by ring
          omega
        refine ⟨?_, h5⟩
        rw [← h5] at h4
        have : a * (k + 1) = k * a + a := by ring
        omega
      have e : (i : K) + 1 = a := by exact_mod_cast hia.1
      right
      refine ⟨hia.2, ?_⟩
      rw [div_eq_iff haK.ne', h3, ← e]; ring
  by_cases hc : AxisCell n k (t / a)
  · rw [if_pos hc]
    have hex : ∃ i < a, AxisCell (a * n) (i + k * a) t := by
      obtain ⟨h1, h2⟩ := hc
      rw [le_div_iff₀ haK] at h1
      rcases h2 with h2 | ⟨h2, h3⟩
      · rw [div_lt_iff₀ haK] at h2
        have ht0 : 0 ≤ t := le_trans (by positivity) h1
        have f1 : k * a ≤ ⌊t⌋₊ := Nat.le_floor (by push_cast; exact h1)
        have f2 : ⌊t⌋₊ < (k + 1) * a := by rw [Nat.floor_lt ht0]; push_cast; exact h2
        have f3 : (k + 1) * a = k * a + a := by ring
        refine ⟨⌊t⌋₊ - k * a, by omega, ?_⟩
        rw [Nat.sub_add_cancel f1]
        exact ⟨Nat.floor_le ht0, Or.inl (Nat.lt_floor_add_one t)⟩
      · rw [div_eq_iff haK.ne'] at h3
        have e : a - 1 + k * a + 1 = a * n := by
          rw [← h2]
          have : a * (k + 1) = k * a + a := by ring
          omega
        have eK : ((a - 1 + k * a : ℕ) : K) + 1 = (k + 1) * a := by
          have : ((a - 1 + k * a + 1 : ℕ) : K) = ((a * n : ℕ) : K) := by rw [e]
          push_cast at this ⊢
          rw [this, ← h2]; push_cast; ring
        refine ⟨a - 1, by omega, ?_, Or.inr ⟨e, ?_⟩⟩
        · rw [h3]; linarith
        · rw [h3, eK]
    obtain ⟨i, hi, hcell⟩ := hex
    rw [Finset.sum_eq_single_of_mem i (Finset.mem_range.2 hi), if_pos hcell]
    intro j hj hji
    rw [if_neg]
    intro hj'
    have := axis_unique (hlt j (Finset.mem_range.1 hj)) (hlt i hi) hj' hcell
    omega
  · rw [if_neg hc]
    exact Finset.sum_eq_zero fun i hi => if_neg fun h => hc (up i (Finset.mem_range.1 hi) h)

private theorem inRectCell_axes {x0 y0 W H : K} (hW : 0 < W) (hH : 0 < H) (cc cr ix iy : ℕ) (p : K × K) :
    InRectCell x0 y0 W H cc cr ix iy p ↔ AxisCell cc ix ((p.1 - x0) / W) ∧ AxisCell cr iy ((p.2 - y0) / H) := by
  have one : ∀ (o W v : K) (n i : ℕ), 0 < W →
      ((o + ((i : ℤ) : K) * W ≤ v ∧ (v < o + (((i : ℤ) : K) + 1) * W ∨ ((i : ℤ) = (n : ℤ) - 1 ∧ v = o + (((i : ℤ) : K) + 1) * W)))
        ↔ AxisCell n i ((v - o) / W)) := by
    intro o W v n i hW
    unfold AxisCell
    rw [le_div_iff₀ hW, div_lt_iff₀ hW, div_eq_iff hW.ne', Int.cast_natCast]
    have e1 : ((i : ℤ) = (n : ℤ) - 1) ↔ i + 1 = n := by omega
    rw [e1]
    constructor
    · rintro ⟨h1, h2 | ⟨h2, h3⟩⟩
      · exact ⟨by linarith, Or.inl (by linarith)⟩
      · exact ⟨by linarith, Or.inr ⟨h2, by linarith⟩⟩
    · rintro ⟨h1, h2 | ⟨h2, h3⟩⟩
      · exact ⟨by linarith, Or.inl (by linarith)⟩
      · exact ⟨by linarith, Or.inr ⟨h2, by linarith⟩⟩
  unfold InRectCell
  rw [one x0 W p.1 cc ix hW, one y0 H p.2 cr iy hH]

private theorem sum_ite_and (s t : Finset ℕ) (A B : ℕ → Prop) [DecidablePred A] [DecidablePred B] :
    (∑ j ∈ t, ∑ i ∈ s, if A i ∧ B j then 1 else 0) = (∑ i ∈ s, if A i then 1 else 0) * (∑ j ∈ t, if B j then 1 else 0) := by
  rw [Finset.sum_mul_sum, Finset.sum_comm]
  refine Finset.sum_congr rfl fun i _ => Finset.sum_congr rfl fun j _ => ?_
  by_cases h1 : A i <;> by_cases h2 : B j <;> simp [h1, h2]

private theorem filter_length_sum (points : List (K × K)) (P : K × K → Prop) [DecidablePred P] :
    (points.filter fun p => decide (P p)).length = (points.map fun p => if P p then 1 else 0).sum := by
  induction points with
  | nil => rfl
  | cons a l ih => by_cases h : P a <;> simp [h, ih, add_comm]

/-- Every cell of the coarser grid counts the events of the cells into which it is divided. -/
private theorem split_counts {points : List (K × K)} {cc cr a b : ℕ} (ha : 0 < a) (hb : 0 < b) (hcc : 0 < cc) (hcr : 0 < cr)
    {counts fine : List ℕ} (h : DivisionCounts points cc cr counts) (h' : DivisionCounts points (a * cc) (b * cr) fine)
    {ix iy : ℕ} (hix : ix < cc) (hiy : iy < cr) :
    counts.getD (ix + iy * cc) 0
      = ∑ j ∈ Finset.range b, ∑ i ∈ Finset.range a, fine.getD ((i + ix * a) + (j + iy * b) * (a * cc)) 0 := by
  obtain ⟨x0, x1, y0, y1, hx0, hx1, hy0, hy1, hx, hy, -, hcell⟩ := h
  obtain ⟨x0', x1', y0', y1', hx0', hx1', hy0', hy1', -, -, -, hcell'⟩ := h'
  obtain rfl := hx0.unique hx0'
  obtain rfl := hx1.unique hx1'
  obtain rfl := hy0.unique hy0'
  obtain rfl := hy1.unique hy1'
  have haK : (0 : K) < a := by exact_mod_cast ha
  have hbK : (0 : K) < b := by exact_mod_cast hb
  have hccK : (0 : K) < cc := by exact_mod_cast hcc
  have hcrK : (0 : K) < cr := by exact_mod_cast hcr
  have hlt : ∀ {a n i k : ℕ}, i < a → k < n → i + k * a < a * n := by
    intro a n i k hi hk
    calc i + k * a < a + k * a := by omega
      _ = (k + 1) * a := by ring
      _ ≤ n * a := Nat.mul_le_mul_right _ hk
      _ = a * n := by ring
  have hfine : ∀ j ∈ Finset.range b, ∀ i ∈ Finset.range a, fine.getD ((i + ix * a) + (j + iy * b) * (a * cc)) 0
      = (points.map fun p => if AxisCell (a * cc) (i + ix * a) ((p.1 - x0) / ((x1 - x0) / ((a * cc : ℕ) : K)))
          ∧ AxisCell (b * cr) (j + iy * b) ((p.2 - y0) / ((y1 - y0) / ((b * cr : ℕ) : K))) then 1 else 0).sum := by
    intro j hj i hi
    rw [List.getD_eq_getElem?_getD, hcell' (i + ix * a) (hlt (Finset.mem_range.1 hi) hix) (j + iy * b)
      (hlt (Finset.mem_range.1 hj) hiy), Option.getD_some, filter_length_sum]
    congr 1
    refine List.map_congr_left fun p _ => ?_
    have := inRectCell_axes (x0 := x0) (y0 := y0) (W := (x1 - x0) / ((a * cc : ℕ) : K)) (H := (y1 - y0) / ((b * cr : ℕ) : K))
      (div_pos (by linarith) (by push_cast; positivity)) (div_pos (by linarith) (by push_cast; positivity))
      (a * cc) (b * cr) (i + ix * a) (j + iy * b) p
    simp only [this]
  rw [Finset.sum_congr rfl fun j hj => Finset.sum_congr rfl fun i hi => hfine j hj i hi]
  rw [List.getD_eq_getElem?_getD, hcell ix hix iy hiy, Option.getD_some, filter_length_sum]
  clear hfine hcell hcell' hx0 hx1 hy0 hy1 hx0' hx1' hy0' hy1'
  induction points with
  | nil => simp
  | cons p l ih =>
    simp only [List.map_cons, List.sum_cons, Finset.sum_add_distrib]
    rw [ih, sum_ite_and (Finset.range a) (Finset.range b)
      (fun i => AxisCell (a * cc) (i + ix * a) ((p.1 - x0) / ((x1 - x0) / ((a * cc : ℕ) : K))))
      (fun j => AxisCell (b * cr) (j + iy * b) ((p.2 - y0) / ((y1 - y0) / ((b * cr : ℕ) : K)))),
      axis_split ha hix, axis_split hb hiy]
    congr 1
    have := inRectCell_axes (x0 := x0) (y0 := y0) (W := (x1 - x0) / (cc : K)) (H := (y1 - y0) / (cr : K))
      (div_pos (by linarith) hccK) (div_pos (by linarith) hcrK) cc cr ix iy p
    have e1 : (p.1 - x0) / ((x1 - x0) / ((a * cc : ℕ) : K)) / a = (p.1 - x0) / ((x1 - x0) / (cc : K)) := by
      have : x1 - x0 ≠ 0 := by linarith
      push_cast; field_simp
    have e2 : (p.2 - y0) / ((y1 - y0) / ((b * cr : ℕ) : K)) / b = (p.2 - y0) / ((y1 - y0) / (cr : K)) := by
      have : y1 - y0 ≠ 0 := by linarith
      push_cast; field_simp
    rw [e1, e2]
    simp only [this]
    by_cases h1 : AxisCell cc ix ((p.1 - x0) / ((x1 - x0) / (cc : K))) <;>
      by_cases h2 : AxisCell cr iy ((p.2 - y0) / ((y1 - y0) / (cr : K))) <;> simp [h1, h2]

private theorem grid_ok (cos30 : K) {points : List (K × K)} (hpos : PositiveExtent points) {cc cr : ℕ} (hcc : 0 < cc)
    (hcr : 0 < cr) {w h : K} (hwh : w = 0 ∨ h = 0) :
    ∃ m d, RectangleM.init points cc cr w h = .ok m ∧ m.pointLocationSta = .ok d
      ∧ (∃ g, gridCounts cos30 points (.rectangle cc cr w h) = .ok (d, g))
      ∧ DivisionCounts points cc cr d.values ∧ d.values.sum = points.length := by
  have hne : points ≠ [] := by
    rintro rfl
    obtain ⟨⟨p, hp, -⟩, -⟩ := hpos
    simp at hp
  obtain ⟨m, d, hm, hd, -, -, -, hsum⟩ :=
    C48_rectangle_counts_conserve points hpos cc cr w h (Or.inr ⟨hwh, by omega, by omega⟩)
  have hg : gridCounts cos30 points (.rectangle cc cr w h) = .ok (d, .rectangle m.count_column m.count_row 0 0) := by
    simp only [gridCounts, hm]
    show (m.pointLocationSta >>= fun d => pure (d, GridArg.rectangle m.count_column m.count_row 0 0)) = _
    rw [hd]
    rfl
  exact ⟨m, d, hm, hd, ⟨_, hg⟩, (division_counts hne hcc hcr hwh hg).1, hsum⟩

/-- **C181, counts.** The pattern has positive extent. A grid of `a * cc` columns and `b * cr` rows divides every cell of the
grid of `cc` columns and `cr` rows into `a` times `b` cells: the count of the cell is the sum of their counts. -/
theorem C181_counts (points : List (K × K)) (hpos : PositiveExtent points) (cc cr a b : ℕ) (hcc : 0 < cc) (hcr : 0 < cr)
    (ha : 0 < a) (hb : 0 < b) (w h : K) (hwh : w = 0 ∨ h = 0) :
    ∃ m d m' d', RectangleM.init points cc cr w h = .ok m ∧ m.pointLocationSta = .ok d
      ∧ RectangleM.init points ((a * cc : ℕ) : ℤ) ((b * cr : ℕ) : ℤ) w h = .ok m' ∧ m'.pointLocationSta = .ok d'
      ∧ d.values.length = cc * cr ∧ d'.values.length = a * cc * (b * cr)
      ∧ ∀ ix < cc, ∀ iy < cr, d.values.getD (ix + iy * cc) 0
          = ∑ j ∈ Finset.range b, ∑ i ∈ Finset.range a, d'.values.getD ((i + ix * a) + (j + iy * b) * (a * cc)) 0 := by
  obtain ⟨m, d, h1, h2, -, h3, -⟩ := grid_ok 0 hpos hcc hcr hwh
  obtain ⟨m', d', h1', h2', -, h3', -⟩ := grid_ok 0 hpos (Nat.mul_pos ha hcc) (Nat.mul_pos hb hcr) hwh
  refine ⟨m, d, m', d', h1, h2, h1', h2', ?_, ?_, fun ix hix iy hiy => split_counts ha hb hcc hcr h3 h3' hix hiy⟩
  · obtain ⟨_, _, _, _, -, -, -, -, -, -, hl, -⟩ := h3; exact hl
  · obtain ⟨_, _, _, _, -, -, -, -, -, -, hl, -⟩ := h3'; exact hl

/-! ### The statistic -/

private theorem sum_blocks (m n : ℕ) (f : ℕ → K) :
    ∑ k ∈ Finset.range (m * n), f k = ∑ j ∈ Finset.range n, ∑ i ∈ Finset.range m, f (i + j * m) := by
  induction n with
  | zero => simp
  | succ n ih =>
    rw [Nat.mul_succ, Finset.sum_range_add, ih, Finset.sum_range_succ]
    congr 1
    refine Finset.sum_congr rfl fun i _ => ?_
    congr 1
    ring

private theorem list_sum_range (l : List ℕ) (f : ℕ → K) :
    (l.map f).sum = ∑ k ∈ Finset.range l.length, f (l.getD k 0) := by
  induction l with
  | nil => simp
  | cons a l ih =>
    rw [List.map_cons, List.sum_cons, List.length_cons, Finset.sum_range_succ', ih, add_comm]
    simp

private theorem squares_grow {cc cr a b : ℕ} {counts fine : List ℕ} (hl : counts.length = cc * cr)
    (hl' : fine.length = a * cc * (b * cr))
    (hsplit : ∀ ix < cc, ∀ iy < cr, counts.getD (ix + iy * cc) 0
      = ∑ j ∈ Finset.range b, ∑ i ∈ Finset.range a, fine.getD ((i + ix * a) + (j + iy * b) * (a * cc)) 0) :
    (counts.map fun o : ℕ => (o : K) ^ 2).sum ≤ (a * b : K) * (fine.map fun o : ℕ => (o : K) ^ 2).sum := by
  rw [list_sum_range counts (fun o : ℕ => (o : K) ^ 2), list_sum_range fine (fun o : ℕ => (o : K) ^ 2), hl, hl', sum_blocks,
    sum_blocks (a * cc) (b * cr), sum_blocks b cr, Finset.mul_sum]
  refine Finset.sum_le_sum fun iy hiy => ?_
  have e : ∑ j ∈ Finset.range b, ∑ k ∈ Finset.range (a * cc), ((fine.getD (k + (j + iy * b) * (a * cc)) 0 : ℕ) : K) ^ 2
      = ∑ ix ∈ Finset.range cc, ∑ q ∈ Finset.range b ×ˢ Finset.range a,
          ((fine.getD ((q.2 + ix * a) + (q.1 + iy * b) * (a * cc)) 0 : ℕ) : K) ^ 2 := by
    rw [Finset.sum_congr rfl fun j _ => sum_blocks a cc
      (fun k => ((fine.getD (k + (j + iy * b) * (a * cc)) 0 : ℕ) : K) ^ 2), Finset.sum_comm]
    refine Finset.sum_congr rfl fun ix _ => ?_
    rw [Finset.sum_product]
  rw [e, Finset.mul_sum]
  refine Finset.sum_le_sum fun ix hix => ?_
  rw [hsplit ix (Finset.mem_range.1 hix) iy (Finset.mem_range.1 hiy)]
  have hc := sq_sum_le_card_mul_sum_sq (s := Finset.range b ×ˢ Finset.range a)
    (f := fun q => ((fine.getD ((q.2 + ix * a) + (q.1 + iy * b) * (a * cc)) 0 : ℕ) : K))
  rw [Finset.card_product, Finset.card_range, Finset.card_range, Finset.sum_product] at hc
  push_cast at hc ⊢
  rw [mul_comm (b : K) a] at hc
  exact hc

/-- **C181, statistic.** Dividing every cell of the grid never makes the chi-square statistic of `QStatistic` smaller. -/
theorem C181_statistic (cos30 : K) (window window' : Random.Hull K) (u u' : ℕ → K) (points : List (K × K))
    (hpos : PositiveExtent points) (cc cr a b : ℕ) (hcc : 0 < cc) (hcr : 0 < cr)
    (ha : 0 < a) (hb : 0 < b) (w h : K) (hwh : w = 0 ∨ h = 0) (fuel fuel' pos pos' : ℕ) :
    ∃ q q' c c', qStatistic cos30 window u points (.rectangle cc cr w h) 0 fuel pos = some (.ok (q, pos))
      ∧ qStatistic cos30 window' u' points (.rectangle ((a * cc : ℕ) : ℤ) ((b * cr : ℕ) : ℤ) w h) 0 fuel' pos'
          = some (.ok (q', pos'))
      ∧ q.chi2 = .fin c ∧ q'.chi2 = .fin c' ∧ c ≤ c'
      ∧ q.df = (cc * cr : ℕ) - 1 ∧ q'.df = (a * b * (cc * cr) : ℕ) - 1 := by
  obtain ⟨m, d, h1, h2, ⟨g, hg⟩, h3, hs⟩ := grid_ok cos30 hpos hcc hcr hwh
  obtain ⟨m', d', h1', h2', ⟨g', hg'⟩, h3', hs'⟩ := grid_ok cos30 hpos (Nat.mul_pos ha hcc) (Nat.mul_pos hb hcr) hwh
  have hne : points ≠ [] := by
    rintro rfl
    obtain ⟨⟨p, hp, -⟩, -⟩ := hpos
    simp at hp
  have hn : (0 : K) < points.length := by exact_mod_cast List.length_pos_iff.2 hne
  have hl : d.values.length = cc * cr := by obtain ⟨_, _, _, _, -, -, -, -, -, -, hl, -⟩ := h3; exact hl
  have hl' : d'.values.length = a * cc * (b * cr) := by obtain ⟨_, _, _, _, -, -, -, -, -, -, hl, -⟩ := h3'; exact hl
  have hgrow := squares_grow (K := K) hl hl' fun ix hix iy hiy => split_counts ha hb hcc hcr h3 h3' hix hiy
  have hsum : ∀ e : Dict, e.values.sum = points.length → (Dict.numbers e : List K).sum = points.length := by
    intro e he
    rw [← he]
    simp [Dict.numbers, Nat.cast_list_sum]
  have hnn : ∀ (e : Dict), ∀ o ∈ (Dict.numbers e : List K), 0 ≤ o := by
    intro e o ho
    obtain ⟨k, -, rfl⟩ := List.mem_map.1 ho
    positivity
  obtain ⟨c, c1, -, -, c4, -, -, -, c8⟩ := C54_chi_square (Dict.numbers d : List K) (hnn d) (by rw [hsum d hs]; exact hn)
  obtain ⟨c', c1', -, -, c4', -, -, -, c8'⟩ :=
    C54_chi_square (Dict.numbers d' : List K) (hnn d') (by rw [hsum d' hs']; exact hn)
  refine ⟨{ cell_ids := d.keys, chi2 := chisquare (Dict.numbers d), df := df (Dict.numbers d : List K)
            chi2_contrib := chi2Contrib (Dict.numbers d), simulated := none },
          { cell_ids := d'.keys, chi2 := chisquare (Dict.numbers d'), df := df (Dict.numbers d' : List K)
            chi2_contrib := chi2Contrib (Dict.numbers d'), simulated := none }, c, c', ?_, ?_, c1, c1', ?_, ?_, ?_⟩
  · simp only [qStatistic, asPointsArray, if_neg hne, hg, lt_self_iff_false, if_false]
    rfl
  · simp only [qStatistic, asPointsArray, if_neg hne, hg', lt_self_iff_false, if_false]
    rfl
  · rw [c4, c4', hsum d hs, hsum d' hs']
    have l1 : ((Dict.numbers d : List K).length : K) = cc * cr := by simp [Dict.numbers, hl]
    have l2 : ((Dict.numbers d' : List K).length : K) = (a * b) * (cc * cr) := by simp [Dict.numbers, hl']; ring
    have q1 : ((Dict.numbers d : List K).map fun o => o ^ 2) = d.values.map fun o : ℕ => (o : K) ^ 2 := by
      simp [Dict.numbers, Function.comp_def]
    have q2 : ((Dict.numbers d' : List K).map fun o => o ^ 2) = d'.values.map fun o : ℕ => (o : K) ^ 2 := by
      simp [Dict.numbers, Function.comp_def]
    rw [l1, l2, q1, q2]
    have hcK : (0 : K) ≤ cc * cr / points.length := by positivity
    have := mul_le_mul_of_nonneg_left hgrow hcK
    calc _ ≤ (cc * cr / points.length : K) * ((a * b : K) * (d'.values.map fun o : ℕ => (o : K) ^ 2).sum) - points.length := by
          linarith
      _ = _ := by ring
  · simp only [c8]; simp [Dict.numbers, hl]
  · simp only [c8']; simp [Dict.numbers, hl']; ring

/-- Non-vacuity: four events, one cell and two cells by two. -/
example : PositiveExtent ([(0, 0), (1, 3), (4, 4), (3, 0)] : List (ℚ × ℚ)) := by
  refine ⟨⟨(0, 0), by simp, (1, 3), by simp, by norm_num⟩, ⟨(0, 0), by simp, (1, 3), by simp, by norm_num⟩⟩

end Pointpats.Props
