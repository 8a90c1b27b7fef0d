import Verif.Model.Quadrat
import Verif.Spec.Quadrat
import Verif.Spec.Drawing
import Verif.Lemmas.Hex
import Verif.Lemmas.Dict
import Verif.Props.HexagonGrid
import Mathlib.Analysis.Convex.Combination
import Mathlib.Analysis.SpecialFunctions.Trigonometric.Basic
import Mathlib.Tactic.LinearCombination
import Mathlib.Tactic.IntervalCases

/-!
# Property C115: the hexagons drawn
-/

set_option linter.unusedSectionVars false

namespace Pointpats.Props

open Quadrat Spec

/-! ### One hexagon -/

theorem inHexagon_convex {h sh : ℝ} (hh : 0 < h) (hs : 0 < sh) (c : ℝ × ℝ) : Convex ℝ {p | InHexagon h sh c p} := by
  intro x hx y hy a b ha hb hab
  obtain ⟨x1, x2⟩ := hx
  obtain ⟨y1, y2⟩ := hy
  have e1 : (a • x + b • y).1 - c.1 = a * (x.1 - c.1) + b * (y.1 - c.1) := by
    simp only [Prod.fst_add, Prod.smul_fst, smul_eq_mul]
    linear_combination c.1 * hab
  have e2 : (a • x + b • y).2 - c.2 = a * (x.2 - c.2) + b * (y.2 - c.2) := by
    simp only [Prod.snd_add, Prod.smul_snd, smul_eq_mul]
    linear_combination c.2 * hab
  have t1 : |a * (x.1 - c.1) + b * (y.1 - c.1)| ≤ a * |x.1 - c.1| + b * |y.1 - c.1| := by
    refine (abs_add_le _ _).trans (le_of_eq ?_)
    rw [abs_mul, abs_mul, abs_of_nonneg ha, abs_of_nonneg hb]
  have t2 : |a * (x.2 - c.2) + b * (y.2 - c.2)| ≤ a * |x.2 - c.2| + b * |y.2 - c.2| := by
    refine (abs_add_le _ _).trans (le_of_eq ?_)
    rw [abs_mul, abs_mul, abs_of_nonneg ha, abs_of_nonneg hb]
  show InHexagon h sh c _
  unfold InHexagon
  rw [e1, e2]
  have hb' : b = 1 - a := by linarith
  constructor
  · refine t2.trans ?_
    have q1 := mul_le_mul_of_nonneg_left x1 ha
    have q2 := mul_le_mul_of_nonneg_left y1 hb
    have : a * sh + b * sh = sh := by rw [← add_mul, hab, one_mul]
    linarith
  · have q1 := mul_le_mul_of_nonneg_left t1 (by positivity : 0 ≤ 2 * sh)
    have q2 := mul_le_mul_of_nonneg_left t2 hh.le
    have q3 := mul_le_mul_of_nonneg_left x2 ha
    have q4 := mul_le_mul_of_nonneg_left y2 hb
    have : a * (2 * sh * h) + b * (2 * sh * h) = 2 * sh * h := by rw [← add_mul, hab, one_mul]
    nlinarith

/-- The polygon of the vertices drawn is the hexagon of the specification. -/
theorem inPolygon_hexVertices {h sh : ℝ} (hh : 0 < h) (hs : 0 < sh) (c p : ℝ × ℝ) :
    InPolygon (hexVertices h sh c) p ↔ InHexagon h sh c p := by
  constructor
  · intro hp
    refine convexHull_min ?_ (inHexagon_convex hh hs c) hp
    intro v hv
    have hv' : v ∈ hexVertices h sh c := hv
    simp only [hexVertices, List.mem_cons, List.not_mem_nil, or_false] at hv'
    show InHexagon h sh c v
    unfold InHexagon
    have a1 : |h| = h := abs_of_pos hh
    have a2 : |sh| = sh := abs_of_pos hs
    have a3 : |h / 2| = h / 2 := abs_of_pos (by positivity)
    rcases hv' with rfl | rfl | rfl | rfl | rfl | rfl | rfl <;>
      simp only [add_sub_cancel_left, sub_sub_cancel_left, abs_neg, sub_self, abs_zero, a1, a2, a3] <;>
      constructor <;> nlinarith
  · rintro ⟨h1, h2⟩
    -- the point is between the two points of the slanted sides at its height
    set dx := p.1 - c.1 with hdx
    set dy := p.2 - c.2 with hdy
    have hV : ∀ v ∈ hexVertices h sh c, v ∈ convexHull ℝ {v | v ∈ hexVertices h sh c} :=
      fun v hv => subset_convexHull ℝ _ hv
    set t := |dy| / sh with ht
    have ht0 : 0 ≤ t := div_nonneg (abs_nonneg _) hs.le
    have ht1 : t ≤ 1 := (div_le_one hs).2 h1
    have hty : t * sh = |dy| := div_mul_cancel₀ _ hs.ne'
    have hC := convex_convexHull ℝ {v | v ∈ hexVertices h sh c}
    obtain ⟨sg, hsg, hsgy⟩ : ∃ sg : ℝ, (sg = 1 ∨ sg = -1) ∧ sg * |dy| = dy := by
      rcases le_total 0 dy with hd | hd
      · exact ⟨1, Or.inl rfl, by rw [abs_of_nonneg hd, one_mul]⟩
      · exact ⟨-1, Or.inr rfl, by rw [abs_of_nonpos hd]; ring⟩
    have hR : (c.1 + (h - h / 2 * t), p.2) ∈ convexHull ℝ {v | v ∈ hexVertices h sh c} := by
      have m1 : (c.1 + h, c.2) ∈ hexVertices h sh c := by simp [hexVertices]
      have m2 : (c.1 + h / 2, c.2 + sg * sh) ∈ hexVertices h sh c := by
        rcases hsg with rfl | rfl
        · simp [hexVertices]
        · have : c.2 + -1 * sh = c.2 - sh := by ring
          rw [this]; simp [hexVertices]
      have := hC (hV _ m1) (hV _ m2) (sub_nonneg.2 ht1) ht0 (by ring)
      convert this using 1
      refine Prod.ext ?_ ?_
      · simp only [Prod.fst_add, Prod.smul_fst, smul_eq_mul]; ring
      · simp only [Prod.snd_add, Prod.smul_snd, smul_eq_mul]
        linear_combination -hsgy - sg * hty
    have hL : (c.1 - (h - h / 2 * t), p.2) ∈ convexHull ℝ {v | v ∈ hexVertices h sh c} := by
      have m1 : (c.1 - h, c.2) ∈ hexVertices h sh c := by simp [hexVertices]
      have m2 : (c.1 - h / 2, c.2 + sg * sh) ∈ hexVertices h sh c := by
        rcases hsg with rfl | rfl
        · simp [hexVertices]
        · have : c.2 + -1 * sh = c.2 - sh := by ring
          rw [this]; simp [hexVertices]
      have := hC (hV _ m1) (hV _ m2) (sub_nonneg.2 ht1) ht0 (by ring)
      convert this using 1
      refine Prod.ext ?_ ?_
      · simp only [Prod.fst_add, Prod.smul_fst, smul_eq_mul]; ring
      · simp only [Prod.snd_add, Prod.smul_snd, smul_eq_mul]
        linear_combination -hsgy - sg * hty
    set w := h - h / 2 * t with hw
    have hwpos : 0 < w := by nlinarith
    have hxw : |dx| ≤ w := by
      have : 2 * sh * |dx| ≤ 2 * sh * w := by rw [hw]; nlinarith [hty]
      exact le_of_mul_le_mul_left this (by positivity)
    obtain ⟨x1, x2⟩ := abs_le.1 hxw
    have := hC hL hR (a := (w - dx) / (2 * w)) (b := (w + dx) / (2 * w)) (div_nonneg (by linarith) (by positivity))
      (div_nonneg (by linarith) (by positivity)) (by field_simp; ring)
    show p ∈ convexHull ℝ _
    convert this using 1
    refine Prod.ext ?_ ?_
    · simp only [Prod.fst_add, Prod.smul_fst, smul_eq_mul]
      field_simp
      rw [hdx]
      ring
    · simp only [Prod.snd_add, Prod.smul_snd, smul_eq_mul]
      field_simp
      ring

/-- A point of the interior satisfies the inequalities strictly. -/
theorem interior_hexagon {h sh : ℝ} (hh : 0 < h) (hs : 0 < sh) {c p : ℝ × ℝ} (hp : p ∈ interior {q | InHexagon h sh c q}) :
    |p.2 - c.2| < sh ∧ 2 * sh * |p.1 - c.1| + h * |p.2 - c.2| < 2 * sh * h := by
  rw [mem_interior_iff_mem_nhds, Metric.mem_nhds_iff] at hp
  obtain ⟨ε, hε, hball⟩ := hp
  have hmem : ∀ sx sy : ℝ, |sx| ≤ 1 → |sy| ≤ 1 → InHexagon h sh c (p.1 + sx * (ε / 2), p.2 + sy * (ε / 2)) := by
    intro sx sy h1 h2
    apply hball
    rw [Metric.mem_ball, Prod.dist_eq, Real.dist_eq, Real.dist_eq, add_sub_cancel_left, add_sub_cancel_left, abs_mul,
      abs_mul, abs_of_pos (by positivity : (0 : ℝ) < ε / 2)]
    refine max_lt ?_ ?_ <;> nlinarith [abs_nonneg sx, abs_nonneg sy]
  have hout : ∀ z : ℝ, ∃ s : ℝ, |s| ≤ 1 ∧ |z + s * (ε / 2)| = |z| + ε / 2 := by
    intro z
    rcases le_total 0 z with hz | hz
    · exact ⟨1, by simp, by rw [one_mul, abs_of_nonneg hz, abs_of_nonneg (by positivity)]⟩
    · refine ⟨-1, by simp, ?_⟩
      rw [abs_of_nonpos hz, abs_of_nonpos (by nlinarith)]; ring
  obtain ⟨sx, hsx, ex⟩ := hout (p.1 - c.1)
  obtain ⟨sy, hsy, ey⟩ := hout (p.2 - c.2)
  obtain ⟨m1, m2⟩ := hmem sx sy hsx hsy
  simp only at m1 m2
  rw [show p.2 + sy * (ε / 2) - c.2 = p.2 - c.2 + sy * (ε / 2) by ring, ey] at m1 m2
  rw [show p.1 + sx * (ε / 2) - c.1 = p.1 - c.1 + sx * (ε / 2) by ring, ex] at m2
  constructor
  · linarith
  · nlinarith [mul_pos hs hε, mul_pos hh hε]

/-! ### The grid -/

section Grid

variable {K : Type} [Field K] [LinearOrder K] [IsStrictOrderedRing K] [FloorRing K]

theorem cellCenter_key (m : HexagonM K) (i j : ℕ) (hj : (j : ℤ) < m.count_column) :
    m.cellCenter ((j : ℤ) + (i : ℤ) * m.count_column) = hexCenter m (j, i) := by
  have hcc : 0 < m.count_column := by omega
  have i1 : ((j : ℤ) + (i : ℤ) * m.count_column) % m.count_column = j := by
    rw [Int.add_mul_emod_self_right, Int.emod_eq_of_lt (by omega) hj]
  have i2 : ((j : ℤ) + (i : ℤ) * m.count_column) / m.count_column = i := by
    rw [Int.add_mul_ediv_right _ _ hcc.ne', Int.ediv_eq_zero_of_lt (by omega) hj, zero_add]
  unfold HexagonM.cellCenter hexCenter
  rw [i1, i2]
  have : (j : ℤ) % 2 = 1 ↔ ¬ (j : ℤ) % 2 = 0 := by omega
  simp only [this]
  refine Prod.ext ?_ ?_
  · simp only; ring
  · simp only
    by_cases hcp : (j : ℤ) % 2 = 0
    · simp only [hcp, not_true, if_false, if_true]; ring
    · simp only [hcp, not_false_iff, if_false, if_true]; ring

theorem incr_keys {k : ℤ} {d d' : Dict} (h : Dict.incr k d = .ok d') : d'.keys = d.keys := by
  by_cases hk : k ∈ d.keys
  · obtain ⟨d1, h1, h2, -⟩ := Dict.incr_of_mem hk
    rw [h1] at h
    cases h
    exact h2
  · rw [Dict.incr_of_not_mem hk] at h
    cases h

theorem foldlM_incr_keys {α : Type} (f : α → ℤ) (l : List α) : ∀ (d d' : Dict),
    l.foldlM (fun d a => Dict.incr (f a) d) d = .ok d' → d'.keys = d.keys := by
  induction l with
  | nil =>
    intro d d' h
    simp only [List.foldlM_nil, pure, Except.pure, Except.ok.injEq] at h
    rw [h]
  | cons a l ih =>
    intro d d' h
    rw [List.foldlM_cons] at h
    cases h1 : Dict.incr (f a) d with
    | error e => rw [h1] at h; cases h
    | ok d1 =>
      rw [h1] at h
      rw [ih d1 d' h, incr_keys h1]

theorem pointLocation_keys (m : HexagonM K) (d : Dict) (h : m.pointLocationSta = .ok d) : d.keys = m.hexKeys := by
  have := foldlM_incr_keys m.cellId m.points m.zeroDict d h
  rw [this, m.zeroDict_eq, Dict.keys_map_zero]

/-- Two hexagons of the lattice have no inner point in common. -/
theorem lattice_disjoint (m : HexagonM K) (hh : 0 < m.h_length) (hs : 0 < m.semi_height) (c c' : ℤ × ℤ) (hne : c ≠ c')
    (p : K × K)
    (h1 : |p.2 - (hexCenter m c).2| < m.semi_height ∧
      2 * m.semi_height * |p.1 - (hexCenter m c).1| + m.h_length * |p.2 - (hexCenter m c).2| <
        2 * m.semi_height * m.h_length)
    (h2 : |p.2 - (hexCenter m c').2| < m.semi_height ∧
      2 * m.semi_height * |p.1 - (hexCenter m c').1| + m.h_length * |p.2 - (hexCenter m c').2| <
        2 * m.semi_height * m.h_length) : False := by
  obtain ⟨i, j⟩ := c
  obtain ⟨i', j'⟩ := c'
  set s := m.semi_height
  set h := m.h_length
  have tx : |(hexCenter m (i, j)).1 - (hexCenter m (i', j')).1| ≤
      |p.1 - (hexCenter m (i, j)).1| + |p.1 - (hexCenter m (i', j')).1| := by
    rw [show (hexCenter m (i, j)).1 - (hexCenter m (i', j')).1 =
      (p.1 - (hexCenter m (i', j')).1) - (p.1 - (hexCenter m (i, j)).1) by ring]
    exact (abs_sub _ _).trans (le_of_eq (add_comm _ _))
  have ty : |(hexCenter m (i, j)).2 - (hexCenter m (i', j')).2| ≤
      |p.2 - (hexCenter m (i, j)).2| + |p.2 - (hexCenter m (i', j')).2| := by
    rw [show (hexCenter m (i, j)).2 - (hexCenter m (i', j')).2 =
      (p.2 - (hexCenter m (i', j')).2) - (p.2 - (hexCenter m (i, j)).2) by ring]
    exact (abs_sub _ _).trans (le_of_eq (add_comm _ _))
  have ex : |(hexCenter m (i, j)).1 - (hexCenter m (i', j')).1| = 3 / 2 * h * ((|i - i'| : ℤ) : K) := by
    have : (hexCenter m (i, j)).1 - (hexCenter m (i', j')).1 = 3 / 2 * h * ((i - i' : ℤ) : K) := by
      simp only [hexCenter]; push_cast; ring
    rw [this, abs_mul, abs_of_pos (by positivity), Int.cast_abs]
  set r : ℤ := if i % 2 = 0 then 2 * j else 2 * j + 1 with hr
  set r' : ℤ := if i' % 2 = 0 then 2 * j' else 2 * j' + 1 with hr'
  have ey : |(hexCenter m (i, j)).2 - (hexCenter m (i', j')).2| = s * ((|r - r'| : ℤ) : K) := by
    have e : ∀ i j : ℤ, (hexCenter m (i, j)).2 = m.mbb.ymin + (((if i % 2 = 0 then 2 * j else 2 * j + 1 : ℤ)) : K) * s := by
      intro i j
      simp only [hexCenter]
      split <;> push_cast <;> ring
    have : (hexCenter m (i, j)).2 - (hexCenter m (i', j')).2 = s * ((r - r' : ℤ) : K) := by
      rw [e, e, hr, hr']; push_cast; ring
    rw [this, abs_mul, abs_of_pos hs, Int.cast_abs]
  obtain ⟨a1, a2⟩ := h1
  obtain ⟨b1, b2⟩ := h2
  rw [ex] at tx
  rw [ey] at ty
  have bound : ∀ k l : ℤ, k ≤ |i - i'| → l ≤ |r - r'| → 0 ≤ k → 0 ≤ l → 2 * s * (3 / 2 * h * k) + h * (s * l) < 4 * s * h := by
    intro k l hk hl _ _
    have hk' : (k : K) ≤ ((|i - i'| : ℤ) : K) := by exact_mod_cast hk
    have hl' : (l : K) ≤ ((|r - r'| : ℤ) : K) := by exact_mod_cast hl
    have q1 := mul_le_mul_of_nonneg_left hk' (by positivity : 0 ≤ 3 / 2 * h)
    have q2 := mul_le_mul_of_nonneg_left hl' hs.le
    have q3 := mul_le_mul_of_nonneg_left (q1.trans tx) (by positivity : 0 ≤ 2 * s)
    have q4 := mul_le_mul_of_nonneg_left (q2.trans ty) hh.le
    nlinarith
  have hsh : 0 < s * h := mul_pos hs hh
  have abs_ge : ∀ z : ℤ, ∀ k : ℤ, (k ≤ z ∨ k ≤ -z) → k ≤ |z| := by
    intro z k hz
    rcases hz with hz | hz
    · exact hz.trans (le_abs_self z)
    · exact hz.trans (neg_le_abs z)
  by_cases e0 : i = i'
  · subst e0
    have hj : j ≠ j' := fun h => hne (by rw [h])
    have hl : 2 ≤ |r - r'| := by
      apply abs_ge
      simp only [hr, hr']
      split <;> omega
    have hl' : (2 : K) ≤ ((|r - r'| : ℤ) : K) := by exact_mod_cast hl
    nlinarith [mul_le_mul_of_nonneg_left hl' hs.le]
  · by_cases e1 : 2 ≤ |i - i'|
    · have := bound 2 0 e1 (abs_nonneg _) (by omega) (by omega)
      push_cast at this
      nlinarith
    · have h1' : i = i' + 1 ∨ i = i' - 1 := by
        have hlt := abs_lt.1 (lt_of_not_ge e1)
        omega
      have hk : 1 ≤ |i - i'| := abs_ge _ _ (by omega)
      have hl : 1 ≤ |r - r'| := by
        apply abs_ge
        simp only [hr, hr']
        split <;> split <;> omega
      have := bound 1 1 hk hl (by omega) (by omega)
      push_cast at this
      nlinarith

set_option maxHeartbeats 2000000 in
/-- The hexagons of the grid cover the box, if it has a height. -/
theorem grid_covers (m : HexagonM K) (F : HexFacts m) (hy : m.mbb.ymin < m.mbb.ymax) (q : K × K)
    (hq : (m.mbb.xmin ≤ q.1 ∧ q.1 ≤ m.mbb.xmax) ∧ m.mbb.ymin ≤ q.2 ∧ q.2 ≤ m.mbb.ymax) :
    ∃ c ∈ m.cells, InHexagon m.h_length m.semi_height (hexCenter m (c.2, c.1)) q := by
  obtain ⟨⟨x0, x1⟩, y0, y1⟩ := hq
  have hh := F.h_pos
  have hs := F.s_pos
  have h2s : 0 < 2 * m.semi_height := by positivity
  have h32 : 0 < 3 / 2 * m.h_length := by positivity
  set h := m.h_length
  set s := m.semi_height
  have hro : 0 < m.count_row_odd := by
    rcases lt_or_eq_of_le F.cro_nonneg with h' | h'
    · exact h'
    · exfalso
      have := F.cro_ge
      rw [← h'] at this
      push_cast at this
      linarith
  -- a row of every column
  have row : ∀ j : ℕ, (j : ℤ) < m.count_column → ∃ i : ℕ, (i, j) ∈ m.cells ∧ |q.2 - (hexCenter m (j, i)).2| ≤ s := by
    intro j hj
    by_cases hp : (j : ℤ) % 2 = 0
    · -- even column
      set f := ⌊(q.2 - m.mbb.ymin + s) / (2 * s)⌋ with hf
      have f1 : (f : K) * (2 * s) ≤ q.2 - m.mbb.ymin + s := (le_div_iff₀ h2s).1 (Int.floor_le _)
      have f2 : q.2 - m.mbb.ymin + s < ((f : K) + 1) * (2 * s) := (div_lt_iff₀ h2s).1 (Int.lt_floor_add_one _)
      have f0 : 0 ≤ f := Int.floor_nonneg.2 (div_nonneg (by linarith) h2s.le)
      by_cases hlt : f < m.count_row_even
      · refine ⟨f.toNat, (m.mem_cells _ _).2 ⟨by omega, hj, fun hc => by omega⟩, ?_⟩
        simp only [hexCenter, hp, if_true, Int.toNat_of_nonneg f0]
        rw [abs_le]
        constructor <;> linarith
      · refine ⟨(m.count_row_even - 1).toNat, (m.mem_cells _ _).2 ⟨by have := F.cre_pos; omega, hj, fun hc => by omega⟩, ?_⟩
        have hcr := F.cre_pos
        have hge : (m.count_row_even : K) ≤ (f : K) := by exact_mod_cast not_lt.1 hlt
        have hge' := mul_le_mul_of_nonneg_right hge h2s.le
        have g := F.cre_ge
        simp only [hexCenter, hp, if_true, Int.toNat_of_nonneg (by omega : 0 ≤ m.count_row_even - 1)]
        push_cast
        rw [abs_le]
        constructor <;> linarith
    · set f := ⌊(q.2 - m.mbb.ymin) / (2 * s)⌋ with hf
      have f1 : (f : K) * (2 * s) ≤ q.2 - m.mbb.ymin := (le_div_iff₀ h2s).1 (Int.floor_le _)
      have f2 : q.2 - m.mbb.ymin < ((f : K) + 1) * (2 * s) := (div_lt_iff₀ h2s).1 (Int.lt_floor_add_one _)
      have f0 : 0 ≤ f := Int.floor_nonneg.2 (div_nonneg (by linarith) h2s.le)
      have hmem : ∀ i : ℤ, 0 ≤ i → i < m.count_row_odd → (i.toNat, j) ∈ m.cells := by
        intro i h0 hi
        refine (m.mem_cells _ _).2 ⟨?_, hj, fun hc => ?_⟩
        · rcases F.rows with r | r <;> omega
        · rcases F.rows with r | r
          · exact hc.1 r
          · omega
      by_cases hlt : f < m.count_row_odd
      · refine ⟨f.toNat, hmem f f0 hlt, ?_⟩
        simp only [hexCenter, hp, if_false, Int.toNat_of_nonneg f0]
        rw [abs_le]
        constructor <;> linarith
      · refine ⟨(m.count_row_odd - 1).toNat, hmem _ (by omega) (by omega), ?_⟩
        have hge : (m.count_row_odd : K) ≤ (f : K) := by exact_mod_cast not_lt.1 hlt
        have hge' := mul_le_mul_of_nonneg_right hge h2s.le
        have g := F.cro_ge
        simp only [hexCenter, hp, if_false, Int.toNat_of_nonneg (by omega : 0 ≤ m.count_row_odd - 1)]
        push_cast
        rw [abs_le]
        constructor <;> linarith
  -- the column
  set k := ⌊(q.1 - m.mbb.xmin + h / 2) / (3 / 2 * h)⌋ with hk
  have k1 : (k : K) * (3 / 2 * h) ≤ q.1 - m.mbb.xmin + h / 2 := (le_div_iff₀ h32).1 (Int.floor_le _)
  have k2 : q.1 - m.mbb.xmin + h / 2 < ((k : K) + 1) * (3 / 2 * h) := (div_lt_iff₀ h32).1 (Int.lt_floor_add_one _)
  have k0 : 0 ≤ k := Int.floor_nonneg.2 (div_nonneg (by linarith) h32.le)
  have hccge := F.cc_ge
  -- inside the middle part of a column
  have middle : ∀ j : ℕ, (j : ℤ) < m.count_column → |q.1 - (m.mbb.xmin + 3 / 2 * (j : K) * h)| ≤ h / 2 →
      ∃ c ∈ m.cells, InHexagon h s (hexCenter m (c.2, c.1)) q := by
    intro j hj hx
    obtain ⟨i, hi, hy'⟩ := row j hj
    refine ⟨(i, j), hi, hy', ?_⟩
    have : |q.1 - (hexCenter m ((j : ℤ), (i : ℤ))).1| ≤ h / 2 := by
      simpa only [hexCenter, Int.cast_natCast] using hx
    nlinarith [mul_le_mul_of_nonneg_left this h2s.le, mul_le_mul_of_nonneg_left hy' hh.le]
  by_cases hkc : k < m.count_column
  · by_cases hmid : q.1 - m.mbb.xmin ≤ (k : K) * (3 / 2 * h) + h / 2
    · refine middle k.toNat (by omega) ?_
      have : ((k.toNat : ℕ) : K) = (k : K) := by exact_mod_cast Int.toNat_of_nonneg k0
      rw [this, abs_le]
      constructor <;> linarith
    · -- between two columns
      rw [not_le] at hmid
      have hk1 : k + 1 < m.count_column := by
        by_contra hcon
        have hc' : m.count_column - 1 ≤ k := by omega
        have hc'' : ((m.count_column : K) - 1) ≤ (k : K) := by exact_mod_cast hc'
        have := mul_le_mul_of_nonneg_right hc'' h32.le
        linarith
      obtain ⟨i, hi, hyi⟩ := row k.toNat (by omega)
      obtain ⟨i', hi', hyi'⟩ := row (k + 1).toNat (by omega)
      rw [Int.toNat_of_nonneg k0] at hyi
      rw [Int.toNat_of_nonneg (by omega : 0 ≤ k + 1)] at hyi'
      by_cases hin : 2 * s * |q.1 - (hexCenter m (k, i)).1| + h * |q.2 - (hexCenter m (k, i)).2| ≤ 2 * s * h
      · refine ⟨(i, k.toNat), hi, ?_⟩
        simp only [Int.toNat_of_nonneg k0]
        exact ⟨hyi, hin⟩
      · refine ⟨(i', (k + 1).toNat), hi', ?_⟩
        simp only [Int.toNat_of_nonneg (by omega : 0 ≤ k + 1)]
        refine ⟨hyi', ?_⟩
        rw [not_le] at hin
        set X := q.1 - m.mbb.xmin - (k : K) * (3 / 2 * h) with hX
        have e1 : q.1 - (hexCenter m (k, (i : ℤ))).1 = X := by simp only [hexCenter]; rw [hX]; ring
        have e2 : q.1 - (hexCenter m (k + 1, (i' : ℤ))).1 = X - 3 / 2 * h := by
          simp only [hexCenter]; rw [hX]; push_cast; ring
        have hX1 : h / 2 < X := by rw [hX]; linarith
        have hX2 : X < h := by rw [hX]; linarith
        rw [e1, abs_of_pos (by linarith)] at hin
        rw [e2, abs_of_neg (by linarith)]
        -- the vertical offsets
        set r : ℤ := if k % 2 = 0 then 2 * (i : ℤ) else 2 * (i : ℤ) + 1 with hr
        set r' : ℤ := if (k + 1) % 2 = 0 then 2 * (i' : ℤ) else 2 * (i' : ℤ) + 1 with hr'
        have g1 : q.2 - (hexCenter m (k, (i : ℤ))).2 = q.2 - m.mbb.ymin - (r : K) * s := by
          simp only [hexCenter, hr]
          split <;> (push_cast; ring)
        have g2 : q.2 - (hexCenter m (k + 1, (i' : ℤ))).2 = q.2 - m.mbb.ymin - (r' : K) * s := by
          simp only [hexCenter, hr']
          split <;> (push_cast; ring)
        rw [g1] at hin hyi
        rw [g2] at hyi' ⊢
        set v := q.2 - m.mbb.ymin - (r : K) * s with hv
        set v' := q.2 - m.mbb.ymin - (r' : K) * s with hv'
        have hvv : v' - v = ((r - r' : ℤ) : K) * s := by rw [hv, hv']; push_cast; ring
        obtain ⟨u1, u2⟩ := abs_le.1 hyi
        obtain ⟨u3, u4⟩ := abs_le.1 hyi'
        have hodd : (r - r') % 2 = 1 := by
          simp only [hr, hr']
          split <;> split <;> omega
        have hub : r - r' ≤ 2 := by
          by_contra hcon
          have h3 : (3 : K) ≤ ((r - r' : ℤ) : K) := by exact_mod_cast (by omega : (3 : ℤ) ≤ r - r')
          nlinarith [mul_le_mul_of_nonneg_right h3 hs.le]
        have hlb : -2 ≤ r - r' := by
          by_contra hcon
          have h3 : ((r - r' : ℤ) : K) ≤ (-3 : K) := by exact_mod_cast (by omega : r - r' ≤ (-3 : ℤ))
          nlinarith [mul_le_mul_of_nonneg_right h3 hs.le]
        have hcases : r - r' = 1 ∨ r - r' = -1 := by omega
        have hkey : 2 * s * h < 2 * s * X + h * |v| := hin
        rcases hcases with hc | hc
        · rw [hc] at hvv
          push_cast at hvv
          have hv0 : v ≤ 0 := by linarith
          rw [abs_of_nonpos hv0] at hkey
          have hv1 : 0 ≤ v' := by linarith
          rw [abs_of_nonneg hv1]
          have : v' = v + s := by linarith
          rw [this]
          nlinarith
        · rw [hc] at hvv
          push_cast at hvv
          have hv0 : 0 ≤ v := by linarith
          rw [abs_of_nonneg hv0] at hkey
          have hv1 : v' ≤ 0 := by linarith
          rw [abs_of_nonpos hv1]
          have : v' = v - s := by linarith
          rw [this]
          nlinarith
  · -- exactly on the right end
    refine middle (m.count_column - 1).toNat (by have := F.cc_pos; omega) ?_
    have hcc := F.cc_pos
    have e : (((m.count_column - 1).toNat : ℕ) : K) = (m.count_column : K) - 1 := by
      have : (((m.count_column - 1).toNat : ℕ) : ℤ) = m.count_column - 1 := Int.toNat_of_nonneg (by omega)
      exact_mod_cast this
    have hge : (m.count_column : K) ≤ (k : K) := by exact_mod_cast not_lt.1 hkc
    have := mul_le_mul_of_nonneg_right hge h32.le
    rw [e, abs_le]
    constructor <;> linarith

end Grid

/-! ### The theorems -/

theorem cos30_sq : Real.cos (Real.pi / 6) ^ 2 = 3 / 4 := by
  rw [Real.cos_pi_div_six, div_pow, Real.sq_sqrt (by norm_num)]
  norm_num

theorem cos30_pos : 0 < Real.cos (Real.pi / 6) := by
  rw [Real.cos_pi_div_six]
  positivity

theorem hexVertices_regular {lh : ℝ} (hlh : 0 < lh) (c : ℝ × ℝ) :
    IsRegularHexagon (hexVertices lh (lh * Real.cos (Real.pi / 6)) c) c lh := by
  have hsq := cos30_sq
  have hs := mul_pos hlh cos30_pos
  refine ⟨fun i => (hexVertices lh (lh * Real.cos (Real.pi / 6)) c).getD i (0, 0), rfl, rfl, ?_, ?_, ?_⟩
  · show [(c.1 + lh, c.2), (c.1 + lh / 2, c.2 + lh * Real.cos (Real.pi / 6)),
      (c.1 - lh / 2, c.2 + lh * Real.cos (Real.pi / 6)), (c.1 - lh, c.2),
      (c.1 - lh / 2, c.2 - lh * Real.cos (Real.pi / 6)), (c.1 + lh / 2, c.2 - lh * Real.cos (Real.pi / 6))].Nodup
    simp only [List.nodup_cons, List.mem_cons, List.not_mem_nil, or_false, Prod.mk.injEq, not_or,
      not_false_eq_true, List.nodup_nil, and_true]
    refine ⟨⟨?_, ?_, ?_, ?_, ?_⟩, ⟨?_, ?_, ?_, ?_⟩, ⟨?_, ?_, ?_⟩, ⟨?_, ?_⟩, ?_⟩
    all_goals first
      | (rintro ⟨h1, h2⟩; linarith)
      | (intro h1; linarith)
  · intro i hi
    have : (lh * Real.cos (Real.pi / 6)) ^ 2 = 3 / 4 * lh ^ 2 := by rw [mul_pow, hsq]; ring
    interval_cases i <;> simp only [hexVertices, List.getD_cons_zero, List.getD_cons_succ, planeSqDist] <;>
      nlinarith [this]
  · intro i hi
    have : (lh * Real.cos (Real.pi / 6)) ^ 2 = 3 / 4 * lh ^ 2 := by rw [mul_pow, hsq]; ring
    interval_cases i <;> simp only [hexVertices, List.getD_cons_zero, List.getD_cons_succ, planeSqDist] <;>
      nlinarith [this]

/-- **C115, partial.** Whenever `HexagonM(points, lh).plot()` draws: every polygon drawn is a regular hexagon with side `lh`
around the place of its number, the polygons do not overlap, and, if two events have different `y` coordinates, they cover
the smallest box that contains the events. The numbers count the events in the hexagons, unless the height of the box is a
multiple of half the height of a hexagon or its width is `(3 k + 1) / 2` times the side.

Missing for the full property: events on a horizontal line (`C115_gap_refuted`), and the exact multiples (C51 and C52). -/
theorem C115_hexagons_partial (points : List (ℝ × ℝ)) (lh : ℝ) (hlh : 0 < lh) (m : HexagonM ℝ)
    (hm : HexagonM.init (Real.cos (Real.pi / 6)) points lh = .ok m) (cells : List (List (ℝ × ℝ) × (ℝ × ℝ) × ℕ))
    (hc : m.plotCells = .ok cells) :
    (∀ x ∈ cells, IsRegularHexagon x.1 x.2.1 lh) ∧ NoOverlap (cells.map Prod.fst)
    ∧ ((∃ p ∈ points, ∃ q ∈ points, p.2 < q.2) → CoversBox (cells.map Prod.fst) points)
    ∧ (∀ b, Geometry.bboxPts points = .ok b →
        (∀ k : ℤ, b.ymax - b.ymin ≠ k * (lh * Real.cos (Real.pi / 6))) →
        (∀ k : ℤ, 2 * (b.xmax - b.xmin) ≠ (3 * k + 1) * lh) → NumbersCount cells points) := by
  have hne : points ≠ [] := by
    rintro rfl
    cases hm
  obtain ⟨m', hm', hpts, hmh, hms, F, -⟩ := hex_init cos30_pos hne hlh
  rw [hm] at hm'
  cases hm'
  have hs := F.s_pos
  have hh := F.h_pos
  unfold HexagonM.plotCells at hc
  cases hd : m.pointLocationSta with
  | error e => rw [hd] at hc; cases hc
  | ok d =>
    rw [hd] at hc
    simp only [bind, Except.bind, pure, Except.pure, Except.ok.injEq] at hc
    have hkeys := pointLocation_keys m d hd
    subst hc
    have hkey : ∀ k ∈ m.hexKeys, ∃ c ∈ m.cells, k = (c.2 : ℤ) + (c.1 : ℤ) * m.count_column ∧
        m.cellCenter k = hexCenter m (c.2, c.1) := by
      intro k hk
      obtain ⟨⟨i, j⟩, hij, rfl⟩ := List.mem_map.1 hk
      exact ⟨(i, j), hij, rfl, cellCenter_key m i j ((m.mem_cells i j).1 hij).2.1⟩
    refine ⟨?_, ?_, ?_, ?_⟩
    · intro x hx
      obtain ⟨k, -, rfl⟩ := List.mem_map.1 hx
      simp only [hmh, hms]
      exact hexVertices_regular hlh _
    · unfold NoOverlap
      rw [List.map_map, List.pairwise_map, hkeys]
      refine List.Pairwise.imp_of_mem ?_ m.nodup_hexKeys
      intro k k' hk hk' hne'
      obtain ⟨c, -, ek, ec⟩ := hkey k hk
      obtain ⟨c', -, ek', ec'⟩ := hkey k' hk'
      rw [Set.disjoint_left]
      intro p hp hp'
      simp only [Function.comp, ec, inPolygon_hexVertices hh hs] at hp
      simp only [Function.comp, ec', inPolygon_hexVertices hh hs] at hp'
      refine lattice_disjoint m hh hs _ _ ?_ p (interior_hexagon hh hs hp) (interior_hexagon hh hs hp')
      intro he
      simp only [Prod.mk.injEq] at he
      exact hne' (by rw [ek, ek', he.1, he.2])
    · rintro ⟨p, hp, q, hq, hpq⟩ z ⟨a, ha, ha'⟩ ⟨b, hb, hb'⟩ ⟨e, he, he'⟩ ⟨f, hf, hf'⟩
      obtain ⟨h1, -⟩ := Geometry.bboxPts_spec F.bbox
      rw [hpts] at h1
      have hy : m.mbb.ymin < m.mbb.ymax := lt_of_le_of_lt (h1 p hp).2.2.1 (lt_of_lt_of_le hpq (h1 q hq).2.2.2)
      obtain ⟨c, hcm, hin⟩ := grid_covers m F hy z
        ⟨⟨(h1 a ha).1.trans ha', hb'.trans (h1 b hb).2.1⟩, (h1 e he).2.2.1.trans he', hf'.trans (h1 f hf).2.2.2⟩
      have hk : (c.2 : ℤ) + (c.1 : ℤ) * m.count_column ∈ m.hexKeys := List.mem_map.2 ⟨c, hcm, rfl⟩
      have hcc := cellCenter_key m c.1 c.2 ((m.mem_cells c.1 c.2).1 hcm).2.1
      refine ⟨_, List.mem_map.2 ⟨_, List.mem_map.2 ⟨_, hkeys ▸ hk, rfl⟩, rfl⟩, ?_⟩
      simp only [hcc, inPolygon_hexVertices hh hs]
      exact hin
    · -- the numbers
      classical
      intro b hb hoffy hoffx
      obtain ⟨m', d', assign, h1, h2, -, h4, h5, -⟩ :=
        C51_C52_hexagon_counts_partial _ cos30_pos points hne lh hlh b hb hoffy hoffx
      rw [hm] at h1
      cases h1
      rw [hd] at h2
      cases h2
      have hinj : ∀ k ∈ m.hexKeys, ∀ k' ∈ m.hexKeys, hexVertices m.h_length m.semi_height (m.cellCenter k)
          = hexVertices m.h_length m.semi_height (m.cellCenter k') → k = k' := by
        intro k hk k' hk' he
        obtain ⟨c, -, ek, ec⟩ := hkey k hk
        obtain ⟨c', -, ek', ec'⟩ := hkey k' hk'
        rw [ec, ec'] at he
        simp only [hexVertices, hexCenter, List.cons.injEq, Prod.mk.injEq] at he
        obtain ⟨⟨g1, g2⟩, -⟩ := he
        have i1 : c.2 = c'.2 := by
          have : ((c.2 : ℤ) : ℝ) = ((c'.2 : ℤ) : ℝ) := by
            refine mul_right_cancel₀ hh.ne' ?_
            linarith
          exact_mod_cast this
        rw [i1] at g2
        have i2 : c.1 = c'.1 := by
          have : ((c.1 : ℤ) : ℝ) = ((c'.1 : ℤ) : ℝ) := by
            have g3 := mul_right_cancel₀ hs.ne' (add_left_cancel g2)
            split at g3 <;> linarith
          exact_mod_cast this
        rw [ek, ek', i1, i2]
      refine ⟨fun p => hexVertices m.h_length m.semi_height (m.cellCenter (assign p)), ?_, ?_⟩
      · intro p hp
        obtain ⟨g1, g2⟩ := h4 p hp
        refine ⟨List.mem_map.2 ⟨_, List.mem_map.2 ⟨_, g1, rfl⟩, rfl⟩, ?_⟩
        rw [inPolygon_hexVertices hh hs, hmh, hms]
        exact g2
      · intro x hx
        obtain ⟨k, hk, rfl⟩ := List.mem_map.1 hx
        simp only
        rw [h5 k]
        congr 1
        refine List.filter_congr fun p hp => ?_
        rw [decide_eq_decide]
        constructor
        · intro he
          rw [he]
        · intro he
          exact hinj _ (hkeys ▸ (h4 p hp).1) _ (hkeys ▸ hk) he

/-- **C115, refuted for events on a horizontal line.** For every cell length, two events three cell lengths apart: the plot
shows two hexagons, and the point in the middle between the events is in none of them. -/
theorem C115_gap_refuted (lh : ℝ) (hlh : 0 < lh) :
    ∃ m cells, HexagonM.init (Real.cos (Real.pi / 6)) [(0, 0), (3 * lh, 0)] lh = .ok m ∧ m.plotCells = .ok cells ∧
      cells.map (fun x => x.2) = [((0, 0), 1), ((3 * lh, 0), 1)] ∧
      ∀ ring ∈ cells.map Prod.fst, ¬ InPolygon ring (3 / 2 * lh, 0) := by
  obtain ⟨m, hm, hpts, hmh, hms, F, -, hro, hre, hcc⟩ :=
    hex_init cos30_pos (points := [((0 : ℝ), (0 : ℝ)), (3 * lh, 0)]) (by simp) hlh
  have hs : 0 < lh * Real.cos (Real.pi / 6) := mul_pos hlh cos30_pos
  have h3 : 0 < 3 * lh := by positivity
  have hmb : m.mbb = ⟨0, 0, 3 * lh, 0⟩ := by
    have := F.bbox
    rw [hpts] at this
    simp only [Geometry.bboxPts, listMin, listMax, List.map_cons, List.map_nil, List.foldl_cons,
      List.foldl_nil, min_self, max_self, min_eq_left h3.le, max_eq_right h3.le, Except.ok.injEq] at this
    exact this.symm
  rw [hmb] at hro hre hcc
  simp only [sub_self, zero_div, zero_add, sub_zero] at hro hre hcc
  have ro0 : m.count_row_odd = 0 := by rw [hro]; simp
  have re1 : m.count_row_even = 1 := by
    rw [hre, show lh * Real.cos (Real.pi / 6) / (2 * (lh * Real.cos (Real.pi / 6))) = (1 / 2 : ℝ) by field_simp]
    have : ⌈(1 / 2 : ℝ)⌉ = 1 := by rw [Int.ceil_eq_iff]; norm_num
    rw [this]; rfl
  have cc3 : m.count_column = 3 := by
    rw [hcc, show (3 * lh - lh / 2) / (3 / 2 * lh) = (5 / 3 : ℝ) by field_simp; norm_num]
    have : ⌈(5 / 3 : ℝ)⌉ = 2 := by rw [Int.ceil_eq_iff]; norm_num
    rw [this]; rfl
  have hz : m.zeroDict = [(0, 0), (2, 0)] := by
    unfold HexagonM.zeroDict
    rw [ro0, re1, cc3]
    rfl
  have hhalf : (lh * Real.cos (Real.pi / 6)) / (2 * (lh * Real.cos (Real.pi / 6))) = (1 / 2 : ℝ) := by field_simp
  have fl2 : ⌊(1 / 2 : ℝ)⌋ = 0 := by rw [Int.floor_eq_iff]; norm_num
  have id0 : m.cellId (0, 0) = 0 := by
    unfold HexagonM.cellId HexagonM.cellIndex
    rw [hmb, hmh, hms, cc3]
    simp [truncInt, hhalf, -Real.cos_pi_div_six]
    norm_num
  have id1 : m.cellId (3 * lh, 0) = 2 := by
    unfold HexagonM.cellId HexagonM.cellIndex
    rw [hmb, hmh, hms, cc3]
    have f6 : ⌊(3 * lh - 0) / (lh / 2)⌋ = 6 := by
      rw [show (3 * lh - 0) / (lh / 2) = (6 : ℝ) by field_simp; ring]
      exact Int.floor_ofNat 6
    simp only [f6]
    simp [truncInt, hhalf, -Real.cos_pi_div_six]
    norm_num
  have hd : m.pointLocationSta = .ok [(0, 1), (2, 1)] := by
    unfold HexagonM.pointLocationSta
    rw [hpts, hz]
    simp only [List.foldlM_cons, List.foldlM_nil, id0, id1]
    rfl
  have c0 : m.cellCenter 0 = (0, 0) := by
    unfold HexagonM.cellCenter
    rw [hmb, hmh, hms, cc3]
    norm_num
  have c2 : m.cellCenter 2 = (3 * lh, 0) := by
    unfold HexagonM.cellCenter
    rw [hmb, hmh, hms, cc3]
    norm_num
    ring
  refine ⟨m, [(hexVertices lh (lh * Real.cos (Real.pi / 6)) (0, 0), (0, 0), 1),
    (hexVertices lh (lh * Real.cos (Real.pi / 6)) (3 * lh, 0), (3 * lh, 0), 1)], hm, ?_, rfl, ?_⟩
  · unfold HexagonM.plotCells
    rw [hd]
    simp only [bind, Except.bind, pure, Except.pure, Dict.keys, List.map_cons, List.map_nil, c0, c2, hmh, hms]
    rfl
  · intro ring hring
    simp only [List.map_cons, List.map_nil, List.mem_cons, List.not_mem_nil, or_false] at hring
    rcases hring with rfl | rfl
    · rw [inPolygon_hexVertices hlh hs]
      rintro ⟨-, h2⟩
      simp only [sub_zero, abs_zero, mul_zero, add_zero] at h2
      rw [abs_of_pos (by positivity)] at h2
      nlinarith [mul_pos hs hlh]
    · rw [inPolygon_hexVertices hlh hs]
      rintro ⟨-, h2⟩
      simp only [sub_self, abs_zero, mul_zero, add_zero] at h2
      rw [abs_of_neg (by linarith)] at h2
      nlinarith [mul_pos hs hlh]

/-- Two events at different heights: the plot draws (and by `C115_hexagons_partial` covers their box); and a case in exact
arithmetic, with 7/8 for the cosine. -/
example : ((HexagonM.init (7 / 8 : ℚ) [(0, 0), (3, 1), (2, 5), (1, 3)] 2).bind fun m => m.plotCells.map fun l =>
    (l.length, l.headD ([], (0, 0), 0))) = .ok (4, ([(2, 0), (1, 7 / 4), (-1, 7 / 4), (-2, 0), (-1, -7 / 4), (1, -7 / 4),
      (2, 0)], (0, 0), 1)) := by decide +kernel

end Pointpats.Props
