import Verif.Model.Quadrat
import Verif.Lemmas.Dict
import Verif.Lemmas.MinMax
import Mathlib.Tactic.Linarith
import Mathlib.Tactic.Ring
import Mathlib.Tactic.FieldSimp
import Mathlib.Tactic.Positivity

/-! # Helper lemmas for the rectangular grid -/

namespace Pointpats.Quadrat

theorem flatMap_range_mul (a c : ℕ) :
    (List.range a).flatMap (fun i => (List.range c).map fun j => j + i * c) = List.range (a * c) := by
  induction a with
  | zero => simp
  | succ a ih =>
    rw [List.range_succ, List.flatMap_append, ih, Nat.succ_mul, List.range_add]
    simp [Nat.add_comm]

variable {K : Type} [Field K] [LinearOrder K] [IsStrictOrderedRing K] [FloorRing K]

omit [Field K] [LinearOrder K] [IsStrictOrderedRing K] [FloorRing K] in
theorem iterCellIds_eq (m : RectangleM K) (hc : 0 ≤ m.count_column) (hr : 0 ≤ m.count_row) :
    m.iterCellIds = (List.range (m.count_column * m.count_row).toNat).map (Nat.cast : ℕ → ℤ) := by
  obtain ⟨c, hc⟩ := Int.eq_ofNat_of_zero_le hc
  obtain ⟨r, hr⟩ := Int.eq_ofNat_of_zero_le hr
  have : (m.count_column * m.count_row).toNat = r * c := by
    rw [hc, hr, ← Nat.cast_mul, Int.toNat_natCast, Nat.mul_comm]
  rw [this, ← flatMap_range_mul, List.map_flatMap]
  simp [RectangleM.iterCellIds, hc, hr, Function.comp_def]

omit [Field K] [LinearOrder K] [IsStrictOrderedRing K] [FloorRing K] in
theorem zeroDict_eq (m : RectangleM K) (hc : 0 ≤ m.count_column) (hr : 0 ≤ m.count_row) :
    m.zeroDict = m.iterCellIds.map fun k => (k, 0) := by
  have h1 : m.zeroDict = m.iterCellIds.foldl (fun d k => Dict.set k 0 d) [] := by
    unfold RectangleM.zeroDict RectangleM.iterCellIds
    rw [List.foldl_flatMap]
    simp [List.foldl_map]
  rw [h1, Dict.foldl_set]
  · simp
  · rw [iterCellIds_eq m hc hr]
    exact (List.nodup_range).map Nat.cast_injective
  · simp [Dict.keys]

/-- The clamped index of a point, in exact arithmetic. -/
def idx (x w : K) (n : ℤ) : ℤ := if ⌊x / w⌋ = n then n - 1 else ⌊x / w⌋

omit [IsStrictOrderedRing K] in
theorem idx_mem {x w : K} {n : ℤ} (hw : 0 < w) (hn : 0 < n) (hx : 0 ≤ x)
    (hlt : x / w < (n : K) + 1) [IsStrictOrderedRing K] : 0 ≤ idx x w n ∧ idx x w n < n := by
  have h0 : 0 ≤ ⌊x / w⌋ := Int.floor_nonneg.2 (div_nonneg hx hw.le)
  have h1 : ⌊x / w⌋ < n + 1 := Int.floor_lt.2 (by push_cast; exact hlt)
  unfold idx
  split <;> omega

theorem clampIndex_toInt {x w : K} {n : ℤ} (hw : 0 < w) (hn : 0 < n) (hx : 0 ≤ x) :
    (clampIndex (XF.floorDiv (.fin x) (.fin w)) n).toInt = .ok (idx x w n) := by
  have h0 : 0 ≤ ⌊x / w⌋ := Int.floor_nonneg.2 (div_nonneg hx hw.le)
  have e1 : XF.floorDiv (.fin x) (.fin w) = .fin ((⌊x / w⌋ : ℤ) : K) := by
    simp [XF.floorDiv, hw.ne']
  rw [e1]
  unfold clampIndex idx
  by_cases h : ⌊x / w⌋ = n
  · simp only [h, XF.eq, decide_true, if_true, XF.sub, XF.toInt]
    have : (0 : K) ≤ (n : K) - 1 := by
      have : (1 : K) ≤ (n : K) := by exact_mod_cast hn
      linarith
    rw [if_pos this]
    have : (n : K) - 1 = ((n - 1 : ℤ) : K) := by push_cast; ring
    rw [this, Int.floor_intCast]
  · have hne : ¬ ((⌊x / w⌋ : K) = (n : K)) := fun e => h (by exact_mod_cast e)
    have : (0 : K) ≤ (⌊x / w⌋ : K) := by exact_mod_cast h0
    simp [XF.eq, hne, XF.toInt, h, this]

/-- The cell of a point, described without division. -/
theorem idx_eq_iff {x w : K} {n i : ℤ} (hw : 0 < w)
    (hlt : x / w < (n : K) + 1) (hi : i < n) :
    idx x w n = i ↔ (i : K) * w ≤ x ∧ (x < ((i : K) + 1) * w ∨ (i = n - 1 ∧ x < ((i : K) + 2) * w)) := by
  have h1 : ⌊x / w⌋ < n + 1 := Int.floor_lt.2 (by push_cast; exact hlt)
  have hf : ∀ j : ℤ, ⌊x / w⌋ = j ↔ (j : K) * w ≤ x ∧ x < ((j : K) + 1) * w := by
    intro j
    rw [Int.floor_eq_iff, le_div_iff₀ hw, div_lt_iff₀ hw]
  have hstep : ∀ j : ℤ, ((j + 1 : ℤ) : K) = (j : K) + 1 := by intro j; push_cast; ring
  unfold idx
  by_cases h : ⌊x / w⌋ = n
  · rw [if_pos h]
    have hn := (hf n).1 h
    constructor
    · rintro rfl
      refine ⟨?_, Or.inr ⟨rfl, ?_⟩⟩
      · push_cast; nlinarith [hn.1]
      · push_cast; have := hn.2; nlinarith
    · rintro ⟨_, h2 | ⟨h2, _⟩⟩
      · have : ((i : K) + 1) ≤ (n : K) := by rw [← hstep]; exact_mod_cast hi
        exact absurd hn.1 (not_le.2 (lt_of_lt_of_le h2 (by nlinarith)))
      · exact h2.symm
  · rw [if_neg h, hf]
    constructor
    · rintro ⟨a, b⟩; exact ⟨a, Or.inl b⟩
    · rintro ⟨a, b | ⟨rfl, b⟩⟩
      · exact ⟨a, b⟩
      · refine ⟨a, ?_⟩
        by_contra hcon
        push Not at hcon
        apply h
        rw [hf]
        push_cast at hcon b
        exact ⟨by linarith, by nlinarith⟩

theorem cellId_eq (m : RectangleM K) {W H : K} (hW : m.rectangle_width = .fin W)
    (hH : m.rectangle_height = .fin H) (hW0 : 0 < W) (hH0 : 0 < H)
    (hc : 0 < m.count_column) (hr : 0 < m.count_row) (p : K × K)
    (hx : m.mbb.xmin ≤ p.1) (hy : m.mbb.ymin ≤ p.2) :
    m.cellId p = .ok (idx (p.2 - m.mbb.ymin) H m.count_row * m.count_column
      + idx (p.1 - m.mbb.xmin) W m.count_column) := by
  unfold RectangleM.cellId
  rw [hW, hH]
  have e1 := clampIndex_toInt (x := p.1 - m.mbb.xmin) hW0 hc (sub_nonneg.2 hx)
  have e2 := clampIndex_toInt (x := p.2 - m.mbb.ymin) hH0 hr (sub_nonneg.2 hy)
  simp only [e1, e2]
  rfl

/-- Two cells with the same key are the same cell. -/
theorem key_inj {c a b a' b' : ℤ} (ha : 0 ≤ a) (ha' : a < c) (hb : 0 ≤ b) (hb' : b < c) :
    a' * c + a = b' * c + b ↔ a' = b' ∧ a = b := by
  constructor
  · intro h
    have hc : 0 < c := by omega
    have h1 : (a' * c + a) / c = a' := by
      rw [Int.add_comm, Int.add_mul_ediv_right _ _ hc.ne', Int.ediv_eq_zero_of_lt ha ha', zero_add]
    have h2 : (b' * c + b) / c = b' := by
      rw [Int.add_comm, Int.add_mul_ediv_right _ _ hc.ne', Int.ediv_eq_zero_of_lt hb hb', zero_add]
    have : a' = b' := by rw [← h1, h, h2]
    subst this
    exact ⟨rfl, by omega⟩
  · rintro ⟨rfl, rfl⟩; rfl

/-- The counting loop of the rectangular grid for any positive cell size that leaves no point more
than one cell beyond the grid. -/
theorem rect_count (m : RectangleM K) {W H : K} (hW : m.rectangle_width = .fin W)
    (hH : m.rectangle_height = .fin H) (hW0 : 0 < W) (hH0 : 0 < H)
    (hc : 0 < m.count_column) (hr : 0 < m.count_row)
    (hx : ∀ p ∈ m.points, m.mbb.xmin ≤ p.1 ∧ (p.1 - m.mbb.xmin) / W < (m.count_column : K) + 1)
    (hy : ∀ p ∈ m.points, m.mbb.ymin ≤ p.2 ∧ (p.2 - m.mbb.ymin) / H < (m.count_row : K) + 1) :
    ∃ d, m.pointLocationSta = .ok d
      ∧ d.keys = (List.range (m.count_column * m.count_row).toNat).map (Nat.cast : ℕ → ℤ)
      ∧ d.values.sum = m.points.length
      ∧ ∀ k, Dict.getD0 k d = (m.points.filter fun p =>
          idx (p.2 - m.mbb.ymin) H m.count_row * m.count_column
            + idx (p.1 - m.mbb.xmin) W m.count_column = k).length := by
  have hz := zeroDict_eq m hc.le hr.le
  have hk := iterCellIds_eq m hc.le hr.le
  obtain ⟨d', e1, e2, e3, e4⟩ := Dict.foldlM_incr m.cellId (fun p =>
      idx (p.2 - m.mbb.ymin) H m.count_row * m.count_column
        + idx (p.1 - m.mbb.xmin) W m.count_column) m.points m.zeroDict (by
    intro p hp
    refine ⟨cellId_eq m hW hH hW0 hH0 hc hr p (hx p hp).1 (hy p hp).1, ?_⟩
    rw [hz, Dict.keys_map_zero, hk]
    have h1 := idx_mem hW0 hc (sub_nonneg.2 (hx p hp).1) (hx p hp).2
    have h2 := idx_mem hH0 hr (sub_nonneg.2 (hy p hp).1) (hy p hp).2
    set a := idx (p.1 - m.mbb.xmin) W m.count_column
    set b := idx (p.2 - m.mbb.ymin) H m.count_row
    have hb : 0 ≤ b * m.count_column + a := by
      have := mul_nonneg h2.1 hc.le; omega
    have hb' : b * m.count_column + a < m.count_column * m.count_row := by
      have : (b + 1) * m.count_column ≤ m.count_row * m.count_column :=
        mul_le_mul_of_nonneg_right (by omega) hc.le
      rw [Int.add_mul] at this
      rw [Int.mul_comm m.count_column]
      omega
    refine List.mem_map.2 ⟨(b * m.count_column + a).toNat, List.mem_range.2 ?_, ?_⟩
    · omega
    · show (((b * m.count_column + a).toNat : ℕ) : ℤ) = _
      omega)
  refine ⟨d', e1, by rw [e2, hz, Dict.keys_map_zero, hk], ?_, ?_⟩
  · rw [e3, hz, Dict.values_sum_map_zero]; omega
  · intro k
    rw [e4, hz, Dict.getD0_map_zero]
    simp

end Pointpats.Quadrat
