import Verif.Model.Geometry
import Mathlib.Tactic.Common
import Mathlib.Order.Lattice

/-! # Minima, maxima and bounding boxes of lists -/

namespace Pointpats

variable {K : Type} [LinearOrder K]

theorem listMin_le_head (a : K) (l : List K) : listMin a l ≤ a := by
  induction l generalizing a with
  | nil => exact le_refl _
  | cons b l ih => exact le_trans (ih (min a b)) (min_le_left _ _)

theorem listMin_le {a : K} {l : List K} {x : K} (h : x ∈ a :: l) : listMin a l ≤ x := by
  induction l generalizing a with
  | nil => simp at h; simp [listMin, h]
  | cons b l ih =>
    simp only [List.mem_cons] at h
    rcases h with rfl | rfl | h
    · exact listMin_le_head _ _
    · exact le_trans (listMin_le_head (min a x) l) (min_le_right _ _)
    · exact ih (a := min a b) (by simp [h])

theorem listMin_mem (a : K) (l : List K) : listMin a l ∈ a :: l := by
  induction l generalizing a with
  | nil => simp [listMin]
  | cons b l ih =>
    have := ih (min a b)
    simp only [List.mem_cons] at this ⊢
    rcases this with h | h
    · rcases min_choice a b with h' | h'
      · left; exact h.trans h'
      · right; left; exact h.trans h'
    · right; right; exact h

theorem le_listMax_head (a : K) (l : List K) : a ≤ listMax a l := by
  induction l generalizing a with
  | nil => exact le_refl _
  | cons b l ih => exact le_trans (le_max_left _ _) (ih (max a b))

theorem le_listMax {a : K} {l : List K} {x : K} (h : x ∈ a :: l) : x ≤ listMax a l := by
  induction l generalizing a with
  | nil => simp at h; simp [listMax, h]
  | cons b l ih =>
    simp only [List.mem_cons] at h
    rcases h with rfl | rfl | h
    · exact le_listMax_head _ _
    · exact le_trans (le_max_right _ _) (le_listMax_head (max a x) l)
    · exact ih (a := max a b) (by simp [h])

theorem listMax_mem (a : K) (l : List K) : listMax a l ∈ a :: l := by
  induction l generalizing a with
  | nil => simp [listMax]
  | cons b l ih =>
    have := ih (max a b)
    simp only [List.mem_cons] at this ⊢
    rcases this with h | h
    · rcases max_choice a b with h' | h'
      · left; exact h.trans h'
      · right; left; exact h.trans h'
    · right; right; exact h

namespace Geometry

/-- What is needed about `bboxPts`: bounds are attained and bound. -/
theorem bboxPts_spec {l : List (K × K)} {b : BBox K} (h : bboxPts l = .ok b) :
    (∀ p ∈ l, b.xmin ≤ p.1 ∧ p.1 ≤ b.xmax ∧ b.ymin ≤ p.2 ∧ p.2 ≤ b.ymax)
    ∧ (∃ p ∈ l, p.1 = b.xmin) ∧ (∃ p ∈ l, p.1 = b.xmax)
    ∧ (∃ p ∈ l, p.2 = b.ymin) ∧ (∃ p ∈ l, p.2 = b.ymax) := by
  cases l with
  | nil => simp [bboxPts] at h
  | cons q l =>
    simp only [bboxPts, Except.ok.injEq] at h
    subst h
    have key : ∀ (f : K × K → K) p, p ∈ q :: l → f p ∈ f q :: l.map f := by
      intro f p hp
      rw [← List.map_cons]; exact List.mem_map_of_mem hp
    have back : ∀ (f : K × K → K) x, x ∈ f q :: l.map f → ∃ p ∈ q :: l, f p = x := by
      intro f x hx
      rw [← List.map_cons] at hx
      simpa using List.mem_map.1 hx
    refine ⟨fun p hp => ⟨listMin_le (key _ p hp), le_listMax (key _ p hp), listMin_le (key _ p hp),
      le_listMax (key _ p hp)⟩, back _ _ (listMin_mem _ _), back _ _ (listMax_mem _ _),
      back _ _ (listMin_mem _ _), back _ _ (listMax_mem _ _)⟩

theorem bboxPts_ok {l : List (K × K)} (h : l ≠ []) : ∃ b, bboxPts l = .ok b := by
  cases l with
  | nil => exact absurd rfl h
  | cons q l => exact ⟨_, rfl⟩

end Geometry

end Pointpats
