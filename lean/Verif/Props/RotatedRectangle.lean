import Verif.Model.Centrography
import Verif.Spec.Centrography
import Mathlib.Tactic.Linarith
import Mathlib.Tactic.FieldSimp
import Mathlib.Tactic.Ring

/-!
# C35: the angle of the minimum rotated rectangle
-/

namespace Pointpats.Props

open Centrography Spec

theorem mod90 (a : ℝ) : 0 ≤ a - 90 * (⌊a / 90⌋ : ℤ) ∧ a - 90 * (⌊a / 90⌋ : ℤ) < 90 := by
  have h1 := Int.floor_le (a / 90)
  have h2 := Int.lt_floor_add_one (a / 90)
  rw [le_div_iff₀ (by norm_num)] at h1
  rw [div_lt_iff₀ (by norm_num)] at h2
  constructor <;> linarith

/-- Two angles that differ by a multiple of 90 and are in `[0, 90)` are equal. -/
private theorem mod90_unique {a b : ℝ} (ha : 0 ≤ a ∧ a < 90) (hb : 0 ≤ b ∧ b < 90) (k : ℤ)
    (h : a - b = 90 * k) : a = b := by
  have h1 : (-1 : ℝ) < k := by linarith [ha.1, hb.2]
  have h2 : (k : ℝ) < 1 := by linarith [ha.2, hb.1]
  have h1' : -1 < k := by exact_mod_cast h1
  have h2' : k < 1 := by exact_mod_cast h2
  have : k = 0 := by omega
  rw [this] at h; simp at h; linarith

theorem mrr_spec (p0 p1 : ℝ × ℝ) :
    0 ≤ getMrrAngle p0 p1 ∧ getMrrAngle p0 p1 < 90
    ∧ ∃ k : ℤ, p1.1 - p0.1 = eucl p0 p1 * Real.cos (getMrrAngle p0 p1 * (Real.pi / 180) + k * (Real.pi / 2))
      ∧ p1.2 - p0.2 = eucl p0 p1 * Real.sin (getMrrAngle p0 p1 * (Real.pi / 180) + k * (Real.pi / 2)) := by
  unfold getMrrAngle
  simp only
  set z : ℂ := ⟨p1.1 - p0.1, p1.2 - p0.2⟩ with hz
  refine ⟨(mod90 _).1, (mod90 _).2, ⌊z.arg * (180 / Real.pi) / 90⌋, ?_⟩
  have hpi := Real.pi_ne_zero
  have e : (z.arg * (180 / Real.pi) - 90 * (⌊z.arg * (180 / Real.pi) / 90⌋ : ℤ)) * (Real.pi / 180)
      + (⌊z.arg * (180 / Real.pi) / 90⌋ : ℤ) * (Real.pi / 2) = z.arg := by
    field_simp; ring
  rw [e]
  have hn : eucl p0 p1 = ‖z‖ := by
    rw [Complex.norm_def, Complex.normSq_apply]
    unfold eucl sqDist
    congr 1
    simp only [hz]; ring
  rw [hn, Complex.norm_mul_cos_arg, Complex.norm_mul_sin_arg]
  exact ⟨rfl, rfl⟩

/-- Quarter turns and changes of length do not change the angle modulo 90. -/
theorem mrr_unique (p0 p1 : ℝ × ℝ) (hne : p0 ≠ p1) (b : ℝ) (hb : 0 ≤ b ∧ b < 90) (r : ℝ) (hr : r ≠ 0)
    (k : ℤ) (hx : p1.1 - p0.1 = r * Real.cos (b * (Real.pi / 180) + k * (Real.pi / 2)))
    (hy : p1.2 - p0.2 = r * Real.sin (b * (Real.pi / 180) + k * (Real.pi / 2))) :
    getMrrAngle p0 p1 = b := by
  obtain ⟨h0, h90, j, hx', hy'⟩ := mrr_spec p0 p1
  have hpi := Real.pi_ne_zero
  set a := getMrrAngle p0 p1 with ha
  set d := eucl p0 p1 with hd
  have hdne : d ≠ 0 := by
    intro h0
    rw [h0, zero_mul, sub_eq_zero] at hx' hy'
    exact hne (Prod.ext hx'.symm hy'.symm)
  -- the two directions are parallel
  have hsin : Real.sin ((a * (Real.pi / 180) + j * (Real.pi / 2)) - (b * (Real.pi / 180) + k * (Real.pi / 2)))
      = 0 := by
    rw [Real.sin_sub]
    have e1 : d * Real.cos (a * (Real.pi / 180) + j * (Real.pi / 2))
        = r * Real.cos (b * (Real.pi / 180) + k * (Real.pi / 2)) := by rw [← hx', ← hx]
    have e2 : d * Real.sin (a * (Real.pi / 180) + j * (Real.pi / 2))
        = r * Real.sin (b * (Real.pi / 180) + k * (Real.pi / 2)) := by rw [← hy', ← hy]
    have e3 : (d * r) * (Real.sin (a * (Real.pi / 180) + j * (Real.pi / 2))
        * Real.cos (b * (Real.pi / 180) + k * (Real.pi / 2))
        - Real.cos (a * (Real.pi / 180) + j * (Real.pi / 2))
          * Real.sin (b * (Real.pi / 180) + k * (Real.pi / 2))) = 0 := by
      have : ∀ sa ca sb cb : ℝ, d * ca = r * cb → d * sa = r * sb → d * r * (sa * cb - ca * sb) = 0 := by
        intro sa ca sb cb h1 h2
        have : d * r * (sa * cb - ca * sb) = (d * sa) * (r * cb) - (d * ca) * (r * sb) := by ring
        rw [this, h1, h2]; ring
      exact this _ _ _ _ e1 e2
    rcases mul_eq_zero.1 e3 with h | h
    · exact absurd h (mul_ne_zero hdne hr)
    · exact h
  obtain ⟨n, hn⟩ := Real.sin_eq_zero_iff.1 hsin
  refine mod90_unique ⟨h0, h90⟩ hb (2 * n - j + k) ?_
  push_cast
  have : (a - b) * (Real.pi / 180) = (2 * n - j + k) * (Real.pi / 2) := by linarith
  have h180 : (a - b) * Real.pi = (90 * (2 * n - j + k)) * Real.pi := by linarith
  exact mul_right_cancel₀ hpi h180

private theorem mrr_perp {p q r s : ℝ × ℝ} (hpq : p ≠ q) (hrs : r ≠ s)
    (h : ((q.1 - p.1) * (s.1 - r.1) + (q.2 - p.2) * (s.2 - r.2) = 0)
      ∨ ((q.1 - p.1) * (s.2 - r.2) - (q.2 - p.2) * (s.1 - r.1) = 0)) :
    getMrrAngle r s = getMrrAngle p q := by
  obtain ⟨h0, h90, k, hx, hy⟩ := mrr_spec p q
  set a := getMrrAngle p q
  set θ := a * (Real.pi / 180) + k * (Real.pi / 2) with hθ
  set d := eucl p q
  have hd : d ≠ 0 := by
    intro h0
    rw [h0, zero_mul, sub_eq_zero] at hx hy
    exact hpq (Prod.ext hx.symm hy.symm)
  rw [hx, hy] at h
  have h1 := Real.sin_sq_add_cos_sq θ
  obtain ⟨u, hu⟩ : ∃ u, u = s.1 - r.1 := ⟨_, rfl⟩
  obtain ⟨v, hv⟩ : ∃ v, v = s.2 - r.2 := ⟨_, rfl⟩
  have hne : ¬ (u = 0 ∧ v = 0) := by
    rintro ⟨h1, h2⟩
    exact hrs (Prod.ext (by linarith) (by linarith))
  rw [← hu, ← hv] at h
  rcases h with h | h
  · -- perpendicular
    have h2 : Real.cos θ * u + Real.sin θ * v = 0 := by
      have : d * (Real.cos θ * u + Real.sin θ * v) = 0 := by linarith
      exact (mul_eq_zero.1 this).resolve_left hd
    obtain ⟨w, hw⟩ : ∃ w, w = Real.cos θ * v - Real.sin θ * u := ⟨_, rfl⟩
    have eu : u = w * (-Real.sin θ) := by
      rw [hw]; linear_combination Real.cos θ * h2 - u * h1
    have ev : v = w * Real.cos θ := by
      rw [hw]; linear_combination Real.sin θ * h2 - v * h1
    have hwne : w ≠ 0 := by
      intro h0; apply hne; rw [h0, zero_mul] at eu ev; exact ⟨eu, ev⟩
    refine mrr_unique r s hrs a ⟨h0, h90⟩ w hwne (k + 1) ?_ ?_
    · have : a * (Real.pi / 180) + ((k + 1 : ℤ) : ℝ) * (Real.pi / 2) = θ + Real.pi / 2 := by
        rw [hθ]; push_cast; ring
      rw [this, Real.cos_add_pi_div_two, ← hu, eu]
    · have : a * (Real.pi / 180) + ((k + 1 : ℤ) : ℝ) * (Real.pi / 2) = θ + Real.pi / 2 := by
        rw [hθ]; push_cast; ring
      rw [this, Real.sin_add_pi_div_two, ← hv, ev]
  · have h2 : Real.cos θ * v - Real.sin θ * u = 0 := by
      have : d * (Real.cos θ * v - Real.sin θ * u) = 0 := by linarith
      exact (mul_eq_zero.1 this).resolve_left hd
    obtain ⟨w, hw⟩ : ∃ w, w = Real.cos θ * u + Real.sin θ * v := ⟨_, rfl⟩
    have eu : u = w * Real.cos θ := by
      rw [hw]; linear_combination (-Real.sin θ) * h2 - u * h1
    have ev : v = w * Real.sin θ := by
      rw [hw]; linear_combination Real.cos θ * h2 - v * h1
    have hwne : w ≠ 0 := by
      intro h0; apply hne; rw [h0, zero_mul] at eu ev; exact ⟨eu, ev⟩
    exact mrr_unique r s hrs a ⟨h0, h90⟩ w hwne k (by rw [← hu, eu]) (by rw [← hv, ev])

/-- **C35.** Let Shapely list the corners `a b c d` of a rectangle (closing with `a` again). The returned
angle is in `[0, 90)`, and adding some number of quarter turns to it gives the direction of the side from
`a` to `b`. The corners are returned in reverse order. Listing the rectangle from the next corner, or the
other way round, gives the same angle; so every one of the eight listings of the rectangle does. -/
theorem C35_angle (a b c d : ℝ × ℝ) (h : IsRectangle a b c d) :
    ∃ angle, rotatedRectangle [a, b, c, d, a] = .ok ([d, c, b, a], angle)
      ∧ 0 ≤ angle ∧ angle < 90
      ∧ (∃ k : ℤ, b.1 - a.1 = eucl a b * Real.cos (angle * (Real.pi / 180) + k * (Real.pi / 2))
          ∧ b.2 - a.2 = eucl a b * Real.sin (angle * (Real.pi / 180) + k * (Real.pi / 2)))
      ∧ rotatedRectangle [b, c, d, a, b] = .ok ([a, d, c, b], angle)
      ∧ rotatedRectangle [d, c, b, a, d] = .ok ([a, b, c, d], angle) := by
  obtain ⟨hab, hbc, hp, hd1, hd2⟩ := h
  obtain ⟨h0, h90, hk⟩ := mrr_spec a b
  refine ⟨getMrrAngle a b, rfl, h0, h90, hk, ?_, ?_⟩
  · have : getMrrAngle b c = getMrrAngle a b := mrr_perp hab hbc (Or.inl hp)
    rw [← this]; rfl
  · have hdc : d ≠ c := by
      intro e
      apply hab
      rw [e] at hd1 hd2
      exact Prod.ext (by linarith) (by linarith)
    have : getMrrAngle d c = getMrrAngle a b := mrr_perp hab hdc (Or.inr (by
      have e1 : c.1 - d.1 = b.1 - a.1 := by linarith
      have e2 : c.2 - d.2 = b.2 - a.2 := by linarith
      rw [e1, e2]; ring))
    rw [← this]; rfl

/-- **C35, all listings.** Every cyclic shift of the corners and its reversal gives the same angle. -/
theorem C35_all_listings (a b c d : ℝ × ℝ) (h : IsRectangle a b c d) :
    ∃ angle, ∀ l ∈ [[a, b, c, d], [b, c, d, a], [c, d, a, b], [d, a, b, c],
        [d, c, b, a], [c, b, a, d], [b, a, d, c], [a, d, c, b]],
      ∃ p, rotatedRectangle (l ++ [p]) = .ok (l.reverse, angle) := by
  obtain ⟨hab, hbc, hp, hd1, hd2⟩ := h
  have hdc : d ≠ c := by
    intro e
    apply hab
    rw [e] at hd1 hd2
    exact Prod.ext (by linarith) (by linarith)
  have hda : d ≠ a := by
    intro e
    apply hbc
    rw [e] at hd1 hd2
    exact Prod.ext (by linarith) (by linarith)
  have e1 : c.1 - d.1 = b.1 - a.1 := by linarith
  have e2 : c.2 - d.2 = b.2 - a.2 := by linarith
  have par : ∀ r s : ℝ × ℝ, r ≠ s → ((b.1 - a.1) * (s.1 - r.1) + (b.2 - a.2) * (s.2 - r.2) = 0)
      ∨ ((b.1 - a.1) * (s.2 - r.2) - (b.2 - a.2) * (s.1 - r.1) = 0) →
      getMrrAngle r s = getMrrAngle a b := fun r s hrs h => mrr_perp hab hrs h
  have g1 := par b c hbc (Or.inl hp)
  have g2 := par c d hdc.symm (Or.inr (by linear_combination (b.2 - a.2) * e1 - (b.1 - a.1) * e2))
  have g3 := par d a hda (Or.inl (by linear_combination -hp - (b.1 - a.1) * hd1 - (b.2 - a.2) * hd2))
  have g4 := par d c hdc (Or.inr (by linear_combination (b.1 - a.1) * e2 - (b.2 - a.2) * e1))
  have g5 := par c b hbc.symm (Or.inl (by linear_combination -hp))
  have g6 := par b a hab.symm (Or.inr (by ring))
  have g7 := par a d hda.symm (Or.inl (by linear_combination hp + (b.1 - a.1) * hd1 + (b.2 - a.2) * hd2))
  refine ⟨getMrrAngle a b, ?_⟩
  intro l hl
  fin_cases hl
  · exact ⟨a, rfl⟩
  · exact ⟨a, by rw [← g1]; rfl⟩
  · exact ⟨a, by rw [← g2]; rfl⟩
  · exact ⟨a, by rw [← g3]; rfl⟩
  · exact ⟨a, by rw [← g4]; rfl⟩
  · exact ⟨a, by rw [← g5]; rfl⟩
  · exact ⟨a, by rw [← g6]; rfl⟩
  · exact ⟨a, by rw [← g7]; rfl⟩

/-- Non-vacuity: a rectangle with sides in directions `(3, 4)` and `(-8, 6)`. -/
example : IsRectangle (0, 0) (3, 4) (-5, 10) (-8, 6) := by
  unfold IsRectangle
  norm_num

end Pointpats.Props
