import Verif.Spec.Circle
import Mathlib.Tactic.FieldSimp
import Mathlib.Tactic.Linarith
import Mathlib.Tactic.LinearCombination
import Mathlib.Tactic.Ring
import Mathlib.Tactic.Positivity

/-!
# Circumscribed circles
-/

namespace Pointpats.Circ

open Spec

/-- The scalar product of the vectors from `q` to `x` and `z`. -/
def dotAt (q x z : ℝ × ℝ) : ℝ := (x.1 - q.1) * (z.1 - q.1) + (x.2 - q.2) * (z.2 - q.2)

/-- The squared radius of the circle through three points. -/
noncomputable def r2 (x y z : ℝ × ℝ) : ℝ := planeSqDist x y * planeSqDist y z * planeSqDist z x / (4 * clockwiseTurn x y z ^ 2)

/-- The centre of the circle through three points. -/
noncomputable def cc (x y z : ℝ × ℝ) : ℝ × ℝ :=
  (((x.1 ^ 2 + x.2 ^ 2) * (y.2 - z.2) + (y.1 ^ 2 + y.2 ^ 2) * (z.2 - x.2) + (z.1 ^ 2 + z.2 ^ 2) * (x.2 - y.2))
      / (-2 * clockwiseTurn x y z),
    ((x.1 ^ 2 + x.2 ^ 2) * (z.1 - y.1) + (y.1 ^ 2 + y.2 ^ 2) * (x.1 - z.1) + (z.1 ^ 2 + z.2 ^ 2) * (y.1 - x.1))
      / (-2 * clockwiseTurn x y z))

theorem turn_cyc (x y z : ℝ × ℝ) : clockwiseTurn x y z = clockwiseTurn y z x := by
  unfold clockwiseTurn; ring

theorem turn_swap (x y z : ℝ × ℝ) : clockwiseTurn x z y = - clockwiseTurn x y z := by
  unfold clockwiseTurn; ring

theorem sqDist_comm (p q : ℝ × ℝ) : planeSqDist p q = planeSqDist q p := by
  unfold planeSqDist; ring

theorem sqDist_nonneg (p q : ℝ × ℝ) : 0 ≤ planeSqDist p q := by
  unfold planeSqDist; positivity

theorem r2_cyc (x y z : ℝ × ℝ) : r2 x y z = r2 y z x := by
  unfold r2
  rw [turn_cyc]
  ring

theorem r2_swap (x y z : ℝ × ℝ) : r2 x z y = r2 x y z := by
  unfold r2
  rw [turn_swap, sqDist_comm x z, sqDist_comm z y, sqDist_comm y x]
  ring

theorem cc_cyc (x y z : ℝ × ℝ) : cc x y z = cc y z x := by
  unfold cc
  rw [turn_cyc]
  refine Prod.ext ?_ ?_ <;> simp only <;> ring

theorem sq_cc {x y z : ℝ × ℝ} (h : clockwiseTurn x y z ≠ 0) : planeSqDist (cc x y z) x = r2 x y z := by
  obtain ⟨x1, x2⟩ := x
  obtain ⟨y1, y2⟩ := y
  obtain ⟨z1, z2⟩ := z
  simp only [cc, r2, planeSqDist]
  have h4 : -2 * clockwiseTurn (x1, x2) (y1, y2) (z1, z2) ≠ 0 := mul_ne_zero (by norm_num) h
  rw [div_sub' h4, div_sub' h4, div_pow, div_pow, ← add_div, div_eq_div_iff (by positivity) (by positivity)]
  simp only [clockwiseTurn]
  ring

theorem lagrange (q y z : ℝ × ℝ) : planeSqDist q y * planeSqDist q z = dotAt q y z ^ 2 + clockwiseTurn q y z ^ 2 := by
  unfold planeSqDist dotAt clockwiseTurn; ring

/-- The squared radius by the chord and the cotangent of the angle that sees it. -/
theorem r2_chord {x y z : ℝ × ℝ} (h : clockwiseTurn x y z ≠ 0) :
    r2 x y z = planeSqDist y z / 4 * (1 + (dotAt x y z / clockwiseTurn x y z) ^ 2) := by
  unfold r2
  rw [show planeSqDist x y * planeSqDist y z * planeSqDist z x = planeSqDist y z * (planeSqDist x y * planeSqDist x z) by rw [sqDist_comm z x]; ring,
    lagrange]
  field_simp
  ring

/-- The power of a point with respect to the circle. -/
theorem power {x y z : ℝ × ℝ} (h : clockwiseTurn x y z ≠ 0) (q : ℝ × ℝ) :
    planeSqDist (cc x y z) q - r2 x y z = dotAt q y z - dotAt x y z / clockwiseTurn x y z * clockwiseTurn q y z := by
  rw [← sq_cc h]
  obtain ⟨x1, x2⟩ := x
  obtain ⟨y1, y2⟩ := y
  obtain ⟨z1, z2⟩ := z
  obtain ⟨q1, q2⟩ := q
  have e : planeSqDist (cc (x1, x2) (y1, y2) (z1, z2)) (q1, q2) - planeSqDist (cc (x1, x2) (y1, y2) (z1, z2)) (x1, x2)
      = -2 * (cc (x1, x2) (y1, y2) (z1, z2)).1 * (q1 - x1) - 2 * (cc (x1, x2) (y1, y2) (z1, z2)).2 * (q2 - x2)
        + (q1 ^ 2 + q2 ^ 2) - (x1 ^ 2 + x2 ^ 2) := by
    unfold planeSqDist; ring
  rw [e]
  simp only [cc]
  field_simp
  simp only [clockwiseTurn, dotAt]
  ring

/-- Seen from the side of `x`, with an angle at `x` that is not obtuse: a point outside the circle gives a larger circle. -/
theorem larger_of_outside {x y z q : ℝ × ℝ} (hx : 0 < clockwiseTurn x y z) (hq : 0 < clockwiseTurn q y z)
    (hyz : 0 < planeSqDist y z) (hdot : 0 ≤ dotAt x y z) (hout : r2 x y z < planeSqDist (cc x y z) q) :
    r2 x y z < r2 q y z := by
  have hp := power hx.ne' q
  rw [r2_chord hx.ne', r2_chord hq.ne']
  have h1 : dotAt x y z / clockwiseTurn x y z < dotAt q y z / clockwiseTurn q y z := by
    rw [lt_div_iff₀ hq]; linarith
  have h0 : 0 ≤ dotAt x y z / clockwiseTurn x y z := div_nonneg hdot hx.le
  have : (dotAt x y z / clockwiseTurn x y z) ^ 2 < (dotAt q y z / clockwiseTurn q y z) ^ 2 := by nlinarith
  nlinarith

/-- Seen from the side of `x`, with an obtuse angle at `x`: a point in the disc gives a circle that is not smaller, and one
of the same size only if it is on the circle. -/
theorem larger_of_inside_obtuse {x y z q : ℝ × ℝ} (hx : 0 < clockwiseTurn x y z) (hq : 0 < clockwiseTurn q y z)
    (hyz : 0 < planeSqDist y z) (hdot : dotAt x y z < 0) (hin : planeSqDist (cc x y z) q ≤ r2 x y z)
    (hmax : r2 q y z ≤ r2 x y z) : planeSqDist (cc x y z) q = r2 x y z := by
  have hp := power hx.ne' q
  rw [r2_chord hx.ne', r2_chord hq.ne'] at hmax
  by_contra hne
  have hlt : planeSqDist (cc x y z) q < r2 x y z := lt_of_le_of_ne hin hne
  have h1 : dotAt q y z / clockwiseTurn q y z < dotAt x y z / clockwiseTurn x y z := by
    rw [div_lt_iff₀ hq]; linarith
  have h0 : dotAt x y z / clockwiseTurn x y z < 0 := div_neg_of_neg_of_pos hdot hx
  have : (dotAt x y z / clockwiseTurn x y z) ^ 2 < (dotAt q y z / clockwiseTurn q y z) ^ 2 := by nlinarith
  nlinarith

/-- Seen from the other side of the chord than `x`, with an acute angle at `x`: a point in the disc gives a circle that is
not smaller, and one of the same size only if it is on the circle. -/
theorem larger_of_inside_opposite {x y z q : ℝ × ℝ} (hx : 0 < clockwiseTurn x y z) (hq : clockwiseTurn q y z < 0)
    (hyz : 0 < planeSqDist y z) (hdot : 0 < dotAt x y z) (hin : planeSqDist (cc x y z) q ≤ r2 x y z)
    (hmax : r2 q y z ≤ r2 x y z) : planeSqDist (cc x y z) q = r2 x y z := by
  have hp := power hx.ne' q
  rw [r2_chord hx.ne', r2_chord hq.ne] at hmax
  by_contra hne
  have hlt : planeSqDist (cc x y z) q < r2 x y z := lt_of_le_of_ne hin hne
  have h1 : dotAt x y z / clockwiseTurn x y z < dotAt q y z / clockwiseTurn q y z := by
    rw [lt_div_iff_of_neg hq]; linarith
  have h0 : 0 < dotAt x y z / clockwiseTurn x y z := div_pos hdot hx
  have : (dotAt x y z / clockwiseTurn x y z) ^ 2 < (dotAt q y z / clockwiseTurn q y z) ^ 2 := by nlinarith
  nlinarith

/-- Three points on a circle determine its radius. -/
theorem r2_unique {x y z o : ℝ × ℝ} {R : ℝ} (h : clockwiseTurn x y z ≠ 0) (hx : planeSqDist o x = R) (hy : planeSqDist o y = R)
    (hz : planeSqDist o z = R) : r2 x y z = R := by
  have hc : o = cc x y z := by
    have e1 : planeSqDist o x - planeSqDist o y = 0 := by rw [hx, hy, sub_self]
    have e2 : planeSqDist o x - planeSqDist o z = 0 := by rw [hx, hz, sub_self]
    obtain ⟨o1, o2⟩ := o
    simp only [planeSqDist] at e1 e2
    have hD : -2 * clockwiseTurn x y z ≠ 0 := mul_ne_zero (by norm_num) h
    refine Prod.ext ?_ ?_
    · simp only [cc]
      rw [eq_div_iff hD]
      simp only [clockwiseTurn]
      linear_combination (z.2 - x.2) * e1 - (y.2 - x.2) * e2
    · simp only [cc]
      rw [eq_div_iff hD]
      simp only [clockwiseTurn]
      linear_combination (x.1 - z.1) * e1 - (x.1 - y.1) * e2
  rw [← sq_cc h, ← hc, hx]

/-- Of the angles at `y` and `z` at most one is obtuse. -/
theorem dot_sum (x y z : ℝ × ℝ) : dotAt x y z + dotAt y x z = planeSqDist x y := by
  unfold dotAt planeSqDist; ring

/-- The centre in barycentric coordinates. -/
theorem barycentric {x y z : ℝ × ℝ} (h : clockwiseTurn x y z ≠ 0) (u v : ℝ) :
    planeSqDist y z * dotAt x y z * ((x.1 - (cc x y z).1) * u + (x.2 - (cc x y z).2) * v)
      + planeSqDist z x * dotAt y z x * ((y.1 - (cc x y z).1) * u + (y.2 - (cc x y z).2) * v)
      + planeSqDist x y * dotAt z x y * ((z.1 - (cc x y z).1) * u + (z.2 - (cc x y z).2) * v) = 0 := by
  obtain ⟨x1, x2⟩ := x
  obtain ⟨y1, y2⟩ := y
  obtain ⟨z1, z2⟩ := z
  simp only [cc]
  field_simp
  simp only [clockwiseTurn, dotAt, planeSqDist]
  ring

theorem weights_sum (x y z : ℝ × ℝ) :
    planeSqDist y z * dotAt x y z + planeSqDist z x * dotAt y z x + planeSqDist x y * dotAt z x y = 2 * clockwiseTurn x y z ^ 2 := by
  unfold planeSqDist dotAt clockwiseTurn; ring

/-- The circle of a triangle without obtuse angle is the smallest around its corners. -/
theorem smallest_of_not_obtuse {x y z : ℝ × ℝ} (h : clockwiseTurn x y z ≠ 0) (hx : 0 ≤ dotAt x y z)
    (hy : 0 ≤ dotAt y z x) (hz : 0 ≤ dotAt z x y) {c : ℝ × ℝ} {R : ℝ} (cx : planeSqDist c x ≤ R) (cy : planeSqDist c y ≤ R)
    (cz : planeSqDist c z ≤ R) : r2 x y z ≤ R := by
  by_contra hcon
  push Not at hcon
  have hb := barycentric h (c.1 - (cc x y z).1) (c.2 - (cc x y z).2)
  have hs := weights_sum x y z
  have ox := sq_cc h
  have oy : planeSqDist (cc x y z) y = r2 x y z := by
    rw [cc_cyc, r2_cyc]; exact sq_cc (by rwa [← turn_cyc])
  have oz : planeSqDist (cc x y z) z = r2 x y z := by
    rw [cc_cyc, r2_cyc, cc_cyc, r2_cyc]; exact sq_cc (by rwa [← turn_cyc, ← turn_cyc])
  have key : ∀ v : ℝ × ℝ, planeSqDist (cc x y z) v = r2 x y z → planeSqDist c v ≤ R →
      0 < (v.1 - (cc x y z).1) * (c.1 - (cc x y z).1) + (v.2 - (cc x y z).2) * (c.2 - (cc x y z).2) := by
    intro v h1 h2
    unfold planeSqDist at h1 h2
    nlinarith [sq_nonneg (c.1 - (cc x y z).1), sq_nonneg (c.2 - (cc x y z).2)]
  have kx := key x ox cx
  have ky := key y oy cy
  have kz := key z oz cz
  have wx : 0 ≤ planeSqDist y z * dotAt x y z := mul_nonneg (sqDist_nonneg _ _) hx
  have wy : 0 ≤ planeSqDist z x * dotAt y z x := mul_nonneg (sqDist_nonneg _ _) hy
  have wz : 0 ≤ planeSqDist x y * dotAt z x y := mul_nonneg (sqDist_nonneg _ _) hz
  have hpos : 0 < planeSqDist y z * dotAt x y z + planeSqDist z x * dotAt y z x + planeSqDist x y * dotAt z x y := by
    rw [hs]; positivity
  have px := mul_nonneg wx kx.le
  have py := mul_nonneg wy ky.le
  have pz := mul_nonneg wz kz.le
  have e1 : planeSqDist y z * dotAt x y z = 0 := by
    have := (mul_eq_zero.1 (le_antisymm (by linarith) px)).resolve_right kx.ne'
    exact this
  have e2 := (mul_eq_zero.1 (le_antisymm (by linarith) py)).resolve_right ky.ne'
  have e3 := (mul_eq_zero.1 (le_antisymm (by linarith) pz)).resolve_right kz.ne'
  linarith

/-- A disc that is not larger than the circle of an obtuse triangle and contains the two other corners contains the corner
with the obtuse angle. -/
theorem contains_obtuse_corner {x y z : ℝ × ℝ} (h : clockwiseTurn x y z ≠ 0) (hy : dotAt y z x < 0)
    {c : ℝ × ℝ} {R : ℝ} (hR : R ≤ r2 x y z) (cx : planeSqDist c x ≤ R) (cz : planeSqDist c z ≤ R) : planeSqDist c y ≤ R := by
  have hb := barycentric h (c.1 - (cc x y z).1) (c.2 - (cc x y z).2)
  have hs := weights_sum x y z
  have ox := sq_cc h
  have oy : planeSqDist (cc x y z) y = r2 x y z := by
    rw [cc_cyc, r2_cyc]; exact sq_cc (by rwa [← turn_cyc])
  have oz : planeSqDist (cc x y z) z = r2 x y z := by
    rw [cc_cyc, r2_cyc, cc_cyc, r2_cyc]; exact sq_cc (by rwa [← turn_cyc, ← turn_cyc])
  have hx0 : 0 ≤ dotAt x y z := by
    have := dot_sum x y z
    have h2 : dotAt y x z = dotAt y z x := by unfold dotAt; ring
    have := sqDist_nonneg x y
    linarith
  have hz0 : 0 ≤ dotAt z x y := by
    have := dot_sum z y x
    have h2 : dotAt z y x = dotAt z x y := by unfold dotAt; ring
    have := sqDist_nonneg z y
    linarith
  have wx : 0 ≤ planeSqDist y z * dotAt x y z := mul_nonneg (sqDist_nonneg _ _) hx0
  have wz : 0 ≤ planeSqDist x y * dotAt z x y := mul_nonneg (sqDist_nonneg _ _) hz0
  have hzx : 0 < planeSqDist z x := by
    have e : planeSqDist z x = planeSqDist x y + planeSqDist y z - 2 * dotAt y z x := by unfold planeSqDist dotAt; ring
    have := sqDist_nonneg x y
    have := sqDist_nonneg y z
    linarith
  have wy : planeSqDist z x * dotAt y z x < 0 := mul_neg_of_pos_of_neg hzx hy
  -- the projections on `c - o`
  set m := (planeSqDist (cc x y z) c + r2 x y z - R) / 2 with hm
  have hm0 : 0 ≤ m := by
    have := sqDist_nonneg (cc x y z) c
    rw [hm]; linarith
  have proj : ∀ v : ℝ × ℝ, planeSqDist (cc x y z) v = r2 x y z →
      (planeSqDist c v ≤ R ↔ m ≤ (v.1 - (cc x y z).1) * (c.1 - (cc x y z).1) + (v.2 - (cc x y z).2) * (c.2 - (cc x y z).2)) := by
    intro v hv
    have : planeSqDist c v = planeSqDist (cc x y z) c + planeSqDist (cc x y z) v
        - 2 * ((v.1 - (cc x y z).1) * (c.1 - (cc x y z).1) + (v.2 - (cc x y z).2) * (c.2 - (cc x y z).2)) := by
      unfold planeSqDist; ring
    rw [this, hv, hm]
    constructor <;> intro h <;> linarith
  have kx := (proj x ox).1 cx
  have kz := (proj z oz).1 cz
  rw [proj y oy]
  have px := mul_le_mul_of_nonneg_left kx wx
  have pz := mul_le_mul_of_nonneg_left kz wz
  have h2 : 0 ≤ 2 * clockwiseTurn x y z ^ 2 * m := by positivity
  by_contra hcon
  push Not at hcon
  have py := mul_lt_mul_of_neg_left hcon wy
  rw [← hs] at h2
  nlinarith

end Pointpats.Circ
