import Verif.Model.Centrography
import Verif.Spec.Centrography
import Mathlib.Algebra.Order.BigOperators.Group.List
import Mathlib.Algebra.BigOperators.Ring.List
import Mathlib.Tactic.Linarith
import Mathlib.Tactic.LinearCombination
import Mathlib.Tactic.FieldSimp
import Mathlib.Tactic.Positivity
import Mathlib.Tactic.Ring

/-!
# C28, C29: the standard deviational ellipse
-/

namespace Pointpats.Props

open Centrography Spec

/-- The weights the code works with: ones, or the given weights. -/
private def resolved (points : List (ℝ × ℝ)) : Option (List ℝ) → List ℝ
  | none => List.replicate points.length 1
  | some w => w

/-! ### Second moments -/

private noncomputable def mxx (wp : List (ℝ × (ℝ × ℝ))) (m : ℝ × ℝ) : ℝ :=
  (wp.map fun a => a.1 * (a.2.1 - m.1) ^ 2).sum
private noncomputable def mxy (wp : List (ℝ × (ℝ × ℝ))) (m : ℝ × ℝ) : ℝ :=
  (wp.map fun a => a.1 * ((a.2.1 - m.1) * (a.2.2 - m.2))).sum
private noncomputable def myy (wp : List (ℝ × (ℝ × ℝ))) (m : ℝ × ℝ) : ℝ :=
  (wp.map fun a => a.1 * (a.2.2 - m.2) ^ 2).sum
private noncomputable def wmean (wp : List (ℝ × (ℝ × ℝ))) : ℝ × ℝ :=
  ((wp.map fun a => a.2.1 * a.1).sum / (wp.map Prod.fst).sum,
   (wp.map fun a => a.2.2 * a.1).sum / (wp.map Prod.fst).sum)

private theorem quad_sum (wp : List (ℝ × (ℝ × ℝ))) (m : ℝ × ℝ) (c s : ℝ) :
    (wp.map fun a => a.1 * ((a.2.1 - m.1) * c + (a.2.2 - m.2) * s) ^ 2).sum
      = mxx wp m * c ^ 2 + 2 * mxy wp m * s * c + myy wp m * s ^ 2 := by
  unfold mxx mxy myy
  induction wp with
  | nil => simp
  | cons a l ih => simp only [List.map_cons, List.sum_cons, ih]; ring

private theorem dirVar_eq (wp : List (ℝ × (ℝ × ℝ))) (φ : ℝ) (h : (wp.map Prod.fst).sum ≠ 0) :
    dirVar wp φ = (mxx wp (wmean wp) * Real.cos φ ^ 2 + 2 * mxy wp (wmean wp) * Real.sin φ * Real.cos φ
      + myy wp (wmean wp) * Real.sin φ ^ 2) / (wp.map Prod.fst).sum := by
  have e1 : ∀ f : ℝ × ℝ → ℝ, ((wp.map fun a => (a.1, f a.2)).map Prod.fst) = wp.map Prod.fst := by
    intro f; simp [List.map_map, Function.comp_def]
  have hm : wMean (wp.map fun a => (a.1, a.2.1 * Real.cos φ + a.2.2 * Real.sin φ))
      = (wmean wp).1 * Real.cos φ + (wmean wp).2 * Real.sin φ := by
    unfold wMean wmean
    rw [e1 fun p => p.1 * Real.cos φ + p.2 * Real.sin φ, List.map_map]
    have : (wp.map ((fun a : ℝ × ℝ => a.1 * a.2) ∘ fun a => (a.1, a.2.1 * Real.cos φ + a.2.2 * Real.sin φ))).sum
        = (wp.map fun a => a.2.1 * a.1).sum * Real.cos φ + (wp.map fun a => a.2.2 * a.1).sum * Real.sin φ := by
      clear h e1
      induction wp with
      | nil => simp
      | cons a l ih =>
        simp only [List.map_cons, List.sum_cons, ih, Function.comp]; ring
    rw [this]
    simp only
    field_simp
  unfold dirVar wVar
  rw [hm, e1 fun p => p.1 * Real.cos φ + p.2 * Real.sin φ, List.map_map, ← quad_sum]
  congr 2
  apply List.map_congr_left
  intro a _
  simp only [Function.comp]
  ring

/-! ### The lists of the code in terms of the moments -/

private theorem zip_sum (points : List (ℝ × ℝ)) (f : ℝ → ℝ × ℝ → ℝ) (w : List ℝ) (g : List ℝ)
    (hg : g = List.zipWith f w points) : g.sum = ((w.zip points).map fun a => f a.1 a.2).sum := by
  rw [hg, List.zip, List.map_zipWith]

private theorem ellipse_eq (points : List (ℝ × ℝ)) (weights : Option (List ℝ)) (method : String)
    (cc dc : Bool) (m : EllipseMethod) (hm : parseMethod method = .ok m)
    (hlen : (resolved points weights).length = points.length)
    (hW : (resolved points weights).sum ≠ 0) (wp : List (ℝ × (ℝ × ℝ)))
    (hwp : wp = (resolved points weights).zip points) :
    let A := mxx wp (wmean wp)
    let B := mxy wp (wmean wp)
    let C := myy wp (wmean wp)
    let W := (wp.map Prod.fst).sum
    let R := Real.sqrt ((A - C) ^ 2 + 4 * B ^ 2)
    let θ1 := if 2 * B = 0 then 0 else Real.arctan (-((A - C) + R) / (2 * B))
    let θ2 := if 2 * B = 0 then Real.pi / 2 else Real.arctan (-((A - C) - R) / (2 * B))
    let T (θ : ℝ) := A * Real.sin θ ^ 2 - 2 * B * Real.sin θ * Real.cos θ + C * Real.cos θ ^ 2
    let sx := ellipseCorrection points.length m cc dc (Real.sqrt (T θ1 / W))
    let sy := ellipseCorrection points.length m cc dc (Real.sqrt (T θ2 / W))
    ellipse points weights method cc dc
      = if sx < sy then .ok (sy, sx, θ1) else .ok (sx, sy, θ2) := by
  intro A B C W R θ1 θ2 T sx sy
  have hfst : wp.map Prod.fst = resolved points weights := by
    rw [hwp]; exact List.map_fst_zip (by omega)
  obtain ⟨w, hw⟩ : ∃ w, w = resolved points weights := ⟨_, rfl⟩
  rw [← hw] at hfst hW hlen hwp
  have avx : average (points.map Prod.fst) w = .ok (wmean wp).1 := by
    unfold average wmean
    rw [if_neg hW, hfst]
    congr 2
    rw [zip_sum points (fun a p => p.1 * a) w _ (by
      rw [List.zipWith_map_left, List.zipWith_comm]), hwp]
  have avy : average (points.map Prod.snd) w = .ok (wmean wp).2 := by
    unfold average wmean
    rw [if_neg hW, hfst]
    congr 2
    rw [zip_sum points (fun a p => p.2 * a) w _ (by
      rw [List.zipWith_map_left, List.zipWith_comm]), hwp]
  set M := wmean wp with hM
  have exy : (List.zipWith (· * ·) (List.zipWith (· * ·) ((points.map Prod.fst).map fun a => a - M.1)
      ((points.map Prod.snd).map fun a => a - M.2)) w).sum = B := by
    rw [zip_sum points (fun a p => a * ((p.1 - M.1) * (p.2 - M.2))) w]
    · rw [← hwp]; rfl
    · rw [List.map_map, List.map_map, List.zipWith_map, List.zipWith_self, List.zipWith_map_left,
        List.zipWith_comm]
      simp only [Function.comp, mul_comm]
  have exx : (List.zipWith (· * ·) (((points.map Prod.fst).map fun a => a - M.1).map fun a => a ^ 2) w).sum
      = A := by
    rw [zip_sum points (fun a p => a * (p.1 - M.1) ^ 2) w]
    · rw [← hwp]; rfl
    · rw [List.map_map, List.map_map, List.zipWith_map_left, List.zipWith_comm]
      simp only [Function.comp, mul_comm]
  have eyy : (List.zipWith (· * ·) (((points.map Prod.snd).map fun a => a - M.2).map fun a => a ^ 2) w).sum
      = C := by
    rw [zip_sum points (fun a p => a * (p.2 - M.2) ^ 2) w]
    · rw [← hwp]; rfl
    · rw [List.map_map, List.map_map, List.zipWith_map_left, List.zipWith_comm]
      simp only [Function.comp, mul_comm]
  have eT : ∀ θ : ℝ, (List.zipWith (· * ·) w (List.zipWith
      (fun a b => (b * Real.cos θ - a * Real.sin θ) ^ 2)
      ((points.map Prod.fst).map fun a => a - M.1) ((points.map Prod.snd).map fun a => a - M.2))).sum
      = T θ := by
    intro θ
    rw [zip_sum points (fun a p => a * ((p.1 - M.1) * (-Real.sin θ) + (p.2 - M.2) * Real.cos θ) ^ 2) w]
    · rw [← hwp, quad_sum]; simp only [T, A, B, C]; ring
    · rw [List.map_map, List.map_map, List.zipWith_map, List.zipWith_self, List.zipWith_map_right]
      congr 1
      funext a p
      simp only [Function.comp]; ring
  have hWw : w.sum = W := by simp only [W, hfst]
  cases weights with
  | none =>
    have hwn : List.replicate points.length (1 : ℝ) = w := hw.symm
    unfold ellipse
    simp only [hm, bind, Except.bind, pure, Except.pure, hwn, avx, avy, exy, exx, eyy, eT, hWw]
    rfl
  | some v =>
    have hwn : w = v := hw
    subst hwn
    unfold ellipse
    simp only [hm, bind, Except.bind, pure, Except.pure, hlen, ne_eq, not_true_eq_false, if_false, avx, avy,
      exy, exx, eyy, eT, hWw]
    rfl

/-! ### The principal axes -/

private theorem T_eq_dirVar (wp : List (ℝ × (ℝ × ℝ))) (θ : ℝ) (h : (wp.map Prod.fst).sum ≠ 0) :
    (mxx wp (wmean wp) * Real.sin θ ^ 2 - 2 * mxy wp (wmean wp) * Real.sin θ * Real.cos θ
      + myy wp (wmean wp) * Real.cos θ ^ 2) / (wp.map Prod.fst).sum = dirVar wp (θ + Real.pi / 2) := by
  rw [dirVar_eq wp _ h, Real.cos_add_pi_div_two, Real.sin_add_pi_div_two]
  congr 1
  ring

/-- If `θ` satisfies `(A - C) cos 2θ + 2 B sin 2θ = ± R` then it is an extreme direction. -/
private theorem extreme {A B C R : ℝ} (hR : R ^ 2 = (A - C) ^ 2 + 4 * B ^ 2) (hR0 : 0 ≤ R) (φ : ℝ) :
    A * Real.cos φ ^ 2 + 2 * B * Real.sin φ * Real.cos φ + C * Real.sin φ ^ 2 ≤ (A + C + R) / 2
    ∧ (A + C - R) / 2 ≤ A * Real.cos φ ^ 2 + 2 * B * Real.sin φ * Real.cos φ + C * Real.sin φ ^ 2 := by
  have h1 := Real.sin_sq_add_cos_sq φ
  set s := Real.sin φ
  set c := Real.cos φ
  obtain ⟨u, hu⟩ : ∃ u, u = (A - C) * (c ^ 2 - s ^ 2) + 2 * B * (2 * s * c) := ⟨_, rfl⟩
  have hu2 : u ^ 2 ≤ R ^ 2 := by
    have h2 : (c ^ 2 - s ^ 2) ^ 2 + (2 * s * c) ^ 2 = 1 := by
      have : (c ^ 2 - s ^ 2) ^ 2 + (2 * s * c) ^ 2 = (s ^ 2 + c ^ 2) ^ 2 := by ring
      rw [this, h1]; norm_num
    have h3 : R ^ 2 - u ^ 2 = ((A - C) * (2 * s * c) - 2 * B * (c ^ 2 - s ^ 2)) ^ 2 := by
      rw [hR, hu]
      linear_combination (-((A - C) ^ 2 + 4 * B ^ 2)) * h2
    nlinarith [sq_nonneg ((A - C) * (2 * s * c) - 2 * B * (c ^ 2 - s ^ 2))]
  have hab := abs_le.1 (abs_le_of_sq_le_sq hu2 hR0)
  have hq : A * c ^ 2 + 2 * B * s * c + C * s ^ 2 = (A + C + u) / 2 := by
    rw [hu]; linear_combination ((A + C) / 2) * h1
  rw [hq]
  constructor <;> linarith [hab.1, hab.2]

private theorem arctan_quad (A B C t : ℝ) :
    A * Real.cos (Real.arctan t) ^ 2 + 2 * B * Real.sin (Real.arctan t) * Real.cos (Real.arctan t)
      + C * Real.sin (Real.arctan t) ^ 2 = (A + 2 * B * t + C * t ^ 2) / (1 + t ^ 2) := by
  have hc := Real.cos_sq_arctan t
  have hs : Real.sin (Real.arctan t) = t * Real.cos (Real.arctan t) := by
    rw [Real.sin_arctan, Real.cos_arctan]; ring
  rw [hs]
  have : A * Real.cos (Real.arctan t) ^ 2
      + 2 * B * (t * Real.cos (Real.arctan t)) * Real.cos (Real.arctan t)
      + C * (t * Real.cos (Real.arctan t)) ^ 2
      = (A + 2 * B * t + C * t ^ 2) * Real.cos (Real.arctan t) ^ 2 := by ring
  rw [this, hc]
  ring

private theorem principal {A B C R : ℝ} (hR : R ^ 2 = (A - C) ^ 2 + 4 * B ^ 2) (hB : B ≠ 0) (e : ℝ)
    (he : e = R ∨ e = -R) :
    A * Real.cos (Real.arctan ((e - (A - C)) / (2 * B))) ^ 2
      + 2 * B * Real.sin (Real.arctan ((e - (A - C)) / (2 * B)))
        * Real.cos (Real.arctan ((e - (A - C)) / (2 * B)))
      + C * Real.sin (Real.arctan ((e - (A - C)) / (2 * B))) ^ 2 = (A + C + e) / 2 := by
  rw [arctan_quad]
  obtain ⟨t, ht⟩ : ∃ t, t = (e - (A - C)) / (2 * B) := ⟨_, rfl⟩
  rw [← ht]
  have he2 : e ^ 2 = (A - C) ^ 2 + 4 * B ^ 2 := by rcases he with rfl | rfl <;> [exact hR; (rw [neg_sq]; exact hR)]
  have h1 : e = 2 * B * t + (A - C) := by rw [ht]; field_simp; ring
  have h2 : B * t ^ 2 + (A - C) * t - B = 0 := by
    have : 4 * B * (B * t ^ 2 + (A - C) * t - B) = 0 := by rw [h1] at he2; linear_combination he2
    rcases mul_eq_zero.1 this with h | h
    · exact absurd h (by positivity)
    · exact h
  have hpos : (0 : ℝ) < 1 + t ^ 2 := by positivity
  rw [div_eq_iff hpos.ne', h1]
  linear_combination (-t) * h2

/-- The documented scale factor of the two methods. -/
noncomputable def ellipseFactor (n : ℕ) (method : EllipseMethod) (crimestatCorr degfreedCorr : Bool) : ℝ :=
  match method, crimestatCorr, degfreedCorr with
  | .crimestat, _, _ => Real.sqrt (2 * n / (n - 2))
  | .yuill, true, true => Real.sqrt (2 * n / (n - 2))
  | .yuill, true, false => Real.sqrt 2
  | .yuill, false, true => Real.sqrt (n / (n - 2))
  | .yuill, false, false => 1

private theorem correction_eq (n : ℕ) (hn : 3 ≤ n) (m : EllipseMethod) (cc dc : Bool) (s : ℝ) :
    ellipseCorrection n m cc dc s = ellipseFactor n m cc dc * s := by
  have h2 : (0 : ℝ) ≤ 2 := by norm_num
  have hn2 : (0 : ℝ) < (n : ℝ) - 2 := by
    have : (3 : ℝ) ≤ n := by exact_mod_cast hn
    linarith
  have e1 : Real.sqrt (2 * n / (n - 2)) = Real.sqrt 2 * Real.sqrt n / Real.sqrt (n - 2) := by
    rw [Real.sqrt_div (by positivity), Real.sqrt_mul h2]
  have e2 : Real.sqrt (n / (n - 2)) = Real.sqrt n / Real.sqrt (n - 2) := by
    rw [Real.sqrt_div (by positivity)]
  cases m <;> cases cc <;> cases dc <;>
    simp only [ellipseCorrection, ellipseFactor, e1, e2, if_true, Bool.false_eq_true, if_false] <;> ring

private theorem factor_pos (n : ℕ) (hn : 3 ≤ n) (m : EllipseMethod) (cc dc : Bool) :
    0 < ellipseFactor n m cc dc := by
  have hn2 : (0 : ℝ) < (n : ℝ) - 2 := by
    have : (3 : ℝ) ≤ n := by exact_mod_cast hn
    linarith
  have hn0 : (0 : ℝ) < n := by linarith
  cases m <;> cases cc <;> cases dc <;> simp only [ellipseFactor] <;> positivity

/-- **C28 and C29.** Let `points` have at least three points and let the weights be absent (then all are
one) or as many non-negative numbers with a positive sum. There are two standard deviations `a ≥ b ≥ 0` and
an angle, depending only on points and weights, such that for every way of writing the method name in upper
or lower case and for all options the result is `(k a, k b, angle)`, where `k > 0` is the documented factor:
`√(2n/(n-2))` for CrimeStat, and for Yuill's method the product of `√2` (if `crimestatCorr`) and
`√(n/(n-2))` (if `degfreedCorr`). It is a correct standard deviational ellipse: no direction has a larger
variance than `angle`, and none a smaller variance than the direction perpendicular to it. -/
theorem C28_C29_ellipse (points : List (ℝ × ℝ)) (hn : 3 ≤ points.length) (weights : Option (List ℝ))
    (hw : ∀ w, weights = some w → w.length = points.length ∧ (∀ a ∈ w, 0 ≤ a) ∧ 0 < w.sum)
    (wp : List (ℝ × (ℝ × ℝ)))
    (hwp : wp = ((weights.getD (List.replicate points.length 1)).zip points)) :
    ∃ a b angle : ℝ, ∀ (method : String) (m : EllipseMethod), parseMethod method = .ok m →
      ∀ crimestatCorr degfreedCorr, ∃ k, k = ellipseFactor points.length m crimestatCorr degfreedCorr
        ∧ 0 < k
        ∧ ellipse points weights method crimestatCorr degfreedCorr = .ok (k * a, k * b, angle)
        ∧ IsDeviationalEllipse wp k (k * a) (k * b) angle := by
  have hres : weights.getD (List.replicate points.length 1) = resolved points weights := by
    cases weights <;> rfl
  rw [hres] at hwp
  have hlen : (resolved points weights).length = points.length := by
    cases weights with
    | none => simp [resolved]
    | some w => exact (hw w rfl).1
  have hnn : ∀ a ∈ resolved points weights, 0 ≤ a := by
    cases weights with
    | none => intro a ha; simp [resolved] at ha; rw [ha.2]; norm_num
    | some w => exact (hw w rfl).2.1
  have hWpos : 0 < (resolved points weights).sum := by
    cases weights with
    | none =>
      simp only [resolved, List.sum_replicate, nsmul_eq_mul, mul_one]
      have : 0 < points.length := by omega
      exact_mod_cast this
    | some w => exact (hw w rfl).2.2
  have hfst : wp.map Prod.fst = resolved points weights := by
    rw [hwp]; exact List.map_fst_zip (by omega)
  have hW : 0 < (wp.map Prod.fst).sum := by rw [hfst]; exact hWpos
  have main := ellipse_eq points weights
  have hAnn : 0 ≤ mxx wp (wmean wp) ∧ 0 ≤ myy wp (wmean wp) := by
    have hwn : ∀ a ∈ wp, 0 ≤ a.1 := by
      intro a ha
      apply hnn
      rw [← hfst]; exact List.mem_map.2 ⟨a, ha, rfl⟩
    constructor
    · apply List.sum_nonneg; intro x hx; obtain ⟨a, ha, rfl⟩ := List.mem_map.1 hx
      exact mul_nonneg (hwn a ha) (sq_nonneg _)
    · apply List.sum_nonneg; intro x hx; obtain ⟨a, ha, rfl⟩ := List.mem_map.1 hx
      exact mul_nonneg (hwn a ha) (sq_nonneg _)
  have hdn : ∀ φ, 0 ≤ dirVar wp φ := by
    intro φ
    unfold dirVar wVar
    have hwn : ∀ a ∈ wp, 0 ≤ a.1 := by
      intro a ha
      apply hnn
      rw [← hfst]; exact List.mem_map.2 ⟨a, ha, rfl⟩
    apply div_nonneg
    · apply List.sum_nonneg; intro x hx; obtain ⟨a, ha, rfl⟩ := List.mem_map.1 hx
      obtain ⟨b, hb, rfl⟩ := List.mem_map.1 ha
      exact mul_nonneg (hwn b hb) (sq_nonneg _)
    · apply List.sum_nonneg; intro x hx; obtain ⟨a, ha, rfl⟩ := List.mem_map.1 hx
      obtain ⟨b, hb, rfl⟩ := List.mem_map.1 ha
      exact hwn b hb
  have hT := fun θ => T_eq_dirVar wp θ hW.ne'
  have hD := fun φ => dirVar_eq wp φ hW.ne'
  obtain ⟨A, hA⟩ : ∃ A, A = mxx wp (wmean wp) := ⟨_, rfl⟩
  obtain ⟨B, hB⟩ : ∃ B, B = mxy wp (wmean wp) := ⟨_, rfl⟩
  obtain ⟨C, hC⟩ : ∃ C, C = myy wp (wmean wp) := ⟨_, rfl⟩
  obtain ⟨R, hR⟩ : ∃ R, R = Real.sqrt ((A - C) ^ 2 + 4 * B ^ 2) := ⟨_, rfl⟩
  have hR2 : R ^ 2 = (A - C) ^ 2 + 4 * B ^ 2 := by rw [hR, Real.sq_sqrt (by positivity)]
  have hR0 : 0 ≤ R := hR ▸ Real.sqrt_nonneg _
  rw [← hA, ← hC] at hAnn
  simp only [← hA, ← hB, ← hC] at hT hD
  set W := (wp.map Prod.fst).sum with hWdef
  -- it suffices to know the variance in the reported direction and the one perpendicular to it
  have finish : ∀ angle : ℝ, dirVar wp angle = (A + C + R) / 2 / W →
      dirVar wp (angle + Real.pi / 2) = (A + C - R) / 2 / W → ∀ k : ℝ, 0 < k →
      IsDeviationalEllipse wp k (k * Real.sqrt (dirVar wp angle))
        (k * Real.sqrt (dirVar wp (angle + Real.pi / 2))) angle := by
    intro angle h1 h2 k hk
    have hL : ∀ φ, dirVar wp φ ≤ dirVar wp angle := by
      intro φ
      rw [h1, hD φ]
      exact div_le_div_of_nonneg_right (extreme hR2 hR0 φ).1 hW.le
    refine ⟨mul_nonneg hk.le (Real.sqrt_nonneg _),
      mul_le_mul_of_nonneg_left (Real.sqrt_le_sqrt (hL _)) hk.le, rfl, rfl, hL, ?_⟩
    intro φ
    rw [h2, hD φ]
    exact div_le_div_of_nonneg_right (extreme hR2 hR0 φ).2 hW.le
  have perp : ∀ θ e : ℝ, dirVar wp θ = (A + C + e) / 2 / W →
      dirVar wp (θ + Real.pi / 2) = (A + C - e) / 2 / W := by
    intro θ e h
    rw [hD] at h ⊢
    rw [Real.cos_add_pi_div_two, Real.sin_add_pi_div_two]
    rw [div_left_inj' hW.ne'] at h ⊢
    linear_combination (-1) * h + (A + C) * Real.sin_sq_add_cos_sq θ
  by_cases hB0 : B = 0
  · -- no correlation: the axes are the coordinate axes
    have hRabs : R = |A - C| := by
      rw [hR, hB0, ← Real.sqrt_sq_eq_abs]; congr 1; ring
    have d0 : dirVar wp 0 = A / W := by rw [hD]; simp
    have d1 : dirVar wp (Real.pi / 2) = C / W := by rw [hD]; simp
    have d2 : dirVar wp (Real.pi / 2 + Real.pi / 2) = A / W := by
      rw [hD]; simp
    by_cases hlt : C < A
    · refine ⟨Real.sqrt (dirVar wp 0), Real.sqrt (dirVar wp (0 + Real.pi / 2)), 0, ?_⟩
      intro method m hm cc dc
      have hk := factor_pos points.length hn m cc dc
      refine ⟨_, rfl, hk, ?_, finish 0 ?_ ?_ _ hk⟩
      · have e := main method cc dc m hm hlen hWpos.ne' wp hwp
        simp only [← hA, ← hB, ← hC, hB0, mul_zero, if_true, correction_eq _ hn] at e
        simp only [Real.sin_zero, Real.cos_zero, Real.sin_pi_div_two, Real.cos_pi_div_two] at e
        rw [e]
        have s1 : A * 0 ^ 2 - 0 * 0 * 1 + C * 1 ^ 2 = C := by ring
        have s2 : A * 1 ^ 2 - 0 * 1 * 0 + C * 0 ^ 2 = A := by ring
        rw [s1, s2, zero_add, d0, d1, if_pos]
        exact mul_lt_mul_of_pos_left
          (Real.sqrt_lt_sqrt (div_nonneg hAnn.2 hW.le) (div_lt_div_of_pos_right hlt hW)) hk
      · rw [d0, hRabs, abs_of_pos (by linarith)]; ring
      · rw [zero_add, d1, hRabs, abs_of_pos (by linarith)]; ring
    · push Not at hlt
      refine ⟨Real.sqrt (dirVar wp (Real.pi / 2)), Real.sqrt (dirVar wp (Real.pi / 2 + Real.pi / 2)),
        Real.pi / 2, ?_⟩
      intro method m hm cc dc
      have hk := factor_pos points.length hn m cc dc
      refine ⟨_, rfl, hk, ?_, finish _ ?_ ?_ _ hk⟩
      · have e := main method cc dc m hm hlen hWpos.ne' wp hwp
        simp only [← hA, ← hB, ← hC, hB0, mul_zero, if_true, correction_eq _ hn] at e
        simp only [Real.sin_zero, Real.cos_zero, Real.sin_pi_div_two, Real.cos_pi_div_two] at e
        rw [e]
        have s1 : A * 0 ^ 2 - 0 * 0 * 1 + C * 1 ^ 2 = C := by ring
        have s2 : A * 1 ^ 2 - 0 * 1 * 0 + C * 0 ^ 2 = A := by ring
        rw [s1, s2, d1, d2, if_neg]
        rw [not_lt]
        exact mul_le_mul_of_nonneg_left
          (Real.sqrt_le_sqrt (div_le_div_of_nonneg_right hlt hW.le)) hk.le
      · rw [d1, hRabs, abs_of_nonpos (by linarith)]; ring
      · rw [d2, hRabs, abs_of_nonpos (by linarith)]; ring
  · -- correlated coordinates
    have h2B : ¬ (2 * B = 0) := by simpa using hB0
    have t1 : -((A - C) + R) / (2 * B) = (-R - (A - C)) / (2 * B) := by congr 1; ring
    have t2 : -((A - C) - R) / (2 * B) = (R - (A - C)) / (2 * B) := by congr 1; ring
    have p1 : dirVar wp (Real.arctan ((-R - (A - C)) / (2 * B))) = (A + C + (-R)) / 2 / W := by
      rw [hD, principal hR2 hB0 (-R) (Or.inr rfl)]
    have p2 : dirVar wp (Real.arctan ((R - (A - C)) / (2 * B))) = (A + C + R) / 2 / W := by
      rw [hD, principal hR2 hB0 R (Or.inl rfl)]
    have q1 := perp _ _ p1
    have q2 := perp _ _ p2
    rw [show A + C - -R = A + C + R by ring] at q1
    refine ⟨Real.sqrt (dirVar wp (Real.arctan ((R - (A - C)) / (2 * B)))),
      Real.sqrt (dirVar wp (Real.arctan ((R - (A - C)) / (2 * B)) + Real.pi / 2)),
      Real.arctan ((R - (A - C)) / (2 * B)), ?_⟩
    intro method m hm cc dc
    have hk := factor_pos points.length hn m cc dc
    refine ⟨_, rfl, hk, ?_, finish _ p2 q2 _ hk⟩
    have e := main method cc dc m hm hlen hWpos.ne' wp hwp
    simp only [← hA, ← hB, ← hC, ← hR, h2B, if_false, correction_eq _ hn, t1, t2, ← hWdef, hT] at e
    rw [e, q1, p2, q2, if_neg]
    rw [not_lt]
    exact mul_le_mul_of_nonneg_left (Real.sqrt_le_sqrt
      (div_le_div_of_nonneg_right (div_le_div_of_nonneg_right (by linarith) (by norm_num)) hW.le)) hk.le

/-- **C29, errors.** Whatever the points, a method name that is not one of the two (in any case) and a
wrong number of weights raise `ValueError`. -/
theorem C29_ellipse_errors (points : List (ℝ × ℝ)) (weights : Option (List ℝ)) (method : String)
    (crimestatCorr degfreedCorr : Bool) :
    ((method.toLower ≠ "crimestat" ∧ method.toLower ≠ "yuill") ∨
      (∃ w, weights = some w ∧ w.length ≠ points.length)) →
    ellipse points weights method crimestatCorr degfreedCorr = .error .valueError := by
  intro h
  unfold ellipse
  by_cases hm : method.toLower ≠ "crimestat" ∧ method.toLower ≠ "yuill"
  · have : parseMethod method = .error .valueError := by simp [parseMethod, hm]
    rw [this]; rfl
  · obtain ⟨w, rfl, hw⟩ := h.resolve_left hm
    have : ∃ m, parseMethod method = .ok m := by
      unfold parseMethod
      by_cases h1 : method.toLower = "crimestat"
      · exact ⟨_, by simp [h1]; rfl⟩
      · by_cases h2 : method.toLower = "yuill"
        · exact ⟨.yuill, by simp [h2]⟩
        · exact absurd ⟨h1, h2⟩ hm
    obtain ⟨m, hm'⟩ := this
    rw [hm']
    simp only [bind, Except.bind, hw, ne_eq, not_false_eq_true, if_true]
    rfl

private theorem ellipse_perm (points points' : List (ℝ × ℝ)) (weights weights' : Option (List ℝ)) (method : String)
    (cc dc : Bool) (hlen : (resolved points weights).length = points.length)
    (hlen' : (resolved points' weights').length = points'.length)
    (h : ((resolved points weights).zip points).Perm ((resolved points' weights').zip points')) :
    ellipse points weights method cc dc = ellipse points' weights' method cc dc := by
  have hl : points.length = points'.length := by
    have := h.length_eq
    simp only [List.length_zip, hlen, hlen', min_self] at this
    exact this
  have hf : (resolved points weights).Perm (resolved points' weights') := by
    have := h.map Prod.fst
    rwa [List.map_fst_zip (by omega), List.map_fst_zip (by omega)] at this
  cases hm : parseMethod method with
  | error e =>
    unfold ellipse
    rw [hm]
    rfl
  | ok m =>
    by_cases hW : (resolved points weights).sum = 0
    · have hW' : (resolved points' weights').sum = 0 := hf.sum_eq ▸ hW
      have key : ∀ (pts : List (ℝ × ℝ)) (ws : Option (List ℝ)), (resolved pts ws).length = pts.length →
          (resolved pts ws).sum = 0 → ellipse pts ws method cc dc = .error .zeroDivisionError := by
        intro pts ws hl hs
        unfold ellipse
        cases ws with
        | none =>
          simp only [resolved] at hs
          simp only [hm, bind, Except.bind, pure, Except.pure, average, hs, if_true]
        | some w =>
          simp only [resolved] at hs hl
          simp only [hm, bind, Except.bind, pure, Except.pure, average, hs, hl, ne_eq, not_true_eq_false, if_false, if_true]
      rw [key _ _ hlen hW, key _ _ hlen' hW']
    · have hW' : (resolved points' weights').sum ≠ 0 := fun h => hW (hf.sum_eq.trans h)
      have e := ellipse_eq points weights method cc dc m hm hlen hW _ rfl
      have e' := ellipse_eq points' weights' method cc dc m hm hlen' hW' _ rfl
      have hsum : ∀ g : ℝ × (ℝ × ℝ) → ℝ, (((resolved points weights).zip points).map g).sum
          = (((resolved points' weights').zip points').map g).sum := fun g => (h.map g).sum_eq
      have hmean : wmean ((resolved points weights).zip points) = wmean ((resolved points' weights').zip points') := by
        simp only [wmean, hsum]
      have hA := hsum fun a => a.1 * (a.2.1 - (wmean ((resolved points' weights').zip points')).1) ^ 2
      have hB := hsum fun a => a.1 * ((a.2.1 - (wmean ((resolved points' weights').zip points')).1)
        * (a.2.2 - (wmean ((resolved points' weights').zip points')).2))
      have hC := hsum fun a => a.1 * (a.2.2 - (wmean ((resolved points' weights').zip points')).2) ^ 2
      change mxx _ _ = mxx _ _ at hA
      change mxy _ _ = mxy _ _ at hB
      change myy _ _ = myy _ _ at hC
      rw [hmean, hA, hB, hC, hsum Prod.fst, hl] at e
      exact e.trans e'.symm

/-- **C125, order, the ellipse.** The ellipse does not depend on the order of the events; the weights go with the events. -/
theorem C125_order_ellipse (method : String) (crimestatCorr degfreedCorr : Bool) :
    (∀ points points' : List (ℝ × ℝ), points.Perm points' →
      ellipse points none method crimestatCorr degfreedCorr = ellipse points' none method crimestatCorr degfreedCorr)
    ∧ ∀ events events' : List (ℝ × (ℝ × ℝ)), events.Perm events' →
      ellipse (events.map Prod.snd) (some (events.map Prod.fst)) method crimestatCorr degfreedCorr
        = ellipse (events'.map Prod.snd) (some (events'.map Prod.fst)) method crimestatCorr degfreedCorr := by
  refine ⟨fun points points' h => ?_, fun events events' h => ?_⟩
  · refine ellipse_perm points points' none none method _ _ (by simp [resolved]) (by simp [resolved]) ?_
    have e : ∀ l : List (ℝ × ℝ), (List.replicate l.length (1 : ℝ)).zip l = l.map fun p => (1, p) := by
      intro l
      induction l with
      | nil => rfl
      | cons a l ih => simp [List.replicate_succ, ih]
    simp only [resolved, e]
    exact h.map _
  · refine ellipse_perm _ _ (some _) (some _) method _ _ (by simp [resolved]) (by simp [resolved]) ?_
    have e : ∀ l : List (ℝ × (ℝ × ℝ)), (l.map Prod.fst).zip (l.map Prod.snd) = l := by
      intro l
      induction l with
      | nil => rfl
      | cons a l ih => simp [ih]
    simp only [resolved, e]
    exact h

/-- Non-vacuity: method names in mixed case are accepted, and a pattern of four points with weights meets
the hypotheses. -/
example : parseMethod "CrimeStat" = .ok .crimestat ∧ parseMethod "Yuill" = .ok .yuill
    ∧ parseMethod "other" = .error .valueError := by decide +kernel

example : ∀ w, some [(1 : ℝ), 2, 0, 3] = some w →
    w.length = [((0 : ℝ), (0 : ℝ)), (1, 2), (4, 4), (5, 1)].length ∧ (∀ a ∈ w, 0 ≤ a) ∧ 0 < w.sum := by
  intro w h
  cases h
  norm_num

end Pointpats.Props
