import Verif.Model.CentroFloat
import Mathlib.Tactic.Linarith
import Mathlib.Tactic.Positivity
import Mathlib.Tactic.NormNum
import Mathlib.Tactic.FieldSimp
import Mathlib.Tactic.Ring
import Mathlib.Algebra.Order.BigOperators.Group.List
import Mathlib.Algebra.Order.Field.Rat
import Mathlib.Data.Rat.Floor

/-!
# C139: the centrographic measures of too few events are no numbers
-/

set_option linter.unusedSectionVars false

namespace Pointpats.Props

open Centrography CentroFloat

section Field

variable {K : Type} [Field K] [LinearOrder K] [IsStrictOrderedRing K]

private theorem fpMean_ne (l : List K) (h : l ≠ []) : fpMean l = .fin (l.sum / l.length) := by
  have : (l.length : K) ≠ 0 := by
    have := List.length_pos_of_ne_nil h
    exact_mod_cast this.ne'
  simp [fpMean, XF.div, this]

/-- **C139.** `mean_center` of at least one event is the pair of means, and of no events it is `nan`. -/
theorem C139_mean_center (points : List (K × K)) :
    meanCenterX points =
      if points = [] then (.nan, .nan)
      else (.fin (meanCenter points).1, .fin (meanCenter points).2) := by
  split_ifs with h
  · subst h; simp [meanCenterX, fpMean, XF.div]
  · simp [meanCenterX, meanCenter, fpMean_ne, h]

/-- **C139.** `manhattan_median` of at least one event is the pair of medians, and of no events it is
`nan`. -/
theorem C139_manhattan_median (points : List (K × K)) :
    manhattanMedianX points =
      if points = [] then (.nan, .nan)
      else (.fin (manhattanMedian points).1, .fin (manhattanMedian points).2) := by
  simp only [manhattanMedianX, manhattanMedian, fpMedian, List.length_map, List.length_eq_zero_iff]
  split_ifs <;> rfl

private theorem foldl_fin (l : List K) (a : K) :
    (l.map XF.fin).foldl fpAdd (.fin a) = .fin (a + l.sum) := by
  induction l generalizing a with
  | nil => simp
  | cons b l ih => simp [fpAdd, ih, add_assoc]

private theorem foldl_wild (l : List (XF K)) (hl : ∀ v ∈ l, v.isfinite = false) (a : XF K)
    (h : a.isfinite = false ∨ l ≠ []) : (l.foldl fpAdd a).isfinite = false := by
  induction l generalizing a with
  | nil => simpa using h
  | cons b l ih =>
    refine ih (fun v hv => hl v (List.mem_cons_of_mem _ hv)) _ (Or.inl ?_)
    have hb := hl b List.mem_cons_self
    cases a <;> cases b <;> simp_all [fpAdd, XF.isfinite]

private theorem zip_map_fin (w : List K) (points : List (K × K)) (W : K) (hW : W ≠ 0)
    (f : K × K → K) :
    List.zipWith (fun a p => fpMul a (.fin (f p))) (w.map fun x => XF.div (.fin (x * 1)) (.fin W)) points
      = (List.zipWith (fun a p => a * f p) (w.map fun x => x * 1 / W) points).map XF.fin := by
  induction w generalizing points with
  | nil => simp
  | cons a w ih =>
    cases points with
    | nil => simp
    | cons p points =>
      simp only [List.map_cons, List.zipWith_cons_cons, ih]
      simp [XF.div, hW, fpMul]

private theorem zip_wild (w : List K) (points : List (K × K)) (f : K × K → K) :
    ∀ v ∈ List.zipWith (fun a p => fpMul a (.fin (f p)))
      (w.map fun x => XF.div (.fin (x * 1)) (.fin 0)) points, v.isfinite = false := by
  induction w generalizing points with
  | nil => simp
  | cons a w ih =>
    cases points with
    | nil => simp
    | cons p points =>
      simp only [List.map_cons, List.zipWith_cons_cons, List.mem_cons, forall_eq_or_imp]
      refine ⟨?_, ih points⟩
      simp only [XF.div, if_true]
      split_ifs <;> simp only [fpMul] <;> (try split_ifs) <;> rfl

/-- **C139 (part).** For at least one event and as many weights, `weighted_mean_center` is the weighted mean
center if the weights do not sum to zero; otherwise neither coordinate is a finite number. Missing: for no
events the result should be `nan` as well, see `C139_weighted_refuted`. -/
theorem C139_weighted_partial (points : List (K × K)) (hne : points ≠ []) (weights : List K)
    (hlen : weights.length = points.length) :
    (weights.sum ≠ 0 → ∃ c, weightedMeanCenter points weights = .ok c
      ∧ weightedMeanCenterX points weights = .ok (.fin c.1, .fin c.2))
    ∧ (weights.sum = 0 → ∃ a b, weightedMeanCenterX points weights = .ok (a, b)
      ∧ a.isfinite = false ∧ b.isfinite = false) := by
  constructor
  · intro hW
    refine ⟨_, (by simp only [weightedMeanCenter, List.length_map, hlen, ne_eq,
      not_true_eq_false, if_false]; rfl), ?_⟩
    simp only [weightedMeanCenterX, List.length_map, hlen, ne_eq, not_true_eq_false, if_false, fpSum]
    rw [zip_map_fin weights points _ hW Prod.fst, zip_map_fin weights points _ hW Prod.snd, foldl_fin,
      foldl_fin, zero_add, zero_add]
  · intro hW
    refine ⟨_, _, (by simp only [weightedMeanCenterX, List.length_map, hlen, ne_eq,
      not_true_eq_false, if_false]; rfl), ?_, ?_⟩ <;>
    · rw [hW, fpSum]
      refine foldl_wild _ (zip_wild weights points _) _ (Or.inr ?_)
      cases points with
      | nil => exact absurd rfl hne
      | cons p ps =>
        cases weights with
        | nil => simp at hlen
        | cons a w => simp

/-- **C139 is false of `weighted_mean_center`.** For no events and no weights it returns the origin, a
number like any other, where `mean_center` returns `nan`. -/
theorem C139_weighted_refuted :
    weightedMeanCenterX ([] : List (K × K)) [] = .ok (.fin 0, .fin 0)
    ∧ meanCenterX ([] : List (K × K)) = (.nan, .nan) := by
  refine ⟨rfl, ?_⟩
  rw [C139_mean_center, if_pos rfl]

/-- The hypotheses are met by three events with weights that sum to zero; the result is one infinite and one
undefined coordinate. -/
example : weightedMeanCenterX [((1 : ℚ), 2), (-3, 4), (5, 0)] [1, -1, 0] = .ok (.nan, .nan)
    ∧ weightedMeanCenterX [((1 : ℚ), 2), (-3, 4)] [1, -1] = .ok (.pinf, .nan)
    ∧ weightedMeanCenterX [((1 : ℚ), 2), (-3, 4)] [1, 3] = .ok (.fin (-2), .fin (7 / 2)) := by
  decide +kernel

end Field

/-- A sum of squares divided by the number of events is not smaller than the square of the mean. -/
private theorem mean_sq_le {α : Type} (l : List α) (h : l ≠ []) (f : α → ℝ) :
    0 ≤ (l.map fun a => f a * f a).sum / l.length
      - (l.map f).sum / l.length * ((l.map f).sum / l.length) := by
  have hn : (0 : ℝ) < l.length := by exact_mod_cast List.length_pos_of_ne_nil h
  have key : ∀ c : ℝ, 0 ≤ (l.map fun a => f a * f a).sum - 2 * c * (l.map f).sum + l.length * c * c := by
    intro c
    clear hn h
    induction l with
    | nil => simp
    | cons a l ih =>
      simp only [List.map_cons, List.sum_cons, List.length_cons, Nat.cast_add, Nat.cast_one]
      nlinarith [sq_nonneg (f a - c)]
  have := key ((l.map f).sum / l.length)
  have e : (l.map fun a => f a * f a).sum / l.length
      - (l.map f).sum / l.length * ((l.map f).sum / l.length)
      = ((l.map fun a => f a * f a).sum - 2 * ((l.map f).sum / l.length) * (l.map f).sum
          + l.length * ((l.map f).sum / l.length) * ((l.map f).sum / l.length)) / l.length := by
    field_simp
    ring
  rw [e]
  exact div_nonneg this hn.le

/-- **C139.** `std_distance` of at least one event is the standard distance, and of no events it is
`nan`. -/
theorem C139_std_distance (points : List (ℝ × ℝ)) :
    stdDistanceX points = if points = [] then .nan else .fin (stdDistance points) := by
  split_ifs with h
  · subst h
    simp [stdDistanceX, meanCenterX, fpMean, XF.div, fpMul, XF.sub, fpAdd, fpSqrt]
  · have hn : (points.length : ℝ) ≠ 0 := by
      have := List.length_pos_of_ne_nil h
      exact_mod_cast this.ne'
    have h1 := mean_sq_le points h Prod.fst
    have h2 := mean_sq_le points h Prod.snd
    simp only [stdDistanceX, stdDistance, C139_mean_center, if_neg h, XF.div, if_neg hn, fpMul, XF.sub,
      fpAdd, fpSqrt]
    rw [if_neg]
    simp only [meanCenter]
    linarith

/-! ### The ellipse -/

private theorem fpSqrt_nonneg {a : ℝ} (h : 0 ≤ a) : fpSqrt (.fin a) = .fin (Real.sqrt a) := by
  simp [fpSqrt, not_lt.2 h]

/-- Enough events, or no correction that divides by `n - 2`. -/
private theorem correct_fin (n : ℕ) (m : EllipseMethod) (cc dc : Bool)
    (h : 3 ≤ n ∨ (m = .yuill ∧ dc = false)) (s : ℝ) :
    correctX n m cc dc (.fin s) = .fin (ellipseCorrection n m cc dc s) := by
  have e2 : fpSqrt (.fin 2) = .fin (Real.sqrt 2) := fpSqrt_nonneg (by norm_num)
  have en : fpSqrt (.fin (n : ℝ)) = .fin (Real.sqrt n) := fpSqrt_nonneg (by positivity)
  rcases h with h | ⟨rfl, rfl⟩
  · have hn : (0 : ℝ) < (n : ℝ) - 2 := by
      have : (3 : ℝ) ≤ n := by exact_mod_cast h
      linarith
    have e3 : fpSqrt (.fin ((n : ℝ) - 2)) = .fin (Real.sqrt ((n : ℝ) - 2)) := fpSqrt_nonneg hn.le
    have hs : Real.sqrt ((n : ℝ) - 2) ≠ 0 := (Real.sqrt_pos.2 hn).ne'
    cases m <;> cases cc <;> cases dc <;>
      simp [correctX, ellipseCorrection, e2, en, e3, fpMul, XF.div, hs]
  · cases cc <;> simp [correctX, ellipseCorrection, e2, fpMul]

private theorem correct_wild (n : ℕ) (h0 : 0 < n) (m : EllipseMethod) (cc dc : Bool)
    (h : ¬ (3 ≤ n ∨ (m = .yuill ∧ dc = false))) (s : XF ℝ) :
    (correctX n m cc dc s).isfinite = false := by
  have e2 : fpSqrt (.fin 2) = .fin (Real.sqrt 2) := fpSqrt_nonneg (by norm_num)
  have en : fpSqrt (.fin (n : ℝ)) = .fin (Real.sqrt n) := fpSqrt_nonneg (by positivity)
  have hnpos : 0 < Real.sqrt n := Real.sqrt_pos.2 (by exact_mod_cast h0)
  have h2pos : 0 < Real.sqrt 2 := Real.sqrt_pos.2 (by norm_num)
  push Not at h
  obtain ⟨hn, hm⟩ := h
  have hfac : ∀ c : ℝ, 0 < c → (XF.div (.fin c) (fpSqrt (.fin ((n : ℝ) - 2)))).isfinite = false := by
    intro c hc
    have : n = 1 ∨ n = 2 := by omega
    rcases this with rfl | rfl
    · have : ((1 : ℕ) : ℝ) - 2 < 0 := by norm_num
      simp only [fpSqrt, if_pos this, XF.div, XF.isfinite]
    · simp [fpSqrt, XF.div, hc, XF.isfinite]
  have hmul : ∀ (s f : XF ℝ), f.isfinite = false → (fpMul s f).isfinite = false := by
    intro s f hf
    cases s <;> cases f <;> simp_all [fpMul, XF.isfinite] <;> split_ifs <;> rfl
  cases m with
  | crimestat =>
    simp only [correctX, e2, en, fpMul]
    exact hmul _ _ (hfac _ (mul_pos h2pos hnpos))
  | yuill =>
    have hdc : dc = true := by simpa using hm rfl
    subst hdc
    simp only [correctX, en, if_true]
    exact hmul _ _ (hfac _ hnpos)

private theorem sum_zip_nonneg (w l : List ℝ) (hw : ∀ a ∈ w, 0 ≤ a) (hl : ∀ a ∈ l, 0 ≤ a) :
    0 ≤ (List.zipWith (· * ·) w l).sum := by
  induction w generalizing l with
  | nil => simp
  | cons a w ih =>
    cases l with
    | nil => simp
    | cons b l =>
      simp only [List.zipWith_cons_cons, List.sum_cons]
      have := ih l (fun x hx => hw x (List.mem_cons_of_mem _ hx)) (fun x hx => hl x (List.mem_cons_of_mem _ hx))
      have := mul_nonneg (hw a List.mem_cons_self) (hl b List.mem_cons_self)
      linarith

private theorem sq_zip_nonneg (l l' : List ℝ) (c s : ℝ) :
    ∀ a ∈ List.zipWith (fun a b => (b * c - a * s) ^ 2) l l', 0 ≤ a := by
  induction l generalizing l' with
  | nil => simp
  | cons a l ih =>
    cases l' with
    | nil => simp
    | cons b l' =>
      simp only [List.zipWith_cons_cons, List.mem_cons, forall_eq_or_imp]
      exact ⟨sq_nonneg _, ih l'⟩

private theorem ellipse_none (points : List (ℝ × ℝ)) (method : String) (cc dc : Bool) :
    ellipse points none method cc dc
      = ellipse points (some (List.replicate points.length 1)) method cc dc := by
  simp [ellipse]

private theorem ellipseX_none (points : List (ℝ × ℝ)) (method : String) (cc dc : Bool) :
    ellipseX points none method cc dc
      = ellipseX points (some (List.replicate points.length 1)) method cc dc := by
  simp [ellipseX]

/-- Both models compute two squared deviations and two angles first. -/
private theorem ellipse_forms (points : List (ℝ × ℝ)) (w : List ℝ) (method : String)
    (m : EllipseMethod) (hm : parseMethod method = .ok m)
    (hlen : w.length = points.length) (hwn : ∀ a ∈ w, 0 ≤ a) (hws : 0 < w.sum) (cc dc : Bool) :
    ∃ v1 v2 θ1 θ2 : ℝ,
      ellipse points (some w) method cc dc =
        (let sx := ellipseCorrection points.length m cc dc (Real.sqrt v1)
         let sy := ellipseCorrection points.length m cc dc (Real.sqrt v2)
         if sx < sy then .ok (sy, sx, θ1) else .ok (sx, sy, θ2)) ∧
      ellipseX points (some w) method cc dc =
        (let sx := correctX points.length m cc dc (.fin (Real.sqrt v1))
         let sy := correctX points.length m cc dc (.fin (Real.sqrt v2))
         if fpGt sy sx then .ok (sy, sx, θ1) else .ok (sx, sy, θ2)) := by
  have hsq : ∀ v : ℝ, 0 ≤ v → fpSqrt (XF.div (.fin v) (.fin w.sum)) = .fin (Real.sqrt (v / w.sum)) := by
    intro v hv
    simp only [XF.div, if_neg hws.ne']
    exact fpSqrt_nonneg (div_nonneg hv hws.le)
  have hT : ∀ (l l' : List ℝ) (c s : ℝ), fpSqrt (XF.div (.fin (List.zipWith (· * ·) w
      (List.zipWith (fun a b => (b * c - a * s) ^ 2) l l')).sum) (.fin w.sum))
      = .fin (Real.sqrt ((List.zipWith (· * ·) w
      (List.zipWith (fun a b => (b * c - a * s) ^ 2) l l')).sum / w.sum)) := fun l l' c s =>
    hsq _ (sum_zip_nonneg _ _ hwn (sq_zip_nonneg l l' c s))
  simp only [ellipse, ellipseX, hm, hlen, ne_eq, not_true_eq_false, if_false, average, if_neg hws.ne', hT,
    bind, pure, Except.bind, Except.pure]
  exact ⟨_, _, _, _, rfl, rfl⟩

/-- **C139.** Let the weights be absent or as many non-negative numbers as there are events, with a positive
sum, and let there be at least one event. Both axes of `ellipse` are numbers, those of the standard
deviational ellipse, if there are at least three events or the method divides by nothing that depends on
their number (Yuill's method without the correction for the degrees of freedom). Otherwise, for one or two
events, neither axis is a number. -/
theorem C139_ellipse (points : List (ℝ × ℝ)) (hne : points ≠ []) (weights : Option (List ℝ))
    (hw : ∀ w, weights = some w → w.length = points.length ∧ (∀ a ∈ w, 0 ≤ a) ∧ 0 < w.sum)
    (method : String) (m : EllipseMethod) (hm : parseMethod method = .ok m)
    (crimestatCorr degfreedCorr : Bool) :
    if 3 ≤ points.length ∨ (m = .yuill ∧ degfreedCorr = false) then
      ∃ a b θ, ellipse points weights method crimestatCorr degfreedCorr = .ok (a, b, θ)
        ∧ ellipseX points weights method crimestatCorr degfreedCorr = .ok (.fin a, .fin b, θ)
    else ∃ a b θ, ellipseX points weights method crimestatCorr degfreedCorr = .ok (a, b, θ)
        ∧ a.isfinite = false ∧ b.isfinite = false := by
  obtain ⟨v1, v2, θ1, θ2, h1, h2⟩ : ∃ v1 v2 θ1 θ2 : ℝ,
      ellipse points weights method crimestatCorr degfreedCorr =
        (let sx := ellipseCorrection points.length m crimestatCorr degfreedCorr (Real.sqrt v1)
         let sy := ellipseCorrection points.length m crimestatCorr degfreedCorr (Real.sqrt v2)
         if sx < sy then .ok (sy, sx, θ1) else .ok (sx, sy, θ2)) ∧
      ellipseX points weights method crimestatCorr degfreedCorr =
        (let sx := correctX points.length m crimestatCorr degfreedCorr (.fin (Real.sqrt v1))
         let sy := correctX points.length m crimestatCorr degfreedCorr (.fin (Real.sqrt v2))
         if fpGt sy sx then .ok (sy, sx, θ1) else .ok (sx, sy, θ2)) := by
    cases weights with
    | none =>
      rw [ellipse_none, ellipseX_none]
      refine ellipse_forms points _ method m hm (by simp) ?_ ?_ _ _
      · intro a ha; rw [(List.mem_replicate.1 ha).2]; norm_num
      · simpa using List.length_pos_of_ne_nil hne
    | some w =>
      obtain ⟨h1, h2, h3⟩ := hw w rfl
      exact ellipse_forms points w method m hm h1 h2 h3 _ _
  split_ifs with h
  · simp only [correct_fin _ _ _ _ h, fpGt, XF.ge] at h2
    simp only at h1
    by_cases hlt : ellipseCorrection points.length m crimestatCorr degfreedCorr (Real.sqrt v1)
        < ellipseCorrection points.length m crimestatCorr degfreedCorr (Real.sqrt v2)
    · exact ⟨_, _, _, by rw [h1, if_pos hlt], by rw [h2, if_pos (by simpa using hlt)]⟩
    · exact ⟨_, _, _, by rw [h1, if_neg hlt], by rw [h2, if_neg (by simpa using hlt)]⟩
  · have hw := correct_wild points.length (List.length_pos_of_ne_nil hne) m crimestatCorr degfreedCorr h
    simp only at h2
    split_ifs at h2
    · exact ⟨_, _, _, h2, hw _, hw _⟩
    · exact ⟨_, _, _, h2, hw _, hw _⟩

/-- Both cases of `C139_ellipse` occur. -/
example : (∃ a b θ, ellipseX [(0, 0), (1, 2)] none "CrimeStat" true true = .ok (a, b, θ)
      ∧ a.isfinite = false ∧ b.isfinite = false)
    ∧ ∃ a b θ, ellipseX [(0, 0), (1, 2)] (some [1, 2]) "yuill" true false = .ok (.fin a, .fin b, θ) := by
  constructor
  · have := C139_ellipse [((0 : ℝ), (0 : ℝ)), (1, 2)] (by simp) none (by simp) "CrimeStat" .crimestat
      (by decide +kernel) true true
    simpa using this
  · have := C139_ellipse [((0 : ℝ), (0 : ℝ)), (1, 2)] (by simp) (some [1, 2])
      (by intro w hw; cases hw; norm_num) "yuill" .yuill (by decide +kernel) true false
    simp only [and_self, or_true, if_true] at this
    obtain ⟨a, b, θ, _, h⟩ := this
    exact ⟨a, b, θ, h⟩

/-- **C139.** One event, with the default method: both axes are `nan`. -/
theorem C139_ellipse_one (p : ℝ × ℝ) (crimestatCorr degfreedCorr : Bool) :
    ∃ θ, ellipseX [p] none "crimestat" crimestatCorr degfreedCorr = .ok (.nan, .nan, θ) := by
  obtain ⟨v1, v2, θ1, θ2, _, h2⟩ := ellipse_forms [p] [1] "crimestat" .crimestat (by decide +kernel) rfl
    (by simp) (by simp) crimestatCorr degfreedCorr
  have hc : ∀ s, correctX [p].length .crimestat crimestatCorr degfreedCorr s = .nan := by
    intro s
    have h1 : (1 : ℝ) - 2 < 0 := by norm_num
    have : XF.div (fpMul (fpSqrt (.fin 2)) (fpSqrt (.fin ([p].length : ℝ))))
        (fpSqrt (.fin (([p].length : ℝ) - 2))) = .nan := by
      simp only [List.length_singleton, Nat.cast_one, fpSqrt, if_pos h1]
      split_ifs <;> simp [fpMul, XF.div]
    simp only [correctX, this]
    cases s <;> rfl
  rw [ellipseX_none]
  simp only [hc, fpGt] at h2
  exact ⟨θ2, h2⟩

/-- **C139.** No events: `ellipse` raises a `ZeroDivisionError`, whether weights are given or not. -/
theorem C139_ellipse_empty (method : String) (m : EllipseMethod) (hm : parseMethod method = .ok m)
    (crimestatCorr degfreedCorr : Bool) :
    ellipseX [] none method crimestatCorr degfreedCorr = .error .zeroDivisionError
    ∧ ellipseX [] (some []) method crimestatCorr degfreedCorr = .error .zeroDivisionError := by
  constructor <;> simp [ellipseX, hm, average, bind, pure, Except.bind, Except.pure]

end Pointpats.Props
