import Verif.Model.Kde
import Verif.Lemmas.MinMax
import Mathlib.Data.List.Sort
import Mathlib.Tactic.FieldSimp
import Mathlib.Tactic.Linarith
import Mathlib.Tactic.Ring
import Mathlib.Tactic.Positivity

/-!
# Property C81: the grid of `plot_density`
-/

set_option linter.unusedSectionVars false

namespace Pointpats.Props

open Kde

variable {K : Type} [Field K] [LinearOrder K] [IsStrictOrderedRing K]

/-- `(lo, hi)` are the smallest and the largest of the values. -/
def IsExtent (l : List K) (lo hi : K) : Prop := (lo ∈ l ∧ ∀ x ∈ l, lo ≤ x) ∧ hi ∈ l ∧ ∀ x ∈ l, x ≤ hi

/-- `num` equally spaced numbers from `a` to `b`. -/
def equallySpaced (a b : K) (num : ℕ) : List K :=
  (List.range num).map fun (i : ℕ) => a + (i : K) * ((b - a) / ((num : K) - 1))

theorem linspace_spaced (a b : K) (n : ℕ) (hn : 2 ≤ n) : linspace a b (n : ℤ) = .ok (equallySpaced a b n) := by
  unfold linspace equallySpaced
  rw [if_neg (by omega), if_neg (by omega)]
  congr 1
  rw [Int.toNat_natCast]
  refine List.map_congr_left fun i hi => ?_
  rw [List.mem_range] at hi
  by_cases h : (i : ℤ) = (n : ℤ) - 1
  · rw [if_pos h]
    have e : (i : K) = (n : K) - 1 := by
      have : ((i : ℤ) : K) = (((n : ℤ) - 1 : ℤ) : K) := by rw [h]
      push_cast at this
      exact this
    have hne : (n : K) - 1 ≠ 0 := by
      have : (2 : K) ≤ (n : K) := by exact_mod_cast hn
      intro h0
      linarith
    rw [e, mul_div_assoc', mul_div_cancel_left₀ _ hne]
    ring
  · rw [if_neg h]
    push_cast
    rfl

/-- Equally spaced numbers start at `a`, end at `b` and go up in steps of the same size. -/
theorem equallySpaced_ends (a b : K) (n : ℕ) (hn : 2 ≤ n) :
    (equallySpaced a b n).length = n ∧ (equallySpaced a b n).head? = some a ∧ (equallySpaced a b n).getLast? = some b ∧
      ∀ i, i + 1 < n → (equallySpaced a b n).getD (i + 1) 0 - (equallySpaced a b n).getD i 0 = (b - a) / ((n : K) - 1) := by
  have hne : (n : K) - 1 ≠ 0 := by
    have : (2 : K) ≤ (n : K) := by exact_mod_cast hn
    intro h0
    linarith
  refine ⟨by simp [equallySpaced], ?_, ?_, ?_⟩
  · obtain ⟨m, rfl⟩ : ∃ m, n = m + 1 := ⟨n - 1, by omega⟩
    simp [equallySpaced, List.range_succ_eq_map]
  · obtain ⟨m, rfl⟩ : ∃ m, n = m + 1 := ⟨n - 1, by omega⟩
    simp only [equallySpaced, List.range_succ, List.map_append, List.map_cons, List.map_nil, List.getLast?_concat,
      Option.some.injEq]
    push_cast at hne ⊢
    simp only [add_sub_cancel_right] at hne ⊢
    field_simp
    ring
  · intro i hi
    have hi' : i < n := by omega
    simp only [equallySpaced, List.getD_eq_getElem?_getD, List.getElem?_map, List.getElem?_range hi,
      List.getElem?_range hi', Option.map_some, Option.getD_some]
    push_cast
    ring

theorem isExtent_min_max (a : K) (l : List K) : IsExtent (a :: l) (listMin a l) (listMax a l) :=
  ⟨⟨listMin_mem a l, fun _ h => listMin_le h⟩, listMax_mem a l, fun _ h => le_listMax h⟩

/-- **C81, statsmodels.** For points `data` and a resolution of `nx` by `ny` (at least 2) the values handed to the
contour plot are the estimated density at the locations of a grid of `ny` rows of `nx` locations; the columns are
equally spaced over the extent of the data in `x` widened by `margin` times its width on either side, and the rows
over the extent in `y`, widened in the same way. -/
theorem C81_density_grid (density : List (K × K) → K → K × K → K)
    (evaluate : List (K × K) → K → ℤ → List (K × K) × List K) (data : List (K × K)) (hne : data ≠ []) (bandwidth margin : K)
    (nx ny : ℕ) (hx : 2 ≤ nx) (hy : 2 ≤ ny) :
    ∃ (m : Mesh K) (xlo xhi ylo yhi : K),
      plotDensity density evaluate false (.array data) bandwidth margin (.tuple [nx, ny]) = .ok (.inl m) ∧
      IsExtent (data.map Prod.fst) xlo xhi ∧ IsExtent (data.map Prod.snd) ylo yhi ∧
      ∀ xs ys, xs = equallySpaced (xlo - margin * (xhi - xlo)) (xhi + margin * (xhi - xlo)) nx →
        ys = equallySpaced (ylo - margin * (yhi - ylo)) (yhi + margin * (yhi - ylo)) ny →
        m.x = ys.map (fun _ => xs) ∧ m.y = ys.map (fun y => xs.map fun _ => y) ∧
        m.z = ys.map fun y => xs.map fun x => density data bandwidth (x, y) := by
  cases data with
  | nil => exact absurd rfl hne
  | cons p ps =>
    have e1 := isExtent_min_max p.1 (ps.map Prod.fst)
    have e2 := isExtent_min_max p.2 (ps.map Prod.snd)
    simp only [plotDensity, coordinates, smMesh, sizes, Bool.false_eq_true, if_false, bind_pure_comp,
      Except.map]
    simp only [Bind.bind, Except.bind, linspace_spaced _ _ _ hx, linspace_spaced _ _ _ hy]
    refine ⟨_, _, _, _, _, rfl, e1, e2, ?_⟩
    rintro xs ys rfl rfl
    refine ⟨?_, ?_, ?_⟩ <;> simp only [mul_comm margin]

/-- **C81, cover.** With a margin that is not negative every point of the data is between the first and the last
location of the grid, in both directions. -/
theorem C81_grid_covers (l : List K) (lo hi margin : K) (h : IsExtent l lo hi) (hm : 0 ≤ margin) (x : K) (hx : x ∈ l) :
    lo - margin * (hi - lo) ≤ x ∧ x ≤ hi + margin * (hi - lo) := by
  have h1 := h.1.2 x hx
  have h2 := h.2.2 x hx
  have : 0 ≤ margin * (hi - lo) := mul_nonneg hm (by linarith)
  constructor <;> linarith

/-- **C81, other resolutions.** One integer stands for the same size in both directions and `None` for 100; a tuple of
another length than two and values of other types raise `ValueError` and a float `TypeError`, for every non-empty data set. -/
theorem C81_resolution (density : List (K × K) → K → K × K → K)
    (evaluate : List (K × K) → K → ℤ → List (K × K) × List K) (data : List (K × K)) (hne : data ≠ []) (bandwidth margin : K) :
    (∀ n, plotDensity density evaluate false (.array data) bandwidth margin (.int n)
      = plotDensity density evaluate false (.array data) bandwidth margin (.tuple [n, n])) ∧
    plotDensity density evaluate false (.array data) bandwidth margin .none
      = plotDensity density evaluate false (.array data) bandwidth margin (.tuple [100, 100]) ∧
    plotDensity density evaluate false (.array data) bandwidth margin .other = .error .valueError ∧
    plotDensity density evaluate false (.array data) bandwidth margin .float = .error .typeError ∧
    ∀ l : List ℤ, l.length ≠ 2 →
      plotDensity density evaluate false (.array data) bandwidth margin (.tuple l) = .error .valueError := by
  cases data with
  | nil => exact absurd rfl hne
  | cons p ps =>
    refine ⟨fun n => rfl, rfl, rfl, rfl, fun l hl => ?_⟩
    match l, hl with
    | [], _ => rfl
    | [_], _ => rfl
    | [_, _], hl => exact absurd rfl hl
    | _ :: _ :: _ :: _, _ => rfl

/-- **C81, frames.** A geopandas object with points and multi-points is treated like the array of all their
coordinates; another geometry raises `ValueError`. -/
theorem C81_frames (density : List (K × K) → K → K × K → K)
    (evaluate : List (K × K) → K → ℤ → List (K × K) × List K) (useFFT : Bool) (gs : List (Bool × List (K × K)))
    (bandwidth margin : K) (r : Resolution) :
    ((∀ g ∈ gs, g.1 = true) → plotDensity density evaluate useFFT (.frame gs) bandwidth margin r
      = plotDensity density evaluate useFFT (.array (gs.flatMap Prod.snd)) bandwidth margin r) ∧
    ((∃ g ∈ gs, g.1 = false) → plotDensity density evaluate useFFT (.frame gs) bandwidth margin r = .error .valueError) := by
  constructor
  · intro h
    have : gs.all Prod.fst = true := by simpa using h
    simp only [plotDensity, coordinates, this, if_true]
  · rintro ⟨g, hg, h⟩
    have : gs.all Prod.fst = false := by
      rw [List.all_eq_false]
      exact ⟨g, hg, by simp [h]⟩
    simp only [plotDensity, coordinates, this, Bool.false_eq_true, if_false]

theorem unique_eq {l s : List K} (hs : s.Pairwise (· < ·)) (hm : ∀ x, x ∈ l ↔ x ∈ s) : unique l = s := by
  unfold unique
  have hnd : s.Nodup := hs.imp fun h => ne_of_lt h
  have hp : (l.dedup.insertionSort (· ≤ ·)).Perm s := by
    refine (List.perm_insertionSort _ _).trans ((List.perm_ext_iff_of_nodup (List.nodup_dedup _) hnd).2 ?_)
    intro x
    rw [List.mem_dedup, hm]
  exact hp.eq_of_pairwise (fun a b _ _ h1 h2 => le_antisymm h1 h2) (List.pairwise_insertionSort _ _) (hs.imp le_of_lt)

theorem getD_flatMap_grid {β : Type} (g : K → K → β) (d : β) (xs ys : List K) (c r : ℕ) (hc : c < xs.length) (hr : r < ys.length) :
    (xs.flatMap fun x => ys.map fun y => g x y).getD (c * ys.length + r) d = g (xs.getD c 0) (ys.getD r 0) := by
  induction xs generalizing c with
  | nil => simp at hc
  | cons x xs ih =>
    rw [List.flatMap_cons]
    cases c with
    | zero =>
      rw [List.getD_eq_getElem?_getD, List.getElem?_append_left (by simpa using hr)]
      simp [List.getD_eq_getElem?_getD, hr]
    | succ c =>
      have hle : (ys.map fun y => g x y).length ≤ (c + 1) * ys.length + r := by
        rw [List.length_map]; nlinarith
      have := ih c (by simpa using hc)
      rw [List.getD_eq_getElem?_getD, List.getElem?_append_right hle, List.length_map,
        show (c + 1) * ys.length + r - ys.length = c * ys.length + r by rw [Nat.add_mul]; omega,
        ← List.getD_eq_getElem?_getD, this]
      simp [List.getD_eq_getElem?_getD]

/-- **C81, KDEpy.** If the library evaluates the density on the grid of `n` different `x` and `n` different `y`, in increasing
order with `x` varying slowest, the plot gets these `x` and `y` and in row `r` and column `c` the density at `(x c, y r)`. -/
theorem C81_fft_grid_partial (density : List (K × K) → K → K × K → K)
    (evaluate : List (K × K) → K → ℤ → List (K × K) × List K) (data : List (K × K)) (bandwidth margin : K)
    (n : ℕ) (hn : 1 ≤ n) (xs ys : List K) (hxs : xs.Pairwise (· < ·)) (hys : ys.Pairwise (· < ·)) (hxl : xs.length = n)
    (hyl : ys.length = n)
    (hev : evaluate data bandwidth n = (xs.flatMap fun x => ys.map fun y => (x, y),
      xs.flatMap fun x => ys.map fun y => density data bandwidth (x, y))) :
    ∃ a : Axes K, plotDensity density evaluate true (.array data) bandwidth margin (.int n) = .ok (.inr a) ∧
      a.x = xs ∧ a.y = ys ∧
      a.z = ys.map fun y => xs.map fun x => density data bandwidth (x, y) := by
  have hlen : ∀ l : List K, (l.flatMap fun x => ys.map fun y => density data bandwidth (x, y)).length = l.length * n := by
    intro l
    induction l with
    | nil => simp
    | cons a l ih => rw [List.flatMap_cons, List.length_append, ih, List.length_map, hyl, List.length_cons]; ring
  have hcond : ¬ ((n : ℤ) < 0 ∨
      ((xs.flatMap fun x => ys.map fun y => density data bandwidth (x, y)).length : ℤ) ≠ (n : ℤ) * n) := by
    rw [hlen, hxl]
    push_cast
    omega
  simp only [plotDensity, coordinates, if_true, fftAxes, hev, reshapeT, if_neg hcond, Except.map]
  refine ⟨_, rfl, ?_, ?_, ?_⟩
  · refine unique_eq hxs fun x => ?_
    simp only [List.mem_map, List.mem_flatMap]
    constructor
    · rintro ⟨a, ⟨b, hb, c, hc, rfl⟩, rfl⟩; exact hb
    · intro hx
      have : 0 < ys.length := by omega
      exact ⟨(x, ys[0]), ⟨x, hx, ys[0], List.getElem_mem _, rfl⟩, rfl⟩
  · refine unique_eq hys fun y => ?_
    simp only [List.mem_map, List.mem_flatMap]
    constructor
    · rintro ⟨a, ⟨b, hb, c, hc, rfl⟩, rfl⟩; exact hc
    · intro hy
      have : 0 < xs.length := by omega
      exact ⟨(xs[0], y), ⟨xs[0], List.getElem_mem _, y, hy, rfl⟩, rfl⟩
  · apply List.ext_getElem
    · simp [hyl]
    · intro r h1 h2
      have hr : r < ys.length := by simpa using h2
      simp only [List.getElem_map, List.getElem_range, Int.toNat_natCast]
      apply List.ext_getElem
      · simp [hxl]
      · intro c h3 h4
        have hc : c < xs.length := by simpa using h4
        simp only [List.getElem_map, List.getElem_range]
        have := getD_flatMap_grid (fun x y => density data bandwidth (x, y)) 0 xs ys c r hc hr
        rw [hyl] at this
        rw [this]
        simp [List.getD_eq_getElem?_getD, hc, hr]

/-- **C81, refuted.** With a kernel (KDEpy) a resolution given as a tuple, as documented, raises `TypeError` for all data. -/
theorem C81_fft_tuple_refuted (density : List (K × K) → K → K × K → K)
    (evaluate : List (K × K) → K → ℤ → List (K × K) × List K) (data : List (K × K)) (bandwidth margin : K) (nx ny : ℤ) :
    plotDensity density evaluate true (.array data) bandwidth margin (.tuple [nx, ny]) = .error .typeError := rfl

/-- Non-vacuity of C81: three points, a grid of 3 by 2 locations. -/
example : ((plotDensity (fun _ h p => p.1 + 10 * p.2 + h) (fun _ _ _ => ([], [])) false
      (.array [((0 : ℚ), 0), (2, 1), (1, 1)]) (1/2) (1/2) (.tuple [3, 2])).map
        fun r => match r with | .inl m => (m.x, m.y, m.z) | .inr _ => ([], [], []))
    = .ok ([[-1, 1, 3], [-1, 1, 3]], [[-1/2, -1/2, -1/2], [3/2, 3/2, 3/2]],
        [[-11/2, -7/2, -3/2], [29/2, 33/2, 37/2]]) ∧
    IsExtent [(0 : ℚ), 2, 1] 0 2 := by
  refine ⟨by decide +kernel, ?_⟩
  unfold IsExtent
  decide +kernel

/-- Non-vacuity of `C81_fft_grid_partial`: a grid of 2 by 2. -/
example : ((plotDensity (fun _ _ p => p.1 + 10 * p.2)
      (fun _ _ _ => ([((0 : ℚ), 5), (0, 6), (1, 5), (1, 6)], [50, 60, 51, 61])) true (.array [(0, 0)]) 1 1 (.int 2)).map
        fun r => match r with | .inl _ => ([], [], []) | .inr a => (a.x, a.y, a.z))
    = .ok ([0, 1], [5, 6], [[50, 51], [60, 61]]) := by
  decide +kernel

end Pointpats.Props
