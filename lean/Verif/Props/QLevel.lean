import Verif.Props.QComparable
import Verif.Lemmas.MonteCarlo
import Mathlib.Algebra.BigOperators.Fin
import Mathlib.MeasureTheory.Measure.Dirac
import Mathlib.MeasureTheory.Measure.Real

/-!
# C106: the level of the simulated p-value of `QStatistic`
-/

set_option linter.unusedSectionVars false

namespace Pointpats.Props

open Quadrat Random Spec MeasureTheory

variable {K : Type} [Field K] [LinearOrder K] [IsStrictOrderedRing K] [FloorRing K]

/-- Counts that were found add up to the number of points. -/
private theorem counts_sum {cos30 : K} {points : List (K × K)} {grid g : GridArg K} {d : Dict}
    (hg : gridCounts cos30 points grid = .ok (d, g)) : points ≠ [] ∧ points.length ≤ d.values.sum := by
  have hne : points ≠ [] := by
    rintro rfl
    cases grid <;> cases hg
  refine ⟨hne, ?_⟩
  cases grid with
  | rectangle nx ny w h =>
    unfold gridCounts at hg
    simp only at hg
    cases hm : RectangleM.init points nx ny w h with
    | error e => rw [hm] at hg; cases hg
    | ok m =>
      rw [hm] at hg
      change (m.pointLocationSta >>= fun d => _) = _ at hg
      cases hs : m.pointLocationSta with
      | error e => rw [hs] at hg; cases hg
      | ok d' =>
        rw [hs] at hg; cases hg
        have hp : m.points = points := by
          unfold RectangleM.init at hm
          cases hb : computeMbb points with
          | error e => rw [hb] at hm; cases hm
          | ok b =>
            rw [hb] at hm
            change (if w ≠ 0 ∧ h ≠ 0 then _ else _) = _ at hm
            split at hm <;> (cases hm; rfl)
        have := (foldlM_keys m.cellId m.points m.zeroDict d hs).2
        rw [hp] at this
        omega
  | hexagon lh =>
    unfold gridCounts at hg
    simp only at hg
    cases hm : HexagonM.init cos30 points lh with
    | error e => rw [hm] at hg; cases hg
    | ok m =>
      rw [hm] at hg
      change (m.pointLocationSta >>= fun d => _) = _ at hg
      cases hs : m.pointLocationSta with
      | error e => rw [hs] at hg; cases hg
      | ok d' =>
        rw [hs] at hg; cases hg
        have hp : m.points = points := by
          unfold HexagonM.init at hm
          cases hb : computeMbb points with
          | error e => rw [hb] at hm; cases hm
          | ok b =>
            rw [hb] at hm
            simp only [bind, Except.bind] at hm
            split at hm
            · cases hm
            split at hm
            · cases hm
            split at hm
            · cases hm
            cases hm
            rfl
        have := (foldlM_keys (fun p => .ok (m.cellId p)) m.points m.zeroDict d hs).2
        rw [hp] at this
        omega
  | other => cases hg

/-- The statistic of counts that were found is a number. -/
private theorem chi2_fin {cos30 : K} {points : List (K × K)} {grid g : GridArg K} {d : Dict}
    (hg : gridCounts cos30 points grid = .ok (d, g)) : ∃ c, chisquare (Dict.numbers d : List K) = .fin c := by
  obtain ⟨h1, h2⟩ := counts_sum hg
  have hpos : 0 < d.values.sum := lt_of_lt_of_le (List.length_pos_iff.2 h1) h2
  have hne : d.values ≠ [] := by
    intro h; rw [h] at hpos; simp at hpos
  have hne' : (Dict.numbers d : List K) ≠ [] := by
    unfold Dict.numbers; simpa using hne
  have hs : (0 : K) < (Dict.numbers d : List K).sum := by
    unfold Dict.numbers
    rw [← Nat.cast_list_sum]
    exact_mod_cast hpos
  have hl : (0 : K) < ((Dict.numbers d : List K).length : K) := by
    exact_mod_cast List.length_pos_iff.2 hne'
  unfold chisquare
  simp only
  rw [if_neg hne', if_neg (div_pos hs hl).ne']
  exact ⟨_, rfl⟩

/-- The chi-square statistic of a pattern on the grid (0 where the computation fails). -/
def patternChi2 (cos30 : K) (grid : GridArg K) (pat : List (K × K)) : K :=
  match gridCounts cos30 pat grid with
  | .ok (d, _) => match chisquare (Dict.numbers d : List K) with
      | .fin c => c
      | _ => 0
  | .error _ => 0

private theorem patternChi2_eq {cos30 : K} {points : List (K × K)} {grid g : GridArg K} {d : Dict}
    (hg : gridCounts cos30 points grid = .ok (d, g)) :
    chisquare (Dict.numbers d : List K) = .fin (patternChi2 cos30 grid points) := by
  obtain ⟨c, hc⟩ := chi2_fin hg
  unfold patternChi2
  rw [hg]
  simp only [hc]

/-- A grid of which the numbers of columns and rows, or the side of the hexagons, are given. -/
def GivenQuadrats (grid : GridArg K) : Prop :=
  (∃ nx ny w h, grid = .rectangle nx ny w h ∧ (w = 0 ∨ h = 0)) ∨ ∃ lh, grid = .hexagon lh

/-- With given quadrats the simulations compute the same function of the pattern. -/
private theorem same_function {cos30 : K} {grid : GridArg K} (hgrid : GivenQuadrats grid) {points : List (K × K)} {d : Dict}
    {simGrid : GridArg K} (hg : gridCounts cos30 points grid = .ok (d, simGrid)) (pat : List (K × K)) :
    gridCounts cos30 pat simGrid = gridCounts cos30 pat grid := by
  rcases hgrid with ⟨nx, ny, w, h, rfl, hwh⟩ | ⟨lh, rfl⟩
  · have hnot : ¬ (w ≠ 0 ∧ h ≠ 0) := by tauto
    have key : ∀ pat : List (K × K), RectangleM.init pat nx ny w h = RectangleM.init pat nx ny 0 0 := by
      intro pat
      unfold RectangleM.init
      simp [hnot]
    have hsim : simGrid = .rectangle nx ny 0 0 := by
      unfold gridCounts at hg
      simp only at hg
      cases hm : RectangleM.init points nx ny w h with
      | error e => rw [hm] at hg; cases hg
      | ok m =>
        rw [hm] at hg
        change (m.pointLocationSta >>= fun d => _) = _ at hg
        cases hs : m.pointLocationSta with
        | error e => rw [hs] at hg; cases hg
        | ok d' =>
          rw [hs] at hg
          unfold RectangleM.init at hm
          cases hb : computeMbb points with
          | error e => rw [hb] at hm; cases hm
          | ok b =>
            rw [hb] at hm
            change (if w ≠ 0 ∧ h ≠ 0 then _ else _) = _ at hm
            rw [if_neg hnot] at hm
            cases hm
            cases hg
            rfl
    subst hsim
    unfold gridCounts
    simp only [key]
  · have hsim : simGrid = .hexagon lh := by
      unfold gridCounts at hg
      simp only at hg
      cases hm : HexagonM.init cos30 points lh with
      | error e => rw [hm] at hg; cases hg
      | ok m =>
        rw [hm] at hg
        change (m.pointLocationSta >>= fun d => _) = _ at hg
        cases hs : m.pointLocationSta with
        | error e => rw [hs] at hg; cases hg
        | ok d' =>
          rw [hs] at hg
          cases hg
          unfold HexagonM.init at hm
          cases hb : computeMbb points with
          | error e => rw [hb] at hm; cases hm
          | ok b =>
            rw [hb] at hm
            simp only [bind, Except.bind] at hm
            split at hm
            · cases hm
            split at hm
            · cases hm
            split at hm
            · cases hm
            cases hm
            rfl
    rw [hsim]

/-- The p-value as a rank of the observed pattern among the simulated ones. -/
theorem pvalue_rank {cos30 : K} {window : Hull K} {u : ℕ → K} {grid : GridArg K} (hgrid : GivenQuadrats grid)
    {points : List (K × K)} {patterns : List (List (K × K))} {pos pos' fuel : ℕ} (hR : 0 < patterns.length)
    (hdraw : ∀ fuel reals pos', poisson window u (some ((points.length : K) / window.area)) (.int patterns.length) fuel pos
      = some (.ok (reals, pos')) → reals = .cube points.length patterns)
    {q : QStat K} {sims : List (XF K)} {p : K}
    (h : qStatistic cos30 window u points grid patterns.length fuel pos = some (.ok (q, pos')))
    (hq : q.simulated = some (sims, p)) :
    p = ((((patterns.map (patternChi2 cos30 grid)).countP
      (fun x => decide (patternChi2 cos30 grid points ≤ x)) : ℕ) : K) + 1) / ((patterns.length : K) + 1) := by
  obtain ⟨hne, ha, d, simGrid, reals, sims', hg, hpo, hsims, hchi, hsim⟩ :=
    qstat_ok cos30 window u points grid patterns.length (by exact_mod_cast hR) fuel pos pos' q h
  rw [hsim] at hq
  cases hq
  have hreals := hdraw _ _ _ hpo
  subst hreals
  obtain ⟨l1, l2⟩ := mapM_range_ok _ _ _ hsims
  have hs : sims = patterns.map (fun pat => .fin (patternChi2 cos30 grid pat)) := by
    refine List.ext_getElem? ?_
    intro i
    by_cases hi : i < patterns.length
    · obtain ⟨b, hb1, hb2⟩ := l2 i (by simpa using hi)
      rw [hb1, List.getElem?_map, List.getElem?_eq_getElem hi, Option.map_some]
      congr 1
      unfold simChi2 simPoints at hb2
      simp only [List.getElem?_eq_getElem hi] at hb2
      by_cases hnil : patterns[i] = []
      · rw [asPointsArray, if_pos hnil] at hb2
        cases hb2
      · rw [asPointsArray, if_neg hnil] at hb2
        change (gridCounts cos30 patterns[i] simGrid >>= fun d => _) = _ at hb2
        rw [same_function hgrid hg] at hb2
        cases hc : gridCounts cos30 patterns[i] grid with
        | error e => rw [hc] at hb2; cases hb2
        | ok d' =>
          rw [hc] at hb2
          change Except.ok (chisquare (Dict.numbers d'.1)) = _ at hb2
          rw [← patternChi2_eq (d := d'.1) (g := d'.2) hc]
          injection hb2 with hb2
          exact hb2.symm
    · rw [List.getElem?_eq_none (by rw [l1]; simpa using hi), List.getElem?_eq_none (by simpa using hi)]
  rw [patternChi2_eq hg, hs]
  unfold chi2RPvalue
  simp only [Int.toNat_natCast]
  congr 3
  rw [List.countP_map, List.filter_map, List.length_map, List.countP_eq_length_filter]
  rfl

/-- **C106, what holds.** Let the observed pattern `X 0` and the `R` patterns `X 1, …, X R` that the constructor draws be
exchangeable, and let the numbers of columns and rows of the rectangles, or the side of the hexagons, be given. Then the
probability that the simulated p-value is at most `α` is at most `α`. Missing: rectangles given by their width and height
(`C106_width_refuted`). -/
theorem C106_quadrat_level_partial {Ω : Type} [MeasurableSpace Ω] (μ : Measure Ω) [IsProbabilityMeasure μ]
    (cos30 : K) (window : Hull K) (grid : GridArg K) (hgrid : GivenQuadrats grid) (R : ℕ) (hR : 0 < R)
    (X : Fin (R + 1) → Ω → List (K × K)) (hX : Exchangeable μ X) (u : Ω → ℕ → K) (pos : ℕ)
    (hdraw : ∀ ω fuel reals pos',
      poisson window (u ω) (some (((X 0 ω).length : K) / window.area)) (.int R) fuel pos = some (.ok (reals, pos')) →
      reals = .cube (X 0 ω).length (List.ofFn fun i : Fin R => X i.succ ω))
    (α : ℚ) (hα : 0 ≤ α) :
    μ.real {ω | ∃ q pos' sims p,
      Returns (fun fuel => qStatistic cos30 window (u ω) (X 0 ω) grid R fuel pos) (.ok (q, pos'))
      ∧ q.simulated = some (sims, p) ∧ p ≤ (α : K)} ≤ α := by
  refine le_trans (measureReal_mono ?_) (hX.level (patternChi2 cos30 grid) α hα)
  rintro ω ⟨q, pos', sims, p, ⟨fuel, hq⟩, hs, hp⟩
  have key := pvalue_rank (cos30 := cos30) (window := window) (u := u ω) hgrid (points := X 0 ω)
    (patterns := List.ofFn fun i : Fin R => X i.succ ω) (pos := pos) (pos' := pos') (fuel := fuel) (by simpa using hR)
    (by intro fuel reals pos' h; exact hdraw ω fuel reals pos' (by simpa using h)) (q := q) (sims := sims) (p := p)
    (by simpa using hq) hs
  rw [key, List.map_ofFn, List.length_ofFn] at hp
  simp only [Set.mem_ofPred_eq]
  have : (((((List.ofFn fun i : Fin R => patternChi2 cos30 grid (X i.succ ω)).countP
    (fun x => decide (patternChi2 cos30 grid (X 0 ω) ≤ x)) : ℕ) : ℚ) + 1) / ((R : ℚ) + 1) : ℚ) ≤ α := by
    rw [← Rat.cast_le (K := K)]
    push_cast
    exact hp
  exact this

/-- Two runs of `poisson` that end, end alike. -/
theorem poisson_det {h : Hull K} {u : ℕ → K} {intensity : Option K} {size : SizeArg} {f1 f2 pos : ℕ}
    {r1 r2 : Squeezed K × ℕ} (h1 : poisson h u intensity size f1 pos = some (.ok r1))
    (h2 : poisson h u intensity size f2 pos = some (.ok r2)) : r1 = r2 := by
  obtain ⟨a1, p1⟩ := r1
  obtain ⟨a2, p2⟩ := r2
  cases hp : parseSizeAndIntensity h intensity size with
  | error e => unfold poisson at h1; rw [hp] at h1; cases h1
  | ok v =>
    obtain ⟨n, s, i⟩ := v
    obtain ⟨-, -, reps1, e1, rfl⟩ := (poisson_ok h u intensity size n s i hp f1 pos a1 p1).1 h1
    obtain ⟨-, -, reps2, e2, rfl⟩ := (poisson_ok h u intensity size n s i hp f2 pos a2 p2).1 h2
    have m1 := replications_mono _ (fun _ p => rejection (boxCandidate h u) (fun p => h.contains p.1 p.2) (f1 + f2) p n.toNat)
      0 s.toNat pos _ (fun _ _ _ hb => rejection_mono _ _ f1 f2 _ _ _ hb) e1
    have m2 := replications_mono _ (fun _ p => rejection (boxCandidate h u) (fun p => h.contains p.1 p.2) (f1 + f2) p n.toNat)
      0 s.toNat pos _ (fun _ _ _ hb => by
        have := rejection_mono _ _ f2 f1 _ _ _ hb
        rwa [Nat.add_comm] at this) e2
    rw [m1] at m2
    cases m2
    rfl

/-- The same four points over and over again. -/
def sameDraws (i : ℕ) : ℚ := [0, 0, 2 / 5, 3 / 10, 3 / 10, 2 / 5, 3 / 4, 3 / 4].getD (i % 8) 0

/-- **C106, refuted for rectangles given by width and height.** The observed and the two simulated patterns are always the same
four points, so they are exchangeable; the p-value is always `1/3`, although it should be at most `1/3` with probability at
most `1/3`. The observed points are counted in squares of side `1/2`, the simulated ones in squares of side `3/8`. -/
theorem C106_width_refuted :
    ∃ (X : Fin 3 → Unit → List (ℚ × ℚ)) (u : Unit → ℕ → ℚ) (window : Hull ℚ),
      Exchangeable (Measure.dirac ()) X
      ∧ (∀ ω fuel reals pos',
          poisson window (u ω) (some (((X 0 ω).length : ℚ) / window.area)) (.int 2) fuel 0 = some (.ok (reals, pos')) →
          reals = .cube (X 0 ω).length (List.ofFn fun i : Fin 2 => X i.succ ω))
      ∧ (Measure.dirac ()).real {ω | ∃ q pos' sims p,
          Returns (fun fuel => qStatistic (1 / 2) window (u ω) (X 0 ω) (.rectangle 2 2 (1 / 2) (1 / 2)) 2 fuel 0) (.ok (q, pos'))
          ∧ q.simulated = some (sims, p) ∧ p ≤ 1 / 3} = 1 := by
  refine ⟨fun _ _ => [(0, 0), (2 / 5, 3 / 10), (3 / 10, 2 / 5), (3 / 4, 3 / 4)], fun _ => sameDraws,
    Hull.ofBBox ⟨0, 0, 1, 1⟩, ⟨?_, ?_, ?_⟩, ?_, ?_⟩
  · intro j
    exact (Set.finite_range _).countable
  · intro j a
    exact MeasurableSet.of_discrete
  · intro σ x
    rfl
  · intro ω fuel reals pos' h
    have h2 : poisson (Hull.ofBBox (⟨0, 0, 1, 1⟩ : BBox ℚ)) sameDraws (some ((4 : ℕ) / Geometry.areaBBox (⟨0, 0, 1, 1⟩ : BBox ℚ)))
        (.int 2) 8 0 = some (.ok (.cube 4 [[(0, 0), (2 / 5, 3 / 10), (3 / 10, 2 / 5), (3 / 4, 3 / 4)],
          [(0, 0), (2 / 5, 3 / 10), (3 / 10, 2 / 5), (3 / 4, 3 / 4)]], 16)) := by decide +kernel
    have := poisson_det h h2
    cases this
    rfl
  · have hev : ∀ ω : Unit, ∃ q pos' sims p,
        Returns (fun fuel => qStatistic (1 / 2) (Hull.ofBBox (⟨0, 0, 1, 1⟩ : BBox ℚ)) sameDraws
          [(0, 0), (2 / 5, 3 / 10), (3 / 10, 2 / 5), (3 / 4, 3 / 4)] (.rectangle 2 2 (1 / 2) (1 / 2)) 2 fuel 0) (.ok (q, pos'))
        ∧ q.simulated = some (sims, p) ∧ p ≤ 1 / 3 := by
      intro _
      refine ⟨⟨[0, 1, 2, 3], .fin 6, 3, [.fin 4, .fin 1, .fin 1, .fin 0], some ([.fin 0, .fin 0], 1 / 3)⟩, 16,
        [.fin 0, .fin 0], 1 / 3, ⟨8, ?_⟩, rfl, le_refl _⟩
      decide +kernel
    have : {ω : Unit | ∃ q pos' sims p,
        Returns (fun fuel => qStatistic (1 / 2) (Hull.ofBBox (⟨0, 0, 1, 1⟩ : BBox ℚ)) sameDraws
          [(0, 0), (2 / 5, 3 / 10), (3 / 10, 2 / 5), (3 / 4, 3 / 4)] (.rectangle 2 2 (1 / 2) (1 / 2)) 2 fuel 0) (.ok (q, pos'))
        ∧ q.simulated = some (sims, p) ∧ p ≤ 1 / 3} = Set.univ := Set.eq_univ_of_forall hev
    rw [this]
    simp

/-! ### Non-vacuity -/

/-- A pattern with three of its four points close together, and a regular one. -/
def oneCluster (b : Bool) : List (ℚ × ℚ) :=
  if b then [(0, 0), (1 / 10, 1 / 10), (1 / 5, 1 / 10), (3 / 4, 3 / 4)] else [(0, 0), (3 / 4, 0), (0, 3 / 4), (3 / 4, 3 / 4)]

/-- One of three patterns, chosen at random, has the cluster. -/
def lotPatterns (j : Fin 3) (ω : Fin 3) : List (ℚ × ℚ) := oneCluster (decide (j = ω))

/-- The draws that give the simulated patterns. -/
def lotDraws (ω : Fin 3) (i : ℕ) : ℚ :=
  let p := (lotPatterns 1 ω ++ lotPatterns 2 ω).getD (i / 2) (0, 0)
  if i % 2 = 0 then p.1 else p.2

/-- Each of three outcomes has the same chance. -/
noncomputable def lot : Measure (Fin 3) := (3⁻¹ : ENNReal) • (Measure.dirac 0 + Measure.dirac 1 + Measure.dirac 2)

private theorem lot_apply (S : Set (Fin 3)) [DecidablePred (· ∈ S)] :
    lot S = 3⁻¹ * ((Finset.univ.filter (· ∈ S)).card : ENNReal) := by
  simp only [lot, Measure.smul_apply, Measure.add_apply, Measure.dirac_apply' _ MeasurableSet.of_discrete, smul_eq_mul]
  congr 1
  rw [Finset.card_filter, Fin.sum_univ_three]
  simp only [Set.indicator, Pi.one_apply]
  push_cast
  rfl

instance : IsProbabilityMeasure lot := ⟨by
  rw [lot_apply]
  simp
  exact ENNReal.inv_mul_cancel (by simp) (by simp)⟩

theorem lotPatterns_exchangeable : Exchangeable lot lotPatterns := by
  refine ⟨fun j => (Set.finite_range _).countable, fun j a => MeasurableSet.of_discrete, ?_⟩
  intro σ x
  classical
  rw [lot_apply, lot_apply]
  congr 2
  refine Finset.card_bij (fun ω _ => σ.symm ω) ?_ ?_ ?_
  · intro ω hω
    simp only [Finset.mem_filter, Finset.mem_univ, true_and, Set.mem_ofPred_eq] at hω ⊢
    intro j
    rw [← hω j]
    simp only [lotPatterns]
    congr 1
    exact decide_eq_decide.2 (Equiv.eq_symm_apply σ)
  · intro a _ b _ h
    exact σ.symm.injective h
  · intro b hb
    refine ⟨σ b, ?_, σ.symm_apply_apply b⟩
    simp only [Finset.mem_filter, Finset.mem_univ, true_and, Set.mem_ofPred_eq] at hb ⊢
    intro j
    rw [← hb j]
    simp only [lotPatterns]
    congr 1
    exact decide_eq_decide.2 σ.apply_eq_iff_eq

/-- The hypotheses of `C106_quadrat_level_partial` are met by patterns that vary, and the bound is attained: the p-value is at most
`1/3` exactly if the observed pattern is the one with the cluster. -/
theorem lot_level :
    lot.real {ω | ∃ q pos' sims p,
      Returns (fun fuel => qStatistic (1 / 2) (Hull.ofBBox ⟨0, 0, 1, 1⟩) (lotDraws ω) (lotPatterns 0 ω) (.rectangle 2 2 0 0) 2 fuel 0)
        (.ok (q, pos'))
      ∧ q.simulated = some (sims, p) ∧ p ≤ ((1 / 3 : ℚ) : ℚ)} = ((1 / 3 : ℚ) : ℝ) := by
  refine le_antisymm ?_ ?_
  · refine C106_quadrat_level_partial lot (1 / 2) (Hull.ofBBox ⟨0, 0, 1, 1⟩) (.rectangle 2 2 0 0) (Or.inl ⟨2, 2, 0, 0, rfl, Or.inl rfl⟩)
      2 (by omega) lotPatterns lotPatterns_exchangeable lotDraws 0 ?_ (1 / 3) (by norm_num)
    intro ω fuel reals pos' h
    have h2 : ∀ ω, poisson (Hull.ofBBox (⟨0, 0, 1, 1⟩ : BBox ℚ)) (lotDraws ω)
        (some (((lotPatterns 0 ω).length : ℚ) / Geometry.areaBBox (⟨0, 0, 1, 1⟩ : BBox ℚ)))
        (.int 2) 8 0 = some (.ok (.cube 4 [lotPatterns 1 ω, lotPatterns 2 ω], 16)) := by decide +kernel
    have := poisson_det h (h2 ω)
    cases this
    have hl : ∀ ω, (lotPatterns 0 ω).length = 4 := by decide +kernel
    rw [hl ω, List.ofFn_succ, List.ofFn_succ, List.ofFn_zero]
    rfl
  · have h0 : lot.real {(0 : Fin 3)} = ((1 / 3 : ℚ) : ℝ) := by
      rw [Measure.real, lot_apply]
      simp only [Set.mem_singleton_iff, ENNReal.toReal_mul, ENNReal.toReal_inv, ENNReal.toReal_natCast, ENNReal.toReal_ofNat]
      rw [show (Finset.univ.filter fun x : Fin 3 => x = 0).card = 1 by decide]
      norm_num
    rw [← h0]
    refine measureReal_mono ?_
    rintro ω rfl
    refine ⟨⟨[0, 1, 2, 3], .fin 6, 3, [.fin 4, .fin 1, .fin 1, .fin 0], some ([.fin 0, .fin 0], 1 / 3)⟩, 16,
      [.fin 0, .fin 0], 1 / 3, ⟨8, ?_⟩, rfl, le_refl _⟩
    decide +kernel

end Pointpats.Props
