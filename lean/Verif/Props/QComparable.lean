import Verif.Props.QStatistic
import Verif.Lemmas.Rect

/-!
# C103: which quadrats the simulated quadrat statistics use
-/

set_option linter.unusedSectionVars false

namespace Pointpats.Props

open Quadrat Random Spec

variable {K : Type} [Field K] [LinearOrder K] [IsStrictOrderedRing K] [FloorRing K]

omit [Field K] [LinearOrder K] [IsStrictOrderedRing K] [FloorRing K] in
private theorem incr_ok {k : ℤ} {d d' : Dict} (h : Dict.incr k d = .ok d') :
    d'.keys = d.keys ∧ d'.values.sum = d.values.sum + 1 := by
  by_cases hk : k ∈ d.keys
  · obtain ⟨e, h1, h2, h3, _⟩ := Dict.incr_of_mem hk
    rw [h1] at h
    cases h
    exact ⟨h2, h3⟩
  · rw [Dict.incr_of_not_mem hk] at h
    cases h

theorem foldlM_keys {α : Type} (f : α → Py ℤ) (l : List α) : ∀ (d d' : Dict),
    l.foldlM (fun d a => do let c ← f a; Dict.incr c d) d = .ok d' →
    d'.keys = d.keys ∧ d'.values.sum = d.values.sum + l.length := by
  induction l with
  | nil => intro d d' h; cases h; exact ⟨rfl, by simp⟩
  | cons a l ih =>
    intro d d' h
    rw [List.foldlM_cons] at h
    cases hf : f a with
    | error e => rw [hf] at h; cases h
    | ok c =>
      rw [hf] at h
      cases hi : Dict.incr c d with
      | error e =>
        change (Dict.incr c d >>= fun d => _) = _ at h
        rw [hi] at h; cases h
      | ok d1 =>
        change (Dict.incr c d >>= fun d => _) = _ at h
        rw [hi] at h
        obtain ⟨h1, h2⟩ := incr_ok hi
        obtain ⟨h3, h4⟩ := ih d1 d' h
        exact ⟨h3.trans h1, by rw [h4, h2, List.length_cons]; omega⟩

omit [Field K] [LinearOrder K] [IsStrictOrderedRing K] [FloorRing K] in
private theorem zeroDict_cells (m : RectangleM K) (r c : ℤ) (hc : m.count_column = c) (hr : m.count_row = r) :
    m.zeroDict.keys = (List.range (c.toNat * r.toNat)).map (Nat.cast : ℕ → ℤ)
    ∧ m.zeroDict.values.sum = 0 := by
  by_cases h : 0 ≤ c ∧ 0 ≤ r
  · rw [zeroDict_eq m (hc ▸ h.1) (hr ▸ h.2), Dict.keys_map_zero, iterCellIds_eq m (hc ▸ h.1) (hr ▸ h.2), hc, hr,
      Int.toNat_mul h.1 h.2]
    exact ⟨rfl, Dict.values_sum_map_zero _⟩
  · have e : c.toNat * r.toNat = 0 := by
      rcases not_and_or.1 h with h | h
      · rw [Int.toNat_of_nonpos (by omega), Nat.zero_mul]
      · rw [Int.toNat_of_nonpos (z := r) (by omega), Nat.mul_zero]
    have z : m.zeroDict = [] := by
      unfold RectangleM.zeroDict
      rw [hc, hr]
      rcases Nat.mul_eq_zero.1 e with h | h
      · rw [h]
        simp only [List.range_zero, List.foldl_nil]
        induction (List.range r.toNat) with
        | nil => rfl
        | cons a l ih => simp
      · rw [h]; rfl
    rw [z, e]
    exact ⟨rfl, rfl⟩

private theorem rect_cells {points : List (K × K)} {nx ny : ℤ} {w h : K} {cos30 : K} {d : Dict} {g : GridArg K}
    (hg : gridCounts cos30 points (.rectangle nx ny w h) = .ok (d, g)) :
    ∃ c r : ℤ, g = .rectangle c r 0 0 ∧ (w = 0 ∨ h = 0 → c = nx ∧ r = ny)
      ∧ d.keys = (List.range (c.toNat * r.toNat)).map (Nat.cast : ℕ → ℤ)
      ∧ d.values.sum = points.length := by
  unfold gridCounts at hg
  simp only at hg
  cases hm : RectangleM.init points nx ny w h with
  | error e => rw [hm] at hg; cases hg
  | ok m =>
    rw [hm] at hg
    change (m.pointLocationSta >>= fun d => _) = _ at hg
    cases hs : m.pointLocationSta with
    | error e => rw [hs] at hg; cases hg
    | ok d' =>
      rw [hs] at hg
      cases hg
      refine ⟨m.count_column, m.count_row, rfl, ?_, ?_⟩
      · intro hwh
        unfold RectangleM.init at hm
        cases hb : computeMbb points with
        | error e => rw [hb] at hm; cases hm
        | ok b =>
          rw [hb] at hm
          have : ¬ (w ≠ 0 ∧ h ≠ 0) := by tauto
          change (if w ≠ 0 ∧ h ≠ 0 then _ else _) = _ at hm
          rw [if_neg this] at hm
          cases hm
          exact ⟨rfl, rfl⟩
      · have hp : m.points = points := by
          unfold RectangleM.init at hm
          cases hb : computeMbb points with
          | error e => rw [hb] at hm; cases hm
          | ok b =>
            rw [hb] at hm
            change (if w ≠ 0 ∧ h ≠ 0 then _ else _) = _ at hm
            split at hm <;> (cases hm; rfl)
        obtain ⟨z1, z2⟩ := zeroDict_cells m _ _ rfl rfl
        obtain ⟨k1, k2⟩ := foldlM_keys m.cellId m.points m.zeroDict d hs
        exact ⟨k1.trans z1, by rw [k2, z2, hp]; omega⟩

private theorem qstat_cells (cos30 : K) (window : Hull K) (u : ℕ → K) (points : List (K × K)) (grid : GridArg K)
    (realizations : ℤ) (fuel pos pos' : ℕ) (q : QStat K) (d : Dict) (simGrid : GridArg K)
    (hg : gridCounts cos30 points grid = .ok (d, simGrid))
    (h : qStatistic cos30 window u points grid realizations fuel pos = some (.ok (q, pos'))) :
    q.cell_ids = d.keys ∧ q.df = df (Dict.numbers d : List K) := by
  unfold qStatistic at h
  by_cases hp : points = []
  · simp [asPointsArray, hp, Run.fail] at h
  · rw [asPointsArray, if_neg hp] at h
    simp only [hg] at h
    by_cases hR : 0 < realizations
    · rw [if_pos hR] at h
      by_cases ha : window.area = 0
      · rw [if_pos ha] at h; cases h
      · rw [if_neg ha] at h
        obtain ⟨reals, p, h1, h2⟩ := Run.andThen_ok.1 h
        cases hs : (List.range realizations.toNat).mapM (simChi2 cos30 simGrid reals) with
        | error e => rw [hs] at h2; cases h2
        | ok sims =>
          rw [hs] at h2
          simp only [Run.ret_ok] at h2
          obtain ⟨rfl, rfl⟩ := h2
          exact ⟨rfl, rfl⟩
    · rw [if_neg hR] at h
      simp only [Run.ret_ok] at h
      obtain ⟨rfl, rfl⟩ := h
      exact ⟨rfl, rfl⟩

/-- **C103, what holds.** With rectangles, whenever the constructor returns with `R ≥ 1` simulations, every simulated statistic
is the chi-square statistic of counts in as many quadrats as the observed statistic has, the counts add up to the number of
observed points, and so the degrees of freedom, one less than the number of quadrats, are the same. When numbers of columns
and rows are given the quadrats are numbered `0, …, nx * ny - 1`. -/
theorem C103_same_number_partial (cos30 : K) (window : Hull K) (u : ℕ → K) (points : List (K × K)) (nx ny : ℤ) (w h : K)
    (realizations : ℤ) (hR : 0 < realizations) (pos pos' : ℕ) (q : QStat K)
    (hq : Returns (fun fuel => qStatistic cos30 window u points (.rectangle nx ny w h) realizations fuel pos)
      (.ok (q, pos'))) :
    ∃ sims p, q.simulated = some (sims, p) ∧ (sims.length : ℤ) = realizations
      ∧ (∀ s ∈ sims, ∃ counts : List ℕ, counts.length = q.cell_ids.length ∧ counts.sum = points.length
          ∧ s = chisquare (counts.map (Nat.cast : ℕ → K)))
      ∧ q.df = (q.cell_ids.length : ℤ) - 1
      ∧ (w = 0 ∨ h = 0 → q.cell_ids = (List.range (nx.toNat * ny.toNat)).map (Nat.cast : ℕ → ℤ)) := by
  obtain ⟨d, simGrid, patterns, sims, p, hg, hsim, hp1, hs1, hpat, hall, _, _⟩ :=
    C55_pvalue_partial cos30 window u points _ realizations hR pos pos' q hq
  obtain ⟨fuel, hq'⟩ := hq
  obtain ⟨c1, c2⟩ := qstat_cells cos30 window u points _ realizations fuel pos pos' q d simGrid hg hq'
  obtain ⟨c, r, rfl, hcr, hk, hsum⟩ := rect_cells hg
  have hlen : d.values.length = d.keys.length := by simp [Dict.values, Dict.keys]
  refine ⟨sims, p, hsim, hs1, ?_, ?_, ?_⟩
  · intro s hs
    have : ∀ (patterns : List (List (K × K))) (sims : List (XF K)),
        List.Forall₂ (fun pat s => ∃ d', gridCounts cos30 pat (.rectangle c r 0 0) = .ok d'
          ∧ s = chisquare (d'.1.values.map (Nat.cast : ℕ → K))) patterns sims → s ∈ sims →
        ∃ pat ∈ patterns, ∃ d', gridCounts cos30 pat (.rectangle c r 0 0) = .ok d'
          ∧ s = chisquare (d'.1.values.map (Nat.cast : ℕ → K)) := by
      intro ps ss hf hs
      induction hf with
      | nil => cases hs
      | cons h1 _ ih =>
        rcases List.mem_cons.1 hs with rfl | hs
        · exact ⟨_, by simp, h1⟩
        · obtain ⟨pat, h2, h3⟩ := ih hs
          exact ⟨pat, by simp [h2], h3⟩
    obtain ⟨pat, hm, ⟨d', g'⟩, hd', hs'⟩ := this _ _ hall hs
    obtain ⟨c', r', rfl, hcr', hk', hsum'⟩ := rect_cells hd'
    obtain ⟨rfl, rfl⟩ := hcr' (Or.inl rfl)
    refine ⟨d'.values, ?_, by rw [hsum', (hpat pat hm).1], hs'⟩
    have : d'.values.length = d'.keys.length := by simp [Dict.values, Dict.keys]
    rw [this, c1, hk, hk']
  · rw [c2, c1, ← hlen]
    simp [df, Dict.numbers]
  · intro hwh
    obtain ⟨rfl, rfl⟩ := hcr hwh
    rw [c1, hk]

deriving instance DecidableEq for QStat, Squeezed, GridArg

/-- Non-vacuity: the run of `C103_same_quadrats_refuted` below meets the hypotheses of `C103_same_number_partial`. -/
example : (qStatistic (K := ℚ) (1 / 2) (Hull.ofBBox ⟨0, 0, 1, 1⟩) (fun i => ((i * i * i % 11 : ℕ) : ℚ) / 12)
    [(0, 0), (1, 1), (1 / 4, 1 / 4), (1 / 8, 1 / 4)] (.rectangle 2 2 0 0) 2 20 0)
    = some (.ok (⟨[0, 1, 2, 3], .fin 6, 3, [.fin 4, .fin 1, .fin 1, .fin 0], some ([.fin 2, .fin 4], 1 / 3)⟩, 16)) := by
  decide +kernel

/-- Number of points with `x0 ≤ x < x1` and `y0 ≤ y < y1`. -/
def countIn (pts : List (ℚ × ℚ)) (x0 x1 y0 y1 : ℚ) : ℕ :=
  (pts.filter fun p => decide (x0 ≤ p.1 ∧ p.1 < x1 ∧ y0 ≤ p.2 ∧ p.2 < y1)).length

/-- The draws of the two counterexamples. -/
def qDraws (i : ℕ) : ℚ := ((i * i * i % 11 : ℕ) : ℚ) / 12

/-- **C103, refuted for rectangles.** Four points whose bounding box is the window, the unit square, and two by two quadrats:
the quadrats are the quarters of the unit square, and the observed statistic is 6. In these quadrats the two simulated
patterns have counts `1, 3, 0, 0` and `0, 2, 2, 0` with statistics 6 and 4, which would give the p-value `2/3`; the
constructor reports the statistics 2 and 4 and the p-value `1/3`, because it divides the bounding box of every simulated
pattern anew. -/
theorem C103_same_quadrats_refuted :
    ∃ (points P1 P2 : List (ℚ × ℚ)) (q : QStat ℚ) (pos' : ℕ),
      computeMbb points = .ok ⟨0, 0, 1, 1⟩
      ∧ Returns (fun fuel => qStatistic (1 / 2) (Hull.ofBBox ⟨0, 0, 1, 1⟩) qDraws points (.rectangle 2 2 0 0) 2 fuel 0)
          (.ok (q, pos'))
      ∧ Returns (fun fuel => poisson (Hull.ofBBox ⟨0, 0, 1, 1⟩) qDraws (some 4) (.int 2) fuel 0)
          (.ok (.cube 4 [P1, P2], pos'))
      ∧ q.chi2 = .fin 6
      ∧ q.simulated = some ([.fin 2, .fin 4], 1 / 3)
      ∧ chisquare [(countIn P1 0 (1 / 2) 0 (1 / 2) : ℚ), countIn P1 (1 / 2) 1 0 (1 / 2), countIn P1 0 (1 / 2) (1 / 2) 1,
          countIn P1 (1 / 2) 1 (1 / 2) 1] = .fin 6
      ∧ chisquare [(countIn P2 0 (1 / 2) 0 (1 / 2) : ℚ), countIn P2 (1 / 2) 1 0 (1 / 2), countIn P2 0 (1 / 2) (1 / 2) 1,
          countIn P2 (1 / 2) 1 (1 / 2) 1] = .fin 4 := by
  refine ⟨[(0, 0), (1, 1), (1 / 4, 1 / 4), (1 / 8, 1 / 4)],
    [(0, 1 / 12), (2 / 3, 5 / 12), (3 / 4, 1 / 3), (7 / 12, 1 / 6)],
    [(1 / 2, 1 / 4), (5 / 6, 0), (1 / 12, 2 / 3), (5 / 12, 3 / 4)],
    ⟨[0, 1, 2, 3], .fin 6, 3, [.fin 4, .fin 1, .fin 1, .fin 0], some ([.fin 2, .fin 4], 1 / 3)⟩, 16, ?_⟩
  refine ⟨by decide +kernel, ⟨20, by decide +kernel⟩, ⟨20, by decide +kernel⟩, rfl, rfl, by decide +kernel,
    by decide +kernel⟩

/-- **C103, refuted for hexagons.** The number of hexagons depends on the pattern: four points with a bounding box of 4 by 4 are
counted in 12 hexagons of side 1, the observed statistic has 11 degrees of freedom, and the two simulated statistics it is
compared with come from 5 and from 8 hexagons. The value of `math.cos(math.pi / 6.0)` is the double it is in Python. -/
theorem C103_same_cells_refuted :
    ∃ (cos30 : ℚ) (points P1 P2 : List (ℚ × ℚ)) (q : QStat ℚ) (pos' : ℕ) (d1 d2 : Dict) (g1 g2 : GridArg ℚ) (p : ℚ),
      cos30 = 7800463371553963 / 9007199254740992
      ∧ computeMbb points = .ok ⟨0, 0, 4, 4⟩
      ∧ Returns (fun fuel => qStatistic cos30 (Hull.ofBBox ⟨0, 0, 4, 4⟩) qDraws points (.hexagon 1) 2 fuel 0)
          (.ok (q, pos'))
      ∧ Returns (fun fuel => poisson (Hull.ofBBox ⟨0, 0, 4, 4⟩) qDraws (some (4 / 16)) (.int 2) fuel 0)
          (.ok (.cube 4 [P1, P2], pos'))
      ∧ gridCounts cos30 P1 (.hexagon 1) = .ok (d1, g1) ∧ gridCounts cos30 P2 (.hexagon 1) = .ok (d2, g2)
      ∧ q.simulated = some ([chisquare (d1.values.map (Nat.cast : ℕ → ℚ)), chisquare (d2.values.map (Nat.cast : ℕ → ℚ))], p)
      ∧ q.cell_ids.length = 12 ∧ q.df = 11 ∧ d1.keys.length = 5 ∧ d2.keys.length = 8 := by
  refine ⟨7800463371553963 / 9007199254740992, [(0, 0), (4, 4), (1, 1), (1 / 2, 1)],
    [(0, 1 / 3), (8 / 3, 5 / 3), (3, 4 / 3), (7 / 3, 2 / 3)], [(2, 1), (10 / 3, 0), (1 / 3, 8 / 3), (5 / 3, 3)],
    ⟨[0, 1, 2, 3, 4, 5, 6, 7, 8, 9, 10, 11], .fin 8, 11,
      [.fin (4 / 3), .fin (4 / 3), .fin (1 / 3), .fin (1 / 3), .fin (4 / 3), .fin (1 / 3), .fin (1 / 3), .fin (1 / 3),
        .fin (1 / 3), .fin (1 / 3), .fin (1 / 3), .fin (4 / 3)], some ([.fin (7 / 2), .fin 4], 1 / 3)⟩, 16,
    [(0, 1), (1, 0), (2, 1), (3, 0), (5, 2)], [(0, 0), (1, 1), (2, 1), (3, 0), (4, 1), (5, 0), (6, 1), (8, 0)],
    .hexagon 1, .hexagon 1, 1 / 3, rfl, ?_⟩
  exact ⟨by decide +kernel, ⟨20, by decide +kernel⟩, ⟨20, by decide +kernel⟩, by decide +kernel, by decide +kernel,
    by decide +kernel, rfl, rfl, rfl, rfl⟩

end Pointpats.Props
