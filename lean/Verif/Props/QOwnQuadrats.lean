import Verif.Props.QComparable
import Verif.Props.RectangleGrid

/-!
# C103: the simulated quadrat statistics divide the bounding box of the simulated pattern
-/

set_option linter.unusedSectionVars false

namespace Pointpats.Props

open Quadrat Random Spec

variable {K : Type} [Field K] [LinearOrder K] [IsStrictOrderedRing K] [FloorRing K]

private theorem degenerate_y (points : List (K × K)) (hne : points ≠ [])
    (hy : ∀ p ∈ points, ∀ q ∈ points, p.2 = q.2) (cc cr : ℤ) (w h : K)
    (hsize : (0 < w ∧ 0 < h) ∨ ((w = 0 ∨ h = 0) ∧ 0 < cc ∧ 0 < cr)) :
    ∃ e, (RectangleM.init points cc cr w h).bind (·.pointLocationSta) = .error e := by
  obtain ⟨b, hb⟩ := Geometry.bboxPts_ok hne
  obtain ⟨h1, -, -, ⟨p, hp, hpx⟩, ⟨q, hq, hqx⟩⟩ := Geometry.bboxPts_spec hb
  have hR : b.ymax - b.ymin = 0 := by rw [← hpx, ← hqx, hy p hp q hq, sub_self]
  obtain ⟨p, l, rfl⟩ := List.exists_cons_of_ne_nil hne
  have hp0 : p.2 - b.ymin = 0 := by
    linarith [(h1 p (by simp)).2.2.1, (h1 p (by simp)).2.2.2]
  by_cases hwh : w ≠ 0 ∧ h ≠ 0
  · have e : RectangleM.init (p :: l) cc cr w h = .ok
        { points := p :: l, mbb := b, count_column := ⌈(b.xmax - b.xmin) / w⌉,
          count_row := ⌈(b.ymax - b.ymin) / h⌉, rectangle_width := .fin w,
          rectangle_height := .fin h,
          num := ⌈(b.xmax - b.xmin) / w⌉ * ⌈(b.ymax - b.ymin) / h⌉ } := by
      simp only [RectangleM.init, computeMbb, hb, bind, Except.bind, if_pos hwh, pure, Except.pure]
    rw [e, hR, zero_div, Int.ceil_zero]
    have key : ∀ m : RectangleM K, m.points = p :: l → m.count_row = 0 → ∃ e, m.pointLocationSta = .error e := by
      intro m hm1 hm2
      unfold RectangleM.pointLocationSta RectangleM.zeroDict
      rw [hm1, hm2, List.foldlM_cons]
      cases RectangleM.cellId m p with
      | error e => exact ⟨e, rfl⟩
      | ok c => exact ⟨.keyError, rfl⟩
    exact key _ rfl rfl
  · have hc : (cr : K) ≠ 0 := by
      rcases hsize with ⟨a, b⟩ | ⟨-, -, b⟩
      · exact absurd ⟨a.ne', b.ne'⟩ hwh
      · exact_mod_cast b.ne'
    have e : RectangleM.init (p :: l) cc cr w h = .ok
        { points := p :: l, mbb := b, count_column := cc, count_row := cr,
          rectangle_width := XF.div (.fin (b.xmax - b.xmin)) (.fin (cc : K)),
          rectangle_height := .fin 0,
          num := cc * cr } := by
      simp only [RectangleM.init, computeMbb, hb, bind, Except.bind, if_neg hwh, pure, Except.pure]
      simp [XF.div, hc, hR]
    rw [e]
    have hcell : ∀ m : RectangleM K, m.rectangle_height = .fin 0 → p.2 - m.mbb.ymin = 0 →
        ∃ e, m.cellId p = .error e := by
      intro m hmw hmp
      unfold RectangleM.cellId
      simp only [hmw, hmp, XF.floorDiv, if_true, XF.div, lt_irrefl, if_false, clampIndex, XF.eq,
        XF.toInt, bind, Except.bind]
      exact ⟨_, rfl⟩
    have key : ∀ m : RectangleM K, m.points = p :: l → m.rectangle_height = .fin 0 → p.2 - m.mbb.ymin = 0 →
        ∃ e, m.pointLocationSta = .error e := by
      intro m hm1 hm2 hm3
      obtain ⟨e', he'⟩ := hcell m hm2 hm3
      unfold RectangleM.pointLocationSta
      rw [hm1, List.foldlM_cons, he']
      exact ⟨e', rfl⟩
    exact key _ rfl rfl hp0

private theorem positive_of_ok {points : List (K × K)} (hne : points ≠ []) {cc cr : ℤ} {w h : K}
    (hsize : (0 < w ∧ 0 < h) ∨ ((w = 0 ∨ h = 0) ∧ 0 < cc ∧ 0 < cr)) {d : Dict}
    (hd : (RectangleM.init points cc cr w h).bind (·.pointLocationSta) = .ok d) : PositiveExtent points := by
  constructor
  · by_contra hcon
    push Not at hcon
    obtain ⟨e, he⟩ := C50_degenerate_refuted points hne
      (fun p hp q hq => le_antisymm (hcon q hq p hp) (hcon p hp q hq)) cc cr w h
    rw [he] at hd; cases hd
  · by_contra hcon
    push Not at hcon
    obtain ⟨e, he⟩ := degenerate_y points hne
      (fun p hp q hq => le_antisymm (hcon q hq p hp) (hcon p hp q hq)) cc cr w h hsize
    rw [he] at hd; cases hd

private theorem values_getElem {n : ℕ} : ∀ {d : Dict} {a : ℕ},
    d.keys = (List.range' a n).map (Nat.cast : ℕ → ℤ) → ∀ i < n, d.values[i]? = some (Dict.getD0 ((a + i : ℕ) : ℤ) d) := by
  induction n with
  | zero => intro d a _ i hi; omega
  | succ n ih =>
    intro d a hk i hi
    cases d with
    | nil => simp [Dict.keys] at hk
    | cons x d =>
      obtain ⟨k, v⟩ := x
      rw [List.range'_succ] at hk
      simp only [Dict.keys, List.map_cons, List.cons.injEq] at hk
      obtain ⟨rfl, hk⟩ := hk
      cases i with
      | zero => simp [Dict.values, Dict.getD0]
      | succ i =>
        have := ih (d := d) (a := a + 1) hk i (by omega)
        simp only [Dict.values, List.map_cons, List.getElem?_cons_succ, Dict.getD0] at this ⊢
        rw [this, if_neg (by push_cast; omega)]
        congr 3
        omega

/-- Counts of a rectangular grid given by numbers of columns and rows. -/
theorem division_counts {points : List (K × K)} (hne : points ≠ []) {c r : ℕ} (hc : 0 < c) (hr : 0 < r) {w h : K}
    (hwh : w = 0 ∨ h = 0) {cos30 : K} {d : Dict} {g : GridArg K}
    (hg : gridCounts cos30 points (.rectangle c r w h) = .ok (d, g)) :
    DivisionCounts points c r d.values ∧ g = .rectangle c r 0 0 := by
  have hsize : (0 < w ∧ 0 < h) ∨ ((w = 0 ∨ h = 0) ∧ 0 < (c : ℤ) ∧ 0 < (r : ℤ)) := Or.inr ⟨hwh, by omega, by omega⟩
  have hg' : ∃ m, RectangleM.init points c r w h = .ok m ∧ m.pointLocationSta = .ok d
      ∧ g = .rectangle m.count_column m.count_row 0 0 := by
    unfold gridCounts at hg
    simp only at hg
    cases hm : RectangleM.init points c r w h with
    | error e => rw [hm] at hg; cases hg
    | ok m =>
      rw [hm] at hg
      change (m.pointLocationSta >>= fun d => _) = _ at hg
      cases hs : m.pointLocationSta with
      | error e => rw [hs] at hg; cases hg
      | ok d' => rw [hs] at hg; cases hg; exact ⟨m, rfl, hs, rfl⟩
  obtain ⟨m, hm, hs, rfl⟩ := hg'
  have hpos : PositiveExtent points := positive_of_ok hne hsize (d := d) (by rw [hm]; exact hs)
  obtain ⟨m', d', W, H, e1, e2, hb, hW, hH, hW0, hH0, -, hcr, hcell, -⟩ :=
    C49_rectangle_cell_counts points hpos c r w h hsize
  obtain ⟨m'', d'', e1', e2', -, hnum, hkeys, -⟩ := C48_rectangle_counts_conserve points hpos c r w h hsize
  rw [hm] at e1 e1'
  cases e1; cases e1'
  rw [hs] at e2 e2'
  cases e2; cases e2'
  obtain ⟨h1, h2⟩ := hcr hwh
  have hnum' : m.num = ((c * r : ℕ) : ℤ) := by rw [hnum, h1, h2]; push_cast; rfl
  rw [hnum', Int.toNat_natCast, List.range_eq_range'] at hkeys
  obtain ⟨b1, ⟨p1, hp1, q1⟩, ⟨p2, hp2, q2⟩, ⟨p3, hp3, q3⟩, ⟨p4, hp4, q4⟩⟩ := Geometry.bboxPts_spec hb
  have hWH : W = (m.mbb.xmax - m.mbb.xmin) / c ∧ H = (m.mbb.ymax - m.mbb.ymin) / r := by
    have hnot : ¬ (w ≠ 0 ∧ h ≠ 0) := by tauto
    have hcK : (c : K) ≠ 0 := by exact_mod_cast hc.ne'
    have hrK : (r : K) ≠ 0 := by exact_mod_cast hr.ne'
    simp only [RectangleM.init, computeMbb, hb, bind, Except.bind, if_neg hnot, pure, Except.pure, XF.div,
      Int.cast_natCast, hcK, hrK, if_false, Except.ok.injEq] at hm
    rw [← hm] at hW hH
    simp only [XF.fin.injEq] at hW hH
    exact ⟨by rw [← hW], by rw [← hH]⟩
  obtain ⟨rfl, rfl⟩ := hWH
  refine ⟨⟨m.mbb.xmin, m.mbb.xmax, m.mbb.ymin, m.mbb.ymax, ⟨⟨p1, hp1, q1⟩, ?_⟩, ⟨⟨p2, hp2, q2⟩, ?_⟩, ⟨⟨p3, hp3, q3⟩, ?_⟩,
    ⟨⟨p4, hp4, q4⟩, ?_⟩, ?_, ?_, ?_, ?_⟩, by rw [h1, h2]⟩
  · rintro _ ⟨p, hp, rfl⟩; exact (b1 p hp).1
  · rintro _ ⟨p, hp, rfl⟩; exact (b1 p hp).2.1
  · rintro _ ⟨p, hp, rfl⟩; exact (b1 p hp).2.2.1
  · rintro _ ⟨p, hp, rfl⟩; exact (b1 p hp).2.2.2
  · have hcK : (0 : K) < (c : K) := by exact_mod_cast hc
    have := (div_pos_iff_of_pos_right hcK).1 hW0
    linarith
  · have hcK : (0 : K) < (r : K) := by exact_mod_cast hr
    have := (div_pos_iff_of_pos_right hcK).1 hH0
    linarith
  · have : d.values.length = d.keys.length := by simp [Dict.values, Dict.keys]
    rw [this, hkeys]; simp
  · intro ix hix iy hiy
    have hlt : ix + iy * c < c * r := by
      calc ix + iy * c < c + iy * c := by omega
        _ = c * (iy + 1) := by ring
        _ ≤ c * r := Nat.mul_le_mul_left _ hiy
    have := values_getElem hkeys (ix + iy * c) hlt
    rw [this, Nat.zero_add]
    have h3 := hcell ix iy (by omega) (by omega) (by omega) (by omega)
    rw [h1, h2] at h3
    push_cast at h3 ⊢
    rw [h3]

private theorem observed_counts {points : List (K × K)} (hne : points ≠ []) {nx ny : ℤ} {w h : K}
    (hsize : (0 < w ∧ 0 < h) ∨ ((w = 0 ∨ h = 0) ∧ 0 < nx ∧ 0 < ny)) {cos30 : K} {d : Dict} {g : GridArg K}
    (hg : gridCounts cos30 points (.rectangle nx ny w h) = .ok (d, g)) :
    ∃ c r : ℕ, 0 < c ∧ 0 < r ∧ g = .rectangle c r 0 0 ∧ (w = 0 ∨ h = 0 → (c : ℤ) = nx ∧ (r : ℤ) = ny)
      ∧ (0 < w → 0 < h → ∀ b, Geometry.bboxPts points = .ok b →
          (c : ℤ) = ⌈(b.xmax - b.xmin) / w⌉ ∧ (r : ℤ) = ⌈(b.ymax - b.ymin) / h⌉) := by
  have hg' : ∃ m, RectangleM.init points nx ny w h = .ok m ∧ m.pointLocationSta = .ok d
      ∧ g = .rectangle m.count_column m.count_row 0 0 := by
    unfold gridCounts at hg
    simp only at hg
    cases hm : RectangleM.init points nx ny w h with
    | error e => rw [hm] at hg; cases hg
    | ok m =>
      rw [hm] at hg
      change (m.pointLocationSta >>= fun d => _) = _ at hg
      cases hs : m.pointLocationSta with
      | error e => rw [hs] at hg; cases hg
      | ok d' => rw [hs] at hg; cases hg; exact ⟨m, rfl, hs, rfl⟩
  obtain ⟨m, hm, hs, rfl⟩ := hg'
  have hpos : PositiveExtent points := positive_of_ok hne hsize (d := d) (by rw [hm]; exact hs)
  obtain ⟨b, hb⟩ := Geometry.bboxPts_ok hne
  obtain ⟨h1, -⟩ := Geometry.bboxPts_spec hb
  obtain ⟨⟨p, hp, q, hq, hpq⟩, ⟨r, hr, s, hs', hrs⟩⟩ := hpos
  have hx : 0 < b.xmax - b.xmin := by linarith [(h1 p hp).1, (h1 q hq).2.1]
  have hy : 0 < b.ymax - b.ymin := by linarith [(h1 r hr).2.2.1, (h1 s hs').2.2.2]
  rcases hsize with ⟨hw, hh⟩ | ⟨hwh, hnx, hny⟩
  · simp only [RectangleM.init, computeMbb, hb, bind, Except.bind, if_pos (And.intro hw.ne' hh.ne'), pure, Except.pure,
      Except.ok.injEq] at hm
    have p1 := Int.ceil_pos.2 (div_pos hx hw)
    have p2 := Int.ceil_pos.2 (div_pos hy hh)
    refine ⟨m.count_column.toNat, m.count_row.toNat, ?_, ?_, ?_, ?_, ?_⟩ <;> rw [← hm] <;> dsimp only
    · omega
    · omega
    · rw [Int.toNat_of_nonneg p1.le, Int.toNat_of_nonneg p2.le]
    · rintro (rfl | rfl)
      · exact absurd hw (lt_irrefl _)
      · exact absurd hh (lt_irrefl _)
    · intro _ _ b' hb'
      rw [hb] at hb'
      cases hb'
      exact ⟨Int.toNat_of_nonneg p1.le, Int.toNat_of_nonneg p2.le⟩
  · have hnot : ¬ (w ≠ 0 ∧ h ≠ 0) := by tauto
    simp only [RectangleM.init, computeMbb, hb, bind, Except.bind, if_neg hnot, pure, Except.pure,
      Except.ok.injEq] at hm
    refine ⟨m.count_column.toNat, m.count_row.toNat, ?_, ?_, ?_, ?_, ?_⟩ <;> rw [← hm] <;> dsimp only
    · omega
    · omega
    · rw [Int.toNat_of_nonneg hnx.le, Int.toNat_of_nonneg hny.le]
    · exact fun _ => ⟨Int.toNat_of_nonneg hnx.le, Int.toNat_of_nonneg hny.le⟩
    · intro a b'; exact absurd ⟨a.ne', b'.ne'⟩ hnot

private theorem forall2_right {α β : Type} {R : α → β → Prop} {l : List α} {m : List β} (h : List.Forall₂ R l m) {b : β}
    (hb : b ∈ m) : ∃ a ∈ l, R a b := by
  induction h with
  | nil => cases hb
  | cons h1 _ ih =>
    rcases List.mem_cons.1 hb with rfl | hb
    · exact ⟨_, by simp, h1⟩
    · obtain ⟨a, h2, h3⟩ := ih hb
      exact ⟨a, by simp [h2], h3⟩

/-- **C103, what holds, continued.** With rectangles of a given positive size or in given positive numbers of columns and rows,
whenever the constructor returns with `R ≥ 1` simulations, every simulated statistic is the chi-square statistic of the
counts of a pattern in the window, of as many points as observed, in its own bounding box divided into as many columns and
as many rows as the observed grid has: the given numbers, or the extent of the observed points over the given width and
height, rounded up. -/
theorem C103_own_quadrats_partial (cos30 : K) (window : Hull K) (u : ℕ → K) (points : List (K × K)) (nx ny : ℤ) (w h : K)
    (hsize : (0 < w ∧ 0 < h) ∨ ((w = 0 ∨ h = 0) ∧ 0 < nx ∧ 0 < ny))
    (realizations : ℤ) (hR : 0 < realizations) (pos pos' : ℕ) (q : QStat K)
    (hq : Returns (fun fuel => qStatistic cos30 window u points (.rectangle nx ny w h) realizations fuel pos)
      (.ok (q, pos'))) :
    ∃ (c r : ℕ) (sims : List (XF K)) (p : K), q.simulated = some (sims, p) ∧ (sims.length : ℤ) = realizations
      ∧ 0 < c ∧ 0 < r
      ∧ (w = 0 ∨ h = 0 → (c : ℤ) = nx ∧ (r : ℤ) = ny
          ∧ ∃ counts, DivisionCounts points c r counts ∧ q.chi2 = chisquare (counts.map (Nat.cast : ℕ → K)))
      ∧ (0 < w → 0 < h → ∃ x0 x1 y0 y1 : K, IsLeast {x | ∃ p ∈ points, p.1 = x} x0
          ∧ IsGreatest {x | ∃ p ∈ points, p.1 = x} x1 ∧ IsLeast {y | ∃ p ∈ points, p.2 = y} y0
          ∧ IsGreatest {y | ∃ p ∈ points, p.2 = y} y1 ∧ (c : ℤ) = ⌈(x1 - x0) / w⌉ ∧ (r : ℤ) = ⌈(y1 - y0) / h⌉)
      ∧ ∀ s ∈ sims, ∃ pattern counts, pattern.length = points.length
          ∧ (∀ x ∈ pattern, window.contains x.1 x.2 = true)
          ∧ DivisionCounts pattern c r counts ∧ s = chisquare (counts.map (Nat.cast : ℕ → K)) := by
  obtain ⟨d, simGrid, patterns, sims, p, hg, hsim, hp1, hs1, hpat, hall, _, _⟩ :=
    C55_pvalue_partial cos30 window u points _ realizations hR pos pos' q hq
  have hne : points ≠ [] := by
    rintro rfl
    obtain ⟨fuel, hq⟩ := hq
    simp [qStatistic, asPointsArray, Run.fail] at hq
  have hchi : q.chi2 = chisquare (d.values.map (Nat.cast : ℕ → K)) := by
    obtain ⟨fuel, hq⟩ := hq
    unfold qStatistic at hq
    rw [asPointsArray, if_neg hne] at hq
    simp only [hg, if_pos hR] at hq
    by_cases ha : window.area = 0
    · rw [if_pos ha] at hq; cases hq
    · rw [if_neg ha] at hq
      obtain ⟨reals, p, h1, h2⟩ := Run.andThen_ok.1 hq
      cases hs : (List.range realizations.toNat).mapM (simChi2 cos30 simGrid reals) with
      | error e => rw [hs] at h2; cases h2
      | ok sims =>
        rw [hs] at h2
        simp only [Run.ret_ok] at h2
        obtain ⟨rfl, rfl⟩ := h2
        rfl
  obtain ⟨c, r, hc, hr, rfl, k1, k2⟩ := observed_counts hne hsize hg
  refine ⟨c, r, sims, p, hsim, hs1, hc, hr, ?_, ?_, ?_⟩
  · intro hwh
    obtain ⟨a1, a2⟩ := k1 hwh
    refine ⟨a1, a2, d.values, ?_, hchi⟩
    rw [← a1, ← a2] at hg
    exact (division_counts hne hc hr hwh hg).1
  · intro hw hh
    obtain ⟨b, hb⟩ := Geometry.bboxPts_ok hne
    obtain ⟨b1, ⟨p1, hp1, q1⟩, ⟨p2, hp2, q2⟩, ⟨p3, hp3, q3⟩, ⟨p4, hp4, q4⟩⟩ := Geometry.bboxPts_spec hb
    refine ⟨b.xmin, b.xmax, b.ymin, b.ymax, ⟨⟨p1, hp1, q1⟩, ?_⟩, ⟨⟨p2, hp2, q2⟩, ?_⟩, ⟨⟨p3, hp3, q3⟩, ?_⟩,
      ⟨⟨p4, hp4, q4⟩, ?_⟩, k2 hw hh b hb⟩
    · rintro _ ⟨p, hp, rfl⟩; exact (b1 p hp).1
    · rintro _ ⟨p, hp, rfl⟩; exact (b1 p hp).2.1
    · rintro _ ⟨p, hp, rfl⟩; exact (b1 p hp).2.2.1
    · rintro _ ⟨p, hp, rfl⟩; exact (b1 p hp).2.2.2
  · intro s hs
    obtain ⟨pat, hm, ⟨d', g'⟩, hd', hs'⟩ := forall2_right hall hs
    obtain ⟨l1, l2⟩ := hpat pat hm
    have hpne : pat ≠ [] := by
      rintro rfl
      exact hne (List.length_eq_zero_iff.1 l1.symm)
    exact ⟨pat, d'.values, l1, l2, (division_counts hpne hc hr (Or.inl rfl) hd').1, hs'⟩

/-- Non-vacuity: a run with one column and two rows that meets the hypotheses of `C103_own_quadrats_partial`. -/
example : (qStatistic (K := ℚ) (1 / 2) (Hull.ofBBox ⟨0, 0, 1, 1⟩) qDraws
    [(0, 0), (1, 1), (1 / 4, 1 / 4), (1 / 8, 1 / 4)] (.rectangle 1 2 0 0) 2 20 0)
    = some (.ok (⟨[0, 1], .fin 1, 1, [.fin (1 / 2), .fin (1 / 2)], some ([.fin 0, .fin 0], 1 / 3)⟩, 16)) := by
  decide +kernel

/-- Non-vacuity with a given size of the rectangles. -/
example : ((qStatistic (K := ℚ) (1 / 2) (Hull.ofBBox ⟨0, 0, 1, 1⟩) qDraws
    [(0, 0), (1, 1), (1 / 4, 1 / 4), (1 / 8, 1 / 4)] (.rectangle 0 0 (2 / 3) (1 / 3)) 2 20 0).map fun r =>
      r.toOption.map fun q => q.1.cell_ids) = some (some [0, 1, 2, 3, 4, 5]) := by
  decide +kernel

end Pointpats.Props
