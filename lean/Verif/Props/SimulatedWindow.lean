import Verif.Props.SimulatedMean
import Verif.Props.ClusterNormalPoints
import Verif.Props.RandomNormal
import Verif.Props.Strauss

/-!
# The hull of simulated points lies in the region they were simulated in (C193)
-/

set_option linter.unusedSectionVars false

namespace Pointpats.Props

open Random Spec Geometry PointPattern MeasureTheory

/-- The regions with an area: a `ConvexHull`, a convex polygon or a bounding box. -/
def IsConvexRegion (region : Region ℝ) : Prop :=
  (∃ v points, region = .convexHull v ∧ IsHullOf v points) ∨ (∃ ring corners, region = .polygon ring ∧ IsHullOf ring corners)
    ∨ ∃ box : BBox ℝ, region = .bbox box ∧ box.xmin < box.xmax ∧ box.ymin < box.ymax

theorem convexRegion_facts {region : Region ℝ} (hregion : IsConvexRegion region) {b : BBox ℝ} (hb : region.bounds = .ok b) :
    Convex ℝ (pointsOf region) ∧ region.area = (volume (pointsOf region)).toReal ∧ ∀ p ∈ pointsOf region, InBox b p := by
  rcases hregion with ⟨v, points, rfl, h⟩ | ⟨ring, corners, rfl, h⟩ | ⟨box, rfl, hx, hy⟩
  · obtain ⟨h1, h2, b', hb', hbox⟩ := C187_hull v points h
    rw [hb] at hb'
    injection hb' with hb'
    subst hb'
    refine ⟨h1 ▸ convex_convexHull ℝ _, h2, ?_⟩
    rw [h1]
    exact fun p hp => convexHull_min (t := {p | InBox b p}) hbox.1 (convex_inBox b) hp
  · obtain ⟨h1, h2, -, b', hb', hbox⟩ := C187_polygon ring corners h
    rw [hb] at hb'
    injection hb' with hb'
    subst hb'
    refine ⟨h1 ▸ (convex_convexHull ℝ _).interior, h2, ?_⟩
    rw [h1]
    exact fun p hp => convexHull_min (t := {p | InBox b p}) hbox.1 (convex_inBox b) (interior_subset hp)
  · obtain ⟨h1, h2, hb'⟩ := C187_box box hx.le hy.le
    rw [hb] at hb'
    injection hb' with hb'
    subst hb'
    refine ⟨h1 ▸ convex_inBox b, h2, ?_⟩
    rw [h1]
    exact fun p hp => hp

/-- **C193, patterns.** For events that all lie in a region, and whatever was read or updated before, `hull_area` is positive and at most
the area of the region, `lambda_hull` is at least the number of events per unit of that area, and `mbb_area` is at most the area of the
bounding box of the region. -/
theorem C193_pattern (region : Region ℝ) (hregion : IsConvexRegion region) (b : BBox ℝ) (hb : region.bounds = .ok b)
    (ext : Ext ℝ) (p : ℕ) (rows : List (List ℝ)) (w : Option (Win ℝ)) (names coordNames : Option (List String)) (s : Obj ℝ)
    (h : construct p rows w names coordNames = .ok s) (v : List (ℝ × ℝ)) (hv : ext.hull (locations p rows names coordNames) = .ok v)
    (hh : IsHullOf v (locations p rows names coordNames))
    (hin : ∀ e ∈ locations p rows names coordNames, region.contains e.1 e.2 = true) (ops : List (Op ℝ)) :
    (∃ a, (read ext .hullArea (run ext s ops)).1 = .ok (.num a) ∧ 0 < a ∧ a ≤ region.area)
    ∧ (∃ x, (read ext .lambdaHull (run ext s ops)).1 = .ok (.xnum (.fin x))
        ∧ ((locations p rows names coordNames).length : ℝ) / region.area ≤ x)
    ∧ ∃ m, (read ext .mbbArea (run ext s ops)).1 = .ok (.num m) ∧ m ≤ (Region.bbox b).area := by
  obtain ⟨hconv, harea, hbox⟩ := convexRegion_facts hregion hb
  obtain ⟨h1, h2, h3⟩ := C186_hull_area ext p rows w names coordNames s h v hv hh ops
  have hle : areaOfConvexHull (locations p rows names coordNames) ≤ region.area := by
    rw [harea]
    unfold areaOfConvexHull
    refine ENNReal.toReal_mono ?_ (measure_mono (convexHull_min (fun e he => hin e he) hconv))
    have hcompact : IsCompact (Set.Icc b.xmin b.xmax ×ˢ Set.Icc b.ymin b.ymax) := isCompact_Icc.prod isCompact_Icc
    refine ne_top_of_le_ne_top hcompact.measure_lt_top.ne (measure_mono fun q hq => ?_)
    obtain ⟨e1, e2, e3, e4⟩ := hbox q hq
    exact ⟨⟨by assumption, by assumption⟩, ⟨by assumption, by assumption⟩⟩
  refine ⟨⟨_, h1, h2, hle⟩, ⟨_, h3, div_le_div_of_nonneg_left (Nat.cast_nonneg _) h2 hle⟩, ?_⟩
  have hne : locations p rows names coordNames ≠ [] := by
    intro h0
    have := hh.three
    cases v with
    | nil => simp at this
    | cons x l => have := hh.sub x (by simp); rw [h0] at this; simp at this
  obtain ⟨m, hm, ⟨hm1, hm2⟩, -⟩ := (C19_bbox_smallest (locations p rows names coordNames)).2 hne
  have hm' : boxOf (locations p rows names coordNames) = .ok m := by rw [boxOf_eq]; exact hm
  refine ⟨(m.xmax - m.xmin) * (m.ymax - m.ymin), ?_, ?_⟩
  · rw [C01_attributes_history_independent ext p rows w names coordNames s h ops .mbbArea _ rfl, hm']
    rfl
  · have hmle : m.xmin ≤ m.xmax ∧ m.ymin ≤ m.ymax := by
      obtain ⟨e, he⟩ := List.exists_mem_of_ne_nil _ hne
      obtain ⟨e1, e2, e3, e4⟩ := hm1 e he
      constructor <;> linarith
    have hall := hm2 b fun e he => hbox e (hin e he)
    obtain ⟨g1, g2, g3, g4⟩ := hall (m.xmin, m.ymin) (by simp only [InBox]; exact ⟨le_rfl, hmle.1, le_rfl, hmle.2⟩)
    obtain ⟨k1, k2, k3, k4⟩ := hall (m.xmax, m.ymax) (by simp only [InBox]; exact ⟨hmle.1, le_rfl, hmle.2, le_rfl⟩)
    simp only at g1 g2 g3 g4 k1 k2 k3 k4
    refine le_trans ?_ (le_abs_self ((b.xmax - b.xmin) * (b.ymax - b.ymin)))
    exact mul_le_mul (by linarith) (by linarith) (by linarith) (by linarith)

/-- **C193, samplers.** Whenever `poisson`, `normal`, `strauss` (at least one iteration), `cluster_poisson` or `cluster_normal` (at least two
seeds) returns points for a region, their convex hull lies in the region, its area is at most that of the region, and the bounding box of
the points lies in the bounding box of the region. -/
theorem C193_samplers (region : Region ℝ) (hregion : IsConvexRegion region) (b : BBox ℝ) (hb : region.bounds = .ok b)
    (intensity : Option ℝ) (size : SizeArg) (n s : ℤ) (i : XF ℝ)
    (hp : parseSizeAndIntensity (region.toHull b) intensity size = .ok (n, s, i))
    (root : ℝ → ℝ) (mvn : M2 ℝ → ℝ → ℝ → ℝ × ℝ) (gen : ℕ → ℕ → ℝ) (u : ℕ → ℝ) (pos pos' : ℕ) (r : Squeezed ℝ)
    (hr : Returns (fun fuel => poisson (region.toHull b) u intensity size fuel pos) (.ok (r, pos'))
      ∨ (intensity = none ∧ ∃ center cov, Returns (fun fuel => normal (region.toHull b) root mvn center cov u size fuel pos) (.ok (r, pos')))
      ∨ (∃ gamma radius n_iter max_iter, 1 ≤ n_iter
          ∧ Returns (fun fuel => strauss (region.toHull b) u intensity size gamma radius n_iter max_iter fuel pos) (.ok (r, pos')))
      ∨ (∃ n_seeds radius, 2 ≤ n_seeds
          ∧ Returns (fun fuel => clusterPoisson (region.toHull b) root gen u intensity size n_seeds radius fuel pos) (.ok (r, pos')))
      ∨ (intensity = none ∧ ∃ n_seeds cov, 2 ≤ n_seeds
          ∧ Returns (fun fuel => clusterNormal (region.toHull b) root mvn gen u cov size n_seeds fuel pos) (.ok (r, pos')))) :
    convexHull ℝ {e | e ∈ r.data} ⊆ pointsOf region ∧ areaOfConvexHull r.data ≤ region.area
    ∧ ∀ m, bboxArr (.pts r.data) = .ok m → ∀ q, InBox m q → InBox b q := by
  obtain ⟨hconv, harea, hbox⟩ := convexRegion_facts hregion hb
  have hin : ∀ e ∈ r.data, e ∈ pointsOf region := by
    rcases hr with hr | ⟨rfl, center, cov, hr⟩ | ⟨gamma, radius, n_iter, max_iter, h1, hr⟩ | ⟨n_seeds, radius, hk, hr⟩ | ⟨rfl, n_seeds, cov, hk, hr⟩
    · obtain ⟨⟨reps, h1, -, h2⟩, -⟩ := C40_poisson _ u intensity size n s i hp pos r pos' hr
      intro e he
      rw [h1] at he
      obtain ⟨rep, hrep, he⟩ := List.mem_flatten.1 he
      exact (h2 rep hrep).2 e he
    · obtain ⟨⟨reps, h1, -, h2, -⟩, -⟩ := C43_normal_points _ root mvn center cov u size n s i hp pos r pos' hr
      intro e he
      rw [h1] at he
      obtain ⟨rep, hrep, he⟩ := List.mem_flatten.1 he
      exact (h2 rep hrep).2 e he
    · obtain ⟨⟨reps, h1, -, h2⟩, -⟩ := C46_strauss_partial _ u intensity size gamma radius n_iter max_iter n s i hp (.inr h1) pos r pos' hr
      intro e he
      rw [h1] at he
      obtain ⟨rep, hrep, he⟩ := List.mem_flatten.1 he
      exact (h2 rep hrep).2 e he
    · obtain ⟨reps, h1, -, -, h2⟩ := C44_cluster_poisson_partial _ root gen u intensity size n s i hp n_seeds hk radius pos r pos' hr
      intro e he
      rw [h1] at he
      simp only [List.mem_flatten, List.mem_map] at he
      obtain ⟨_, ⟨clusters, hc, rfl⟩, he⟩ := he
      obtain ⟨c, hc', he⟩ := List.mem_flatten.1 he
      exact (h2 clusters hc).2.2.2.1 c hc' e he
    · obtain ⟨reps, h1, -, -, h2⟩ := C45_cluster_normal_points _ root mvn gen u cov size n s i hp n_seeds hk pos r pos' hr
      intro e he
      rw [h1] at he
      simp only [List.mem_flatten, List.mem_map] at he
      obtain ⟨_, ⟨clusters, hc, rfl⟩, he⟩ := he
      obtain ⟨c, hc', he⟩ := List.mem_flatten.1 he
      exact (h2 clusters hc).2.2.2 c hc' e he
  have hsub : convexHull ℝ {e | e ∈ r.data} ⊆ pointsOf region := convexHull_min hin hconv
  refine ⟨hsub, ?_, ?_⟩
  · rw [harea]
    unfold areaOfConvexHull
    refine ENNReal.toReal_mono ?_ (measure_mono hsub)
    have hcompact : IsCompact (Set.Icc b.xmin b.xmax ×ˢ Set.Icc b.ymin b.ymax) := isCompact_Icc.prod isCompact_Icc
    refine ne_top_of_le_ne_top hcompact.measure_lt_top.ne (measure_mono fun q hq => ?_)
    obtain ⟨e1, e2, e3, e4⟩ := hbox q hq
    exact ⟨⟨by assumption, by assumption⟩, ⟨by assumption, by assumption⟩⟩
  · intro m hm q hq
    have hne : r.data ≠ [] := by
      intro h0
      rw [(C19_bbox_smallest r.data).1 h0] at hm
      cases hm
    obtain ⟨m', hm', ⟨-, h2⟩, -⟩ := (C19_bbox_smallest r.data).2 hne
    rw [hm] at hm'
    injection hm' with hm'
    subst hm'
    exact h2 b (fun e he => hbox e (hin e he)) q hq

private noncomputable def cornerDraws (i : ℕ) : ℝ := [0, 0, 1 / 2, 0, 1 / 2, 1 / 2].getD i 0

/-- Three points simulated in the square of side 4: half of the square of side 2, whose area is not above that of the region. -/
example : ∃ r pos', IsConvexRegion (.bbox ⟨0, 0, 4, 4⟩) ∧ (Region.bbox ⟨(0 : ℝ), 0, 4, 4⟩).bounds = .ok ⟨0, 0, 4, 4⟩
    ∧ (∃ i, parseSizeAndIntensity ((Region.bbox ⟨(0 : ℝ), 0, 4, 4⟩).toHull ⟨0, 0, 4, 4⟩) none (.int 3) = .ok (3, 1, i))
    ∧ Returns (fun fuel => poisson ((Region.bbox ⟨(0 : ℝ), 0, 4, 4⟩).toHull ⟨0, 0, 4, 4⟩) cornerDraws none (.int 3) fuel 0) (.ok (r, pos'))
    ∧ r.data = [(0, 0), (2, 0), (2, 2)] ∧ IsHullOf [(0, 0), (2, 0), (2, 2)] r.data := by
  have hp : parseSizeAndIntensity ((Region.bbox ⟨(0 : ℝ), 0, 4, 4⟩).toHull ⟨0, 0, 4, 4⟩) none (.int 3) = .ok (3, 1, .fin (3 / 16)) := by
    have ha : (Region.bbox ⟨(0 : ℝ), 0, 4, 4⟩).area = 16 := by norm_num [Region.area, areaBBox]
    simp [parseSizeAndIntensity, divArea, Region.toHull, ha, XF.div]
  refine ⟨.rows [(0, 0), (2, 0), (2, 2)], 6, .inr (.inr ⟨_, rfl, by norm_num, by norm_num⟩), rfl, ⟨_, hp⟩, ⟨3, ?_⟩, rfl, ?_⟩
  · simp only [poisson, hp]
    rw [show Int.toNat 3 = 3 from rfl, show Int.toNat 1 = 1 from rfl]
    norm_num [poissonReps, replications, rejection, boxCandidate, uniform, cornerDraws, Region.toHull, Region.contains, containsBBox,
      Run.andThen, Run.ret, squeeze]
  · refine ⟨by simp, fun v hv => hv, ?_, fun e he => subset_convexHull ℝ _ he⟩
    intro i j k hij hjk hk
    simp only [List.length_cons, List.length_nil] at hk
    obtain ⟨rfl, rfl, rfl⟩ : i = 0 ∧ j = 1 ∧ k = 2 := by omega
    norm_num [clockwiseTurn]

end Pointpats.Props
