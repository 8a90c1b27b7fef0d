import Verif.Lemmas.HullVolume
import Verif.Lemmas.PairLaw
import Verif.Spec.Circle

/-!
# `hull_area` is the area of the convex hull of the events (C186)

The area is Lebesgue measure in the plane, the hull is the set of all convex combinations of the events.
-/

namespace Pointpats.Props

open Pointpats.Spec Pointpats.PointPattern MeasureTheory

set_option linter.unusedSectionVars false

/-- The area of the smallest convex set that holds the events. -/
noncomputable def areaOfConvexHull (events : List (ℝ × ℝ)) : ℝ := (volume (convexHull ℝ {e | e ∈ events})).toReal

theorem hullRing_of_isHullOf {v events : List (ℝ × ℝ)} (h : IsHullOf v events) : IsHullRing v events where
  three := h.three
  sub := h.sub
  turns i j k hij hjk hk := by
    have := h.ring i j k hij hjk hk
    unfold clockwiseTurn at this
    unfold leftTurn
    linarith

private theorem hull_same {v events : List (ℝ × ℝ)} (h : IsHullOf v events) :
    convexHull ℝ {x | x ∈ v} = convexHull ℝ {e | e ∈ events} :=
  Set.Subset.antisymm (convexHull_mono h.sub) (convexHull_min h.contains (convex_convexHull ℝ _))

private theorem shoelace_hull {v events : List (ℝ × ℝ)} (h : IsHullOf v events) : shoelace v = areaOfConvexHull events := by
  unfold areaOfConvexHull
  rw [← hull_same h, HullVolume.volume_ring h.three (hullRing_of_isHullOf h).sublists, ENNReal.toReal_ofReal]
  exact (shoelace_pos h.three (hullRing_of_isHullOf h).sublists).le

private theorem finite_area (events : List (ℝ × ℝ)) : volume (convexHull ℝ {e | e ∈ events}) ≠ ⊤ :=
  ((List.finite_toSet events).isCompact_convexHull ℝ).measure_lt_top.ne

/-- **C186.** After any history of reads and updates, `hull_area` is the area of the convex hull of the events and `lambda_hull` the
number of events per unit of that area. -/
theorem C186_hull_area (ext : Ext ℝ) (p : ℕ) (rows : List (List ℝ)) (w : Option (Win ℝ)) (names coordNames : Option (List String))
    (s : Obj ℝ) (h : construct p rows w names coordNames = .ok s) (v : List (ℝ × ℝ))
    (hv : ext.hull (locations p rows names coordNames) = .ok v) (hh : IsHullOf v (locations p rows names coordNames))
    (ops : List (Op ℝ)) :
    (read ext .hullArea (run ext s ops)).1 = .ok (.num (areaOfConvexHull (locations p rows names coordNames)))
    ∧ 0 < areaOfConvexHull (locations p rows names coordNames)
    ∧ (read ext .lambdaHull (run ext s ops)).1 = .ok (.xnum (.fin (((locations p rows names coordNames).length : ℝ)
        / areaOfConvexHull (locations p rows names coordNames)))) := by
  have h3 := hh.three
  have hne : v ≠ [] := by rintro rfl; simp at h3
  have hpos := shoelace_pos hh.three (hullRing_of_isHullOf hh).sublists
  rw [← shoelace_hull hh]
  refine ⟨?_, hpos, ?_⟩
  · rw [C01_attributes_history_independent ext p rows w names coordNames s h ops .hullArea _ rfl, hv]
    simp [areaOfHull, hne, Except.map, bind, Except.bind]
  · rw [C01_attributes_history_independent ext p rows w names coordNames s h ops .lambdaHull _ rfl, hv]
    simp [areaOfHull, hne, Except.map, bind, Except.bind, XF.div, hpos.ne']

/-- **C186, geometry.area.** `area` of a hull is the area of the convex hull of the points it was made from. -/
theorem C186_geometry (v points : List (ℝ × ℝ)) (hh : IsHullOf v points) :
    (Geometry.Region.convexHull v).area = areaOfConvexHull points := by
  rw [← shoelace_hull hh]
  change |((Geometry.edges v).map Geometry.cross).sum / 2| = _
  have : ((Geometry.edges v).map Geometry.cross).sum / 2 = shoelace v := by
    unfold Geometry.edges shoelace
    rw [List.zip, List.map_zipWith]
    rfl
  rw [this, abs_of_pos (shoelace_pos hh.three (hullRing_of_isHullOf hh).sublists)]

/-- **C186, more events.** A pattern with more events never has a smaller `hull_area`; it has the same when the further events are in
the hull of the others. -/
theorem C186_more_events (ext : Ext ℝ) (p p' : ℕ) (rows rows' : List (List ℝ)) (w w' : Option (Win ℝ))
    (names names' coordNames coordNames' : Option (List String)) (s s' : Obj ℝ)
    (h : construct p rows w names coordNames = .ok s) (h' : construct p' rows' w' names' coordNames' = .ok s')
    (v v' : List (ℝ × ℝ)) (hv : ext.hull (locations p rows names coordNames) = .ok v)
    (hv' : ext.hull (locations p' rows' names' coordNames') = .ok v') (hh : IsHullOf v (locations p rows names coordNames))
    (hh' : IsHullOf v' (locations p' rows' names' coordNames'))
    (hsub : ∀ e ∈ locations p rows names coordNames, e ∈ locations p' rows' names' coordNames') (ops ops' : List (Op ℝ)) :
    ∃ a a', (read ext .hullArea (run ext s ops)).1 = .ok (.num a) ∧ (read ext .hullArea (run ext s' ops')).1 = .ok (.num a')
      ∧ a ≤ a' ∧ ((∀ e ∈ locations p' rows' names' coordNames',
          e ∈ convexHull ℝ {e | e ∈ locations p rows names coordNames}) → a = a') := by
  refine ⟨_, _, (C186_hull_area ext p rows w names coordNames s h v hv hh ops).1,
    (C186_hull_area ext p' rows' w' names' coordNames' s' h' v' hv' hh' ops').1, ?_, fun hin => ?_⟩
  · exact ENNReal.toReal_mono (finite_area _) (measure_mono (convexHull_mono hsub))
  · unfold areaOfConvexHull
    have e : convexHull ℝ {e | e ∈ locations p rows names coordNames} = convexHull ℝ {e | e ∈ locations p' rows' names' coordNames'} :=
      Set.Subset.antisymm (convexHull_mono hsub) (convexHull_min hin (convex_convexHull ℝ _))
    rw [e]

/-- **C186, discs.** `hull_area` is at most the area of any disc that holds the events, such as their smallest bounding circle. -/
theorem C186_disc (ext : Ext ℝ) (p : ℕ) (rows : List (List ℝ)) (w : Option (Win ℝ)) (names coordNames : Option (List String))
    (s : Obj ℝ) (h : construct p rows w names coordNames = .ok s) (v : List (ℝ × ℝ))
    (hv : ext.hull (locations p rows names coordNames) = .ok v) (hh : IsHullOf v (locations p rows names coordNames))
    (c : ℝ × ℝ) (r : ℝ) (hr : 0 ≤ r) (hdisc : ∀ e ∈ locations p rows names coordNames, planeSqDist c e ≤ r ^ 2)
    (ops : List (Op ℝ)) :
    ∃ a, (read ext .hullArea (run ext s ops)).1 = .ok (.num a) ∧ a ≤ Real.pi * r ^ 2 := by
  refine ⟨_, (C186_hull_area ext p rows w names coordNames s h v hv hh ops).1, ?_⟩
  apply le_of_forall_pos_le_add
  intro ε hε
  obtain ⟨δ, hδ, hle⟩ : ∃ δ > 0, Real.pi * (r + δ) ^ 2 ≤ Real.pi * r ^ 2 + ε := by
    have hpi := Real.pi_pos
    refine ⟨min 1 (ε / (Real.pi * (2 * r + 1))), lt_min one_pos (by positivity), ?_⟩
    set δ := min 1 (ε / (Real.pi * (2 * r + 1))) with hδ
    have h1 : δ ≤ 1 := min_le_left _ _
    have h0 : 0 < δ := lt_min one_pos (by positivity)
    have h2 : δ * (Real.pi * (2 * r + 1)) ≤ ε := by
      rw [← le_div_iff₀ (by positivity)]
      exact min_le_right _ _
    nlinarith [mul_nonneg (mul_nonneg hpi.le h0.le) (sub_nonneg.2 h1)]
  refine le_trans ?_ hle
  unfold areaOfConvexHull
  apply ENNReal.toReal_le_of_le_ofReal (by positivity)
  rw [← PairLaw.volume_disc c (by linarith : 0 ≤ r + δ)]
  apply measure_mono
  have hconv : Convex ℝ {q : ℝ × ℝ | (c.1 - q.1) ^ 2 + (c.2 - q.2) ^ 2 ≤ r ^ 2} := by
    intro x hx y hy a b ha hb hab
    simp only [Set.mem_ofPred_eq, Prod.fst_add, Prod.snd_add, Prod.smul_fst, Prod.smul_snd, smul_eq_mul] at hx hy ⊢
    have hb' : b = 1 - a := by linarith
    subst hb'
    nlinarith [mul_nonneg ha hb, sq_nonneg (x.1 - y.1), sq_nonneg (x.2 - y.2), mul_le_mul_of_nonneg_left hx ha,
      mul_le_mul_of_nonneg_left hy hb, mul_nonneg (mul_nonneg ha hb) (sq_nonneg (x.1 - y.1)),
      mul_nonneg (mul_nonneg ha hb) (sq_nonneg (x.2 - y.2))]
  intro q hq
  have := convexHull_min (t := {q : ℝ × ℝ | (c.1 - q.1) ^ 2 + (c.2 - q.2) ^ 2 ≤ r ^ 2}) (fun e he => by
    have := hdisc e he
    unfold planeSqDist at this
    simpa [Set.mem_ofPred_eq] using this) hconv hq
  rw [Set.mem_ofPred_eq] at this ⊢
  unfold PairLaw.planeDist
  rw [Real.sqrt_lt' (by linarith)]
  nlinarith

private noncomputable def halfSquare : Ext ℝ where
  hull pts := if pts.length = 3 then .ok [(0, 0), (2, 0), (2, 2)] else .ok [(0, 0), (2, 0), (2, 2), (0, 2)]
  nnd _ := .ok []

private def threeRows : List (List ℝ) := [[0, 0], [2, 0], [2, 2]]
private def fourRows : List (List ℝ) := [[0, 0], [2, 0], [2, 2], [0, 2]]

/-- The half of a square and the square. -/
example : ∃ s s' v v', construct 2 threeRows none none none = .ok s ∧ construct 2 fourRows none none none = .ok s'
    ∧ halfSquare.hull (locations 2 threeRows none none) = .ok v ∧ halfSquare.hull (locations 2 fourRows none none) = .ok v'
    ∧ IsHullOf v (locations 2 threeRows none none) ∧ IsHullOf v' (locations 2 fourRows none none)
    ∧ (∀ e ∈ locations 2 threeRows none none, e ∈ locations 2 fourRows none none)
    ∧ (∀ e ∈ locations 2 threeRows none none, planeSqDist (1, 1) e ≤ (3 / 2) ^ 2) := by
  have e3 : locations 2 threeRows none none = [((0 : ℝ), (0 : ℝ)), (2, 0), (2, 2)] := rfl
  have e4 : locations 2 fourRows none none = [((0 : ℝ), (0 : ℝ)), (2, 0), (2, 2), (0, 2)] := rfl
  rw [e3, e4]
  refine ⟨_, _, _, _, rfl, rfl, rfl, rfl, ?_, ?_, ?_, ?_⟩
  · refine ⟨by simp, by simp, ?_, fun e he => subset_convexHull ℝ _ he⟩
    intro i j k hij hjk hk
    simp only [List.length_cons, List.length_nil] at hk
    obtain ⟨rfl, rfl, rfl⟩ : i = 0 ∧ j = 1 ∧ k = 2 := by omega
    norm_num [clockwiseTurn]
  · refine ⟨by simp, by simp, ?_, fun e he => subset_convexHull ℝ _ he⟩
    intro i j k hij hjk hk
    simp only [List.length_cons, List.length_nil] at hk
    have : (i = 0 ∧ j = 1 ∧ k = 2) ∨ (i = 0 ∧ j = 1 ∧ k = 3) ∨ (i = 0 ∧ j = 2 ∧ k = 3) ∨ (i = 1 ∧ j = 2 ∧ k = 3) := by omega
    rcases this with ⟨rfl, rfl, rfl⟩ | ⟨rfl, rfl, rfl⟩ | ⟨rfl, rfl, rfl⟩ | ⟨rfl, rfl, rfl⟩ <;> norm_num [clockwiseTurn]
  · intro e he
    simp only [List.mem_cons, List.not_mem_nil, or_false] at he ⊢
    tauto
  · intro e he
    simp only [List.mem_cons, List.not_mem_nil, or_false] at he
    rcases he with rfl | rfl | rfl <;> norm_num [planeSqDist]

end Pointpats.Props
