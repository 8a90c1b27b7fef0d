import Verif.Props.RegionSets
import Verif.Props.WindowArea

/-!
# C188: the intensity over a window of convex polygons
-/

set_option linter.unusedSectionVars false

namespace Pointpats.Props

open Pointpats.Spec MeasureTheory PointPattern

/-- The points of the convex polygon with the given corners. -/
def polygonPoints (corners : List (ℝ × ℝ)) : Set (ℝ × ℝ) := convexHull ℝ {x | x ∈ corners}

/-- A closed ring around a convex polygon, whose corners are listed counter-clockwise from any of them; the ring may have either
direction. -/
def IsRingAroundPolygon (corners r : List (ℝ × ℝ)) : Prop :=
  IsHullRing corners corners ∧ (r = corners ++ corners.head?.toList ∨ r = (corners ++ corners.head?.toList).reverse)

private theorem ringSum_cross : ∀ (a : ℝ × ℝ) (l : List (ℝ × ℝ)) (e : ℝ × ℝ), (a :: l).getLast? = some e →
    Window.ringSum (a :: l) = crossPath (a :: l) + (e.1 * e.2 - a.1 * a.2)
  | a, [], e, he => by
    simp only [List.getLast?_singleton, Option.some.injEq] at he
    subst he
    simp [Window.ringSum, crossPath]
  | a, b :: l, e, he => by
    have := ringSum_cross b l e (by simpa using he)
    simp only [Window.ringSum, crossPath, this]
    ring

private theorem ringSum_snoc (a b : ℝ × ℝ) : ∀ l : List (ℝ × ℝ),
    Window.ringSum (l ++ [b, a]) = Window.ringSum (l ++ [b]) + (a.1 + b.1) * (a.2 - b.2)
  | [] => by simp [Window.ringSum]
  | [c] => by simp [Window.ringSum]
  | c :: d :: l => by
    have := ringSum_snoc a b (d :: l)
    simp only [List.cons_append, Window.ringSum] at this ⊢
    rw [this]
    ring

private theorem ringSum_reverse : ∀ l : List (ℝ × ℝ), Window.ringSum l.reverse = -Window.ringSum l
  | [] => by simp [Window.ringSum]
  | [a] => by simp [Window.ringSum]
  | a :: b :: l => by
    have := ringSum_reverse (b :: l)
    rw [List.reverse_cons] at this
    rw [List.reverse_cons, List.reverse_cons, List.append_assoc, List.cons_append, List.nil_append, ringSum_snoc, this]
    simp only [Window.ringSum]
    ring

private theorem polygon_area {P r : List (ℝ × ℝ)} (h : IsRingAroundPolygon P r) :
    |Window.ringSum r| / 2 = (volume (polygonPoints P)).toReal := by
  obtain ⟨hP, hr⟩ := h
  have hpos := shoelace_pos hP.three hP.sublists
  have hv : (volume (polygonPoints P)).toReal = shoelace P := by
    rw [polygonPoints, HullVolume.volume_ring hP.three hP.sublists, ENNReal.toReal_ofReal hpos.le]
  have key : |Window.ringSum r| = |Window.ringSum (P ++ P.head?.toList)| := by
    rcases hr with rfl | rfl
    · rfl
    · rw [ringSum_reverse, abs_neg]
  rw [key, hv]
  rcases P with _ | ⟨p, l⟩
  · simpa using hP.three
  · rw [List.head?_cons, Option.toList_some, List.cons_append, ringSum_cross p (l ++ [p]) p
      (by rw [← List.cons_append]; exact List.getLast?_concat), sub_self, add_zero, ← List.cons_append]
    have e := shoelace_path p l
    have : crossPath (p :: l ++ [p]) = 2 * shoelace (p :: l) := by rw [e]; ring
    rw [this, abs_of_pos (by linarith)]
    ring

private theorem polygon_measurable (P : List (ℝ × ℝ)) : MeasurableSet (polygonPoints P) :=
  ((List.finite_toSet P).isCompact_convexHull ℝ).isClosed.measurableSet

private theorem polygon_finite (P : List (ℝ × ℝ)) : volume (polygonPoints P) ≠ ⊤ :=
  ((List.finite_toSet P).isCompact_convexHull ℝ).measure_lt_top.ne

private theorem polygons_aedisjoint {P Q : List (ℝ × ℝ)}
    (h : Disjoint (interior (polygonPoints P)) (interior (polygonPoints Q))) :
    AEDisjoint (volume : Measure (ℝ × ℝ)) (polygonPoints P) (polygonPoints Q) := by
  have e : ∀ R : List (ℝ × ℝ), interior (polygonPoints R) =ᵐ[volume] polygonPoints R := fun R =>
    interior_ae_eq_of_null_frontier ((convex_convexHull ℝ {x | x ∈ R}).addHaar_frontier volume)
  exact h.aedisjoint.congr (e P).symm (e Q).symm

private theorem volume_polygons {l : List (List (ℝ × ℝ))}
    (hd : l.Pairwise fun P Q => Disjoint (interior (polygonPoints P)) (interior (polygonPoints Q))) :
    volume (⋃ P ∈ l, polygonPoints P) = ENNReal.ofReal (l.map fun P => (volume (polygonPoints P)).toReal).sum := by
  induction l with
  | nil => simp
  | cons b l ih =>
    rw [List.pairwise_cons] at hd
    have hu : (⋃ c ∈ b :: l, polygonPoints c) = polygonPoints b ∪ ⋃ c ∈ l, polygonPoints c := by
      ext x; simp
    have hdis : AEDisjoint (volume : Measure (ℝ × ℝ)) (polygonPoints b) (⋃ c ∈ l, polygonPoints c) := by
      have hc : ({c | c ∈ l} : Set (List (ℝ × ℝ))).Countable := (List.finite_toSet l).countable
      show volume (polygonPoints b ∩ _) = 0
      rw [Set.inter_iUnion₂]
      exact (measure_biUnion_null_iff hc).2 fun c hcl => polygons_aedisjoint (hd.1 c hcl)
    have hml : MeasurableSet (⋃ c ∈ l, polygonPoints c) :=
      Set.Finite.measurableSet_biUnion (List.finite_toSet l) fun c _ => polygon_measurable c
    rw [hu, measure_union₀ hml.nullMeasurableSet hdis, ih hd.2, List.map_cons, List.sum_cons,
      ENNReal.ofReal_add ENNReal.toReal_nonneg, ENNReal.ofReal_toReal (polygon_finite b)]
    refine List.sum_nonneg fun x hx => ?_
    obtain ⟨c, hc, rfl⟩ := List.mem_map.1 hx
    exact ENNReal.toReal_nonneg

/-- What a window of convex polygons covers: the parts without the holes. -/
def coveredByPolygons (parts holes : List (List (ℝ × ℝ))) : Set (ℝ × ℝ) :=
  (⋃ P ∈ parts, polygonPoints P) \ ⋃ P ∈ holes, polygonPoints P

private theorem sum_polygons : ∀ {ps rs : List (List (ℝ × ℝ))}, List.Forall₂ IsRingAroundPolygon ps rs →
    (rs.map fun r => |Window.ringSum r| / 2).sum = (ps.map fun P => (volume (polygonPoints P)).toReal).sum := by
  intro ps rs h
  induction h with
  | nil => rfl
  | cons hr _ ih => rw [List.map_cons, List.sum_cons, List.map_cons, List.sum_cons, polygon_area hr, ih]

private theorem polygon_rings_ne {ps rs : List (List (ℝ × ℝ))} (h : List.Forall₂ IsRingAroundPolygon ps rs) : ∀ r ∈ rs, r ≠ [] := by
  induction h with
  | nil => simp
  | @cons P r ps rs hr _ ih =>
    intro r' hm
    rcases List.mem_cons.1 hm with rfl | hm
    · obtain ⟨hP, hr⟩ := hr
      have h3 := hP.three
      rintro rfl
      rcases hr with hr | hr
      · have := congrArg List.length hr; simp at this; omega
      · have := congrArg List.length hr; simp at this; omega
    · exact ih r' hm

/-- **C188.** A pattern is given a window of several convex polygons with convex holes: the polygons do not overlap (they may touch),
the holes do not overlap, and each hole lies in a polygon. Their rings may start at any corner and have either direction. Then
`lambda_window` is the number of points divided by the area (Lebesgue measure) of what the window covers, the holes left out;
the same holds when the window is passed through `as_window`. -/
theorem C188_window (ext : Ext ℝ) (p : ℕ) (rows : List (List ℝ)) (names coordNames : Option (List String))
    (parts holes partRings holeRings : List (List (ℝ × ℝ)))
    (hparts : List.Forall₂ IsRingAroundPolygon parts partRings) (hholes : List.Forall₂ IsRingAroundPolygon holes holeRings)
    (hpd : parts.Pairwise fun P Q => Disjoint (interior (polygonPoints P)) (interior (polygonPoints Q)))
    (hhd : holes.Pairwise fun P Q => Disjoint (interior (polygonPoints P)) (interior (polygonPoints Q)))
    (hin : ∀ P ∈ holes, ∃ Q ∈ parts, polygonPoints P ⊆ polygonPoints Q)
    (w : Poly ℝ) (hw : w = Window.mk partRings holeRings ∨ w = Window.asWindow (Window.mk partRings holeRings))
    (s0 : Obj ℝ) (h0 : construct p rows (some (.window w)) names coordNames = .ok s0) :
    (read ext .lambdaWindow s0).1
      = .ok (.xnum (XF.div (.fin (rows.length : ℝ)) (.fin (volume (coveredByPolygons parts holes)).toReal))) := by
  have hne := polygon_rings_ne hholes
  have harea : Window.area w = (volume (coveredByPolygons parts holes)).toReal := by
    have e1 : Window.area w = (parts.map fun P => (volume (polygonPoints P)).toReal).sum
        - (holes.map fun P => (volume (polygonPoints P)).toReal).sum := by
      rw [← sum_polygons hparts, ← sum_polygons hholes]
      have hmk : Window.area (Window.mk partRings holeRings) = (partRings.map fun r => |Window.ringSum r| / 2).sum
          - (holeRings.map fun r => |Window.ringSum r| / 2).sum := by
        unfold Window.mk
        split_ifs with h
        · rfl
        · rw [not_not] at h; subst h; simp [Window.area, Window.ringSum]
      rcases hw with rfl | rfl
      · exact hmk
      · rw [← hmk]
        cases holeRings with
        | nil => simp [Window.mk, Window.asWindow]
        | cons r rs =>
          have : r ≠ [] := hne r (by simp)
          simp [Window.mk, Window.asWindow, this]
    have hm : ∀ l : List (List (ℝ × ℝ)), MeasurableSet (⋃ P ∈ l, polygonPoints P) := fun l =>
      Set.Finite.measurableSet_biUnion (List.finite_toSet l) fun c _ => polygon_measurable c
    have hsub : (⋃ P ∈ holes, polygonPoints P) ⊆ ⋃ P ∈ parts, polygonPoints P := by
      intro x hx
      simp only [Set.mem_iUnion, exists_prop] at hx ⊢
      obtain ⟨b, hb, hxb⟩ := hx
      obtain ⟨c, hc, hbc⟩ := hin b hb
      exact ⟨c, hc, hbc hxb⟩
    have hn : ∀ l : List (List (ℝ × ℝ)), 0 ≤ (l.map fun P => (volume (polygonPoints P)).toReal).sum := fun l => by
      refine List.sum_nonneg fun x hx => ?_
      obtain ⟨c, hc, rfl⟩ := List.mem_map.1 hx
      exact ENNReal.toReal_nonneg
    have hvh := volume_polygons hhd
    have hvp := volume_polygons hpd
    have hle : (holes.map fun P => (volume (polygonPoints P)).toReal).sum
        ≤ (parts.map fun P => (volume (polygonPoints P)).toReal).sum := by
      have := measure_mono (μ := (volume : Measure (ℝ × ℝ))) hsub
      rwa [hvh, hvp, ENNReal.ofReal_le_ofReal_iff (hn _)] at this
    rw [coveredByPolygons, measure_sdiff hsub (hm holes).nullMeasurableSet (by rw [hvh]; exact ENNReal.ofReal_ne_top), hvh, hvp,
      ← ENNReal.ofReal_sub _ (hn _), ENNReal.toReal_ofReal (by linarith), e1]
  have hwin : s0.window = some (.window w) := by
    unfold construct at h0
    split at h0
    · split_ifs at h0
      rename_i x y _ _
      simp only [bind, Except.bind] at h0
      split at h0
      · cases h0
      · split at h0
        · cases h0
        · simp only [Except.ok.injEq] at h0; subst h0; rfl
    · cases h0
  have hr : (read ext .window (run ext s0 ([] ++ []))).1 = .ok (.win (.window w)) := by
    simp [run, PointPattern.read, mapM', getWindow, hwin]
  have := C02_lambda_window_partial ext p rows _ names coordNames s0 h0 [] [] (by simp) (by simp) w hr
  rw [harea] at this
  simpa [run] using this

/-- **C188, convex windows.** When the window is a convex polygon that holds the events, the intensity over the window is positive and
at most the intensity over the hull. -/
theorem C188_convex_window (ext : Ext ℝ) (p : ℕ) (rows : List (List ℝ)) (names coordNames : Option (List String))
    (corners ring : List (ℝ × ℝ)) (hring : IsRingAroundPolygon corners ring)
    (w : Poly ℝ) (hw : w = Window.mk [ring] [] ∨ w = Window.asWindow (Window.mk [ring] []))
    (s : Obj ℝ) (h : construct p rows (some (.window w)) names coordNames = .ok s)
    (hin : ∀ e ∈ locations p rows names coordNames, e ∈ polygonPoints corners)
    (v : List (ℝ × ℝ)) (hv : ext.hull (locations p rows names coordNames) = .ok v)
    (hh : IsHullOf v (locations p rows names coordNames)) :
    ∃ x y, (read ext .lambdaHull s).1 = .ok (.xnum (.fin x)) ∧ (read ext .lambdaWindow s).1 = .ok (.xnum (.fin y))
      ∧ 0 < y ∧ y ≤ x := by
  obtain ⟨-, hpos, hl⟩ := C186_hull_area ext p rows (some (.window w)) names coordNames s h v hv hh []
  have hwin := C188_window ext p rows names coordNames [corners] [] [ring] [] (.cons hring .nil) .nil (by simp) (by simp)
    (by simp) w hw s h
  have hcov : coveredByPolygons [corners] [] = polygonPoints corners := by simp [coveredByPolygons]
  rw [hcov] at hwin
  have hle : areaOfConvexHull (locations p rows names coordNames) ≤ (volume (polygonPoints corners)).toReal :=
    ENNReal.toReal_mono (polygon_finite corners) (measure_mono (convexHull_min hin (convex_convexHull ℝ _)))
  have hlen : rows.length = (locations p rows names coordNames).length := by
    have := C01_attributes_history_independent ext p rows (some (.window w)) names coordNames s h [] .n _ rfl
    simp [locations]
  have hn : (0 : ℝ) < ((locations p rows names coordNames).length : ℝ) := by
    rw [Nat.cast_pos, List.length_pos_iff]
    have h3 := hh.three
    have hne : v ≠ [] := by rintro rfl; simp at h3
    obtain ⟨x, hx⟩ := List.exists_mem_of_ne_nil v hne
    exact List.ne_nil_of_mem (hh.sub x hx)
  rw [hlen] at hwin
  simp only [XF.div, if_neg (hpos.trans_le hle).ne'] at hwin
  exact ⟨_, _, hl, hwin, div_pos hn (hpos.trans_le hle), div_le_div_of_nonneg_left hn.le hpos hle⟩

private noncomputable def cornerHull : Ext ℝ where
  hull _ := .ok [(0, 0), (2, 0), (0, 2)]
  nnd _ := .ok []

/-- A triangle listed clockwise as the window of events that span a smaller one. -/
example : IsRingAroundPolygon [(0, 0), (4, 0), (0, 4)] [((0 : ℝ), (0 : ℝ)), (0, 4), (4, 0), (0, 0)]
    ∧ (∃ s, construct 2 [[0, 0], [2, 0], [0, 2]] (some (.window (Window.mk [[((0 : ℝ), (0 : ℝ)), (0, 4), (4, 0), (0, 0)]] [])))
        none none = .ok s)
    ∧ (∀ e ∈ locations 2 [[(0 : ℝ), 0], [2, 0], [0, 2]] none none, e ∈ polygonPoints [(0, 0), (4, 0), (0, 4)])
    ∧ cornerHull.hull (locations 2 [[(0 : ℝ), 0], [2, 0], [0, 2]] none none) = .ok [(0, 0), (2, 0), (0, 2)]
    ∧ IsHullOf [(0, 0), (2, 0), (0, 2)] (locations 2 [[(0 : ℝ), 0], [2, 0], [0, 2]] none none) := by
  have e3 : locations 2 [[(0 : ℝ), 0], [2, 0], [0, 2]] none none = [((0 : ℝ), (0 : ℝ)), (2, 0), (0, 2)] := rfl
  rw [e3]
  refine ⟨⟨⟨by simp, by simp, ?_⟩, .inr (by simp)⟩, ⟨_, rfl⟩, ?_, rfl, ⟨by simp, by simp, ?_, fun e he => subset_convexHull ℝ _ he⟩⟩
  · intro i j k hij hjk hk
    simp only [List.length_cons, List.length_nil] at hk
    obtain ⟨rfl, rfl, rfl⟩ : i = 0 ∧ j = 1 ∧ k = 2 := by omega
    norm_num [leftTurn]
  · have h0 : ((0 : ℝ), (0 : ℝ)) ∈ polygonPoints [(0, 0), (4, 0), (0, 4)] := subset_convexHull ℝ _ (by simp)
    have h1 : ((4 : ℝ), (0 : ℝ)) ∈ polygonPoints [(0, 0), (4, 0), (0, 4)] := subset_convexHull ℝ _ (by simp)
    have h2 : ((0 : ℝ), (4 : ℝ)) ∈ polygonPoints [(0, 0), (4, 0), (0, 4)] := subset_convexHull ℝ _ (by simp)
    intro e he
    simp only [List.mem_cons, List.not_mem_nil, or_false] at he
    rcases he with rfl | rfl | rfl
    · exact h0
    · have := convex_convexHull ℝ {x | x ∈ [((0 : ℝ), (0 : ℝ)), (4, 0), (0, 4)]} h0 h1
        (by norm_num : (0 : ℝ) ≤ 1 / 2) (by norm_num : (0 : ℝ) ≤ 1 / 2) (by norm_num)
      have e : (1 / 2 : ℝ) • ((0 : ℝ), (0 : ℝ)) + (1 / 2 : ℝ) • ((4 : ℝ), (0 : ℝ)) = (2, 0) := by norm_num
      rw [e] at this
      exact this
    · have := convex_convexHull ℝ {x | x ∈ [((0 : ℝ), (0 : ℝ)), (4, 0), (0, 4)]} h0 h2
        (by norm_num : (0 : ℝ) ≤ 1 / 2) (by norm_num : (0 : ℝ) ≤ 1 / 2) (by norm_num)
      have e : (1 / 2 : ℝ) • ((0 : ℝ), (0 : ℝ)) + (1 / 2 : ℝ) • ((0 : ℝ), (4 : ℝ)) = (0, 2) := by norm_num
      rw [e] at this
      exact this
  · intro i j k hij hjk hk
    simp only [List.length_cons, List.length_nil] at hk
    obtain ⟨rfl, rfl, rfl⟩ : i = 0 ∧ j = 1 ∧ k = 2 := by omega
    norm_num [clockwiseTurn]

end Pointpats.Props
