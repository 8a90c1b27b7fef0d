import Verif.Props.PointPattern
import Mathlib.MeasureTheory.Measure.Lebesgue.Basic
import Mathlib.MeasureTheory.Constructions.BorelSpace.Real

/-!
# C146: the intensity over a window with several parts and with holes
-/

set_option linter.unusedSectionVars false

namespace Pointpats.Props

open MeasureTheory PointPattern

/-- The points of a closed box. -/
def boxPoints (b : BBox ℝ) : Set (ℝ × ℝ) := Set.Icc b.xmin b.xmax ×ˢ Set.Icc b.ymin b.ymax

/-- The points of a box off its border. -/
def boxInside (b : BBox ℝ) : Set (ℝ × ℝ) := Set.Ioo b.xmin b.xmax ×ˢ Set.Ioo b.ymin b.ymax

/-- The corners of a box, in order around it. -/
def boxCorners (b : BBox ℝ) : List (ℝ × ℝ) :=
  [(b.xmin, b.ymin), (b.xmin, b.ymax), (b.xmax, b.ymax), (b.xmax, b.ymin)]

/-- A closed ring around a box, from any corner and in either direction. -/
def IsRingAround (b : BBox ℝ) (r : List (ℝ × ℝ)) : Prop :=
  ∃ (k : Fin 4) (back : Bool) (l : List (ℝ × ℝ)),
    l = (if back then (boxCorners b).reverse else boxCorners b).rotate k ∧ r = l ++ l.head?.toList

private theorem ring_area {b : BBox ℝ} (hx : b.xmin ≤ b.xmax) (hy : b.ymin ≤ b.ymax) {r : List (ℝ × ℝ)}
    (hr : IsRingAround b r) : |Window.ringSum r| / 2 = (b.xmax - b.xmin) * (b.ymax - b.ymin) := by
  obtain ⟨k, back, l, rfl, rfl⟩ := hr
  have hp : 0 ≤ (b.xmax - b.xmin) * (b.ymax - b.ymin) := mul_nonneg (by linarith) (by linarith)
  fin_cases k <;> cases back <;>
    simp only [boxCorners, List.reverse_cons, List.reverse_nil, List.nil_append, List.cons_append, if_true,
      Bool.false_eq_true, if_false, List.rotate_cons_succ, List.rotate_zero, List.head?_cons, Option.toList_some,
      Window.ringSum, add_zero] <;>
    first
    | (rw [abs_of_nonneg (by nlinarith)]; ring)
    | (rw [abs_of_nonpos (by nlinarith)]; ring)

private theorem volume_box {b : BBox ℝ} (hx : b.xmin ≤ b.xmax) :
    volume (boxPoints b) = ENNReal.ofReal ((b.xmax - b.xmin) * (b.ymax - b.ymin)) := by
  rw [boxPoints, Measure.volume_eq_prod, Measure.prod_prod, Real.volume_Icc, Real.volume_Icc,
    ENNReal.ofReal_mul (by linarith)]

private theorem aedisjoint_of_inside {b c : BBox ℝ} (h : Disjoint (boxInside b) (boxInside c)) :
    AEDisjoint (volume : Measure (ℝ × ℝ)) (boxPoints b) (boxPoints c) := by
  have e : ∀ d : BBox ℝ, boxInside d =ᵐ[volume] boxPoints d := fun d => by
    rw [Measure.volume_eq_prod]
    exact Measure.set_prod_ae_eq Ioo_ae_eq_Icc Ioo_ae_eq_Icc
  exact h.aedisjoint.congr (e b).symm (e c).symm

private theorem volume_boxes {l : List (BBox ℝ)} (hp : ∀ b ∈ l, b.xmin ≤ b.xmax ∧ b.ymin ≤ b.ymax)
    (hd : l.Pairwise fun b c => Disjoint (boxInside b) (boxInside c)) :
    volume (⋃ b ∈ l, boxPoints b) = ENNReal.ofReal (l.map fun b => (b.xmax - b.xmin) * (b.ymax - b.ymin)).sum := by
  induction l with
  | nil => simp
  | cons b l ih =>
    rw [List.pairwise_cons] at hd
    have hb := hp b (by simp)
    have hl : ∀ c ∈ l, c.xmin ≤ c.xmax ∧ c.ymin ≤ c.ymax := fun c hc => hp c (by simp [hc])
    have hu : (⋃ c ∈ b :: l, boxPoints c) = boxPoints b ∪ ⋃ c ∈ l, boxPoints c := by
      ext x; simp
    have hm : ∀ c : BBox ℝ, MeasurableSet (boxPoints c) := fun c => measurableSet_Icc.prod measurableSet_Icc
    have hdis : AEDisjoint (volume : Measure (ℝ × ℝ)) (boxPoints b) (⋃ c ∈ l, boxPoints c) := by
      have hc : ({c | c ∈ l} : Set (BBox ℝ)).Countable := (List.finite_toSet l).countable
      show volume (boxPoints b ∩ _) = 0
      rw [Set.inter_iUnion₂]
      exact (measure_biUnion_null_iff hc).2 fun c hcl => aedisjoint_of_inside (hd.1 c hcl)
    have hml : MeasurableSet (⋃ c ∈ l, boxPoints c) :=
      Set.Finite.measurableSet_biUnion (List.finite_toSet l) fun c _ => hm c
    rw [hu, measure_union₀ hml.nullMeasurableSet hdis,
      ih hl hd.2, volume_box hb.1, List.map_cons, List.sum_cons, ENNReal.ofReal_add]
    · exact mul_nonneg (by linarith) (by linarith)
    · refine List.sum_nonneg fun x hx => ?_
      obtain ⟨c, hc, rfl⟩ := List.mem_map.1 hx
      have := hl c hc
      exact mul_nonneg (by linarith) (by linarith)

/-- What a window of boxes covers: the parts without the holes. -/
def coveredBy (parts holes : List (BBox ℝ)) : Set (ℝ × ℝ) :=
  (⋃ b ∈ parts, boxPoints b) \ ⋃ b ∈ holes, boxPoints b

private theorem sum_rings : ∀ {bs : List (BBox ℝ)} {rs : List (List (ℝ × ℝ))},
    (∀ b ∈ bs, b.xmin ≤ b.xmax ∧ b.ymin ≤ b.ymax) → List.Forall₂ IsRingAround bs rs →
    (rs.map fun r => |Window.ringSum r| / 2).sum = (bs.map fun b => (b.xmax - b.xmin) * (b.ymax - b.ymin)).sum := by
  intro bs rs hp h
  induction h with
  | nil => rfl
  | cons hr _ ih =>
    rw [List.map_cons, List.sum_cons, List.map_cons, List.sum_cons,
      ring_area (hp _ (by simp)).1 (hp _ (by simp)).2 hr, ih fun b hb => hp b (by simp [hb])]

/-- **C146.** A pattern is given a window of several boxes with box shaped holes: the boxes do not overlap (they may touch),
the holes do not overlap, and each hole lies in a box. Their rings may start at any corner and have either direction. Then
`lambda_window` is the number of points divided by the area (Lebesgue measure) of what the window covers, the holes left out;
the same holds when the window is passed through `as_window`. -/
theorem C146_holes (ext : Ext ℝ) (p : ℕ) (rows : List (List ℝ)) (names coordNames : Option (List String))
    (parts holes : List (BBox ℝ)) (partRings holeRings : List (List (ℝ × ℝ)))
    (hparts : List.Forall₂ IsRingAround parts partRings) (hholes : List.Forall₂ IsRingAround holes holeRings)
    (hp : ∀ b ∈ parts ++ holes, b.xmin ≤ b.xmax ∧ b.ymin ≤ b.ymax)
    (hpd : parts.Pairwise fun b c => Disjoint (boxInside b) (boxInside c))
    (hhd : holes.Pairwise fun b c => Disjoint (boxInside b) (boxInside c))
    (hin : ∀ b ∈ holes, ∃ c ∈ parts, boxPoints b ⊆ boxPoints c)
    (w : Poly ℝ) (hw : w = Window.mk partRings holeRings ∨ w = Window.asWindow (Window.mk partRings holeRings))
    (s0 : Obj ℝ) (h0 : construct p rows (some (.window w)) names coordNames = .ok s0) :
    (read ext .lambdaWindow s0).1
      = .ok (.xnum (XF.div (.fin (rows.length : ℝ)) (.fin (volume (coveredBy parts holes)).toReal))) := by
  have hlp : ∀ b ∈ parts, b.xmin ≤ b.xmax ∧ b.ymin ≤ b.ymax := fun b hb => hp b (by simp [hb])
  have hlh : ∀ b ∈ holes, b.xmin ≤ b.xmax ∧ b.ymin ≤ b.ymax := fun b hb => hp b (by simp [hb])
  have hne : ∀ r ∈ holeRings, r ≠ [] := by
    have : ∀ {bs : List (BBox ℝ)} {rs : List (List (ℝ × ℝ))}, List.Forall₂ IsRingAround bs rs → ∀ r ∈ rs, r ≠ [] := by
      intro bs rs h
      induction h with
      | nil => simp
      | cons hr _ ih =>
        intro r hm
        rcases List.mem_cons.1 hm with rfl | hm
        · obtain ⟨k, back, l, rfl, rfl⟩ := hr
          intro h
          have := congrArg List.length h
          cases back <;> simp [boxCorners] at this
        · exact ih r hm
    exact this hholes
  have harea : Window.area w = (volume (coveredBy parts holes)).toReal := by
    have e1 : Window.area w = (parts.map fun b => (b.xmax - b.xmin) * (b.ymax - b.ymin)).sum
        - (holes.map fun b => (b.xmax - b.xmin) * (b.ymax - b.ymin)).sum := by
      rw [← sum_rings hlp hparts, ← sum_rings hlh hholes]
      have hmk : Window.area (Window.mk partRings holeRings) = (partRings.map fun r => |Window.ringSum r| / 2).sum
          - (holeRings.map fun r => |Window.ringSum r| / 2).sum := by
        unfold Window.mk
        split_ifs with h
        · rfl
        · rw [not_not] at h; subst h; simp [Window.area, Window.ringSum]
      rcases hw with rfl | rfl
      · exact hmk
      · rw [← hmk]
        cases holeRings with
        | nil => simp [Window.mk, Window.asWindow]
        | cons r rs =>
          have : r ≠ [] := hne r (by simp)
          simp [Window.mk, Window.asWindow, this]
    have hm : ∀ l : List (BBox ℝ), MeasurableSet (⋃ b ∈ l, boxPoints b) := fun l =>
      Set.Finite.measurableSet_biUnion (List.finite_toSet l) fun c _ => measurableSet_Icc.prod measurableSet_Icc
    have hsub : (⋃ b ∈ holes, boxPoints b) ⊆ ⋃ b ∈ parts, boxPoints b := by
      intro x hx
      simp only [Set.mem_iUnion, exists_prop] at hx ⊢
      obtain ⟨b, hb, hxb⟩ := hx
      obtain ⟨c, hc, hbc⟩ := hin b hb
      exact ⟨c, hc, hbc hxb⟩
    have hn : ∀ l : List (BBox ℝ), (∀ b ∈ l, b.xmin ≤ b.xmax ∧ b.ymin ≤ b.ymax) →
        0 ≤ (l.map fun b => (b.xmax - b.xmin) * (b.ymax - b.ymin)).sum := fun l hl => by
      refine List.sum_nonneg fun x hx => ?_
      obtain ⟨c, hc, rfl⟩ := List.mem_map.1 hx
      have := hl c hc
      exact mul_nonneg (by linarith) (by linarith)
    have hvh := volume_boxes hlh hhd
    have hvp := volume_boxes hlp hpd
    have hle : (holes.map fun b => (b.xmax - b.xmin) * (b.ymax - b.ymin)).sum
        ≤ (parts.map fun b => (b.xmax - b.xmin) * (b.ymax - b.ymin)).sum := by
      have := measure_mono (μ := (volume : Measure (ℝ × ℝ))) hsub
      rwa [hvh, hvp, ENNReal.ofReal_le_ofReal_iff (hn _ hlp)] at this
    rw [coveredBy, measure_sdiff hsub (hm holes).nullMeasurableSet (by rw [hvh]; exact ENNReal.ofReal_ne_top), hvh, hvp,
      ← ENNReal.ofReal_sub _ (hn _ hlh), ENNReal.toReal_ofReal (by linarith), e1]
  have hwin : s0.window = some (.window w) := by
    unfold construct at h0
    split at h0
    · split_ifs at h0
      rename_i x y _ _
      simp only [bind, Except.bind] at h0
      split at h0
      · cases h0
      · split at h0
        · cases h0
        · simp only [Except.ok.injEq] at h0; subst h0; rfl
    · cases h0
  have hr : (read ext .window (run ext s0 ([] ++ []))).1 = .ok (.win (.window w)) := by
    simp [run, PointPattern.read, mapM', getWindow, hwin]
  have := C02_lambda_window_partial ext p rows _ names coordNames s0 h0 [] [] (by simp) (by simp) w hr
  rw [harea] at this
  simpa [run] using this

/-- Two touching boxes, one of them with a hole. -/
example : ∃ s0 : Obj ℝ, construct 2 [[0, 0], [3, 1]]
      (some (.window (Window.mk [[(0, 0), (0, 2), (2, 2), (2, 0), (0, 0)], [(2, 0), (4, 0), (4, 2), (2, 2), (2, 0)]]
        [[(1/2, 1/2), (1/2, 1), (1, 1), (1, 1/2), (1/2, 1/2)]]))) none none = .ok s0
    ∧ List.Forall₂ IsRingAround [⟨0, 0, 2, 2⟩, ⟨2, 0, 4, 2⟩]
        [[(0, 0), (0, 2), (2, 2), (2, 0), (0, 0)], [(2, 0), (4, 0), (4, 2), (2, 2), (2, 0)]]
    ∧ List.Forall₂ IsRingAround [⟨1/2, 1/2, 1, 1⟩] [[(1/2, 1/2), (1/2, 1), (1, 1), (1, 1/2), (1/2, 1/2)]]
    ∧ [(⟨0, 0, 2, 2⟩ : BBox ℝ), ⟨2, 0, 4, 2⟩].Pairwise (fun b c => Disjoint (boxInside b) (boxInside c))
    ∧ ∀ b ∈ [(⟨1/2, 1/2, 1, 1⟩ : BBox ℝ)], ∃ c ∈ [(⟨0, 0, 2, 2⟩ : BBox ℝ), ⟨2, 0, 4, 2⟩], boxPoints b ⊆ boxPoints c := by
  refine ⟨_, rfl, ?_, ?_, ?_, ?_⟩
  · exact .cons ⟨0, false, _, rfl, rfl⟩ (.cons ⟨3, true, _, rfl, rfl⟩ .nil)
  · exact .cons ⟨0, false, _, rfl, rfl⟩ .nil
  · simp only [List.pairwise_cons, List.mem_cons, List.not_mem_nil, or_false, forall_eq, false_imp_iff, implies_true,
      List.Pairwise.nil, and_true]
    rw [Set.disjoint_left]
    rintro ⟨x, y⟩ h1 h2
    simp only [boxInside, Set.mem_prod, Set.mem_Ioo] at h1 h2
    linarith [h1.1.2, h2.1.1]
  · intro b hb
    rw [List.mem_singleton] at hb; subst hb
    refine ⟨⟨0, 0, 2, 2⟩, by simp, ?_⟩
    rintro ⟨x, y⟩ h
    simp only [boxPoints, Set.mem_prod, Set.mem_Icc] at h ⊢
    refine ⟨⟨by linarith [h.1.1], by linarith [h.1.2]⟩, by linarith [h.2.1], by linarith [h.2.2]⟩

end Pointpats.Props
