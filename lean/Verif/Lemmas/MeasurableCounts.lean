import Verif.Model.QStatistic
import Mathlib.MeasureTheory.Constructions.BorelSpace.Order
import Mathlib.MeasureTheory.Constructions.BorelSpace.Real
import Mathlib.MeasureTheory.Function.Floor

/-!
# The quadrat counts of random points are random variables

Functions with countably many values: each value is taken on an event.
-/

set_option linter.unusedSectionVars false

namespace Pointpats.MeasurableCounts

open Quadrat MeasureTheory

variable {X β γ : Type} [MeasurableSpace X]

/-- Each value of the function is taken on an event. -/
def Disc (f : X → β) : Prop := ∀ c, MeasurableSet {x | f x = c}

theorem Disc.const (b : β) : Disc fun _ : X => b := fun c => MeasurableSet.const (b = c)

theorem Disc.bind [Countable β] {f : X → β} (hf : Disc f) {g : β → X → γ} (hg : ∀ b, Disc (g b)) : Disc fun x => g (f x) x := by
  intro c
  have : {x | g (f x) x = c} = ⋃ b, {x | f x = b} ∩ {x | g b x = c} := by
    ext x
    simp
  rw [this]
  exact .iUnion fun b => (hf b).inter (hg b c)

theorem Disc.comp [Countable β] {f : X → β} (hf : Disc f) (g : β → γ) : Disc fun x => g (f x) :=
  hf.bind (g := fun b _ => g b) fun _ => .const _

theorem Disc.ite {s : X → Prop} [DecidablePred s] (hs : MeasurableSet {x | s x}) {f g : X → β} (hf : Disc f) (hg : Disc g) :
    Disc fun x => if s x then f x else g x := by
  intro c
  have : {x | (if s x then f x else g x) = c} = ({x | s x} ∩ {x | f x = c}) ∪ ({x | s x}ᶜ ∩ {x | g x = c}) := by
    ext x
    by_cases h : s x <;> simp [h]
  rw [this]
  exact (hs.inter (hf c)).union (hs.compl.inter (hg c))

theorem Disc.floor {f : X → ℝ} (hf : Measurable f) : Disc fun x => ⌊f x⌋ := fun c =>
  (Int.measurable_floor.comp hf) (measurableSet_singleton c)

theorem Disc.ceil {f : X → ℝ} (hf : Measurable f) : Disc fun x => ⌈f x⌉ := fun c =>
  (Int.measurable_ceil.comp hf) (measurableSet_singleton c)

instance : Countable PyErr := by
  have : Function.Injective PyErr.ctorIdx := by
    intro a b h
    cases a <;> cases b <;> first | rfl | exact absurd h (by decide)
  exact this.countable

instance [Countable β] : Countable (Py β) := by
  have : Function.Injective (fun r : Py β => (match r with | .ok b => Sum.inl b | .error e => Sum.inr e : β ⊕ PyErr)) := by
    intro a b h
    cases a <;> cases b <;> simp_all
  exact this.countable

instance [Countable β] : Countable (XF β) := by
  have : Function.Injective (fun r : XF β => (match r with
      | .fin b => Sum.inl b | .pinf => Sum.inr 0 | .ninf => Sum.inr 1 | .nan => Sum.inr 2 : β ⊕ ℕ)) := by
    intro a b h
    cases a <;> cases b <;> simp_all
  exact this.countable

theorem Disc.pyBind [Countable β] {f : X → Py β} (hf : Disc f) {g : β → X → Py γ} (hg : ∀ b, Disc (g b)) :
    Disc fun x => f x >>= fun b => g b x := by
  refine hf.bind (g := fun r x => r >>= fun b => g b x) fun r => ?_
  cases r with
  | error e => exact Disc.const _
  | ok b => exact hg b

/-- Counting the points one by one. -/
theorem Disc.count {α : Type} {c : α → X → Py ℤ} (hc : ∀ a, Disc (c a)) (l : List α) : ∀ d0 : Dict,
    Disc fun x => l.foldlM (fun d a => c a x >>= fun k => Dict.incr k d) d0 := by
  induction l with
  | nil => intro d0; exact Disc.const _
  | cons a l ih =>
    intro d0
    simp only [List.foldlM_cons]
    exact ((hc a).comp fun r => r >>= fun k => Dict.incr k d0).pyBind ih

theorem measurable_listMin {a : X → ℝ} (ha : Measurable a) (fs : List (X → ℝ)) : (∀ f ∈ fs, Measurable f) →
    Measurable fun x => listMin (a x) (fs.map fun f => f x) := by
  induction fs generalizing a with
  | nil => intro _; exact ha
  | cons f fs ih =>
    intro h
    exact ih (a := fun x => min (a x) (f x)) (ha.min (h f (by simp))) fun g hg => h g (by simp [hg])

theorem measurable_listMax {a : X → ℝ} (ha : Measurable a) (fs : List (X → ℝ)) : (∀ f ∈ fs, Measurable f) →
    Measurable fun x => listMax (a x) (fs.map fun f => f x) := by
  induction fs generalizing a with
  | nil => intro _; exact ha
  | cons f fs ih =>
    intro h
    exact ih (a := fun x => max (a x) (f x)) (ha.max (h f (by simp))) fun g hg => h g (by simp [hg])

/-- A rounded quotient as a number of the countable set of integers and infinities. -/
private def widen : XF ℤ → XF ℝ
  | .fin k => .fin (k : ℝ)
  | .pinf => .pinf
  | .ninf => .ninf
  | .nan => .nan

private theorem floorDiv_disc {a r : X → ℝ} (ha : Measurable a) (hr : Measurable r) (c : ℝ) :
    ∃ k : X → XF ℤ, Disc k ∧ ∀ x, XF.floorDiv (.fin (a x)) (XF.div (.fin (r x)) (.fin c)) = widen (k x) := by
  by_cases hc : c = 0
  · refine ⟨fun x => if 0 < r x then .fin (if a x < 0 then -1 else 0) else if r x < 0 then .fin (if 0 < a x then -1 else 0)
      else .nan, ?_, ?_⟩
    · refine Disc.ite (measurableSet_lt measurable_const hr) ?_ (Disc.ite (measurableSet_lt hr measurable_const) ?_ (Disc.const _))
      · exact (Disc.ite (measurableSet_lt ha measurable_const) (Disc.const (-1)) (Disc.const (0 : ℤ))).comp XF.fin
      · exact (Disc.ite (measurableSet_lt measurable_const ha) (Disc.const (-1)) (Disc.const (0 : ℤ))).comp XF.fin
    · intro x
      simp only [XF.div, hc, if_true]
      by_cases h1 : 0 < r x
      · simp only [h1, if_true, XF.floorDiv, widen]
        split_ifs <;> simp
      · by_cases h2 : r x < 0
        · simp only [h1, h2, if_true, if_false, XF.floorDiv, widen]
          split_ifs <;> simp
        · simp only [h1, h2, if_false, XF.floorDiv, widen]
  · refine ⟨fun x => if r x / c = 0 then (if 0 < a x then .pinf else if a x < 0 then .ninf else .nan)
      else .fin ⌊a x / (r x / c)⌋, ?_, ?_⟩
    · refine Disc.ite ((hr.div_const c) (measurableSet_singleton 0))
        (Disc.ite (measurableSet_lt measurable_const ha) (Disc.const _)
          (Disc.ite (measurableSet_lt ha measurable_const) (Disc.const _) (Disc.const _))) ?_
      exact (Disc.floor (ha.div (hr.div_const c))).comp XF.fin
    · intro x
      simp only [XF.div, hc, if_false, XF.floorDiv]
      split_ifs <;> simp [widen]

/-- The counts of random points in a grid with given numbers of columns and rows. -/
private theorem rectangle_disc (nx ny : ℤ) (w h : ℝ) (hwh : w = 0 ∨ h = 0) (f : X → ℝ × ℝ) (fs : List (X → ℝ × ℝ))
    (hfs : ∀ g ∈ f :: fs, Measurable g) :
    Disc fun x => (RectangleM.init ((f :: fs).map fun g => g x) nx ny w h >>= fun m => m.pointLocationSta) := by
  have hf := hfs f (by simp)
  have h1 : ∀ g ∈ fs.map fun g x => (g x).1, Measurable g := by
    intro g hg
    obtain ⟨g', hg', rfl⟩ := List.mem_map.1 hg
    exact (hfs g' (by simp [hg'])).fst
  have h2 : ∀ g ∈ fs.map fun g x => (g x).2, Measurable g := by
    intro g hg
    obtain ⟨g', hg', rfl⟩ := List.mem_map.1 hg
    exact (hfs g' (by simp [hg'])).snd
  set b : X → BBox ℝ := fun x =>
    { xmin := listMin (f x).1 ((fs.map fun g x => (g x).1).map fun g => g x)
      ymin := listMin (f x).2 ((fs.map fun g x => (g x).2).map fun g => g x)
      xmax := listMax (f x).1 ((fs.map fun g x => (g x).1).map fun g => g x)
      ymax := listMax (f x).2 ((fs.map fun g x => (g x).2).map fun g => g x) } with hb
  have b1 : Measurable fun x => (b x).xmin := measurable_listMin hf.fst _ h1
  have b2 : Measurable fun x => (b x).ymin := measurable_listMin hf.snd _ h2
  have b3 : Measurable fun x => (b x).xmax := measurable_listMax hf.fst _ h1
  have b4 : Measurable fun x => (b x).ymax := measurable_listMax hf.snd _ h2
  set m : X → RectangleM ℝ := fun x =>
    { points := (f :: fs).map fun g => g x, mbb := b x, count_column := nx, count_row := ny,
      rectangle_width := XF.div (.fin ((b x).xmax - (b x).xmin)) (.fin (nx : ℝ)),
      rectangle_height := XF.div (.fin ((b x).ymax - (b x).ymin)) (.fin (ny : ℝ)), num := nx * ny } with hm
  have hinit : ∀ x, RectangleM.init ((f :: fs).map fun g => g x) nx ny w h = .ok (m x) := by
    intro x
    have hbx : computeMbb ((f :: fs).map fun g => g x) = .ok (b x) := by
      rw [hb]
      simp [computeMbb, Geometry.bboxPts, Function.comp_def]
    unfold RectangleM.init
    rw [hbx]
    change (if w ≠ 0 ∧ h ≠ 0 then _ else _) = _
    rw [if_neg (by tauto)]
    rfl
  have hcell : ∀ g : {g // g ∈ f :: fs}, Disc fun x => (m x).cellId (g.1 x) := by
    rintro ⟨g, hg⟩
    obtain ⟨kx, k1, k2⟩ := floorDiv_disc (a := fun x => (g x).1 - (b x).xmin) (r := fun x => (b x).xmax - (b x).xmin)
      ((hfs g hg).fst.sub b1) (b3.sub b1) (nx : ℝ)
    obtain ⟨ky, l1, l2⟩ := floorDiv_disc (a := fun x => (g x).2 - (b x).ymin) (r := fun x => (b x).ymax - (b x).ymin)
      ((hfs g hg).snd.sub b2) (b4.sub b2) (ny : ℝ)
    have : (fun x => (m x).cellId (g x)) = fun x => (do
        let iy ← (clampIndex (widen (ky x)) ny).toInt
        let ix ← (clampIndex (widen (kx x)) nx).toInt
        return iy * nx + ix : Py ℤ) := by
      funext x
      unfold RectangleM.cellId
      simp only [hm, k2, l2]
    rw [this]
    exact k1.bind (g := fun a x => (do
        let iy ← (clampIndex (widen (ky x)) ny).toInt
        let ix ← (clampIndex (widen a) nx).toInt
        return iy * nx + ix : Py ℤ)) fun a => l1.comp fun b => (do
        let iy ← (clampIndex (widen b) ny).toInt
        let ix ← (clampIndex (widen a) nx).toInt
        return iy * nx + ix : Py ℤ)
  have hz : ∀ x x', (m x).zeroDict = (m x').zeroDict := fun _ _ => rfl
  have key : ∀ d0, Disc fun x => ((f :: fs).attach.foldlM (fun d g => (m x).cellId (g.1 x) >>= fun k => Dict.incr k d) d0) :=
    fun d0 => Disc.count hcell _ d0
  have heq : ∀ x, (RectangleM.init ((f :: fs).map fun g => g x) nx ny w h >>= fun m => m.pointLocationSta)
      = (f :: fs).attach.foldlM (fun d g => (m x).cellId (g.1 x) >>= fun k => Dict.incr k d) (m x).zeroDict := by
    intro x
    rw [hinit]
    change (m x).pointLocationSta = _
    unfold RectangleM.pointLocationSta
    have hp : (m x).points = (f :: fs).attach.map fun g => g.1 x := by
      exact (List.attach_map_val (l := f :: fs) (f := fun g : X → ℝ × ℝ => g x)).symm
    rw [hp, List.foldlM_map]
  intro c
  rcases isEmpty_or_nonempty X with hX | ⟨⟨x0⟩⟩
  · rw [Set.eq_empty_of_isEmpty {x | _}]
    exact .empty
  · have := key (m x0).zeroDict c
    simp only [heq, hz _ x0]
    exact this

private theorem ceilDiv_disc {a : X → ℝ} (ha : Measurable a) (c : ℝ) : Disc fun x => XF.ceil (XF.div (.fin (a x)) (.fin c)) := by
  by_cases hc : c = 0
  · simp only [XF.div, hc, if_true]
    have : Disc fun x => if 0 < a x then XF.pinf else if a x < 0 then XF.ninf else (XF.nan : XF ℤ) :=
      Disc.ite (measurableSet_lt measurable_const ha) (Disc.const _)
        (Disc.ite (measurableSet_lt ha measurable_const) (Disc.const _) (Disc.const _))
    have := this.comp fun v => XF.ceil (widen v)
    convert this using 2 with x
    split_ifs <;> rfl
  · simp only [XF.div, hc, if_false, XF.ceil]
    exact (Disc.ceil (ha.div_const c)).comp Except.ok

private theorem truncInt_disc {a : X → ℝ} (ha : Measurable a) : Disc fun x => truncInt (a x) := by
  unfold truncInt
  exact Disc.ite (measurableSet_le measurable_const ha) (Disc.floor ha) (Disc.ceil ha)

private theorem measurable_hexIndicator {p : X → ℝ × ℝ} (hp : Measurable p) {cx cy : X → ℝ} (hx : Measurable cx) (hy : Measurable cy)
    (h sh : ℝ) : Measurable fun x => hexIndicator h sh (cx x) (cy x) (p x) := by
  unfold hexIndicator
  refine Measurable.ite (measurableSet_lt hy hp.snd) ?_ ?_
  · simp only
    have := hp.fst
    have := hp.snd
    fun_prop
  · simp only
    have := hp.fst
    have := hp.snd
    fun_prop

private theorem hexCell_disc {p : X → ℝ × ℝ} (hp : Measurable p) {m : X → HexagonM ℝ} (h1 : Measurable fun x => (m x).mbb.xmin)
    (h2 : Measurable fun x => (m x).mbb.ymin) (lh sh : ℝ) (cc : ℤ) (g1 : ∀ x, (m x).h_length = lh) (g2 : ∀ x, (m x).semi_height = sh)
    (g3 : ∀ x, (m x).count_column = cc) : Disc fun x => (m x).cellId (p x) := by
  have e1 : Disc fun x => ⌊((p x).1 - (m x).mbb.xmin) / (lh / 2)⌋ := Disc.floor ((hp.fst.sub h1).div_const _)
  have e2 : Disc fun x => truncInt (((p x).2 + sh - (m x).mbb.ymin) / (2 * sh)) :=
    truncInt_disc (((hp.snd.add_const _).sub h2).div_const _)
  have e3 : Disc fun x => truncInt (((p x).2 - (m x).mbb.ymin) / (2 * sh)) := truncInt_disc ((hp.snd.sub h2).div_const _)
  have key : Disc fun x => (m x).cellIndex (p x) := by
    unfold HexagonM.cellIndex
    simp only [g1, g2]
    refine e1.bind (g := fun intercept x => if intercept % 3 ≠ 1 then
        ((intercept + 1) / 3, if (intercept + 1) / 3 % 2 = 0 then truncInt (((p x).2 + sh - (m x).mbb.ymin) / (2 * sh))
          else truncInt (((p x).2 - (m x).mbb.ymin) / (2 * sh)))
      else if hexIndicator lh sh (((intercept / 3 : ℤ) : ℝ) * (lh / 2) * 3 + (m x).mbb.xmin)
          (if intercept / 3 % 2 = 0 then (truncInt (((p x).2 + sh - (m x).mbb.ymin) / (2 * sh)) : ℝ) * 2 * sh + (m x).mbb.ymin
            else ((truncInt (((p x).2 - (m x).mbb.ymin) / (2 * sh)) : ℝ) * 2 + 1) * sh + (m x).mbb.ymin) (p x) ≤ 0 then
        (intercept / 3 + 1, if (intercept / 3 + 1) % 2 = 0 then truncInt (((p x).2 + sh - (m x).mbb.ymin) / (2 * sh))
          else truncInt (((p x).2 - (m x).mbb.ymin) / (2 * sh)))
      else (intercept / 3, if intercept / 3 % 2 = 0 then truncInt (((p x).2 + sh - (m x).mbb.ymin) / (2 * sh))
          else truncInt (((p x).2 - (m x).mbb.ymin) / (2 * sh)))) fun intercept => ?_
    refine e2.bind (g := fun ye x => if intercept % 3 ≠ 1 then
        ((intercept + 1) / 3, if (intercept + 1) / 3 % 2 = 0 then ye
          else truncInt (((p x).2 - (m x).mbb.ymin) / (2 * sh)))
      else if hexIndicator lh sh (((intercept / 3 : ℤ) : ℝ) * (lh / 2) * 3 + (m x).mbb.xmin)
          (if intercept / 3 % 2 = 0 then (ye : ℝ) * 2 * sh + (m x).mbb.ymin
            else ((truncInt (((p x).2 - (m x).mbb.ymin) / (2 * sh)) : ℝ) * 2 + 1) * sh + (m x).mbb.ymin) (p x) ≤ 0 then
        (intercept / 3 + 1, if (intercept / 3 + 1) % 2 = 0 then ye
          else truncInt (((p x).2 - (m x).mbb.ymin) / (2 * sh)))
      else (intercept / 3, if intercept / 3 % 2 = 0 then ye
          else truncInt (((p x).2 - (m x).mbb.ymin) / (2 * sh)))) fun ye => ?_
    refine e3.bind (g := fun yo x => if intercept % 3 ≠ 1 then
        ((intercept + 1) / 3, if (intercept + 1) / 3 % 2 = 0 then ye else yo)
      else if hexIndicator lh sh (((intercept / 3 : ℤ) : ℝ) * (lh / 2) * 3 + (m x).mbb.xmin)
          (if intercept / 3 % 2 = 0 then (ye : ℝ) * 2 * sh + (m x).mbb.ymin
            else ((yo : ℝ) * 2 + 1) * sh + (m x).mbb.ymin) (p x) ≤ 0 then
        (intercept / 3 + 1, if (intercept / 3 + 1) % 2 = 0 then ye else yo)
      else (intercept / 3, if intercept / 3 % 2 = 0 then ye else yo)) fun yo => ?_
    refine Disc.ite (MeasurableSet.const _) (Disc.const _) (Disc.ite ?_ (Disc.const _) (Disc.const _))
    refine measurableSet_le (measurable_hexIndicator hp (h1.const_add _) ?_ lh sh) measurable_const
    split_ifs
    · exact h2.const_add _
    · exact h2.const_add _
  unfold HexagonM.cellId
  simp only [g3]
  exact key.comp fun i => i.1 + i.2 * cc

/-- The bounding box of random points. -/
private noncomputable def boxOf (f : X → ℝ × ℝ) (fs : List (X → ℝ × ℝ)) (x : X) : BBox ℝ :=
  { xmin := listMin (f x).1 ((fs.map fun g x => (g x).1).map fun g => g x)
    ymin := listMin (f x).2 ((fs.map fun g x => (g x).2).map fun g => g x)
    xmax := listMax (f x).1 ((fs.map fun g x => (g x).1).map fun g => g x)
    ymax := listMax (f x).2 ((fs.map fun g x => (g x).2).map fun g => g x) }

private theorem boxOf_eq (f : X → ℝ × ℝ) (fs : List (X → ℝ × ℝ)) (x : X) :
    computeMbb ((f :: fs).map fun g => g x) = .ok (boxOf f fs x) := by
  simp [computeMbb, Geometry.bboxPts, boxOf, Function.comp_def]

private noncomputable def hexState (cos30 lh : ℝ) (pts : List (ℝ × ℝ)) (b : BBox ℝ) (cc ce co : ℤ) : HexagonM ℝ :=
  { points := pts, mbb := b, h_length := lh, semi_height := lh * cos30, count_column := cc,
    count_row_even := ce, count_row_odd := co, num := co * (cc / 2 + cc % 2) + ce * (cc / 2) }

private theorem hexagon_eq (cos30 lh : ℝ) (pts : List (ℝ × ℝ)) (b : BBox ℝ) (hb : computeMbb pts = .ok b) :
    (HexagonM.init cos30 pts lh >>= fun m => m.pointLocationSta)
      = (hexCountColumn lh (b.xmax - b.xmin) >>= fun cc => hexCountRowEven (lh * cos30) (b.ymax - b.ymin) >>=
          fun ce => hexCountRowOdd (lh * cos30) (b.ymax - b.ymin) >>= fun co =>
          pts.foldlM (fun d p => (.ok ((hexState cos30 lh pts b cc ce co).cellId p) : Py ℤ) >>= fun k => Dict.incr k d)
            (hexState cos30 lh [] ⟨0, 0, 0, 0⟩ cc ce co).zeroDict) := by
  unfold HexagonM.init
  rw [hb]
  change ((hexCountColumn lh (b.xmax - b.xmin) >>= fun cc => hexCountRowEven (lh * cos30) (b.ymax - b.ymin) >>=
      fun ce => hexCountRowOdd (lh * cos30) (b.ymax - b.ymin) >>= fun co =>
        (Except.ok (hexState cos30 lh pts b cc ce co) : Py (HexagonM ℝ))) >>= fun m => m.pointLocationSta) = _
  generalize hexCountColumn lh (b.xmax - b.xmin) = r1
  generalize hexCountRowEven (lh * cos30) (b.ymax - b.ymin) = r2
  generalize hexCountRowOdd (lh * cos30) (b.ymax - b.ymin) = r3
  rcases r1 with e | cc
  · rfl
  rcases r2 with e | ce
  · rfl
  rcases r3 with e | co
  · rfl
  rfl

private theorem hexagon_disc (cos30 lh : ℝ) (f : X → ℝ × ℝ) (fs : List (X → ℝ × ℝ)) (hfs : ∀ g ∈ f :: fs, Measurable g) :
    Disc fun x => (HexagonM.init cos30 ((f :: fs).map fun g => g x) lh >>= fun m => m.pointLocationSta) := by
  have hf := hfs f (by simp)
  have h1 : ∀ g ∈ fs.map fun g x => (g x).1, Measurable g := by
    intro g hg
    obtain ⟨g', hg', rfl⟩ := List.mem_map.1 hg
    exact (hfs g' (by simp [hg'])).fst
  have h2 : ∀ g ∈ fs.map fun g x => (g x).2, Measurable g := by
    intro g hg
    obtain ⟨g', hg', rfl⟩ := List.mem_map.1 hg
    exact (hfs g' (by simp [hg'])).snd
  have hbx := boxOf_eq f fs
  obtain ⟨b, hb⟩ : ∃ b, b = boxOf f fs := ⟨_, rfl⟩
  have b1 : Measurable fun x => (b x).xmin := by rw [hb]; exact measurable_listMin hf.fst _ h1
  have b2 : Measurable fun x => (b x).ymin := by rw [hb]; exact measurable_listMin hf.snd _ h2
  have b3 : Measurable fun x => (b x).xmax := by rw [hb]; exact measurable_listMax hf.fst _ h1
  have b4 : Measurable fun x => (b x).ymax := by rw [hb]; exact measurable_listMax hf.snd _ h2
  rw [← hb] at hbx
  clear hb h1 h2
  have hrx : Measurable fun x => (b x).xmax - (b x).xmin := b3.sub b1
  have hry : Measurable fun x => (b x).ymax - (b x).ymin := b4.sub b2
  have c1 : Disc fun x => hexCountColumn lh ((b x).xmax - (b x).xmin) := by
    unfold hexCountColumn
    exact Disc.ite (measurableSet_lt measurable_const hrx)
      ((ceilDiv_disc (hrx.sub_const _) _).comp fun r => r.map fun temp => 1 + temp) (Disc.const _)
  have c2 : Disc fun x => hexCountRowEven (lh * cos30) ((b x).ymax - (b x).ymin) := by
    unfold hexCountRowEven
    exact Disc.ite (measurableSet_lt measurable_const hry)
      ((ceilDiv_disc (hry.sub_const _) _).comp fun r => r.map fun temp => 1 + temp) (Disc.const _)
  have c3 : Disc fun x => hexCountRowOdd (lh * cos30) ((b x).ymax - (b x).ymin) := ceilDiv_disc hry _
  have heq := fun x => hexagon_eq cos30 lh _ (b x) (hbx x)
  simp only [heq]
  refine c1.pyBind (g := fun cc x => _) fun cc => ?_
  refine c2.pyBind (g := fun ce x => _) fun ce => ?_
  refine c3.pyBind (g := fun co x => _) fun co => ?_
  have hcell : ∀ g : {g // g ∈ f :: fs}, Disc fun x =>
      (.ok ((hexState cos30 lh ((f :: fs).map fun g => g x) (b x) cc ce co).cellId (g.1 x)) : Py ℤ) := by
    rintro ⟨g, hg⟩
    exact (hexCell_disc (m := fun x => hexState cos30 lh ((f :: fs).map fun g => g x) (b x) cc ce co) (hfs g hg) b1 b2 lh
      (lh * cos30) cc (fun _ => rfl) (fun _ => rfl) fun _ => rfl).comp Except.ok
  have := Disc.count hcell (f :: fs).attach (hexState cos30 lh [] ⟨0, 0, 0, 0⟩ cc ce co).zeroDict
  convert this using 2 with x
  rw [← List.foldlM_map (f := fun g : {g // g ∈ f :: fs} => g.1 x)
    (g := fun d p => (.ok ((hexState cos30 lh ((f :: fs).map fun g => g x) (b x) cc ce co).cellId p) : Py ℤ) >>= fun k => Dict.incr k d)]
  congr 1
  exact (List.attach_map_val (l := f :: fs) (f := fun g : X → ℝ × ℝ => g x)).symm

/-- The counts, or that there are none. -/
noncomputable def countsOf (cos30 : ℝ) (grid : GridArg ℝ) (pat : List (ℝ × ℝ)) : Py Dict :=
  (gridCounts cos30 pat grid).map Prod.fst

/-- The quadrat counts of random points: each result is an event. -/
theorem counts_disc (cos30 : ℝ) (grid : GridArg ℝ) (hgrid : (∃ nx ny w h, grid = .rectangle nx ny w h ∧ (w = 0 ∨ h = 0))
    ∨ ∃ lh, grid = .hexagon lh) (fs : List (X → ℝ × ℝ)) (hfs : ∀ g ∈ fs, Measurable g) :
    Disc fun x => countsOf cos30 grid (fs.map fun g => g x) := by
  unfold countsOf
  rcases hgrid with ⟨nx, ny, w, h, rfl, hwh⟩ | ⟨lh, rfl⟩
  · cases fs with
    | nil => exact Disc.const _
    | cons f fs =>
      have := rectangle_disc nx ny w h hwh f fs hfs
      convert this using 2 with x
      unfold gridCounts
      simp only
      cases RectangleM.init ((f :: fs).map fun g => g x) nx ny w h with
      | error e => rfl
      | ok m =>
        change (m.pointLocationSta >>= fun d => _).map Prod.fst = m.pointLocationSta
        cases m.pointLocationSta <;> rfl
  · cases fs with
    | nil => exact Disc.const _
    | cons f fs =>
      have := hexagon_disc cos30 lh f fs hfs
      convert this using 2 with x
      unfold gridCounts
      simp only
      cases HexagonM.init cos30 ((f :: fs).map fun g => g x) lh with
      | error e => rfl
      | ok m =>
        change (m.pointLocationSta >>= fun d => _).map Prod.fst = m.pointLocationSta
        cases m.pointLocationSta <;> rfl

end Pointpats.MeasurableCounts
