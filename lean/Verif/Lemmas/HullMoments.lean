import Verif.Lemmas.HullVolume
import Mathlib.MeasureTheory.Constructions.Polish.Basic

/-!
# The first moments of a convex polygon
-/

set_option linter.unusedSectionVars false

namespace Pointpats.HullMoments

open Pointpats.Spec Pointpats.Props Pointpats.HullVolume MeasureTheory

/-- The moment of the fan of triangles around `p`. -/
noncomputable def fanMoment (f : ℝ × ℝ → ℝ) (p : ℝ × ℝ) : List (ℝ × ℝ) → ℝ
  | q :: r :: l => leftTurn p q r * (f p + f q + f r) + fanMoment f p (r :: l)
  | _ => 0

/-- The affine map that takes `a` to `b`, `b` to `c` and `c` to `a`. -/
noncomputable def turnOver (a b c x : ℝ × ℝ) : ℝ × ℝ :=
  (leftTurn b c x / leftTurn a b c) • b + (leftTurn c a x / leftTurn a b c) • c + (leftTurn a b x / leftTurn a b c) • a

theorem turnOver_bary {a b c : ℝ × ℝ} (hd : 0 < leftTurn a b c) (x : ℝ × ℝ) :
    leftTurn b c (turnOver a b c x) = leftTurn a b x ∧ leftTurn c a (turnOver a b c x) = leftTurn b c x ∧
    leftTurn a b (turnOver a b c x) = leftTurn c a x := by
  have hs : ∀ x, leftTurn a b x = leftTurn a b c - leftTurn b c x - leftTurn c a x := by
    intro x; unfold leftTurn; ring
  have key : ∀ (p q : ℝ × ℝ) (s t u : ℝ), s + t + u = 1 →
      leftTurn p q (s • b + t • c + u • a) = s * leftTurn p q b + t * leftTurn p q c + u * leftTurn p q a := by
    intro p q s t u h
    have : u = 1 - s - t := by linarith
    subst this
    simp only [leftTurn, Prod.fst_add, Prod.snd_add, Prod.smul_fst, Prod.smul_snd, smul_eq_mul]
    ring
  have hsum : leftTurn b c x / leftTurn a b c + leftTurn c a x / leftTurn a b c + leftTurn a b x / leftTurn a b c = 1 := by
    rw [← add_div, ← add_div, div_eq_one_iff_eq hd.ne', hs x]
    ring
  have z1 : ∀ p q : ℝ × ℝ, leftTurn p q p = 0 := fun p q => by unfold leftTurn; ring
  have z2 : ∀ p q : ℝ × ℝ, leftTurn p q q = 0 := fun p q => by unfold leftTurn; ring
  have c1 : leftTurn b c a = leftTurn a b c := leftTurn_cycle a b c
  have c2 : leftTurn c a b = leftTurn a b c := by unfold leftTurn; ring
  unfold turnOver
  refine ⟨?_, ?_, ?_⟩
  · rw [key _ _ _ _ _ hsum, z1, z2, c1, mul_zero, mul_zero, zero_add, zero_add, div_mul_cancel₀ _ hd.ne']
  · rw [key _ _ _ _ _ hsum, z1, z2, c2, mul_zero, mul_zero, add_zero, add_zero, div_mul_cancel₀ _ hd.ne']
  · rw [key _ _ _ _ _ hsum, z1, z2, mul_zero, mul_zero, zero_add, add_zero, div_mul_cancel₀ _ hd.ne']

theorem bary_eq {a b c : ℝ × ℝ} (hd : 0 < leftTurn a b c) (x : ℝ × ℝ) :
    x = (leftTurn b c x / leftTurn a b c) • a + (leftTurn c a x / leftTurn a b c) • b + (leftTurn a b x / leftTurn a b c) • c := by
  ext
  · simp only [Prod.fst_add, Prod.smul_fst, smul_eq_mul]
    field_simp
    unfold leftTurn; ring
  · simp only [Prod.snd_add, Prod.smul_snd, smul_eq_mul]
    field_simp
    unfold leftTurn; ring

theorem turnOver_twice {a b c : ℝ × ℝ} (hd : 0 < leftTurn a b c) (x : ℝ × ℝ) : turnOver a b c (turnOver a b c x)
    = (leftTurn a b x / leftTurn a b c) • b + (leftTurn b c x / leftTurn a b c) • c + (leftTurn c a x / leftTurn a b c) • a := by
  obtain ⟨h1, h2, h3⟩ := turnOver_bary hd x
  have : ∀ y, turnOver a b c y
      = (leftTurn b c y / leftTurn a b c) • b + (leftTurn c a y / leftTurn a b c) • c + (leftTurn a b y / leftTurn a b c) • a := fun _ => rfl
  rw [this (turnOver a b c x), h1, h2, h3]

theorem turnOver_thrice {a b c : ℝ × ℝ} (hd : 0 < leftTurn a b c) (x : ℝ × ℝ) :
    turnOver a b c (turnOver a b c (turnOver a b c x)) = x := by
  obtain ⟨h1, h2, h3⟩ := turnOver_bary hd x
  rw [turnOver_twice hd, h1, h2, h3]
  conv_rhs => rw [bary_eq hd x]
  abel

theorem turnOver_sum {a b c : ℝ × ℝ} (hd : 0 < leftTurn a b c) (x : ℝ × ℝ) :
    x + turnOver a b c x + turnOver a b c (turnOver a b c x) = a + b + c := by
  have hsum : leftTurn b c x / leftTurn a b c + leftTurn c a x / leftTurn a b c + leftTurn a b x / leftTurn a b c = 1 := by
    rw [← add_div, ← add_div, div_eq_one_iff_eq hd.ne']
    unfold leftTurn; ring
  have hx := bary_eq hd x
  rw [turnOver_twice hd]
  unfold turnOver
  generalize leftTurn b c x / leftTurn a b c = s at hsum hx ⊢
  generalize leftTurn c a x / leftTurn a b c = t at hsum hx ⊢
  generalize leftTurn a b x / leftTurn a b c = u at hsum hx ⊢
  have : u = 1 - s - t := by linarith
  subst this
  rw [hx]
  ext <;> simp only [Prod.fst_add, Prod.snd_add, Prod.smul_fst, Prod.smul_snd, smul_eq_mul] <;> ring

theorem triangle_eq {a b c : ℝ × ℝ} (hd : 0 < leftTurn a b c) :
    convexHull ℝ {a, b, c} = {x | 0 ≤ leftTurn b c x ∧ 0 ≤ leftTurn c a x ∧ 0 ≤ leftTurn a b x} := by
  apply Set.Subset.antisymm
  · intro x hx
    have hin : ∀ p q : ℝ × ℝ, (0 ≤ leftTurn p q a) → (0 ≤ leftTurn p q b) → (0 ≤ leftTurn p q c) → 0 ≤ leftTurn p q x := by
      intro p q h1 h2 h3
      refine convexHull_min ?_ (convex_left p q) hx
      rintro y (rfl | rfl | rfl) <;> assumption
    have z1 : ∀ p q : ℝ × ℝ, leftTurn p q p = 0 := fun p q => by unfold leftTurn; ring
    have z2 : ∀ p q : ℝ × ℝ, leftTurn p q q = 0 := fun p q => by unfold leftTurn; ring
    exact ⟨hin b c (by rw [leftTurn_cycle]; exact hd.le) (z1 _ _).ge (z2 _ _).ge,
      hin c a (z2 _ _).ge (by rw [← leftTurn_cycle]; exact hd.le) (z1 _ _).ge, hin a b (z1 _ _).ge (z2 _ _).ge hd.le⟩
  · rintro x ⟨h1, h2, h3⟩
    exact mem_triangle hd h1 h2 h3

theorem turnOver_affine {a b c : ℝ × ℝ} (hd : 0 < leftTurn a b c) : ∃ u w t : ℝ × ℝ,
    u.1 * w.2 - w.1 * u.2 = 1 ∧ turnOver a b c = fun x => t + columns u w x := by
  refine ⟨((-(c.2 - b.2) * b.1 - (a.2 - c.2) * c.1 - (b.2 - a.2) * a.1) / leftTurn a b c,
      (-(c.2 - b.2) * b.2 - (a.2 - c.2) * c.2 - (b.2 - a.2) * a.2) / leftTurn a b c),
    (((c.1 - b.1) * b.1 + (a.1 - c.1) * c.1 + (b.1 - a.1) * a.1) / leftTurn a b c,
      ((c.1 - b.1) * b.2 + (a.1 - c.1) * c.2 + (b.1 - a.1) * a.2) / leftTurn a b c), turnOver a b c 0, ?_, ?_⟩
  · simp only
    field_simp
    unfold leftTurn; ring
  · funext x
    rw [columns_apply]
    unfold turnOver
    ext
    · simp only [Prod.fst_add, Prod.smul_fst, smul_eq_mul]
      field_simp
      simp only [leftTurn, Prod.fst_zero, Prod.snd_zero]; ring
    · simp only [Prod.snd_add, Prod.smul_snd, smul_eq_mul]
      field_simp
      simp only [leftTurn, Prod.fst_zero, Prod.snd_zero]; ring

theorem turnOver_preserving {a b c : ℝ × ℝ} (hd : 0 < leftTurn a b c) :
    MeasurePreserving (turnOver a b c) volume volume ∧ MeasurableEmbedding (turnOver a b c) := by
  obtain ⟨u, w, t, hdet, e⟩ := turnOver_affine hd
  have hcont : Continuous (turnOver a b c) := by
    unfold turnOver leftTurn
    fun_prop
  refine ⟨?_, hcont.measurableEmbedding ?_⟩
  · have hdet' : LinearMap.det (columns u w) = 1 := by rw [columns_det, hdet]
    have h1 : MeasurePreserving (columns u w) (volume : Measure (ℝ × ℝ)) volume := by
      refine ⟨(LinearMap.continuous_of_finiteDimensional _).measurable, ?_⟩
      rw [Measure.map_linearMap_addHaar_eq_smul_addHaar _ (by rw [hdet']; exact one_ne_zero), hdet']
      simp
    have h2 : MeasurePreserving (fun x : ℝ × ℝ => t + x) volume volume := measurePreserving_add_left volume t
    rw [e]
    exact h2.comp h1
  · intro x y h
    rw [← turnOver_thrice hd x, ← turnOver_thrice hd y, h]

theorem integral_triangle {a b c : ℝ × ℝ} (hd : 0 < leftTurn a b c) (f : ℝ × ℝ → ℝ) (hf : f = Prod.fst ∨ f = Prod.snd) :
    ∫ x in convexHull ℝ {a, b, c}, f x = leftTurn a b c * (f a + f b + f c) / 6 := by
  obtain ⟨hp, he⟩ := turnOver_preserving hd
  have hadd : ∀ x y, f (x + y) = f x + f y := by rcases hf with rfl | rfl <;> intros <;> rfl
  have hfc : Continuous f := by rcases hf with rfl | rfl <;> fun_prop
  have hcont : Continuous (turnOver a b c) := by
    unfold turnOver leftTurn
    fun_prop
  have hpre : turnOver a b c ⁻¹' convexHull ℝ {a, b, c} = convexHull ℝ {a, b, c} := by
    rw [triangle_eq hd]
    ext x
    obtain ⟨h1, h2, h3⟩ := turnOver_bary hd x
    simp only [Set.mem_preimage, Set.mem_ofPred_eq, h1, h2, h3]
    tauto
  have hcomp : IsCompact (convexHull ℝ {a, b, c}) := (Set.toFinite {a, b, c}).isCompact_convexHull ℝ
  have hshift : ∀ g : ℝ × ℝ → ℝ, ∫ x in convexHull ℝ {a, b, c}, g (turnOver a b c x) = ∫ x in convexHull ℝ {a, b, c}, g x := by
    intro g
    have := hp.setIntegral_preimage_emb he g (convexHull ℝ {a, b, c})
    rwa [hpre] at this
  have s1 := hshift f
  have s2 := hshift fun x => f (turnOver a b c x)
  have hi : ∀ g : ℝ × ℝ → ℝ, Continuous g → IntegrableOn g (convexHull ℝ {a, b, c}) volume := fun g hg =>
    hg.continuousOn.integrableOn_compact hcomp
  have i0 := hi f hfc
  have i1 := hi (fun x => f (turnOver a b c x)) (hfc.comp hcont)
  have i2 := hi (fun x => f (turnOver a b c (turnOver a b c x))) (hfc.comp (hcont.comp hcont))
  have hsum : ∫ x in convexHull ℝ {a, b, c}, (f x + f (turnOver a b c x) + f (turnOver a b c (turnOver a b c x)))
      = (f a + f b + f c) * (leftTurn a b c / 2) := by
    have : ∀ x, f x + f (turnOver a b c x) + f (turnOver a b c (turnOver a b c x)) = f a + f b + f c := by
      intro x
      rw [← hadd, ← hadd, turnOver_sum hd, hadd, hadd]
    simp_rw [this]
    rw [setIntegral_const, smul_eq_mul, Measure.real, volume_triangle hd, ENNReal.toReal_ofReal (by positivity)]
    ring
  have a1 := integral_add (i0.add i1) i2
  have a2 := integral_add i0 i1
  simp only [Pi.add_apply] at a1
  rw [a1, a2] at hsum
  linarith

theorem integral_fan (f : ℝ × ℝ → ℝ) (hf : f = Prod.fst ∨ f = Prod.snd) (p : ℝ × ℝ) : ∀ (q r : ℝ × ℝ) (l : List (ℝ × ℝ)),
    (∀ a b c, [a, b, c].Sublist (p :: q :: r :: l) → 0 < leftTurn a b c) →
    ∫ x in convexHull ℝ {x | x ∈ p :: q :: r :: l}, f x = fanMoment f p (q :: r :: l) / 6
  | q, r, [], h => by
    have e : {x | x ∈ [p, q, r]} = ({p, q, r} : Set (ℝ × ℝ)) := by ext x; simp
    rw [e, integral_triangle (h p q r (List.Sublist.refl _)) f hf]
    simp [fanMoment]
  | q, r, t :: l, h => by
    have ih := integral_fan f hf p r t l fun a b c hs => h a b c (by
      exact hs.trans ((List.sublist_cons_self q _).cons_cons p))
    have hfc : Continuous f := by rcases hf with rfl | rfl <;> fun_prop
    have hd := h p q r (by simp)
    have e : {x | x ∈ p :: q :: r :: t :: l} = insert q {x | x ∈ p :: r :: t :: l} := by
      ext x
      simp only [Set.mem_ofPred_eq, List.mem_cons, Set.mem_insert_iff]
      tauto
    have g1 : ∀ y ∈ {x | x ∈ p :: r :: t :: l}, 0 ≤ leftTurn p r y := by
      intro y hy
      rcases List.mem_cons.1 hy with rfl | hy
      · exact le_of_eq (by unfold leftTurn; ring)
      rcases List.mem_cons.1 hy with rfl | hy
      · exact le_of_eq (by unfold leftTurn; ring)
      exact (h p r y (((List.singleton_sublist.2 hy).cons_cons r).cons q |>.cons_cons p)).le
    have g2 : ∀ y ∈ {x | x ∈ p :: r :: t :: l}, 0 ≤ leftTurn p q y := by
      intro y hy
      rcases List.mem_cons.1 hy with rfl | hy
      · exact le_of_eq (by unfold leftTurn; ring)
      exact (h p q y (((List.singleton_sublist.2 hy).cons_cons q).cons_cons p)).le
    have g3 : ∀ y ∈ {x | x ∈ p :: r :: t :: l}, 0 ≤ leftTurn q r y := by
      intro y hy
      rcases List.mem_cons.1 hy with rfl | hy
      · rw [leftTurn_cycle]; exact hd.le
      rcases List.mem_cons.1 hy with rfl | hy
      · exact le_of_eq (by unfold leftTurn; ring)
      exact (h q r y (((List.singleton_sublist.2 hy).cons_cons r).cons_cons q |>.cons p)).le
    have hcs := (List.finite_toSet (p :: r :: t :: l)).isCompact_convexHull ℝ
    rw [e, hull_cut (s := {x | x ∈ p :: r :: t :: l}) (p := p) (r := r) (by simp) (by simp) hd g1 g2 g3, setIntegral_union₀, ih,
      integral_triangle hd f hf]
    · simp only [fanMoment]
      ring
    · have hpr : p ≠ r := by
        rintro rfl
        have : leftTurn p q p = 0 := by unfold leftTurn; ring
        linarith
      refine measure_mono_null ?_ (volume_line hpr)
      rintro x ⟨hx1, hx2⟩
      have k1 : 0 ≤ leftTurn p r x := convexHull_min g1 (convex_left p r) hx2
      have k2 : 0 ≤ leftTurn r p x := by
        refine convexHull_min ?_ (convex_left r p) hx1
        rintro y (rfl | rfl | rfl) <;> rw [Set.mem_ofPred_eq]
        · exact le_of_eq (by unfold leftTurn; ring)
        · unfold leftTurn at hd ⊢; linarith
        · exact le_of_eq (by unfold leftTurn; ring)
      rw [leftTurn_swap] at k2
      exact le_antisymm (by linarith) k1
    · exact hcs.isClosed.measurableSet.nullMeasurableSet
    · exact hfc.continuousOn.integrableOn_compact ((Set.toFinite {p, q, r}).isCompact_convexHull ℝ)
    · exact hfc.continuousOn.integrableOn_compact hcs

end Pointpats.HullMoments
