import Verif.Props.RegionSets
import Verif.Lemmas.HullMoments

/-!
# The direction of a ring (C114) and the centroid of a region (C189)
-/

set_option linter.unusedSectionVars false

namespace Pointpats.Props

open Pointpats.Spec Pointpats.Geometry Pointpats.HullVolume Pointpats.HullMoments

section Direction

variable {K : Type} [Field K] [LinearOrder K] [IsStrictOrderedRing K]

private theorem edges_reverse (v : List (K × K)) : (edges v.reverse).Perm ((edges v).map Prod.swap) := by
  rcases v.eq_nil_or_concat with rfl | ⟨_, _, hv⟩
  · simp [edges]
  have hpos : 0 < v.length := by rw [hv]; simp
  have h1 : (v.reverse.rotate 1).reverse = v.rotate (v.length - 1 % v.length) := by
    rw [List.reverse_rotate, List.reverse_reverse, List.length_reverse]
  have h2 : (v.rotate (v.length - 1 % v.length)).rotate 1 = v := by
    rw [List.rotate_rotate]
    rcases Nat.lt_or_ge 1 v.length with h | h
    · rw [Nat.mod_eq_of_lt h, Nat.sub_add_cancel hpos, List.rotate_length]
    · have : v.length = 1 := by omega
      rw [← List.rotate_mod, this]
      simp
  unfold edges
  rw [List.zip_swap]
  refine (List.reverse_perm _).symm.trans ?_
  rw [List.zip, List.reverse_zipWith (by simp), List.reverse_reverse, h1]
  refine (List.rotate_perm _ 1).symm.trans ?_
  rw [List.zipWith_rotate_distrib _ _ _ _ (by simp), h2]

/-- **C114, the direction.** Area, bounding box, membership and centroid of a `ConvexHull` and of a `Polygon` do not depend on the
direction in which the vertices are listed. -/
theorem C114_direction (v : List (K × K)) (make : List (K × K) → Region K)
    (hmake : make = Region.convexHull ∨ make = Region.polygon) :
    (make v.reverse).area = (make v).area ∧ (make v.reverse).bounds = (make v).bounds ∧
    (∀ x y, (make v.reverse).contains x y = (make v).contains x y) ∧
    (make v.reverse).centroid = (make v).centroid := by
  have hp := edges_reverse v
  have hv : v.reverse.Perm v := List.reverse_perm v
  have hcross : ((edges v.reverse).map cross).sum = -((edges v).map cross).sum := by
    rw [(hp.map cross).sum_eq, List.map_map, List.sum_neg, List.map_map]
    congr 1
    apply List.map_congr_left
    intro e _
    simp only [Function.comp, cross, Prod.swap]
    ring
  have harea : ringAreaAbs v.reverse = ringAreaAbs v := by
    unfold ringAreaAbs
    rw [hcross, neg_div, abs_neg]
  have hside : ∀ (e : (K × K) × (K × K)) (x y : K), side e.swap x y = -side e x y := by
    intro e x y
    simp only [side, Prod.swap]
    ring
  have hall : ∀ P : (K × K) × (K × K) → Bool, (edges v.reverse).all P = (edges v).all fun e => P e.swap := by
    intro P
    rw [List.Perm.all_eq hp, List.all_map]
    rfl
  rcases hmake with rfl | rfl
  · refine ⟨harea, bboxPts_perm hv, fun x y => ?_, ?_⟩
    · simp only [Region.contains, hall, hside, Left.nonneg_neg_iff, Left.neg_nonpos_iff]
      exact Bool.or_comm _ _
    · simp only [Region.centroid]
      cases hw : v.reverse with
      | nil =>
        rw [hw] at hv
        rw [List.nil_perm.1 hv]
      | cons a l =>
        rw [hw] at hv
        cases v with
        | nil => exact absurd hv (by simp)
        | cons a' l' =>
          simp only [centroidArr]
          rw [(hv.map Prod.fst).sum_eq, (hv.map Prod.snd).sum_eq, hv.length_eq]
  · refine ⟨harea, bboxPts_perm hv, fun x y => ?_, ?_⟩
    · simp only [Region.contains, hall, hside, Left.neg_pos_iff, Left.neg_neg_iff]
      exact Bool.or_comm _ _
    · have hm : ∀ f : K × K → K, ((edges v.reverse).map fun e => (f e.1 + f e.2) * cross e).sum
          = -((edges v).map fun e => (f e.1 + f e.2) * cross e).sum := by
        intro f
        rw [(hp.map _).sum_eq, List.map_map, List.sum_neg, List.map_map]
        congr 1
        apply List.map_congr_left
        intro e _
        simp only [Function.comp, cross, Prod.swap]
        ring
      have m1 := hm Prod.fst
      have m2 := hm Prod.snd
      simp only [Region.centroid, ringCentroid]
      rw [hcross, m1, m2, mul_neg, neg_div_neg_eq, neg_div_neg_eq]

end Direction

/-! ### The centroid -/

/-- The moment of a path. -/
private noncomputable def pathMoment (f : ℝ × ℝ → ℝ) : List (ℝ × ℝ) → ℝ
  | a :: b :: l => (f a + f b) * (a.1 * b.2 - b.1 * a.2) + pathMoment f (b :: l)
  | _ => 0

private theorem moment_edges (f : ℝ × ℝ → ℝ) (p : ℝ × ℝ) : ∀ (a : ℝ × ℝ) (l : List (ℝ × ℝ)),
    (((a :: l).zip (l ++ [p])).map fun e => (f e.1 + f e.2) * cross e).sum = pathMoment f (a :: l ++ [p])
  | a, [] => by simp [pathMoment, cross]
  | a, b :: l => by
    have := moment_edges f p b l
    simp only [List.cons_append, List.zip_cons_cons, List.map_cons, List.sum_cons, pathMoment] at this ⊢
    rw [this]
    simp [cross]

private theorem cross_edges (p : ℝ × ℝ) : ∀ (a : ℝ × ℝ) (l : List (ℝ × ℝ)),
    (((a :: l).zip (l ++ [p])).map cross).sum = crossPath (a :: l ++ [p])
  | a, [] => by simp [crossPath, cross]
  | a, b :: l => by
    have := cross_edges p b l
    simp only [List.cons_append, List.zip_cons_cons, List.map_cons, List.sum_cons, crossPath] at this ⊢
    rw [this]
    simp [cross]

private theorem moment_fan (f : ℝ × ℝ → ℝ) (hf : f = Prod.fst ∨ f = Prod.snd) (p : ℝ × ℝ) : ∀ (q : ℝ × ℝ) (l : List (ℝ × ℝ)),
    pathMoment f (q :: l ++ [p]) = fanMoment f p (q :: l) + (f q + f p) * (q.1 * p.2 - p.1 * q.2)
  | q, [] => by simp [pathMoment, fanMoment]
  | q, r :: l => by
    have := moment_fan f hf p r l
    simp only [List.cons_append, pathMoment, fanMoment] at this ⊢
    rw [this]
    rcases hf with rfl | rfl <;> (unfold leftTurn; ring)

theorem ringCentroid_fan (p q : ℝ × ℝ) (l : List (ℝ × ℝ)) : ringCentroid (p :: q :: l)
    = (fanMoment Prod.fst p (q :: l) / (3 * fan p (q :: l)), fanMoment Prod.snd p (q :: l) / (3 * fan p (q :: l))) := by
  have e1 : ((edges (p :: q :: l)).map cross).sum = fan p (q :: l) := by
    unfold edges
    rw [List.rotate_cons_succ, List.rotate_zero, cross_edges]
    have := fan_path p q l
    simp only [List.cons_append, crossPath] at this ⊢
    rw [this]; ring
  have e2 : ∀ f : ℝ × ℝ → ℝ, (f = Prod.fst ∨ f = Prod.snd) →
      ((edges (p :: q :: l)).map fun e => (f e.1 + f e.2) * cross e).sum = fanMoment f p (q :: l) := by
    intro f hf
    unfold edges
    rw [List.rotate_cons_succ, List.rotate_zero, moment_edges]
    have := moment_fan f hf p q l
    simp only [List.cons_append, pathMoment] at this ⊢
    rw [this]; ring
  unfold ringCentroid
  rw [e1]
  have a1 := e2 Prod.fst (Or.inl rfl)
  have a2 := e2 Prod.snd (Or.inr rfl)
  rw [a1, a2]

private theorem fan_centroid_mem {s : Set (ℝ × ℝ)} (hs : Convex ℝ s) (p : ℝ × ℝ) : ∀ (q r : ℝ × ℝ) (l : List (ℝ × ℝ)),
    (∀ b c, [b, c].Sublist (q :: r :: l) → 0 < leftTurn p b c) →
    (∀ b c, [b, c].Sublist (q :: r :: l) → (((p.1 + b.1 + c.1) / 3, (p.2 + b.2 + c.2) / 3) : ℝ × ℝ) ∈ s) →
    0 < fan p (q :: r :: l) ∧
    ((fanMoment Prod.fst p (q :: r :: l) / (3 * fan p (q :: r :: l)), fanMoment Prod.snd p (q :: r :: l) / (3 * fan p (q :: r :: l)))
      : ℝ × ℝ) ∈ s
  | q, r, [], h, hc => by
    have hd := h q r (List.Sublist.refl _)
    refine ⟨by simpa [fan] using hd, ?_⟩
    have := hc q r (List.Sublist.refl _)
    have e : ((fanMoment Prod.fst p [q, r] / (3 * fan p [q, r]), fanMoment Prod.snd p [q, r] / (3 * fan p [q, r])) : ℝ × ℝ)
        = ((p.1 + q.1 + r.1) / 3, (p.2 + q.2 + r.2) / 3) := by
      simp only [fanMoment, fan, add_zero]
      ext <;> (simp only; field_simp)
    rw [e]
    exact this
  | q, r, t :: l, h, hc => by
    have hd := h q r (by simp)
    obtain ⟨hpos, hmem⟩ := fan_centroid_mem hs p r t l (fun b c hb => h b c (hb.cons _)) fun b c hb => hc b c (hb.cons _)
    have hfan : fan p (q :: r :: t :: l) = leftTurn p q r + fan p (r :: t :: l) := rfl
    have hm : ∀ f : ℝ × ℝ → ℝ, fanMoment f p (q :: r :: t :: l)
        = leftTurn p q r * (f p + f q + f r) + fanMoment f p (r :: t :: l) := fun _ => rfl
    rw [hfan, hm, hm]
    generalize fan p (r :: t :: l) = A at hpos hmem ⊢
    generalize fanMoment Prod.fst p (r :: t :: l) = X at hmem ⊢
    generalize fanMoment Prod.snd p (r :: t :: l) = Y at hmem ⊢
    have hsum : 0 < leftTurn p q r + A := by linarith
    refine ⟨hsum, ?_⟩
    have := hs (hc q r (by simp)) hmem (a := leftTurn p q r / (leftTurn p q r + A)) (b := A / (leftTurn p q r + A))
      (by positivity) (by positivity) (by field_simp)
    convert! this using 1
    ext
    · simp only [Prod.fst_add, Prod.smul_fst, smul_eq_mul]
      field_simp
    · simp only [Prod.snd_add, Prod.smul_snd, smul_eq_mul]
      field_simp

/-- **C189.** The centroid of a region is a point of the region: of an ordered bounding box, of the hull of some points and of a convex
polygon. -/
theorem C189_centroid :
    (∀ b : BBox ℝ, b.xmin ≤ b.xmax → b.ymin ≤ b.ymax →
      ∃ c, (Region.bbox b).centroid = .ok c ∧ (Region.bbox b).contains c.1 c.2 = true)
    ∧ (∀ v points : List (ℝ × ℝ), IsHullOf v points →
      ∃ c, (Region.convexHull v).centroid = .ok c ∧ (Region.convexHull v).contains c.1 c.2 = true)
    ∧ (∀ ring corners : List (ℝ × ℝ), IsHullOf ring corners →
      ∃ c, (Region.polygon ring).centroid = .ok c ∧ (Region.polygon ring).contains c.1 c.2 = true) := by
  refine ⟨fun b hx hy => ?_, fun v points h => ?_, fun ring corners h => ?_⟩
  · refine ⟨_, rfl, ?_⟩
    simp only [Region.contains, containsBBox, Bool.and_eq_true, decide_eq_true_eq]
    refine ⟨⟨?_, ?_⟩, ?_, ?_⟩ <;> linarith
  · have h3 := h.three
    rcases v with _ | ⟨p, l⟩
    · simp at h3
    refine ⟨_, rfl, ?_⟩
    have hset := (C187_hull (p :: l) points h).1
    suffices hc : ((((p :: l).map Prod.fst).sum / ((p :: l).length : ℝ), ((p :: l).map Prod.snd).sum / ((p :: l).length : ℝ)) : ℝ × ℝ)
        ∈ convexHull ℝ {x | x ∈ p :: l} by
      have : ((((p :: l).map Prod.fst).sum / ((p :: l).length : ℝ), ((p :: l).map Prod.snd).sum / ((p :: l).length : ℝ)) : ℝ × ℝ)
          ∈ pointsOf (.convexHull (p :: l)) := by
        rw [hset]
        exact convexHull_mono h.sub hc
      exact this
    have hgen : ∀ (a : ℝ × ℝ) (m : List (ℝ × ℝ)) (s : Set (ℝ × ℝ)), Convex ℝ s → (∀ x ∈ a :: m, x ∈ s) →
        ((((a :: m).map Prod.fst).sum / ((a :: m).length : ℝ), ((a :: m).map Prod.snd).sum / ((a :: m).length : ℝ)) : ℝ × ℝ) ∈ s := by
      intro a m s hs
      induction m generalizing a with
      | nil => intro hx; simpa using hx a (by simp)
      | cons b m ih =>
        intro hx
        have h1 := ih b fun x hx' => hx x (List.mem_cons_of_mem _ hx')
        have h2 := hx a (by simp)
        have hn : (0 : ℝ) < ((b :: m).length : ℝ) := by rw [Nat.cast_pos]; simp
        have := hs h2 h1 (a := 1 / (1 + ((b :: m).length : ℝ))) (b := ((b :: m).length : ℝ) / (1 + ((b :: m).length : ℝ)))
          (by positivity) (by positivity) (by field_simp)
        convert! this using 1
        rw [List.map_cons, List.sum_cons, List.map_cons (f := Prod.snd), List.sum_cons, List.length_cons (a := a), Nat.cast_add,
          Nat.cast_one, add_comm (((b :: m).length : ℝ)) 1]
        ext
        · simp only [Prod.fst_add, Prod.smul_fst, smul_eq_mul]
          field_simp
        · simp only [Prod.snd_add, Prod.smul_snd, smul_eq_mul]
          field_simp
    exact hgen p l _ (convex_convexHull ℝ _) fun x hx => subset_convexHull ℝ _ hx
  · have hr := hullRing_of_isHullOf h
    have h3 := h.three
    refine ⟨_, rfl, ?_⟩
    have hmem : ∀ x, x ∈ interior (convexHull ℝ {y | y ∈ ring}) → (Region.polygon ring).contains x.1 x.2 = true := by
      intro x hx
      have := (mem_interior_ring h.three hr.sublists x).2 hx
      simp only [Region.contains, Bool.or_eq_true, List.all_eq_true, decide_eq_true_eq]
      exact Or.inl this
    apply hmem
    rcases ring with _ | ⟨p, _ | ⟨q, _ | ⟨r, l⟩⟩⟩
    · simp at h3
    · simp at h3
    · simp at h3
    have hsub := hr.sublists
    have key := fan_centroid_mem (s := interior (convexHull ℝ {y | y ∈ p :: q :: r :: l})) (convex_convexHull ℝ _).interior p q r l
      (fun b c hs => hsub p b c (hs.cons_cons p)) (fun b c hs => by
        have hd := hsub p b c (hs.cons_cons p)
        have hin : (((p.1 + b.1 + c.1) / 3, (p.2 + b.2 + c.2) / 3) : ℝ × ℝ) ∈ interior (convexHull ℝ {y | y ∈ [p, b, c]}) := by
          refine (mem_interior_ring (v := [p, b, c]) (by simp) (fun x y z hxyz => ?_) _).1 ?_
          · have := hxyz.eq_of_length rfl
            simp only [List.cons.injEq, and_true] at this
            obtain ⟨rfl, rfl, rfl⟩ := this
            exact hd
          · intro e he
            simp only [edges, List.rotate_cons_succ, List.rotate_zero, List.cons_append, List.nil_append, List.zip_cons_cons,
              List.zip_nil_right, List.mem_cons, List.not_mem_nil, or_false] at he
            unfold leftTurn at hd
            rcases he with rfl | rfl | rfl <;> (unfold side; simp only; nlinarith)
        refine interior_mono (convexHull_mono ?_) hin
        intro y hy
        exact (hs.cons_cons p).subset hy)
    obtain ⟨hfan, hc⟩ := key
    rw [ringCentroid_fan]
    exact hc

/-- **C189, rings listed clockwise.** -/
theorem C189_clockwise (ring corners : List (ℝ × ℝ)) (h : IsHullOf ring.reverse corners) :
    (∃ c, (Region.convexHull ring).centroid = .ok c ∧ (Region.convexHull ring).contains c.1 c.2 = true) ∧
    ∃ c, (Region.polygon ring).centroid = .ok c ∧ (Region.polygon ring).contains c.1 c.2 = true := by
  obtain ⟨_, _, h1, h2⟩ := C114_direction ring Region.convexHull (Or.inl rfl)
  obtain ⟨_, _, k1, k2⟩ := C114_direction ring Region.polygon (Or.inr rfl)
  obtain ⟨c, hc, hm⟩ := C189_centroid.2.1 _ _ h
  obtain ⟨d, hd, hn⟩ := C189_centroid.2.2 _ _ h
  exact ⟨⟨c, h2 ▸ hc, h1 _ _ ▸ hm⟩, d, k2 ▸ hd, k1 _ _ ▸ hn⟩

/-- The hypotheses are met: a trapezium is the hull of its corners. -/
theorem trapezium_hull : IsHullOf [((0 : ℝ), (0 : ℝ)), (4, 0), (2, 2), (0, 2)] [(0, 0), (4, 0), (2, 2), (0, 2)] := by
  refine ⟨by simp, fun v hv => hv, ?_, fun e he => subset_convexHull ℝ _ he⟩
  intro i j k hij hjk hk
  simp only [List.length_cons, List.length_nil] at hk
  have : (i = 0 ∧ j = 1 ∧ k = 2) ∨ (i = 0 ∧ j = 1 ∧ k = 3) ∨ (i = 0 ∧ j = 2 ∧ k = 3) ∨ (i = 1 ∧ j = 2 ∧ k = 3) := by omega
  rcases this with ⟨rfl, rfl, rfl⟩ | ⟨rfl, rfl, rfl⟩ | ⟨rfl, rfl, rfl⟩ | ⟨rfl, rfl, rfl⟩ <;> norm_num [clockwiseTurn]

/-- A triangle, listed clockwise: the centroid is the mean of its corners. -/
example : (Region.polygon [((0 : ℚ), (0 : ℚ)), (0, 3), (3, 0)]).centroid = .ok (1, 1)
    ∧ (Region.polygon [((0 : ℚ), (0 : ℚ)), (0, 3), (3, 0)]).contains 1 1 = true := by decide +kernel

end Pointpats.Props
