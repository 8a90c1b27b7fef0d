import Verif.Props.PatternUnits
import Verif.Props.Regions

/-!
# The area of the hull and of the bounding box (C185)

`hull_area` is positive and at most `mbb_area`; hence `lambda_mbb ≤ lambda_hull`.
-/

namespace Pointpats.Props

open Pointpats.Spec Pointpats.PointPattern

set_option linter.unusedSectionVars false

variable {K : Type} [Field K] [LinearOrder K] [IsStrictOrderedRing K]

/-- Twice the area of the triangle `p q r`, positive when it is listed counter-clockwise. -/
def leftTurn (p q r : K × K) : K := (q.1 - p.1) * (r.2 - p.2) - (r.1 - p.1) * (q.2 - p.2)

/-- What `scipy.spatial.ConvexHull` promises of the vertices of the hull of `events`: at least three of the events, every
three of them, in list order, making a left turn. -/
structure IsHullRing (v events : List (K × K)) : Prop where
  three : 3 ≤ v.length
  sub : ∀ x ∈ v, x ∈ events
  turns : ∀ i j k, i < j → j < k → k < v.length → 0 < leftTurn (v.getD i (0, 0)) (v.getD j (0, 0)) (v.getD k (0, 0))

theorem IsHullRing.sublists {v events : List (K × K)} (h : IsHullRing v events) :
    ∀ a b c, [a, b, c].Sublist v → 0 < leftTurn a b c := by
  intro a b c hs
  obtain ⟨f, hf⟩ := List.sublist_iff_exists_orderEmbedding_getElem?_eq.1 hs
  have h0 : v[f 0]? = some a := (hf 0).symm
  have h1 : v[f 1]? = some b := (hf 1).symm
  have h2 : v[f 2]? = some c := (hf 2).symm
  have := h.turns (f 0) (f 1) (f 2) (f.lt_iff_lt.2 (by omega)) (f.lt_iff_lt.2 (by omega)) (List.getElem?_eq_some_iff.1 h2).1
  simpa only [List.getD_eq_getElem?_getD, h0, h1, h2, Option.getD_some] using this

/-- The sum of the cross terms along an open path. -/
def crossPath : List (K × K) → K
  | p :: q :: l => (p.1 * q.2 - q.1 * p.2) + crossPath (q :: l)
  | _ => 0

private theorem path_snoc (p : K × K) : ∀ (a : K × K) (l : List (K × K)),
    (List.zipWith (fun p q : K × K => p.1 * q.2 - q.1 * p.2) (a :: l) (l ++ [p])).sum = crossPath (a :: l ++ [p])
  | a, [] => by simp [crossPath]
  | a, b :: l => by
    have := path_snoc p b l
    simp only [List.cons_append, List.zipWith_cons_cons, List.sum_cons, crossPath] at this ⊢
    rw [this]

theorem shoelace_path (p : K × K) (l : List (K × K)) : shoelace (p :: l) = crossPath (p :: l ++ [p]) / 2 := by
  unfold shoelace
  rw [List.rotate_cons_succ, List.rotate_zero, path_snoc]

private theorem shoelace_start (u w : List (K × K)) : shoelace (u ++ w) = shoelace (w ++ u) := by
  have h := List.rotate_append_length_eq u w
  rw [← h]
  unfold shoelace
  have e : ((u ++ w).rotate u.length).rotate 1 = ((u ++ w).rotate 1).rotate u.length := by
    rw [List.rotate_rotate, List.rotate_rotate, add_comm]
  rw [e, ← List.zipWith_rotate_distrib _ _ _ _ (by simp), (List.rotate_perm _ _).sum_eq]

private theorem turns_start {u w : List (K × K)} (h : ∀ a b c, [a, b, c].Sublist (u ++ w) → 0 < leftTurn a b c) :
    ∀ a b c, [a, b, c].Sublist (w ++ u) → 0 < leftTurn a b c := by
  intro a b c hs
  obtain ⟨l1, l2, e, h1, h2⟩ := List.sublist_append_iff.1 hs
  have h3 : (l2 ++ l1).Sublist (u ++ w) := h2.append h1
  rcases l1 with _ | ⟨x, _ | ⟨y, _ | ⟨z, _ | ⟨t, l1⟩⟩⟩⟩
  · simp only [List.nil_append] at e
    subst e
    exact h _ _ _ (by simpa using h3)
  · simp only [List.cons_append, List.nil_append, List.cons.injEq] at e
    obtain ⟨rfl, rfl⟩ := e
    have := h _ _ _ h3
    unfold leftTurn at this ⊢
    linarith
  · simp only [List.cons_append, List.nil_append, List.cons.injEq] at e
    obtain ⟨rfl, rfl, rfl⟩ := e
    have := h _ _ _ h3
    unfold leftTurn at this ⊢
    linarith
  · simp only [List.cons_append, List.nil_append, List.cons.injEq] at e
    obtain ⟨rfl, rfl, rfl, rfl⟩ := e
    exact h _ _ _ (by simpa using h3)
  · simp at e

/-- Of four vertices in order, the third is not higher than both its neighbours when the first is at least as high. -/
private theorem no_second_peak {a b c d : K × K} (h1 : 0 < leftTurn a b c) (h2 : 0 < leftTurn a c d) (h3 : 0 < leftTurn b c d)
    (hac : c.2 ≤ a.2) : c.2 ≤ max b.2 d.2 := by
  by_contra hlt
  rw [not_le, max_lt_iff] at hlt
  have key : leftTurn b c d * (a.2 - c.2) + leftTurn a c d * (c.2 - b.2) + leftTurn a b c * (c.2 - d.2) = 0 := by
    unfold leftTurn; ring
  have e1 := mul_nonneg h3.le (sub_nonneg.2 hac)
  have e2 := mul_pos h2 (sub_pos.2 hlt.1)
  have e3 := mul_pos h1 (sub_pos.2 hlt.2)
  linarith

/-- A path that goes up all the way. -/
private theorem path_up {x1 : K} : ∀ (p : K × K) (l : List (K × K)), (p :: l).Pairwise (fun a b => a.2 ≤ b.2) →
    (∀ q ∈ p :: l, q.1 ≤ x1) → ∀ e, (p :: l).getLast? = some e → crossPath (p :: l) ≤ 2 * x1 * (e.2 - p.2) - (e.1 * e.2 - p.1 * p.2)
  | p, [], _, _, e, he => by
    simp only [List.getLast?_singleton, Option.some.injEq] at he
    subst he; simp [crossPath]
  | p, q :: l, hp, hx, e, he => by
    have := path_up q l hp.of_cons (fun r hr => hx r (List.mem_cons_of_mem _ hr)) e (by simpa using he)
    have h1 : p.2 ≤ q.2 := List.rel_of_pairwise_cons hp (by simp)
    have h2 := hx p (by simp)
    have h3 := hx q (by simp)
    simp only [crossPath]
    nlinarith [mul_nonneg (sub_nonneg.2 h1) (by linarith : 0 ≤ 2 * x1 - p.1 - q.1)]

/-- A path that goes down first and up afterwards. -/
private theorem path_down_up {x0 x1 y0 : K} : ∀ (p : K × K) (l : List (K × K)),
    (∀ a b c, [a, b, c].Sublist (p :: l) → b.2 ≤ max a.2 c.2) →
    (∀ q ∈ p :: l, x0 ≤ q.1 ∧ q.1 ≤ x1 ∧ y0 ≤ q.2) → ∀ e, (p :: l).getLast? = some e →
    crossPath (p :: l) ≤ 2 * x0 * (e.2 - p.2) + 2 * (x1 - x0) * (e.2 - y0) - (e.1 * e.2 - p.1 * p.2)
  | p, [], _, hx, e, he => by
    simp only [List.getLast?_singleton, Option.some.injEq] at he
    subst he
    obtain ⟨a, b, c⟩ := hx p (by simp)
    simp only [crossPath]
    nlinarith [mul_nonneg (by linarith : 0 ≤ x1 - x0) (sub_nonneg.2 c)]
  | p, q :: l, hn, hx, e, he => by
    obtain ⟨a, b, c⟩ := hx p (by simp)
    obtain ⟨a', b', c'⟩ := hx q (by simp)
    rcases le_or_gt q.2 p.2 with h | h
    · have := path_down_up q l (fun a b c hs => hn a b c (hs.cons _)) (fun r hr => hx r (List.mem_cons_of_mem _ hr)) e
        (by simpa using he)
      simp only [crossPath]
      nlinarith [mul_nonneg (sub_nonneg.2 h) (by linarith : 0 ≤ p.1 + q.1 - 2 * x0)]
    · have hge : ∀ r ∈ q :: l, p.2 < r.2 := by
        intro r hr
        rcases List.mem_cons.1 hr with rfl | hr
        · exact h
        · have := hn p q r (by simpa using hr)
          rcases le_max_iff.1 this with h' | h' <;> linarith
      have hup : (p :: q :: l).Pairwise (fun a b => a.2 ≤ b.2) := by
        rw [List.pairwise_cons]
        refine ⟨fun r hr => (hge r hr).le, ?_⟩
        rw [List.pairwise_iff_forall_sublist]
        intro r s hs
        have h1 := hn p r s (hs.cons_cons p)
        have h2 := hge r (hs.subset (by simp))
        rcases le_max_iff.1 h1 with h' | h' <;> linarith
      have := path_up p (q :: l) hup (fun r hr => (hx r hr).2.1) e he
      nlinarith [mul_nonneg (by linarith : 0 ≤ x1 - x0) (sub_nonneg.2 c)]

/-- The ring encloses at most its bounding box. -/
theorem shoelace_le_box {v : List (K × K)} (hne : v ≠ []) (h : ∀ a b c, [a, b, c].Sublist v → 0 < leftTurn a b c)
    {x0 x1 y0 y1 : K} (hx : ∀ q ∈ v, x0 ≤ q.1 ∧ q.1 ≤ x1 ∧ y0 ≤ q.2 ∧ q.2 ≤ y1) :
    shoelace v ≤ (x1 - x0) * (y1 - y0) := by
  classical
  obtain ⟨m, hm, hmax⟩ := v.toFinset.exists_max_image Prod.snd (by simpa using hne)
  simp only [List.mem_toFinset] at hm hmax
  obtain ⟨u, w, rfl⟩ := List.append_of_mem hm
  rw [shoelace_start]
  have ht := turns_start h
  rw [List.cons_append] at ht ⊢
  set l := w ++ u with hl
  have hmem : ∀ q ∈ m :: l, q ∈ u ++ m :: w := by
    intro q hq
    simp only [hl, List.mem_cons, List.mem_append] at hq ⊢
    tauto
  rw [shoelace_path]
  have hn : ∀ a b c, [a, b, c].Sublist (m :: (l ++ [m])) → b.2 ≤ max a.2 c.2 := by
    intro a b c hs
    have hb : b.2 ≤ m.2 := by
      have : b ∈ m :: (l ++ [m]) := hs.subset (by simp)
      apply hmax
      apply hmem
      simp only [List.mem_cons, List.mem_append, List.not_mem_nil, or_false] at this ⊢
      tauto
    rw [← List.cons_append] at hs
    obtain ⟨l1, l2, e, h1, h2⟩ := List.sublist_append_iff.1 hs
    rcases List.sublist_singleton.1 h2 with rfl | rfl
    · rw [List.append_nil] at e
      subst e
      rcases List.cons_sublist_cons'.1 h1 with h1 | ⟨rfl, h1⟩
      · have e1 := ht m a b (((List.sublist_append_left [a, b] [c]).trans h1).cons_cons m)
        have e2 := ht m b c (((List.sublist_cons_self a [b, c]).trans h1).cons_cons m)
        have e3 := ht a b c (h1.cons m)
        exact no_second_peak e1 e2 e3 hb
      · exact le_max_of_le_left hb
    · have hc : c = m := by
        have := congrArg List.getLast? e
        simpa using this
      rw [hc]
      exact le_max_of_le_right hb
  have hbound := path_down_up (x0 := x0) (x1 := x1) (y0 := y0) m (l ++ [m]) hn (by
    intro q hq
    have : q ∈ u ++ m :: w := by
      apply hmem
      simp only [List.mem_cons, List.mem_append, List.not_mem_nil, or_false] at hq ⊢
      tauto
    obtain ⟨e1, e2, e3, -⟩ := hx q this
    exact ⟨e1, e2, e3⟩) m (by rw [← List.cons_append]; exact List.getLast?_concat)
  obtain ⟨e1, e2, e3, e4⟩ := hx m hm
  rw [List.cons_append]
  nlinarith [mul_le_mul_of_nonneg_left (sub_le_sub_right e4 y0) (by linarith : 0 ≤ x1 - x0)]

/-- A fan of triangles around a vertex. -/
private theorem fan_nonneg (p : K × K) : ∀ (q : K × K) (l : List (K × K)),
    (∀ b c, [b, c].Sublist (q :: l) → 0 < leftTurn p b c) →
    ((q.1 * p.2 - p.1 * q.2)) ≤ crossPath (q :: l ++ [p])
  | q, [], _ => by simp [crossPath]
  | q, r :: l, h => by
    have := fan_nonneg p r l fun b c hs => h b c (hs.cons _)
    have h1 := h q r (by simp)
    simp only [List.cons_append, crossPath] at this ⊢
    unfold leftTurn at h1
    linarith

/-- The ring encloses a positive area. -/
theorem shoelace_pos {v : List (K × K)} (h3 : 3 ≤ v.length) (h : ∀ a b c, [a, b, c].Sublist v → 0 < leftTurn a b c) :
    0 < shoelace v := by
  rcases v with _ | ⟨p, _ | ⟨q, _ | ⟨r, l⟩⟩⟩
  · simp at h3
  · simp at h3
  · simp at h3
  · rw [shoelace_path]
    have := fan_nonneg p r l fun b c hs => h p b c ((hs.cons q).cons_cons p)
    have h1 := h p q r (by simp)
    simp only [List.cons_append, crossPath] at this ⊢
    unfold leftTurn at h1
    linarith

private theorem ring_areas {v events : List (K × K)} (h : IsHullRing v events) {b : BBox K} (hb : boxOf events = .ok b) :
    0 < shoelace v ∧ shoelace v ≤ (b.xmax - b.xmin) * (b.ymax - b.ymin) := by
  have h3 := h.three
  have hne : v ≠ [] := by rintro rfl; simp at h3
  have hev : events ≠ [] := by
    rintro rfl
    obtain ⟨x, hx⟩ := List.exists_mem_of_ne_nil v hne
    simpa using h.sub x hx
  obtain ⟨b', hb', hin, -⟩ := (C19_bbox_smallest events).2 hev
  have : b' = b := by
    rw [boxOf_eq] at hb
    have e : Geometry.bboxPts events = .ok b' := hb'
    rw [hb] at e
    injection e with e
    exact e.symm
  subst this
  refine ⟨shoelace_pos h3 h.sublists, shoelace_le_box hne h.sublists fun q hq => ?_⟩
  obtain ⟨e1, e2, e3, e4⟩ := hin.1 q (h.sub q hq)
  exact ⟨by assumption, by assumption, by assumption, by assumption⟩

private theorem ring_box {v events : List (K × K)} (h : IsHullRing v events) : ∃ b, boxOf events = .ok b := by
  have h3 := h.three
  rcases events with _ | ⟨p, ps⟩
  · rcases v with _ | ⟨x, v⟩
    · simp at h3
    · simpa using h.sub x (by simp)
  · exact ⟨_, rfl⟩

/-- **C185, areas.** After any history of reads and updates, the area of the hull of the events is positive and at most the area
of their bounding box. -/
theorem C185_areas (ext : Ext K) (p : ℕ) (rows : List (List K)) (w : Option (Win K)) (names coordNames : Option (List String))
    (s : Obj K) (h : construct p rows w names coordNames = .ok s) (v : List (K × K))
    (hv : ext.hull (locations p rows names coordNames) = .ok v) (hring : IsHullRing v (locations p rows names coordNames))
    (ops ops' : List (Op K)) :
    ∃ a b, (read ext .hullArea (run ext s ops)).1 = .ok (.num a) ∧ (read ext .mbbArea (run ext s ops')).1 = .ok (.num b)
      ∧ 0 < a ∧ a ≤ b := by
  obtain ⟨b, hb⟩ := ring_box hring
  obtain ⟨h1, h2⟩ := ring_areas hring hb
  have h3 := hring.three
  have hne : v ≠ [] := by rintro rfl; simp at h3
  refine ⟨shoelace v, (b.xmax - b.xmin) * (b.ymax - b.ymin), ?_, ?_, h1, h2⟩
  · rw [C01_attributes_history_independent ext p rows w names coordNames s h ops .hullArea _ rfl, hv]
    simp [areaOfHull, hne, Except.map, bind, Except.bind]
  · rw [C01_attributes_history_independent ext p rows w names coordNames s h ops' .mbbArea _ rfl, hb]
    rfl

/-- **C185, intensities.** The intensity over the bounding box is positive and at most the intensity over the hull; both are numbers. -/
theorem C185_intensities (ext : Ext K) (p : ℕ) (rows : List (List K)) (w : Option (Win K)) (names coordNames : Option (List String))
    (s : Obj K) (h : construct p rows w names coordNames = .ok s) (v : List (K × K))
    (hv : ext.hull (locations p rows names coordNames) = .ok v) (hring : IsHullRing v (locations p rows names coordNames))
    (ops ops' : List (Op K)) :
    ∃ x y, (read ext .lambdaHull (run ext s ops)).1 = .ok (.xnum (.fin x))
      ∧ (read ext .lambdaMbb (run ext s ops')).1 = .ok (.xnum (.fin y)) ∧ 0 < y ∧ y ≤ x := by
  obtain ⟨b, hb⟩ := ring_box hring
  obtain ⟨h1, h2⟩ := ring_areas hring hb
  have h3 := hring.three
  have hne : v ≠ [] := by rintro rfl; simp at h3
  have hpos : (0 : K) < ((locations p rows names coordNames).length : K) := by
    rw [Nat.cast_pos, List.length_pos_iff]
    obtain ⟨x, hx⟩ := List.exists_mem_of_ne_nil v hne
    exact List.ne_nil_of_mem (hring.sub x hx)
  refine ⟨_ / shoelace v, _ / ((b.xmax - b.xmin) * (b.ymax - b.ymin)), ?_, ?_, div_pos hpos (h1.trans_le h2),
    div_le_div_of_nonneg_left hpos.le h1 h2⟩
  · rw [C01_attributes_history_independent ext p rows w names coordNames s h ops .lambdaHull _ rfl, hv]
    simp [areaOfHull, hne, Except.map, bind, Except.bind, XF.div, h1.ne']
  · rw [C01_attributes_history_independent ext p rows w names coordNames s h ops' .lambdaMbb _ rfl, hb]
    simp only [Except.map, XF.div, if_neg (h1.trans_le h2).ne']

/-- **C185, the default window.** A pattern without a window reports at most the intensity over the hull. -/
theorem C185_default_window (ext : Ext K) (p : ℕ) (rows : List (List K)) (names coordNames : Option (List String))
    (s : Obj K) (h : construct p rows none names coordNames = .ok s) (v : List (K × K))
    (hv : ext.hull (locations p rows names coordNames) = .ok v) (hring : IsHullRing v (locations p rows names coordNames)) :
    ∃ x y, (read ext .lambdaHull s).1 = .ok (.xnum (.fin x)) ∧ (read ext .lambdaWindow s).1 = .ok (.xnum (.fin y))
      ∧ 0 < y ∧ y ≤ x := by
  obtain ⟨x, y, h1, h2, h3, h4⟩ := C185_intensities ext p rows none names coordNames s h v hv hring [] []
  obtain ⟨-, -, -, -, -, -, -, e1, -⟩ := C03_default_window ext p rows names coordNames s h
  exact ⟨x, y, h1, e1.trans h2, h3, h4⟩

/-- **C185, geometry.area.** `area` of the hull of the events is positive and at most `area` of their bounding box. -/
theorem C185_geometry (v events : List (K × K)) (hring : IsHullRing v events) :
    ∃ b, Geometry.bboxArr (.pts events) = .ok b ∧ 0 < (Geometry.Region.convexHull v).area
      ∧ (Geometry.Region.convexHull v).area ≤ (Geometry.Region.bbox b).area := by
  obtain ⟨b, hb⟩ := ring_box hring
  obtain ⟨h1, h2⟩ := ring_areas hring hb
  have e : (Geometry.Region.convexHull v).area = shoelace v := by
    change |((Geometry.edges v).map Geometry.cross).sum / 2| = _
    have : ((Geometry.edges v).map Geometry.cross).sum / 2 = shoelace v := by
      unfold Geometry.edges shoelace
      rw [List.zip, List.map_zipWith]
      rfl
    rw [this, abs_of_pos h1]
  refine ⟨b, by rw [boxOf_eq] at hb; exact hb, by rw [e]; exact h1, ?_⟩
  rw [e]
  exact h2.trans (le_abs_self _)

private def fiveRows : List (List ℚ) := [[0, 1], [2, 0], [4, 1], [2, 2], [2, 1]]

private def diamond : Ext ℚ where
  hull _ := .ok [(0, 1), (2, 0), (4, 1), (2, 2)]
  nnd _ := .ok []

/-- Four events at the corners of a diamond and one in its middle: the hull has half the area of the box. -/
example : ∃ s v, construct 2 fiveRows none none none = .ok s ∧ diamond.hull (locations 2 fiveRows none none) = .ok v
    ∧ IsHullRing v (locations 2 fiveRows none none)
    ∧ (read diamond .hullArea s).1 = .ok (.num 4) ∧ (read diamond .mbbArea s).1 = .ok (.num 8)
    ∧ (read diamond .lambdaHull s).1 = .ok (.xnum (.fin (5 / 4))) ∧ (read diamond .lambdaMbb s).1 = .ok (.xnum (.fin (5 / 8))) := by
  refine ⟨_, [(0, 1), (2, 0), (4, 1), (2, 2)], rfl, rfl, ⟨by decide, by decide +kernel, ?_⟩, ?_, ?_, ?_, ?_⟩
  · have : ∀ k < 4, ∀ j < k, ∀ i < j, 0 < leftTurn (([(0, 1), (2, 0), (4, 1), (2, 2)] : List (ℚ × ℚ)).getD i (0, 0))
        (([(0, 1), (2, 0), (4, 1), (2, 2)] : List (ℚ × ℚ)).getD j (0, 0))
        (([(0, 1), (2, 0), (4, 1), (2, 2)] : List (ℚ × ℚ)).getD k (0, 0)) := by decide +kernel
    exact fun i j k hij hjk hk => this k hk j hjk i hij
  all_goals decide +kernel

end Pointpats.Props
