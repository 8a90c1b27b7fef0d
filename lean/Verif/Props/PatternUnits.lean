import Verif.Props.PointPattern
import Verif.Props.GeoOverloads
import Verif.Spec.PatternMotion

/-!
# C131: the attributes of a point pattern under changes of unit, motions and other orders; C19 for the pattern
-/

namespace Pointpats.Props

open PointPattern Spec

set_option linter.unusedSectionVars false

variable {K : Type} [Field K] [LinearOrder K]

/-! ### C19 -/

private theorem holds_points : ∀ pts : List (K × K), HoldsCoordinates (pts.map fun q => .point (some q)) pts
  | [] => .nil
  | q :: pts => .point q (holds_points pts)

/-- **C19, the same numbers everywhere.** `bbox(points)`, `minimum_bounding_rectangle(points)` and, whatever has been done with
the pattern before, `PointPattern(points).mbb` are the same four numbers. -/
theorem C19_same_numbers (ext : Ext K) (p : ℕ) (rows : List (List K)) (w : Option (Win K))
    (names coordNames : Option (List String)) (s0 : Obj K) (h0 : construct p rows w names coordNames = .ok s0)
    (ops : List (Op K)) (hne : rows ≠ []) :
    ∃ b, IsSmallestBox (locations p rows names coordNames) b
      ∧ (read ext .mbb (run ext s0 ops)).1 = .ok (.box b)
      ∧ Geometry.bboxArr (.pts (locations p rows names coordNames)) = .ok b
      ∧ Centrography.minimumBoundingRectangle (locations p rows names coordNames)
          = .ok (b.xmin, b.ymin, b.xmax, b.ymax) := by
  have hne' : locations p rows names coordNames ≠ [] := by simpa [locations] using hne
  obtain ⟨b, hb, hs, hu⟩ := (C19_bbox_smallest (locations p rows names coordNames)).2 hne'
  refine ⟨b, hs, ?_, hb, ?_⟩
  · rw [C01_attributes_history_independent ext p rows w names coordNames s0 h0 ops .mbb _ rfl, boxOf_eq,
      show Geometry.bboxPts _ = .ok b from hb]
    rfl
  · obtain ⟨b', hs', h', -⟩ := (C99_minimum_bounding_rectangle (locations p rows names coordNames)
      ((locations p rows names coordNames).map fun q => .point (some q)) (holds_points _)).2 hne'
    rw [h', hu b' hs']

/-! ### Lists -/

private theorem min?_map_mono {g : K → K} (hg : Monotone g) (l : List K) : (l.map g).min? = l.min?.map g := by
  cases l with
  | nil => rfl
  | cons a l =>
    simp only [List.map_cons, List.min?_cons', Option.map_some, Option.some.injEq, List.foldl_map]
    induction l generalizing a with
    | nil => rfl
    | cons b l ih => simp only [List.foldl_cons, ← hg.map_min]; exact ih _

private theorem max?_map_mono {g : K → K} (hg : Monotone g) (l : List K) : (l.map g).max? = l.max?.map g := by
  cases l with
  | nil => rfl
  | cons a l =>
    simp only [List.map_cons, List.max?_cons', Option.map_some, Option.some.injEq, List.foldl_map]
    induction l generalizing a with
    | nil => rfl
    | cons b l ih => simp only [List.foldl_cons, ← hg.map_max]; exact ih _

private theorem min?_perm {l l' : List K} (h : l.Perm l') : l.min? = l'.min? := by
  cases h1 : l'.min? with
  | none => rw [List.min?_eq_none_iff] at h1 ⊢; subst h1; exact h.eq_nil
  | some a =>
    rw [List.min?_eq_some_iff] at h1 ⊢
    exact ⟨h.mem_iff.2 h1.1, fun b hb => h1.2 b (h.mem_iff.1 hb)⟩

private theorem max?_perm {l l' : List K} (h : l.Perm l') : l.max? = l'.max? := by
  cases h1 : l'.max? with
  | none => rw [List.max?_eq_none_iff] at h1 ⊢; subst h1; exact h.eq_nil
  | some a =>
    rw [List.max?_eq_some_iff] at h1 ⊢
    exact ⟨h.mem_iff.2 h1.1, fun b hb => h1.2 b (h.mem_iff.1 hb)⟩

private theorem sum_zipWith_lin {φ : K × K → K × K → K} (D : K) (h : K × K → K) : ∀ (l l' : List (K × K)),
    l.length = l'.length → (List.zipWith (fun p q => D * φ p q + (h q - h p)) l l').sum
      = D * (List.zipWith φ l l').sum + ((l'.map h).sum - (l.map h).sum)
  | [], [], _ => by simp
  | p :: l, q :: l', e => by
    simp only [List.zipWith_cons_cons, List.sum_cons, List.map_cons, sum_zipWith_lin D h l l' (by simpa using e)]
    ring
  | [], _ :: _, e => by simp at e
  | _ :: _, [], e => by simp at e

private theorem shoelace_rotation (c s a b : K) (v : List (K × K)) :
    shoelace (v.map (rotation c s a b)) = (c ^ 2 + s ^ 2) * shoelace v := by
  unfold shoelace
  rw [← List.map_rotate, List.zipWith_map]
  have := sum_zipWith_lin (φ := fun p q => p.1 * q.2 - q.1 * p.2) (c ^ 2 + s ^ 2)
    (fun p => a * (s * p.1 + c * p.2) - b * (c * p.1 - s * p.2)) v (v.rotate 1) (by simp)
  have e : ((v.rotate 1).map fun p : K × K => a * (s * p.1 + c * p.2) - b * (c * p.1 - s * p.2)).sum
      = (v.map fun p : K × K => a * (s * p.1 + c * p.2) - b * (c * p.1 - s * p.2)).sum :=
    ((List.rotate_perm v 1).map _).sum_eq
  rw [e, sub_self, add_zero] at this
  rw [mul_div_assoc', ← this]
  congr 3
  funext p q
  simp only [rotation]
  ring

private theorem shoelace_rotate (v : List (K × K)) (k : ℕ) : shoelace (v.rotate k) = shoelace v := by
  unfold shoelace
  have e : (v.rotate k).rotate 1 = (v.rotate 1).rotate k := by rw [List.rotate_rotate, List.rotate_rotate, add_comm]
  rw [e, ← List.zipWith_rotate_distrib _ _ _ _ (by simp), (List.rotate_perm _ k).sum_eq]

private theorem shoelace_reverse (v : List (K × K)) : shoelace v.reverse = -shoelace v := by
  rcases v.eq_nil_or_concat with rfl | ⟨_, _, hv⟩
  · simp [shoelace]
  have hpos : 0 < v.length := by rw [hv]; simp
  unfold shoelace
  set φ : K × K → K × K → K := fun p q => p.1 * q.2 - q.1 * p.2
  have h1 : (v.reverse.rotate 1).reverse = v.rotate (v.length - 1 % v.length) := by
    rw [List.reverse_rotate, List.reverse_reverse, List.length_reverse]
  have h2 : (v.rotate (v.length - 1 % v.length)).rotate 1 = v := by
    rw [List.rotate_rotate]
    rcases Nat.lt_or_ge 1 v.length with h | h
    · rw [Nat.mod_eq_of_lt h, Nat.sub_add_cancel hpos, List.rotate_length]
    · have : v.length = 1 := by omega
      rw [← List.rotate_mod, this]
      simp
  have h3 : (List.zipWith φ v.reverse (v.reverse.rotate 1)).sum = (List.zipWith φ (v.rotate 1) v).sum := by
    rw [← List.sum_reverse, List.reverse_zipWith (by simp), List.reverse_reverse, h1,
      ← (List.rotate_perm (List.zipWith φ v _) 1).sum_eq, List.zipWith_rotate_distrib _ _ _ _ (by simp), h2]
  rw [h3, List.zipWith_comm]
  have : (fun b a => φ a b) = fun p q => (-1) * φ p q + ((fun _ => (0 : K)) q - (fun _ => (0 : K)) p) := by
    funext p q; simp only [φ]; ring
  rw [this, sum_zipWith_lin _ _ _ _ (by simp)]
  simp [neg_div]
private theorem shoelace_reflection (c s a b : K) (v : List (K × K)) :
    shoelace (v.map (reflection c s a b)).reverse = (c ^ 2 + s ^ 2) * shoelace v := by
  have e : v.map (reflection c s a b) = (v.map fun p => (p.1, -p.2)).map (rotation c s a b) := by
    rw [List.map_map]; rfl
  have e2 : shoelace (v.map fun p : K × K => (p.1, -p.2)) = -shoelace v := by
    unfold shoelace
    rw [← List.map_rotate, List.zipWith_map]
    have h : (fun p q : K × K => p.1 * -q.2 - q.1 * -p.2)
        = fun p q => (-1) * (p.1 * q.2 - q.1 * p.2) + ((fun _ => (0 : K)) q - (fun _ => (0 : K)) p) := by
      funext p q; ring
    rw [h, sum_zipWith_lin (φ := fun p q => p.1 * q.2 - q.1 * p.2) _ _ _ _ (by simp)]
    simp [neg_div]
  rw [shoelace_reverse, e, shoelace_rotation, e2]
  ring

private theorem div_perArea [IsStrictOrderedRing K] {c : K} (hc : c ≠ 0) (n x : K) :
    XF.div (.fin n) (.fin (c * x)) = perArea c (XF.div (.fin n) (.fin x)) := by
  by_cases hx : x = 0
  · subst hx
    simp only [mul_zero, XF.div, if_true]
    split_ifs <;> rfl
  · have : c * x ≠ 0 := mul_ne_zero hc hx
    simp only [XF.div, this, hx, if_false, perArea]
    rw [mul_comm, div_div]

private theorem box_rescaled [IsStrictOrderedRing K] {r : K} (hr : 0 < r) (a b : K) (pts : List (K × K)) :
    boxOf (pts.map (rescale r r a b))
      = (boxOf pts).map fun c => ⟨a + r * c.xmin, b + r * c.ymin, a + r * c.xmax, b + r * c.ymax⟩ := by
  have hm : ∀ t : K, Monotone fun x => t + r * x := fun t x y h => by
    have := mul_le_mul_of_nonneg_left h hr.le
    simpa using this
  have e1 : (pts.map (rescale r r a b)).map Prod.fst = (pts.map Prod.fst).map fun x => a + r * x := by
    simp [rescale, Function.comp_def]
  have e2 : (pts.map (rescale r r a b)).map Prod.snd = (pts.map Prod.snd).map fun x => b + r * x := by
    simp [rescale, Function.comp_def]
  unfold boxOf
  rw [e1, e2, min?_map_mono (hm a), min?_map_mono (hm b), max?_map_mono (hm a), max?_map_mono (hm b)]
  cases (pts.map Prod.fst).min? <;> cases (pts.map Prod.snd).min? <;> cases (pts.map Prod.fst).max? <;>
    cases (pts.map Prod.snd).max? <;> rfl

/-- What the attributes that do not use the bounding box become, from what the hull area and the distances become. -/
private theorem attr_moved [IsStrictOrderedRing K] (ext : Ext K) (pts pts' : List (K × K)) (hlen : pts'.length = pts.length)
    {r : K} (hr : 0 < r) (a b : K)
    (harea : (ext.hull pts' >>= areaOfHull) = (ext.hull pts >>= areaOfHull).map (r ^ 2 * ·))
    (hnnd : ext.nnd pts' = (ext.nnd pts).map (·.map (r * ·))) (at' : Attr)
    (hat : at' ∈ [Attr.n, .hullArea, .lambdaHull, .nnd, .minNnd, .maxNnd, .meanNnd]) :
    ∃ v, attrValue ext pts at' = some v ∧ attrValue ext pts' at' = some (v.map (converted r a b at')) := by
  have hm : Monotone fun x : K => r * x := fun x y h => mul_le_mul_of_nonneg_left h hr.le
  simp only [List.mem_cons, List.not_mem_nil, or_false] at hat
  rcases hat with rfl | rfl | rfl | rfl | rfl | rfl | rfl <;> refine ⟨_, rfl, ?_⟩ <;>
    simp only [attrValue, harea, hnnd, hlen]
  · rfl
  · cases (ext.hull pts >>= areaOfHull) <;> rfl
  · cases (ext.hull pts >>= areaOfHull) with
    | error e => rfl
    | ok x => simp only [Except.map, converted, div_perArea (pow_pos hr 2).ne']
  · cases ext.nnd pts <;> rfl
  · cases ext.nnd pts with
    | error e => rfl
    | ok l =>
      simp only [Except.map, bind, Except.bind, minOf, min?_map_mono hm]
      cases l.min? <;> rfl
  · cases ext.nnd pts with
    | error e => rfl
    | ok l =>
      simp only [Except.map, bind, Except.bind, maxOf, max?_map_mono hm]
      cases l.max? <;> rfl
  · cases ext.nnd pts with
    | error e => rfl
    | ok l =>
      by_cases hl : l = []
      · subst hl; rfl
      · have e : (l.map (r * ·)).sum = r * l.sum := by
          rw [List.sum_map_mul_left, List.map_id'']; intro; rfl
        simp only [Except.map, bind, Except.bind, meanOf, hl, if_false, List.map_eq_nil_iff, List.length_map, e,
          converted, mul_div_assoc]

/-! ### C131 -/

/-- **C131, units and origin.** Two patterns are built from the same events in different units: lengths are `r` times as large
and the old origin is `(a, b)`. Whatever is done with the two patterns, each attribute computed from the events is the same
except for the conversion: lengths (`rot`, the nearest neighbour distances and their minimum, mean and maximum) are `r` times as
large, areas `r ^ 2` times, intensities are divided by `r ^ 2`, boxes and hulls are moved; or both raise the same exception. -/
theorem C131_units [IsStrictOrderedRing K] (ext : Ext K) {r : K} (hr : 0 < r) (a b : K) (p p' : ℕ) (rows rows' : List (List K))
    (w w' : Option (Win K)) (names names' coordNames coordNames' : Option (List String)) (s s' : Obj K)
    (h : construct p rows w names coordNames = .ok s) (h' : construct p' rows' w' names' coordNames' = .ok s')
    (hloc : locations p' rows' names' coordNames' = (locations p rows names coordNames).map (rescale r r a b))
    (hhull : ext.hull (locations p' rows' names' coordNames')
      = (ext.hull (locations p rows names coordNames)).map (·.map (rescale r r a b)))
    (hnnd : ext.nnd (locations p' rows' names' coordNames')
      = (ext.nnd (locations p rows names coordNames)).map (·.map (r * ·)))
    (ops ops' : List (Op K)) (attr : Attr) (hattr : attr ≠ .lambdaWindow) (hattr' : attr ≠ .window) :
    (read ext attr (run ext s' ops')).1 = (read ext attr (run ext s ops)).1.map (converted r a b attr) := by
  have key : ∃ v, attrValue ext (locations p rows names coordNames) attr = some v
      ∧ attrValue ext (locations p' rows' names' coordNames') attr = some (v.map (converted r a b attr)) := by
    have hlen : (locations p' rows' names' coordNames').length = (locations p rows names coordNames).length := by
      rw [hloc]; simp
    have harea : (ext.hull (locations p' rows' names' coordNames') >>= areaOfHull)
        = (ext.hull (locations p rows names coordNames) >>= areaOfHull).map (r ^ 2 * ·) := by
      rw [hhull]
      cases ext.hull (locations p rows names coordNames) with
      | error e => rfl
      | ok v =>
        have e : v.map (rescale r r a b) = v.map (rotation r 0 a b) := by
          simp [rescale, rotation]
        simp only [Except.map, bind, Except.bind, areaOfHull, List.map_eq_nil_iff, e, shoelace_rotation]
        split_ifs
        · rfl
        · simp
    have hm := attr_moved ext _ _ hlen hr a b harea hnnd attr
    cases attr with
    | mbb =>
      refine ⟨_, rfl, ?_⟩
      simp only [attrValue, hloc, box_rescaled hr]
      cases boxOf (locations p rows names coordNames) <;> rfl
    | mbbArea =>
      refine ⟨_, rfl, ?_⟩
      simp only [attrValue, hloc, box_rescaled hr]
      cases boxOf (locations p rows names coordNames) with
      | error e => rfl
      | ok c =>
        simp only [Except.map, converted]
        rw [show (a + r * c.xmax - (a + r * c.xmin)) * (b + r * c.ymax - (b + r * c.ymin))
          = r ^ 2 * ((c.xmax - c.xmin) * (c.ymax - c.ymin)) by ring]
    | rot =>
      refine ⟨_, rfl, ?_⟩
      simp only [attrValue, hloc, box_rescaled hr]
      cases boxOf (locations p rows names coordNames) with
      | error e => rfl
      | ok c =>
        simp only [Except.map, converted]
        rw [show a + r * c.xmax - (a + r * c.xmin) = r * (c.xmax - c.xmin) by ring,
          show b + r * c.ymax - (b + r * c.ymin) = r * (c.ymax - c.ymin) by ring, ← mul_min_of_nonneg _ _ hr.le]
        rw [show (1 / 4 : K) * (r * min (c.xmax - c.xmin) (c.ymax - c.ymin))
          = r * (1 / 4 * min (c.xmax - c.xmin) (c.ymax - c.ymin)) by ring]
    | lambdaMbb =>
      refine ⟨_, rfl, ?_⟩
      simp only [attrValue, hloc, box_rescaled hr, List.length_map]
      cases boxOf (locations p rows names coordNames) with
      | error e => rfl
      | ok c =>
        simp only [Except.map, converted]
        rw [show (a + r * c.xmax - (a + r * c.xmin)) * (b + r * c.ymax - (b + r * c.ymin))
          = r ^ 2 * ((c.xmax - c.xmin) * (c.ymax - c.ymin)) by ring, div_perArea (pow_pos hr 2).ne']
    | hull =>
      refine ⟨_, rfl, ?_⟩
      simp only [attrValue, hhull]
      cases ext.hull (locations p rows names coordNames) <;> rfl
    | lambdaWindow => exact absurd rfl hattr
    | window => exact absurd rfl hattr'
    | n => exact hm (by simp)
    | hullArea => exact hm (by simp)
    | lambdaHull => exact hm (by simp)
    | nnd => exact hm (by simp)
    | minNnd => exact hm (by simp)
    | maxNnd => exact hm (by simp)
    | meanNnd => exact hm (by simp)
  obtain ⟨v, e1, e2⟩ := key
  rw [C01_attributes_history_independent ext p rows w names coordNames s h ops attr v e1,
    C01_attributes_history_independent ext p' rows' w' names' coordNames' s' h' ops' attr _ e2]

/-- **C131, rotations and reflections.** Two patterns are built from the same events seen in coordinate systems that are turned,
or mirrored and turned, against each other, with another origin and unit (`r`). The hull may be listed from another vertex on, in
the same sense of rotation. Then the number of events, the hull area, `lambda_hull` and the nearest neighbour distances with
their minimum, mean and maximum are the same except for the units. -/
theorem C131_turned [IsStrictOrderedRing K] (ext : Ext K) {r : K} (hr : 0 < r) (c d a b : K) (hcd : c ^ 2 + d ^ 2 = r ^ 2)
    (p p' : ℕ) (rows rows' : List (List K))
    (w w' : Option (Win K)) (names names' coordNames coordNames' : Option (List String)) (s s' : Obj K)
    (h : construct p rows w names coordNames = .ok s) (h' : construct p' rows' w' names' coordNames' = .ok s') (k : ℕ)
    (hmove : (locations p' rows' names' coordNames' = (locations p rows names coordNames).map (rotation c d a b)
        ∧ ext.hull (locations p' rows' names' coordNames')
            = (ext.hull (locations p rows names coordNames)).map fun v => (v.map (rotation c d a b)).rotate k)
      ∨ (locations p' rows' names' coordNames' = (locations p rows names coordNames).map (reflection c d a b)
        ∧ ext.hull (locations p' rows' names' coordNames')
            = (ext.hull (locations p rows names coordNames)).map fun v => (v.map (reflection c d a b)).reverse.rotate k))
    (hnnd : ext.nnd (locations p' rows' names' coordNames')
      = (ext.nnd (locations p rows names coordNames)).map (·.map (r * ·)))
    (ops ops' : List (Op K)) (attr : Attr)
    (hattr : attr ∈ [Attr.n, .hullArea, .lambdaHull, .nnd, .minNnd, .maxNnd, .meanNnd]) :
    (read ext attr (run ext s' ops')).1 = (read ext attr (run ext s ops)).1.map (converted r a b attr) := by
  have hlen : (locations p' rows' names' coordNames').length = (locations p rows names coordNames).length := by
    rcases hmove with ⟨e, -⟩ | ⟨e, -⟩ <;> rw [e] <;> simp
  have harea : (ext.hull (locations p' rows' names' coordNames') >>= areaOfHull)
      = (ext.hull (locations p rows names coordNames) >>= areaOfHull).map (r ^ 2 * ·) := by
    rcases hmove with ⟨-, e⟩ | ⟨-, e⟩ <;> rw [e] <;> cases ext.hull (locations p rows names coordNames) with
    | error e => rfl
    | ok v =>
      simp only [Except.map, bind, Except.bind, areaOfHull, List.rotate_eq_nil_iff, List.reverse_eq_nil_iff,
        List.map_eq_nil_iff, shoelace_rotate, shoelace_rotation, shoelace_reflection, hcd]
      split_ifs <;> rfl
  obtain ⟨v, e1, e2⟩ := attr_moved ext _ _ hlen hr a b harea hnnd attr hattr
  rw [C01_attributes_history_independent ext p rows w names coordNames s h ops attr v e1,
    C01_attributes_history_independent ext p' rows' w' names' coordNames' s' h' ops' attr _ e2]

/-- **C131, order.** Two patterns are built from the same events in different orders. The hull may be listed from another vertex
on; the nearest neighbour distances come in another order. Then all other attributes computed from the events are the same. -/
theorem C131_order [IsStrictOrderedRing K] (ext : Ext K) (p p' : ℕ) (rows rows' : List (List K))
    (w w' : Option (Win K)) (names names' coordNames coordNames' : Option (List String)) (s s' : Obj K)
    (h : construct p rows w names coordNames = .ok s) (h' : construct p' rows' w' names' coordNames' = .ok s') (k : ℕ)
    (hloc : (locations p' rows' names' coordNames').Perm (locations p rows names coordNames))
    (hhull : ext.hull (locations p' rows' names' coordNames')
      = (ext.hull (locations p rows names coordNames)).map (·.rotate k))
    (near near' : List K) (hnnd : ext.nnd (locations p rows names coordNames) = .ok near)
    (hnnd' : ext.nnd (locations p' rows' names' coordNames') = .ok near') (hperm : near'.Perm near)
    (ops ops' : List (Op K)) (attr : Attr)
    (hattr : attr ∈ [Attr.n, .mbb, .mbbArea, .rot, .lambdaMbb, .hullArea, .lambdaHull, .minNnd, .maxNnd, .meanNnd]) :
    (read ext attr (run ext s' ops')).1 = (read ext attr (run ext s ops)).1 := by
  have hbox : boxOf (locations p' rows' names' coordNames') = boxOf (locations p rows names coordNames) := by
    unfold boxOf
    rw [min?_perm (hloc.map Prod.fst), min?_perm (hloc.map Prod.snd), max?_perm (hloc.map Prod.fst),
      max?_perm (hloc.map Prod.snd)]
  have harea : (ext.hull (locations p' rows' names' coordNames') >>= areaOfHull)
      = (ext.hull (locations p rows names coordNames) >>= areaOfHull) := by
    rw [hhull]
    cases ext.hull (locations p rows names coordNames) with
    | error e => rfl
    | ok v => simp only [Except.map, bind, Except.bind, areaOfHull, List.rotate_eq_nil_iff, shoelace_rotate]
  have hmin : minOf near' = minOf near := by simp only [minOf, min?_perm hperm]
  have hmax : maxOf near' = maxOf near := by simp only [maxOf, max?_perm hperm]
  have hmean : meanOf near' = meanOf near := by
    have : near' = [] ↔ near = [] := ⟨fun e => by subst e; exact hperm.symm.eq_nil, fun e => by subst e; exact hperm.eq_nil⟩
    simp only [meanOf, hperm.sum_eq, hperm.length_eq, this]
  have key : ∃ v, attrValue ext (locations p rows names coordNames) attr = some v
      ∧ attrValue ext (locations p' rows' names' coordNames') attr = some v := by
    simp only [List.mem_cons, List.not_mem_nil, or_false] at hattr
    rcases hattr with rfl | rfl | rfl | rfl | rfl | rfl | rfl | rfl | rfl | rfl <;> refine ⟨_, rfl, ?_⟩ <;>
      simp only [attrValue, hbox, hnnd, hnnd', hloc.length_eq, bind, Except.bind, hmin, hmax, hmean]
    all_goals (have := harea; simp only [bind, Except.bind] at this; rw [this])
  obtain ⟨v, e1, e2⟩ := key
  rw [C01_attributes_history_independent ext p rows w names coordNames s h ops attr v e1,
    C01_attributes_history_independent ext p' rows' w' names' coordNames' s' h' ops' attr _ e2]

/-- **C131, the default window.** For patterns without a window of their own, in different units, `lambda_window` is converted like
`lambda_mbb`. -/
theorem C131_default_window [IsStrictOrderedRing K] (ext : Ext K) {r : K} (hr : 0 < r) (a b : K) (p p' : ℕ)
    (rows rows' : List (List K)) (names names' coordNames coordNames' : Option (List String)) (s s' : Obj K)
    (h : construct p rows none names coordNames = .ok s) (h' : construct p' rows' none names' coordNames' = .ok s')
    (hloc : locations p' rows' names' coordNames' = (locations p rows names coordNames).map (rescale r r a b)) :
    ∃ x, (read ext .lambdaWindow s).1 = .ok (.xnum x) ∧ (read ext .lambdaWindow s').1 = .ok (.xnum (perArea (r ^ 2) x)) := by
  obtain ⟨-, -, -, -, -, -, -, e1, -⟩ := C03_default_window ext p rows names coordNames s h
  obtain ⟨-, -, -, -, -, -, -, e1', -⟩ := C03_default_window ext p' rows' names' coordNames' s' h'
  have f1 := C01_attributes_history_independent ext p rows none names coordNames s h [] .lambdaMbb _ rfl
  have f2 := C01_attributes_history_independent ext p' rows' none names' coordNames' s' h' [] .lambdaMbb _ rfl
  simp only [run, List.foldl_nil] at f1 f2
  have hne : locations p rows names coordNames ≠ [] := by
    intro hnil
    obtain ⟨x, y, -, -, -, -, -, -, -, -, hpts, -, -, h2⟩ := construct_ok h
    obtain ⟨b0, hb, -, -⟩ := h2 rfl
    rw [hpts, hnil] at hb
    cases hb
  obtain ⟨b0, hb0, -, -⟩ := (C19_bbox_smallest _).2 hne
  replace hb0 : Geometry.bboxPts _ = _ := hb0
  rw [← boxOf_eq] at hb0
  rw [hb0] at f1
  rw [hloc, box_rescaled hr, hb0] at f2
  refine ⟨_, e1.trans f1, ?_⟩
  rw [e1', f2]
  simp only [Except.map, List.length_map]
  rw [show (a + r * b0.xmax - (a + r * b0.xmin)) * (b + r * b0.ymax - (b + r * b0.ymin))
    = r ^ 2 * ((b0.xmax - b0.xmin) * (b0.ymax - b0.ymin)) by ring, div_perArea (pow_pos hr 2).ne']

/-! ### Examples -/

/-- Events on the corners of a rectangle. -/
private def corners4 : List (List ℚ) := [[0, 0], [4, 0], [4, 2], [0, 2]]

/-- The hull of points in convex position listed in order, counter-clockwise, and nearest neighbour distances in the cityblock
metric. -/
private def extC : Ext ℚ where
  hull l := .ok (if shoelace l < 0 then l.reverse else l)
  nnd l := .ok (l.map fun p => (((l.filter (· ≠ p)).map fun q => |q.1 - p.1| + |q.2 - p.2|).min?).getD 0)

/-- The same rectangle in other units: sides 12 and 6. -/
example : ∃ s s', construct 2 corners4 none none none = .ok s
    ∧ construct 2 [[1, 2], [13, 2], [13, 8], [1, 8]] none none none = .ok s'
    ∧ locations 2 [[1, 2], [13, 2], [13, 8], [1, 8]] none none = (locations 2 corners4 none none).map (rescale 3 3 1 2)
    ∧ extC.hull (locations 2 [[1, 2], [13, 2], [13, 8], [1, 8]] none none)
        = (extC.hull (locations 2 corners4 none none)).map (·.map (rescale 3 3 1 2))
    ∧ extC.nnd (locations 2 [[1, 2], [13, 2], [13, 8], [1, 8]] none none)
        = (extC.nnd (locations 2 corners4 none none)).map (·.map (3 * ·))
    ∧ (read extC .lambdaHull s).1 = .ok (.xnum (.fin (1 / 2))) ∧ (read extC .lambdaHull s').1 = .ok (.xnum (.fin (1 / 18)))
    ∧ (read extC .meanNnd s').1 = .ok (.num 6) := by
  refine ⟨_, _, rfl, rfl, ?_, ?_, ?_, ?_, ?_, ?_⟩ <;> decide +kernel

/-- A reflection with another unit: `(x, y)` becomes `(2 y, 2 x)`. -/
example : ∃ s s', construct 2 corners4 none none none = .ok s
    ∧ construct 2 [[0, 0], [0, 8], [4, 8], [4, 0]] none none none = .ok s'
    ∧ ((0 : ℚ) ^ 2 + 2 ^ 2 = 2 ^ 2)
    ∧ locations 2 [[0, 0], [0, 8], [4, 8], [4, 0]] none none = (locations 2 corners4 none none).map (reflection 0 2 0 0)
    ∧ extC.hull (locations 2 [[0, 0], [0, 8], [4, 8], [4, 0]] none none)
        = (extC.hull (locations 2 corners4 none none)).map (fun v => (v.map (reflection 0 2 0 0)).reverse.rotate 0)
    ∧ extC.nnd (locations 2 [[0, 0], [0, 8], [4, 8], [4, 0]] none none)
        = (extC.nnd (locations 2 corners4 none none)).map (·.map (2 * ·))
    ∧ (read extC .hullArea s).1 = .ok (.num 8) ∧ (read extC .hullArea s').1 = .ok (.num 32) := by
  refine ⟨_, _, rfl, rfl, ?_, ?_, ?_, ?_, ?_, ?_⟩ <;> decide +kernel

/-- Another order: the list begins with another corner. -/
example : ∃ s s', construct 2 corners4 none none none = .ok s
    ∧ construct 2 [[4, 0], [4, 2], [0, 2], [0, 0]] none none none = .ok s'
    ∧ (locations 2 [[4, 0], [4, 2], [0, 2], [0, 0]] none none).Perm (locations 2 corners4 none none)
    ∧ extC.hull (locations 2 [[4, 0], [4, 2], [0, 2], [0, 0]] none none)
        = (extC.hull (locations 2 corners4 none none)).map (·.rotate 1)
    ∧ extC.nnd (locations 2 corners4 none none) = .ok [2, 2, 2, 2]
    ∧ extC.nnd (locations 2 [[4, 0], [4, 2], [0, 2], [0, 0]] none none) = .ok [2, 2, 2, 2]
    ∧ (read extC .rot s).1 = .ok (.num (1 / 2)) ∧ (read extC .rot s').1 = .ok (.num (1 / 2)) := by
  refine ⟨_, _, rfl, rfl, ?_, ?_, ?_, ?_, ?_, ?_⟩ <;> decide +kernel

/-- **C131, the bounding box does not follow rotations.** After a rotation (here with cosine 3/5 and sine 4/5) `mbb_area`, `rot` and
`lambda_mbb` of the same events are different, though the unit is the same. -/
theorem C131_box_not_turned : ∃ (s s' : Obj ℚ) (rows' : List (List ℚ)), construct 2 corners4 none none none = .ok s
    ∧ construct 2 rows' none none none = .ok s'
    ∧ locations 2 rows' none none = (locations 2 corners4 none none).map (rotation (3 / 5) (4 / 5) 0 0)
    ∧ ((3 / 5 : ℚ) ^ 2 + (4 / 5) ^ 2 = 1 ^ 2)
    ∧ ∀ attr ∈ [Attr.mbbArea, .rot, .lambdaMbb, .lambdaWindow], (read extC attr s').1 ≠ (read extC attr s).1 := by
  refine ⟨_, _, [[0, 0], [12 / 5, 16 / 5], [4 / 5, 22 / 5], [-8 / 5, 6 / 5]], rfl, rfl, ?_, ?_, ?_⟩
  · decide +kernel
  · norm_num
  · decide +kernel

end Pointpats.Props
