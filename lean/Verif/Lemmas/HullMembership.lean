import Verif.Lemmas.HullVolume

/-!
# Which points are in a convex polygon
-/

set_option linter.unusedSectionVars false

namespace Pointpats.HullVolume

open Pointpats.Spec Pointpats.Props MeasureTheory Geometry

/-- The point is on the left of every edge of a path. -/
def leftOf (x : ℝ × ℝ) : List (ℝ × ℝ) → Prop
  | a :: b :: l => 0 ≤ leftTurn a b x ∧ leftOf x (b :: l)
  | _ => True

theorem side_eq (a b x : ℝ × ℝ) : side (a, b) x.1 x.2 = leftTurn a b x := by unfold side leftTurn; ring

theorem leftOf_edges (x p : ℝ × ℝ) : ∀ (a : ℝ × ℝ) (l : List (ℝ × ℝ)),
    (∀ e ∈ (a :: l).zip (l ++ [p]), 0 ≤ side e x.1 x.2) ↔ leftOf x (a :: l ++ [p])
  | a, [] => by simp [leftOf, side_eq]
  | a, b :: l => by
    have := leftOf_edges x p b l
    simp only [List.cons_append, leftOf] at this ⊢
    rw [← this]
    simp [side_eq]

/-- A point on the left of all edges is in the hull. -/
theorem mem_of_left (p x : ℝ × ℝ) : ∀ (q r : ℝ × ℝ) (l : List (ℝ × ℝ)),
    (∀ a b c, [a, b, c].Sublist (p :: q :: r :: l) → 0 < leftTurn a b c) → 0 ≤ leftTurn p q x → leftOf x (q :: r :: l ++ [p]) →
    x ∈ convexHull ℝ {y | y ∈ p :: q :: r :: l}
  | q, r, [], h, h1, h2 => by
    have e : {y | y ∈ [p, q, r]} = ({p, q, r} : Set (ℝ × ℝ)) := by ext y; simp
    simp only [List.cons_append, List.nil_append, leftOf] at h2
    rw [e]
    exact mem_triangle (h p q r (List.Sublist.refl _)) h2.1 h2.2.1 h1
  | q, r, t :: l, h, h1, h2 => by
    have hd := h p q r (by simp)
    have h2' : 0 ≤ leftTurn q r x ∧ leftOf x (r :: t :: l ++ [p]) := h2
    rcases le_or_gt (leftTurn p r x) 0 with hle | hgt
    · refine convexHull_mono ?_ (mem_triangle hd h2'.1 (by rw [leftTurn_swap]; linarith) h1)
      rintro y (rfl | rfl | rfl) <;> simp
    · have := mem_of_left p x r t l (fun a b c hs => h a b c (hs.trans ((List.sublist_cons_self q _).cons_cons p))) hgt.le h2'.2
      refine convexHull_mono ?_ this
      intro y hy
      simp only [Set.mem_ofPred_eq, List.mem_cons] at hy ⊢
      tauto

theorem turn_index {v : List (ℝ × ℝ)} (h : ∀ a b c, [a, b, c].Sublist v → 0 < leftTurn a b c) (i j k : ℕ) (hij : i < j)
    (hjk : j < k) (hk : k < v.length) : 0 < leftTurn v[i] v[j] v[k] := by
  apply h
  have h1 : [v[k]].Sublist (v.drop k) := by
    rw [List.drop_eq_getElem_cons hk]
    exact List.singleton_sublist.2 List.mem_cons_self
  have h2 : [v[j], v[k]].Sublist (v.drop j) := by
    rw [List.drop_eq_getElem_cons (hjk.trans hk)]
    exact (h1.trans (List.drop_sublist_drop_left v (by omega))).cons_cons _
  have h3 : [v[i], v[j], v[k]].Sublist (v.drop i) := by
    rw [List.drop_eq_getElem_cons (hij.trans (hjk.trans hk))]
    exact (h2.trans (List.drop_sublist_drop_left v (by omega))).cons_cons _
  exact h3.trans (List.drop_sublist _ _)

/-- Every edge has the whole ring on its left. -/
theorem ring_left {v : List (ℝ × ℝ)} (h : ∀ a b c, [a, b, c].Sublist v → 0 < leftTurn a b c)
    {e : (ℝ × ℝ) × (ℝ × ℝ)} (he : e ∈ edges v) {y : ℝ × ℝ} (hy : y ∈ v) : 0 ≤ leftTurn e.1 e.2 y := by
  unfold edges at he
  obtain ⟨i, hi, rfl⟩ := List.mem_iff_getElem.1 he
  simp only [List.length_zip, List.length_rotate, min_self] at hi
  rw [List.getElem_zip, List.getElem_rotate]
  obtain ⟨j, hj, rfl⟩ := List.mem_iff_getElem.1 hy
  have sub := turn_index h
  have z1 : ∀ p q : ℝ × ℝ, leftTurn p q p = 0 := fun p q => by unfold leftTurn; ring
  have z2 : ∀ p q : ℝ × ℝ, leftTurn p q q = 0 := fun p q => by unfold leftTurn; ring
  show 0 ≤ leftTurn v[i] (v[(i + 1) % v.length]'(Nat.mod_lt _ (by omega))) v[j]
  by_cases hlast : i + 1 < v.length
  · have e : (i + 1) % v.length = i + 1 := Nat.mod_eq_of_lt hlast
    simp only [e]
    rcases lt_trichotomy j i with hji | rfl | hji
    · rw [← leftTurn_cycle v[i] v[i + 1] v[j], ← leftTurn_cycle v[i + 1] v[j] v[i]]
      exact (sub j i (i + 1) hji (by omega) hlast).le
    · rw [z1]
    · rcases Nat.lt_or_ge (i + 1) j with h' | h'
      · exact (sub i (i + 1) j (by omega) h' hj).le
      · obtain rfl : j = i + 1 := by omega
        rw [z2]
  · have e : (i + 1) % v.length = 0 := by
      have : i + 1 = v.length := by omega
      rw [this, Nat.mod_self]
    simp only [e]
    rcases Nat.eq_zero_or_pos j with rfl | hj0
    · rw [z2]
    · rcases Nat.lt_or_ge j i with h' | h'
      · rw [← leftTurn_cycle]
        exact (sub 0 j i hj0 h' hi).le
      · obtain rfl : j = i := by omega
        rw [z1]

/-- The hull of a ring is the set of points on the left of all its edges. -/
theorem mem_ring {v : List (ℝ × ℝ)} (h3 : 3 ≤ v.length) (h : ∀ a b c, [a, b, c].Sublist v → 0 < leftTurn a b c) (x : ℝ × ℝ) :
    (∀ e ∈ edges v, 0 ≤ side e x.1 x.2) ↔ x ∈ convexHull ℝ {y | y ∈ v} := by
  constructor
  · intro hx
    rcases v with _ | ⟨p, _ | ⟨q, _ | ⟨r, l⟩⟩⟩
    · simp at h3
    · simp at h3
    · simp at h3
    · unfold edges at hx
      rw [List.rotate_cons_succ, List.rotate_zero, leftOf_edges] at hx
      exact mem_of_left p x q r l h hx.1 hx.2
  · intro hx e he
    rw [show e = (e.1, e.2) from rfl, side_eq]
    exact convexHull_min (fun y hy => ring_left h he hy) (convex_left e.1 e.2) hx

/-- No point is on the right of all edges. -/
theorem not_right {v : List (ℝ × ℝ)} (h3 : 3 ≤ v.length) (h : ∀ a b c, [a, b, c].Sublist v → 0 < leftTurn a b c) (x : ℝ × ℝ)
    (hx : ∀ e ∈ edges v, side e x.1 x.2 ≤ 0) : False := by
  have hpos := shoelace_pos h3 h
  have key : ((edges v).map fun e => side e x.1 x.2).sum = 2 * shoelace v := by
    have e1 : (edges v).map (fun e => side e x.1 x.2)
        = List.zipWith (fun p q : ℝ × ℝ => side (p, q) x.1 x.2) v (v.rotate 1) := by
      unfold edges
      rw [List.zip, List.map_zipWith]
    have : ∀ a b : List (ℝ × ℝ), a.length = b.length → (List.zipWith (fun p q : ℝ × ℝ => side (p, q) x.1 x.2) a b).sum
        = (List.zipWith (fun p q : ℝ × ℝ => p.1 * q.2 - q.1 * p.2) a b).sum
          + ((b.map fun q => q.1 * x.2 - q.2 * x.1).sum - (a.map fun q => q.1 * x.2 - q.2 * x.1).sum) := by
      intro a
      induction a with
      | nil => intro b hb; rw [List.length_nil, eq_comm, List.length_eq_zero_iff] at hb; subst hb; simp
      | cons p a ih =>
        intro b hb
        rcases b with _ | ⟨q, b⟩
        · simp at hb
        · simp only [List.zipWith_cons_cons, List.sum_cons, List.map_cons, ih b (by simpa using hb)]
          unfold side
          ring
    rw [e1, this _ _ (by simp), ((List.rotate_perm v 1).map _).sum_eq]
    unfold shoelace
    ring
  have hle : ((edges v).map fun e => side e x.1 x.2).sum ≤ 0 := by
    have : ∀ l : List ((ℝ × ℝ) × (ℝ × ℝ)), (∀ e ∈ l, side e x.1 x.2 ≤ 0) → (l.map fun e => side e x.1 x.2).sum ≤ 0 := by
      intro l
      induction l with
      | nil => simp
      | cons e l ih =>
        intro hl
        rw [List.map_cons, List.sum_cons]
        exact add_nonpos (hl e (by simp)) (ih fun e' he' => hl e' (List.mem_cons_of_mem _ he'))
    exact this _ hx
  linarith

/-- The points strictly on the left of all edges are the interior of the hull. -/
theorem mem_interior_ring {v : List (ℝ × ℝ)} (h3 : 3 ≤ v.length) (h : ∀ a b c, [a, b, c].Sublist v → 0 < leftTurn a b c)
    (x : ℝ × ℝ) : (∀ e ∈ edges v, 0 < side e x.1 x.2) ↔ x ∈ interior (convexHull ℝ {y | y ∈ v}) := by
  have hcont : ∀ e : (ℝ × ℝ) × (ℝ × ℝ), Continuous fun y : ℝ × ℝ => side e y.1 y.2 := by
    intro e; unfold side; fun_prop
  constructor
  · intro hx
    have hopen : IsOpen {y : ℝ × ℝ | ∀ e ∈ edges v, 0 < side e y.1 y.2} := by
      have : {y : ℝ × ℝ | ∀ e ∈ edges v, 0 < side e y.1 y.2} = ⋂ e ∈ {e | e ∈ edges v}, {y | 0 < side e y.1 y.2} := by
        ext y; simp
      rw [this]
      exact (List.finite_toSet (edges v)).isOpen_biInter fun e _ => isOpen_lt continuous_const (hcont e)
    exact interior_maximal (fun y hy => (mem_ring h3 h y).1 fun e he => (hy e he).le) hopen hx
  · intro hx e he
    have hin := (mem_ring h3 h x).2 (interior_subset hx) e he
    refine lt_of_le_of_ne hin fun h0 => ?_
    -- leaving the hull across the edge
    have hne : (e.2.1 - e.1.1) ^ 2 + (e.2.2 - e.1.2) ^ 2 ≠ 0 := by
      intro hz
      have z1 : e.2.1 = e.1.1 := by nlinarith [sq_nonneg (e.2.1 - e.1.1), sq_nonneg (e.2.2 - e.1.2)]
      have z2 : e.2.2 = e.1.2 := by nlinarith [sq_nonneg (e.2.1 - e.1.1), sq_nonneg (e.2.2 - e.1.2)]
      have heq : e.1 = e.2 := Prod.ext z1.symm z2.symm
      unfold edges at he
      obtain ⟨i, hi, hie⟩ := List.mem_iff_getElem.1 he
      simp only [List.length_zip, List.length_rotate, min_self] at hi
      rw [List.getElem_zip, List.getElem_rotate] at hie
      have hnodup : v.Nodup := by
        rw [List.Nodup, List.pairwise_iff_forall_sublist]
        intro a b hab hEq
        subst hEq
        obtain ⟨f, hf⟩ := List.sublist_iff_exists_orderEmbedding_getElem?_eq.1 hab
        have f01 : f 0 < f 1 := f.lt_iff_lt.2 (by omega)
        have l1 := List.getElem?_eq_some_iff.1 (hf 1).symm
        have l0 := List.getElem?_eq_some_iff.1 (hf 0).symm
        obtain ⟨l1, e1⟩ := l1
        obtain ⟨l0, e0⟩ := l0
        have sub := turn_index h
        have zero : ∀ p q : ℝ × ℝ, leftTurn p p q = 0 ∧ leftTurn p q p = 0 ∧ leftTurn q p p = 0 := fun p q => by
          unfold leftTurn; refine ⟨?_, ?_, ?_⟩ <;> ring
        obtain ⟨k, hk, hk0, hk1⟩ : ∃ k < v.length, k ≠ f 0 ∧ k ≠ f 1 := by
          rcases Nat.eq_zero_or_pos (f 0) with h0' | h0'
          · rcases Nat.lt_or_ge 1 (f 1) with h1' | h1'
            · exact ⟨1, by omega, by omega, by omega⟩
            · exact ⟨2, by omega, by omega, by omega⟩
          · exact ⟨0, by omega, by omega, by omega⟩
        rcases lt_or_gt_of_ne hk0 with h' | h'
        · have := sub k (f 0) (f 1) h' f01 l1
          rw [e0, e1] at this
          exact absurd this (by rw [(zero _ _).2.2]; exact lt_irrefl _)
        · rcases lt_or_gt_of_ne hk1 with h'' | h''
          · have := sub (f 0) k (f 1) h' h'' l1
            rw [e0, e1] at this
            exact absurd this (by rw [(zero _ _).2.1]; exact lt_irrefl _)
          · have := sub (f 0) (f 1) k f01 h'' hk
            rw [e0, e1] at this
            exact absurd this (by rw [(zero _ _).1]; exact lt_irrefl _)
      have : v[i] = v[(i + 1) % v.length]'(Nat.mod_lt _ (by omega)) := by
        have a1 := congrArg Prod.fst hie
        have a2 := congrArg Prod.snd hie
        simp only at a1 a2
        rw [a1, a2, heq]
      have hidx := (hnodup.getElem_inj_iff).1 this
      by_cases hlast : i + 1 < v.length
      · rw [Nat.mod_eq_of_lt hlast] at hidx; omega
      · have hl : i + 1 = v.length := by omega
        rw [hl, Nat.mod_self] at hidx; omega
    have hpos : 0 < (e.2.1 - e.1.1) ^ 2 + (e.2.2 - e.1.2) ^ 2 := lt_of_le_of_ne (by positivity) (Ne.symm hne)
    have hpath : Continuous fun t : ℝ => ((x.1 + t * (e.2.2 - e.1.2), x.2 - t * (e.2.1 - e.1.1)) : ℝ × ℝ) := by fun_prop
    have hnhds : ∀ᶠ t in nhds (0 : ℝ), ((x.1 + t * (e.2.2 - e.1.2), x.2 - t * (e.2.1 - e.1.1)) : ℝ × ℝ)
        ∈ convexHull ℝ {y | y ∈ v} := by
      apply hpath.continuousAt.eventually_mem
      have : ((x.1 + 0 * (e.2.2 - e.1.2), x.2 - 0 * (e.2.1 - e.1.1)) : ℝ × ℝ) = x := by ext <;> simp
      rw [this]
      exact mem_interior_iff_mem_nhds.1 hx
    obtain ⟨ε, hε, hball⟩ := Metric.eventually_nhds_iff.1 hnhds
    have hmem := hball (y := ε / 2) (by rw [Real.dist_eq, sub_zero, abs_of_pos (by linarith)]; linarith)
    have := (mem_ring h3 h _).2 hmem e he
    unfold side at this h0
    nlinarith [mul_pos (half_pos hε) hpos]

end Pointpats.HullVolume
