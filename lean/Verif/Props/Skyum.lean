import Verif.Lemmas.SkyumLoop
import Mathlib.Tactic.IntervalCases
import Mathlib.Analysis.Complex.Trigonometric

/-!
# C31–C34: the minimum bounding circle
-/

namespace Pointpats.Props

open Pointpats.Skyum Pointpats.Spec Pointpats.Circ

theorem ne_of_sqDist_pos {p q : Pt} (h : 0 < planeSqDist p q) : p ≠ q := by
  rintro rfl
  simp [planeSqDist] at h

theorem turn_rot {x y z : Pt} : clockwiseTurn x y z = - clockwiseTurn y x z := by unfold clockwiseTurn; ring

theorem SpreadOut_notFlat {x y z : Pt} (h : SpreadOut x y z) : NotFlat x y z := by
  obtain ⟨h1, h2, h3⟩ := h
  have hl := lagrange y x z
  have m1 := Real.sqrt_pos.2 h1
  have m2 := Real.sqrt_pos.2 h2
  have hm : (Real.sqrt (planeSqDist y x) * Real.sqrt (planeSqDist y z)) ^ 2 = planeSqDist y x * planeSqDist y z := by
    rw [mul_pow, Real.sq_sqrt h1.le, Real.sq_sqrt h2.le]
  have hs : 1 / 100000 ≤ Real.sin (angle x y z) := by
    rw [angle_eq, Real.sin_arccos, div_pow, hm]
    apply Real.le_sqrt_of_sq_le
    rw [le_sub_iff_add_le, ← le_sub_iff_add_le', div_le_iff₀ (mul_pos h1 h2)]
    rw [turn_rot, neg_sq] at h3
    nlinarith
  refine ⟨hs.trans (Real.sin_le (angle_nonneg _ _ _)), ?_⟩
  rw [← Real.sin_pi_sub] at hs
  have := hs.trans (Real.sin_le (by linarith [angle_le_pi x y z]))
  linarith

/-- **C31.** If the points are not nearly on a line, the centre is at distance `radius` from each of them. -/
theorem C31_circumcircle (p q r : ℝ × ℝ) (h : SpreadOut p q r) :
    0 ≤ (circle p q r).1 ∧ ∀ x ∈ [p, q, r], planeSqDist (circle p q r).2 x = (circle p q r).1 ^ 2 := by
  have hf := SpreadOut_notFlat h
  have h1 := (ne_of_sqDist_pos h.1).symm
  have h2 := (ne_of_sqDist_pos h.2.1).symm
  rw [circle_eq hf h1 h2]
  have ht := hf.turn h1 h2
  obtain ⟨e1, e2, e3⟩ := on_circle ht
  refine ⟨Real.sqrt_nonneg _, ?_⟩
  simp only
  rw [Real.sq_sqrt (r2_nonneg ht)]
  intro x hx
  simp only [List.mem_cons, List.not_mem_nil, or_false] at hx
  rcases hx with rfl | rfl | rfl
  · exact e1
  · exact e2
  · exact e3

example : SpreadOut (0, 0) (4, 1) (2, 5) := by
  refine ⟨?_, ?_, ?_⟩ <;> norm_num [planeSqDist, clockwiseTurn]

theorem infix_three (l : List Pt) {m : ℕ} (hm : m < l.length) (h2 : 2 ≤ l.length) :
    [l.getD (prv l.length m) (0, 0), l.getD m (0, 0), l.getD (nxt l.length m) (0, 0)] <:+: l ++ l.take 2 := by
  have hL : ∀ t < l.length + 2, (l ++ l.take 2)[t]? = some (l.getD (if t < l.length then t else t - l.length) (0, 0)) := by
    intro t ht
    by_cases h : t < l.length
    · rw [if_pos h, List.getElem?_append_left h, List.getD_eq_getElem?_getD, List.getElem?_eq_getElem h]
      rfl
    · rw [if_neg h, List.getElem?_append_right (by omega), List.getElem?_take_of_lt (by omega), List.getD_eq_getElem?_getD,
        List.getElem?_eq_getElem (by omega)]
      rfl
  have c1 := nxt_cases hm
  have c2 := prv_cases l.length m
  have e : [l.getD (prv l.length m) (0, 0), l.getD m (0, 0), l.getD (nxt l.length m) (0, 0)]
      = ((l ++ l.take 2).drop (prv l.length m)).take 3 := by
    apply List.ext_getElem?
    intro i
    by_cases hi : i < 3
    · rw [List.getElem?_take_of_lt hi, List.getElem?_drop, hL _ (by omega)]
      have : i = 0 ∨ i = 1 ∨ i = 2 := by omega
      rcases this with rfl | rfl | rfl
      · simp only [List.getElem?_cons_zero]
        rw [if_pos (by omega)]
        rfl
      · simp only [List.getElem?_cons_succ, List.getElem?_cons_zero]
        have : (if prv l.length m + 1 < l.length then prv l.length m + 1 else prv l.length m + 1 - l.length) = m := by
          split_ifs <;> omega
        rw [this]
      · simp only [List.getElem?_cons_succ, List.getElem?_cons_zero]
        have : (if prv l.length m + 2 < l.length then prv l.length m + 2 else prv l.length m + 2 - l.length)
            = nxt l.length m := by
          split_ifs <;> omega
        rw [this]
    · rw [List.getElem?_eq_none (by simpa using hi), List.getElem?_eq_none (by simp; omega)]
  rw [e]
  exact (List.take_prefix _ _).isInfix.trans (List.drop_suffix _ _).isInfix

theorem loop_angle {pick : List Pt → ℕ} (k : ℕ) (l : List Pt) {m : ℕ} {pts rm : List Pt}
    (h : loop pick k l = some (m, pts, rm)) : angleAt pts m ≤ Real.pi / 2 := by
  induction k generalizing l rm with
  | zero => simp [loop] at h
  | succ k ih =>
    unfold loop at h
    split_ifs at h with ha
    · simp only [Option.some.injEq, Prod.mk.injEq] at h
      obtain ⟨rfl, rfl, -⟩ := h
      exact ha
    · rw [Option.map_eq_some_iff] at h
      obtain ⟨⟨m', pts', rm'⟩, he, hh⟩ := h
      simp only [Prod.mk.injEq] at hh
      obtain ⟨rfl, rfl, -⟩ := hh
      exact ih _ he

/-- **C32** (list version). Every list of at least two different points: the loop ends after at most one round less than
there are points; the removed and the remaining points are the given ones, the remaining ones in the given order, and the
circle is that of three consecutive remaining points (of two, if only two remain) whose angle is at most a right angle. -/
theorem C32_lists_stop (rounds : ℕ) (points : List (ℝ × ℝ)) (hd : points.Nodup) (h2 : 2 ≤ points.length)
    (hr : points.length - 1 ≤ rounds) :
    ∃ res : Result, skyumLists rounds 0 points [] = some (.ok res) ∧ res.points.Sublist points ∧ 2 ≤ res.points.length ∧
      (res.removed.map Prod.fst ++ res.points).Perm points ∧
      res.removed.map Prod.snd = List.range (points.length - res.points.length) ∧
      ∃ p q r, [p, q, r] <:+: res.points ++ res.points.take 2 ∧ res.candidate = (p, q, r) ∧ res.circle = circle p q r ∧
        angle p q r ≤ Real.pi / 2 := by
  have hp : ∀ l : List Pt, l ≠ [] → pickLists l < l.length := fun l hl => (pickLists_spec hl).2.1
  have hs := loop_some hp rounds points hd h2 hr
  obtain ⟨⟨m, pts, rm⟩, he⟩ := Option.isSome_iff_exists.1 hs
  obtain ⟨hm, l2, hsub, hperm, -⟩ := loop_perm hp rounds points hd h2 he
  rw [skyumLists_loop rounds 0 points [] hd h2, he]
  refine ⟨_, rfl, hsub, l2, ?_, ?_, _, _, _, infix_three pts hm l2, rfl, rfl, loop_angle _ _ he⟩
  · simpa using hperm
  · have := hperm.length_eq
    rw [List.length_append] at this
    simp only [List.nil_append, List.zipIdx_map_snd]
    rw [List.range_eq_range', show points.length - pts.length = rm.length by omega]

/-- **C32** (compiled version). -/
theorem C32_numba_stops (rounds : ℕ) (points : List (ℝ × ℝ)) (hd : points.Nodup) (h2 : 2 ≤ points.length)
    (hr : points.length - 1 ≤ rounds) :
    ∃ c rest, skyumNumba rounds points = some (.ok (c, rest)) ∧ rest.Sublist points ∧ 2 ≤ rest.length ∧
      ∃ p q r, [p, q, r] <:+: rest ++ rest.take 2 ∧ c = circle p q r ∧ angle p q r ≤ Real.pi / 2 := by
  have hp : ∀ l : List Pt, l ≠ [] → pickNumba l < l.length := fun l hl => (skyumIteration_eq hl).1
  have hs := loop_some hp rounds points hd h2 hr
  obtain ⟨⟨m, pts, rm⟩, he⟩ := Option.isSome_iff_exists.1 hs
  obtain ⟨hm, l2, hsub, hperm, -⟩ := loop_perm hp rounds points hd h2 he
  rw [skyumNumba_loop rounds points hd h2, he]
  exact ⟨_, _, rfl, hsub, l2, _, _, _, infix_three pts hm l2, rfl, loop_angle _ _ he⟩

example : ([(0, 0), (4, 1), (2, 5)] : List (ℝ × ℝ)).Nodup ∧ 2 ≤ ([(0, 0), (4, 1), (2, 5)] : List (ℝ × ℝ)).length := by
  norm_num

theorem hull_good {hull events : List Pt} (hh : IsHullOf hull events)
    (hs : ∀ x ∈ hull, ∀ y ∈ hull, ∀ z ∈ hull, x ≠ y → y ≠ z → x ≠ z → SpreadOut x y z) : Good hull.reverse := by
  have h3 := hh.three
  have hc := conv_reverse hh.ring
  refine ⟨hc, nodup_of_conv (by simpa using h3) hc, ?_, by simp; omega⟩
  intro x hx y hy z hz h1 h2 h4
  rw [List.mem_reverse] at hx hy hz
  exact SpreadOut_notFlat (hs x hx y hy z hz h1 h2 h4)

/-- **C33**, for hulls no three vertices of which are nearly on a line: every event is in the returned circle and no circle
with all events is smaller, with and without numba. -/
theorem C33_smallest_circle_partial (hasNumba : Bool) (rounds : ℕ) (hull events : List (ℝ × ℝ)) (hh : IsHullOf hull events)
    (hs : ∀ x ∈ hull, ∀ y ∈ hull, ∀ z ∈ hull, x ≠ y → y ≠ z → x ≠ z → SpreadOut x y z)
    (hr : hull.length - 1 ≤ rounds) :
    ∃ centre radius, minimumBoundingCircle hasNumba rounds hull = some (.ok (centre, radius)) ∧
      IsSmallestDisc centre radius events := by
  have hg := hull_good hh hs
  have e1 := not_clockwise_of_ring hh.three hh.ring
  have e2 := clockwise_reverse hh.three hh.ring
  have hmem : ∀ p, p ∈ hull.reverse ↔ p ∈ hull := fun p => List.mem_reverse
  unfold minimumBoundingCircle
  simp only [e1, if_neg (Bool.false_ne_true), e2, if_neg (Bool.true_eq_false_eq_False)]
  cases hasNumba with
  | true =>
    have hp : ∀ l : List Pt, l ≠ [] → pickNumba l < l.length := fun l hl => (skyumIteration_eq hl).1
    have hsome := loop_some hp rounds hull.reverse hg.nodup hg.two (by simpa using hr)
    obtain ⟨⟨m, pts, rm⟩, he⟩ := Option.isSome_iff_exists.1 hsome
    have hsm := loop_smallest (fun l hl => hl.pickNumba) rounds _ hg he
    simp only [if_true]
    rw [skyumNumba_loop rounds _ hg.nodup hg.two, he]
    exact ⟨_, _, rfl, smallest_of_hull hh (smallestDisc_congr hsm hmem)⟩
  | false =>
    have hp : ∀ l : List Pt, l ≠ [] → pickLists l < l.length := fun l hl => (pickLists_spec hl).2.1
    have hsome := loop_some hp rounds hull.reverse hg.nodup hg.two (by simpa using hr)
    obtain ⟨⟨m, pts, rm⟩, he⟩ := Option.isSome_iff_exists.1 hsome
    have hsm := loop_smallest (fun l hl => hl.pickLists) rounds _ hg he
    simp only [if_neg Bool.false_ne_true]
    rw [skyumLists_loop rounds 0 _ [] hg.nodup hg.two, he]
    exact ⟨_, _, rfl, smallest_of_hull hh (smallestDisc_congr hsm hmem)⟩

theorem smallestDisc_unique {c c' : Pt} {r r' : ℝ} {S : List Pt} (hne : S ≠ []) (h : IsSmallestDisc c r S)
    (h' : IsSmallestDisc c' r' S) : c = c' ∧ r = r' := by
  have er : r = r' := le_antisymm (h.2 _ _ h'.1) (h'.2 _ _ h.1)
  subst er
  refine ⟨?_, rfl⟩
  by_contra hc
  have hd := sqDist_pos hc
  obtain ⟨a, t, rfl⟩ := List.exists_cons_of_ne_nil hne
  have h0 : 0 ≤ r := (h.1 a (by simp)).1
  have key : ∀ p ∈ a :: t, planeSqDist ((c.1 + c'.1) / 2, (c.2 + c'.2) / 2) p ≤ r ^ 2 - planeSqDist c c' / 4 := by
    intro p hp
    have h1 := (h.1 p hp).2
    have h2 := (h'.1 p hp).2
    unfold planeSqDist at *
    simp only
    nlinarith
  have hnn : 0 ≤ r ^ 2 - planeSqDist c c' / 4 := (sqDist_nonneg _ _).trans (key a (by simp))
  have := h.2 ((c.1 + c'.1) / 2, (c.2 + c'.2) / 2) (Real.sqrt (r ^ 2 - planeSqDist c c' / 4))
    fun p hp => ⟨Real.sqrt_nonneg _, by rw [Real.sq_sqrt hnn]; exact key p hp⟩
  have h2 := pow_le_pow_left₀ h0 this 2
  rw [Real.sq_sqrt hnn] at h2
  linarith

/-- **C34**, for hulls no three vertices of which are nearly on a line: the answer is the same with and without numba. -/
theorem C34_same_circle (rounds : ℕ) (hull events : List (ℝ × ℝ)) (hh : IsHullOf hull events)
    (hs : ∀ x ∈ hull, ∀ y ∈ hull, ∀ z ∈ hull, x ≠ y → y ≠ z → x ≠ z → SpreadOut x y z)
    (hr : hull.length - 1 ≤ rounds) :
    minimumBoundingCircle true rounds hull = minimumBoundingCircle false rounds hull := by
  obtain ⟨c, r, e, h⟩ := C33_smallest_circle_partial true rounds hull events hh hs hr
  obtain ⟨c', r', e', h'⟩ := C33_smallest_circle_partial false rounds hull events hh hs hr
  have hne : events ≠ [] := by
    rintro rfl
    have : 0 < hull.length := by have := hh.three; omega
    exact absurd (hh.sub _ (List.getElem_mem this)) (by simp)
  obtain ⟨rfl, rfl⟩ := smallestDisc_unique hne h h'
  rw [e, e']

/-- A quadrilateral with an event inside meets the hypotheses of the two theorems above. -/
example : IsHullOf [(0, 0), (4, 0), (4, 4), (0, 3)] [(1, 1), (0, 0), (4, 0), (4, 4), (0, 3)] ∧
    ∀ x ∈ ([(0, 0), (4, 0), (4, 4), (0, 3)] : List (ℝ × ℝ)), ∀ y ∈ ([(0, 0), (4, 0), (4, 4), (0, 3)] : List (ℝ × ℝ)),
      ∀ z ∈ ([(0, 0), (4, 0), (4, 4), (0, 3)] : List (ℝ × ℝ)), x ≠ y → y ≠ z → x ≠ z → SpreadOut x y z := by
  refine ⟨⟨by simp, by simp, ?_, ?_⟩, ?_⟩
  · intro i j k hij hjk hk
    simp only [List.length_cons, List.length_nil] at hk
    have : i ≤ 1 := by omega
    have : j ≤ 2 := by omega
    have : k ≤ 3 := by omega
    interval_cases i <;> interval_cases j <;> interval_cases k <;> first | omega | norm_num [clockwiseTurn]
  · intro e he
    rw [List.mem_cons] at he
    rcases he with rfl | he
    · refine segment_subset_convexHull (x := (0, 0)) (y := (4, 4)) (by simp) (by simp) ?_
      exact ⟨3 / 4, 1 / 4, by norm_num, by norm_num, by norm_num, by ext <;> norm_num⟩
    · exact subset_convexHull ℝ _ he
  · intro x hx y hy z hz h1 h2 h3
    simp only [List.mem_cons, List.not_mem_nil, or_false] at hx hy hz
    rcases hx with rfl | rfl | rfl | rfl <;> rcases hy with rfl | rfl | rfl | rfl <;>
      rcases hz with rfl | rfl | rfl | rfl <;>
      first
        | exact absurd rfl h1
        | exact absurd rfl h2
        | exact absurd rfl h3
        | (refine ⟨?_, ?_, ?_⟩ <;> norm_num [planeSqDist, clockwiseTurn])

/-! ### C34: the same choices -/

theorem angle_pos_of_turn {x y z : Pt} (h : clockwiseTurn x y z ≠ 0) : 0 < angle x y z := by
  have hyx : 0 < planeSqDist y x := by
    rw [sqDist_comm]
    exact sqDist_pos_of_turn (x := z) (by rw [turn_cyc]; exact h)
  have hyz : 0 < planeSqDist y z := sqDist_pos_of_turn h
  have m1 := Real.sqrt_pos.2 hyx
  have m2 := Real.sqrt_pos.2 hyz
  have hm : (Real.sqrt (planeSqDist y x) * Real.sqrt (planeSqDist y z)) ^ 2 = planeSqDist y x * planeSqDist y z := by
    rw [mul_pow, Real.sq_sqrt hyx.le, Real.sq_sqrt hyz.le]
  rw [angle_eq, Real.arccos_pos, div_lt_one (mul_pos m1 m2)]
  have hl := lagrange y x z
  have ht : 0 < clockwiseTurn y x z ^ 2 := by
    rw [turn_rot, neg_ne_zero] at h
    positivity
  apply lt_of_pow_lt_pow_left₀ 2 (mul_pos m1 m2).le
  rw [hm, hl]
  linarith

theorem numba_lexMax {l : List Pt} (hc : ConvexClockwise l) (hd : l.Nodup) (h2 : 2 ≤ l.length) : IsLexMax l (pickNumba l) := by
  by_cases h3 : 3 ≤ l.length
  · refine pickNumba_spec (by rintro rfl; simp at h2) (Or.inl ?_)
    intro i hi
    have hring : Ring (fun i => l.getD i (0, 0)) l.length := hc
    exact angle_pos_of_turn (hring.pos (prv_lt hi) hi (nxt_lt hi) (cyc_prv_nxt h3 hi)).ne'
  · have hg : Good l := ⟨hc, hd, ?_, h2⟩
    · exact hg.pickNumba
    · obtain ⟨a, b, rfl⟩ := List.length_eq_two.1 (show l.length = 2 by omega)
      intro x hx y hy z hz hxy hyz hxz
      exfalso
      simp only [List.mem_cons, List.not_mem_nil, or_false] at hx hy hz
      rcases hx with rfl | rfl <;> rcases hy with rfl | rfl <;> rcases hz with rfl | rfl <;> simp_all

/-- **C34**, each round. Both versions choose a vertex whose pair of radius and angle is the largest. -/
theorem C34_choices (points : List (ℝ × ℝ)) (hc : ConvexClockwise points) (hd : points.Nodup) (h2 : 2 ≤ points.length) :
    (∀ m, lexsortLast (points.map fun p => angle (prec p points) p (succ p points))
        (points.map fun p => (circle (prec p points) p (succ p points)).1) = some m → IsLexMax points m) ∧
    (∀ done rest m c, skyumIteration points = .ok (done, rest, m, c) →
      IsLexMax points m ∧ c = circleAt points m ∧
      ((done = true ∧ rest = points ∧ angleAt points m ≤ Real.pi / 2) ∨
       (done = false ∧ rest = points.eraseIdx m ∧ Real.pi / 2 < angleAt points m))) := by
  have hne : points ≠ [] := by rintro rfl; simp at h2
  constructor
  · intro m hm
    have e : (points.map fun p => (circle (prec p points) p (succ p points)).1)
        = (List.range points.length).map fun i => (circleAt points i).1 := by
      have := congrArg (List.map Prod.fst) (map_circles hd)
      simpa [List.map_map, Function.comp_def] using this
    rw [map_angles hd, e, (pickLists_spec hne).1] at hm
    cases hm
    exact (pickLists_spec hne).2
  · intro done rest m c h
    rw [(skyumIteration_eq hne).2] at h
    have hmax := numba_lexMax hc hd h2
    split_ifs at h with ha
    · simp only [Except.ok.injEq, Prod.mk.injEq] at h
      obtain ⟨rfl, rfl, rfl, rfl⟩ := h
      exact ⟨hmax, rfl, Or.inl ⟨rfl, rfl, ha⟩⟩
    · simp only [Except.ok.injEq, Prod.mk.injEq] at h
      obtain ⟨rfl, rfl, rfl, rfl⟩ := h
      exact ⟨hmax, rfl, Or.inr ⟨rfl, rfl, not_le.1 ha⟩⟩

/-- The lists that the loop can come to if it removes vertices with an obtuse angle and the largest pair of radius and
angle. -/
inductive Reached (start : List Pt) : List Pt → Prop
  | start : Reached start start
  | step {s : List Pt} {m : ℕ} : Reached start s → IsLexMax s m → Real.pi / 2 < angleAt s m → Reached start (s.eraseIdx m)

theorem Reached.trans_step {a s : List Pt} {m : ℕ} (hm : IsLexMax a m) (ha : Real.pi / 2 < angleAt a m)
    (h : Reached (a.eraseIdx m) s) : Reached a s := by
  induction h with
  | start => exact Reached.step Reached.start hm ha
  | step _ h1 h2 ih => exact Reached.step ih h1 h2

theorem loops_agree (k : ℕ) (l : List Pt) (hc : ConvexClockwise l) (hd : l.Nodup) (h2 : 2 ≤ l.length)
    (hu : ∀ s, Reached l s → 3 ≤ s.length → ∀ i j, IsLexMax s i → IsLexMax s j → i = j) :
    (loop pickLists k l).map (fun t => (circleAt t.2.1 t.1, t.2.1)) =
      (loop pickNumba k l).map fun t => (circleAt t.2.1 t.1, t.2.1) := by
  induction k generalizing l with
  | zero => rfl
  | succ k ih =>
    have hne : l ≠ [] := by rintro rfl; simp at h2
    have m1 := (pickLists_spec hne).2
    have m2 := numba_lexMax hc hd h2
    by_cases h3 : 3 ≤ l.length
    · have e := hu l Reached.start h3 _ _ m1 m2
      unfold loop
      rw [e]
      split_ifs with ha
      · rfl
      · have := ih (l.eraseIdx (pickNumba l)) (conv_eraseIdx hc m2.1) (nodup_eraseIdx hd _)
          (by rw [length_erase m2.1]; omega) (fun s hs => hu s (hs.trans_step m2 (not_le.1 ha)))
        simpa [Option.map_map, Function.comp_def] using this
    · have e : l.length = 2 := by omega
      unfold loop
      rw [angleAt_two hd e m1.1, angleAt_two hd e m2.1, if_pos Real.pi_div_two_pos.le, if_pos Real.pi_div_two_pos.le]
      have n1 := m1.1
      have n2 := m2.1
      generalize pickLists l = i at *
      generalize pickNumba l = j at *
      obtain ⟨a, b, rfl⟩ := List.length_eq_two.1 e
      have hab : a ≠ b := by simpa using hd
      have e0 : circleAt [a, b] 0 = circle b a b := rfl
      have e1 : circleAt [a, b] 1 = circle a b a := rfl
      have i' : i = 0 ∨ i = 1 := by simp at n1; omega
      have j' : j = 0 ∨ j = 1 := by simp at n2; omega
      have hcc : circle b a b = circle a b a := by
        rw [circle_two hab, circle_two hab.symm, sqDist_comm b a, add_comm b.1, add_comm b.2]
      rcases i' with rfl | rfl <;> rcases j' with rfl | rfl <;> simp [e0, e1, hcc]

/-- **C34.** If the vertex with the largest pair of radius and angle is unique in every round, both versions return the same
circle and leave the same points. -/
theorem C34_same_if_unique (rounds : ℕ) (points : List (ℝ × ℝ)) (hc : ConvexClockwise points) (hd : points.Nodup)
    (h2 : 2 ≤ points.length)
    (hu : ∀ s, Reached points s → 3 ≤ s.length → ∀ i j, IsLexMax s i → IsLexMax s j → i = j) :
    (skyumLists rounds 0 points []).map (fun r => r.map fun x => (x.circle, x.points)) = skyumNumba rounds points := by
  have := congrArg (Option.map (Except.ok (ε := PyErr))) (loops_agree rounds points hc hd h2 hu)
  rw [skyumLists_loop rounds 0 points [] hd h2, skyumNumba_loop rounds points hd h2]
  simpa [Option.map_map, Function.comp_def, Except.map] using this

/-- A right triangle meets the hypotheses. -/
example : ConvexClockwise [(0, 0), (0, 2), (3, 0)] ∧ ([(0, 0), (0, 2), (3, 0)] : List (ℝ × ℝ)).Nodup ∧
    ∀ s, Reached [(0, 0), (0, 2), (3, 0)] s → 3 ≤ s.length → ∀ i j, IsLexMax s i → IsLexMax s j → i = j := by
  have hspread : SpreadOut (3, 0) (0, 0) (0, 2) ∧ SpreadOut (0, 0) (0, 2) (3, 0) ∧ SpreadOut (0, 2) (3, 0) (0, 0) := by
    refine ⟨⟨?_, ?_, ?_⟩, ⟨?_, ?_, ?_⟩, ?_, ?_, ?_⟩ <;> norm_num [planeSqDist, clockwiseTurn]
  have aux : ∀ p q r : Pt, SpreadOut p q r → circle p q r = (Real.sqrt (r2 p q r), cc p q r) := by
    intro p q r h
    exact circle_eq (SpreadOut_notFlat h) (ne_of_sqDist_pos h.1).symm (ne_of_sqDist_pos h.2.1).symm
  have h0 : angle (3, 0) (0, 0) (0, 2) = Real.pi / 2 := by
    rw [angle_eq]
    norm_num [dotAt]
  have h1 : angle (0, 0) (0, 2) (3, 0) < Real.pi / 2 := by
    rw [angle_eq, Real.arccos_lt_pi_div_two]
    exact div_pos (by norm_num [dotAt]) (mul_pos (Real.sqrt_pos.2 (by norm_num [planeSqDist])) (Real.sqrt_pos.2 (by norm_num [planeSqDist])))
  have h2 : angle (0, 2) (3, 0) (0, 0) < Real.pi / 2 := by
    rw [angle_eq, Real.arccos_lt_pi_div_two]
    exact div_pos (by norm_num [dotAt]) (mul_pos (Real.sqrt_pos.2 (by norm_num [planeSqDist])) (Real.sqrt_pos.2 (by norm_num [planeSqDist])))
  have hr : ∀ i < 3, (circleAt [(0, 0), (0, 2), (3, 0)] i).1 = Real.sqrt (13 / 4) := by
    intro i hi
    have e0 : circleAt [(0, 0), (0, 2), (3, 0)] 0 = circle (3, 0) (0, 0) (0, 2) := rfl
    have e1 : circleAt [(0, 0), (0, 2), (3, 0)] 1 = circle (0, 0) (0, 2) (3, 0) := rfl
    have e2 : circleAt [(0, 0), (0, 2), (3, 0)] 2 = circle (0, 2) (3, 0) (0, 0) := rfl
    interval_cases i
    · rw [e0, aux _ _ _ hspread.1]; norm_num [r2, planeSqDist, clockwiseTurn]
    · rw [e1, aux _ _ _ hspread.2.1]; norm_num [r2, planeSqDist, clockwiseTurn]
    · rw [e2, aux _ _ _ hspread.2.2]; norm_num [r2, planeSqDist, clockwiseTurn]
  have hmax : ∀ i, IsLexMax [(0, 0), (0, 2), (3, 0)] i → i = 0 := by
    intro i hi
    have hlt : i < 3 := hi.1
    rcases hi.2 0 (by decide : 0 < 3) with h | ⟨-, h⟩
    · rw [hr 0 (by decide), hr i hlt] at h
      exact absurd h (lt_irrefl _)
    · have e : angleAt [(0, 0), (0, 2), (3, 0)] 0 = Real.pi / 2 := h0
      rw [e] at h
      interval_cases i
      · rfl
      · exact absurd h (not_le.2 h1)
      · exact absurd h (not_le.2 h2)
  refine ⟨?_, by norm_num, ?_⟩
  · intro i j k hij hjk hk
    simp only [List.length_cons, List.length_nil] at hk
    obtain ⟨rfl, rfl, rfl⟩ : i = 0 ∧ j = 1 ∧ k = 2 := by omega
    norm_num [clockwiseTurn]
  · intro s hs
    have : s = [(0, 0), (0, 2), (3, 0)] := by
      induction hs with
      | start => rfl
      | step _ hm ha ih =>
        subst ih
        rw [hmax _ hm] at ha
        have e : angleAt [(0, 0), (0, 2), (3, 0)] 0 = Real.pi / 2 := h0
        rw [e] at ha
        exact absurd ha (lt_irrefl _)
    subst this
    intro _ i j hi hj
    rw [hmax i hi, hmax j hj]

/-! ### C33: nearly flat corners -/

/-- Counterclockwise; the second vertex is nearly on the line of its neighbours. -/
noncomputable def flatHull : List Pt := [(0, 0), (1, -1 / 1000000), (2, 0), (3, 1)]

theorem flatHull_isHull : IsHullOf flatHull flatHull := by
  refine ⟨by simp [flatHull], fun v hv => hv, ?_, fun e he => subset_convexHull ℝ _ he⟩
  intro i j k hij hjk hk
  simp only [flatHull, List.length_cons, List.length_nil] at hk
  have : i ≤ 1 := by omega
  have : j ≤ 2 := by omega
  have : k ≤ 3 := by omega
  interval_cases i <;> interval_cases j <;> interval_cases k <;> first | omega | norm_num [flatHull, clockwiseTurn]

theorem flat_angle : |angle (2, 0) (1, -1 / 1000000) (0, 0) - Real.pi| < 1 / 100000 := by
  rw [abs_of_nonpos (by linarith [angle_le_pi (2, 0) (1, -1 / 1000000) (0, 0)]), neg_sub]
  have hs : Real.sqrt (planeSqDist (1, -1 / 1000000) (2, 0)) * Real.sqrt (planeSqDist (1, -1 / 1000000) (0, 0))
      = 1 + 1 / 1000000 ^ 2 := by
    have : planeSqDist (1, -1 / 1000000) (2, 0) = planeSqDist (1, -1 / 1000000) (0, 0) := by norm_num [planeSqDist]
    rw [this, Real.mul_self_sqrt (sqDist_nonneg _ _)]
    norm_num [planeSqDist]
  rw [angle_eq, hs, ← Real.arccos_neg]
  have hb := (abs_le.1 (Real.cos_bound (x := 1 / 100000) (by norm_num))).2
  have h1 : Real.cos (1 / 100000) < -(dotAt (1, -1 / 1000000) (2, 0) (0, 0) / (1 + 1 / 1000000 ^ 2)) := by
    refine lt_of_le_of_lt (sub_le_iff_le_add.1 hb) ?_
    rw [abs_of_pos (by norm_num)]
    norm_num [dotAt]
  have h2 := Real.arccos_lt_arccos (Real.neg_one_le_cos _) h1 (by norm_num [dotAt])
  rwa [Real.arccos_cos (by norm_num) (by linarith [Real.pi_gt_three])] at h2

theorem flat_circles :
    circleAt flatHull.reverse 0 = (Real.sqrt (r2 (0, 0) (3, 1) (2, 0)), cc (0, 0) (3, 1) (2, 0)) ∧
    circleAt flatHull.reverse 1 = (Real.sqrt (r2 (3, 1) (2, 0) (1, -1 / 1000000)), cc (3, 1) (2, 0) (1, -1 / 1000000)) ∧
    (circleAt flatHull.reverse 2).1 = 1 ∧
    circleAt flatHull.reverse 3 = (Real.sqrt (r2 (1, -1 / 1000000) (0, 0) (3, 1)), cc (1, -1 / 1000000) (0, 0) (3, 1)) := by
  have aux : ∀ p q r : Pt, SpreadOut p q r → circle p q r = (Real.sqrt (r2 p q r), cc p q r) := by
    intro p q r h
    exact circle_eq (SpreadOut_notFlat h) (ne_of_sqDist_pos h.1).symm (ne_of_sqDist_pos h.2.1).symm
  refine ⟨aux (0, 0) (3, 1) (2, 0) ?_, aux (3, 1) (2, 0) (1, -1 / 1000000) ?_, ?_, aux (1, -1 / 1000000) (0, 0) (3, 1) ?_⟩
  · refine ⟨?_, ?_, ?_⟩ <;> norm_num [planeSqDist, clockwiseTurn]
  · refine ⟨?_, ?_, ?_⟩ <;> norm_num [planeSqDist, clockwiseTurn]
  · show (circle (2, 0) (1, -1 / 1000000) (0, 0)).1 = 1
    simp only [circle, abs_of_nonneg (angle_nonneg (2, 0) (1, -1 / 1000000) (0, 0)), if_pos flat_angle, euclideanDistance]
    rw [show ((2 : ℝ) - 0) ^ 2 + (0 - 0) ^ 2 = 2 ^ 2 by norm_num, Real.sqrt_sq (by norm_num)]
    norm_num
  · refine ⟨?_, ?_, ?_⟩ <;> norm_num [planeSqDist, clockwiseTurn]

theorem flat_max {m : ℕ} (h : IsLexMax flatHull.reverse m) : m = 3 := by
  obtain ⟨c0, c1, c2, c3⟩ := flat_circles
  have hm : m < 4 := h.1
  have key := h.2 3 (by decide : 3 < 4)
  have hle : (circleAt flatHull.reverse 3).1 ≤ (circleAt flatHull.reverse m).1 := by
    rcases key with h' | ⟨h', -⟩
    · exact h'.le
    · exact h'.le
  by_contra hne
  have : m = 0 ∨ m = 1 ∨ m = 2 := by omega
  rw [c3] at hle
  rcases this with rfl | rfl | rfl
  · rw [c0] at hle
    simp only at hle
    rw [Real.sqrt_le_sqrt_iff (by norm_num [r2, planeSqDist, clockwiseTurn])] at hle
    norm_num [r2, planeSqDist, clockwiseTurn] at hle
  · rw [c1] at hle
    simp only at hle
    rw [Real.sqrt_le_sqrt_iff (by norm_num [r2, planeSqDist, clockwiseTurn])] at hle
    norm_num [r2, planeSqDist, clockwiseTurn] at hle
  · rw [c2] at hle
    simp only at hle
    rw [Real.sqrt_le_one] at hle
    norm_num [r2, planeSqDist, clockwiseTurn] at hle

/-- **C33 does not hold for all events.** A corner that is nearly on the line of its neighbours gets the circle on the segment
of the neighbours, which can be smaller than the circle of the next corner; then the loop stops with a circle that does not
contain all events, with and without numba. -/
theorem C33_contains_refuted (hasNumba : Bool) (rounds : ℕ) : IsHullOf flatHull flatHull ∧
    ∃ centre radius, minimumBoundingCircle hasNumba (rounds + 1) flatHull = some (.ok (centre, radius)) ∧
      ∃ e ∈ flatHull, ¬ InDisc centre radius e := by
  have hh := flatHull_isHull
  refine ⟨hh, (cc (1, -1 / 1000000) (0, 0) (3, 1)), Real.sqrt (r2 (1, -1 / 1000000) (0, 0) (3, 1)), ?_, (2, 0), by simp [flatHull], ?_⟩
  swap
  · rintro ⟨-, h⟩
    rw [Real.sq_sqrt (by norm_num [r2, planeSqDist, clockwiseTurn])] at h
    norm_num [r2, planeSqDist, clockwiseTurn, cc] at h
  obtain ⟨c0, c1, c2, c3⟩ := flat_circles
  have e1 := not_clockwise_of_ring hh.three hh.ring
  have e2 := clockwise_reverse hh.three hh.ring
  have hc := conv_reverse hh.ring
  have hd := nodup_of_conv (by rw [List.length_reverse]; exact hh.three) hc
  have h2 : 2 ≤ flatHull.reverse.length := by rw [List.length_reverse]; have := hh.three; omega
  have hang : angleAt flatHull.reverse 3 ≤ Real.pi / 2 := by
    show angle (1, -1 / 1000000) (0, 0) (3, 1) ≤ Real.pi / 2
    rw [angle_le_iff (by simp) (by simp)]
    norm_num [dotAt]
  have hloop : ∀ pick : List Pt → ℕ, IsLexMax flatHull.reverse (pick flatHull.reverse) →
      loop pick (rounds + 1) flatHull.reverse = some (3, flatHull.reverse, []) := by
    intro pick hp
    have := flat_max hp
    unfold loop
    rw [this, if_pos hang]
  unfold minimumBoundingCircle
  simp only [e1, if_neg (Bool.false_ne_true), e2]
  cases hasNumba with
  | true =>
    have := hloop pickNumba (numba_lexMax hc hd h2)
    simp only [if_true]
    rw [skyumNumba_loop (rounds + 1) _ hd h2, this]
    simp [c3, Except.map]
  | false =>
    have := hloop pickLists (pickLists_spec (by rintro h; rw [h] at h2; simp at h2)).2
    simp only [if_neg Bool.false_ne_true]
    rw [skyumLists_loop (rounds + 1) 0 _ [] hd h2, this]
    simp [c3, Except.map]

end Pointpats.Props
