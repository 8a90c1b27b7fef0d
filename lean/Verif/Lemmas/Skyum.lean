import Verif.Model.Skyum
import Verif.Lemmas.ConvexRing
import Verif.Lemmas.MinMax
import Mathlib.Analysis.Real.Pi.Bounds

/-!
# Lemmas on the bounding circle
-/

namespace Pointpats.Skyum

open Spec Circ

theorem angle_eq (p q r : Pt) :
    angle p q r = Real.arccos (dotAt q p r / (Real.sqrt (planeSqDist q p) * Real.sqrt (planeSqDist q r))) := by
  have e1 : (p.1 - q.1) ^ 2 + (p.2 - q.2) ^ 2 = planeSqDist q p := by unfold planeSqDist; ring
  have e2 : (r.1 - q.1) ^ 2 + (r.2 - q.2) ^ 2 = planeSqDist q r := by unfold planeSqDist; ring
  simp only [angle, e1, e2, abs_of_nonneg (Real.arccos_nonneg _), dotAt]

theorem angle_nonneg (p q r : Pt) : 0 ≤ angle p q r := by rw [angle_eq]; exact Real.arccos_nonneg _

theorem angle_le_pi (p q r : Pt) : angle p q r ≤ Real.pi := by rw [angle_eq]; exact Real.arccos_le_pi _

theorem angle_comm (p q r : Pt) : angle p q r = angle r q p := by
  rw [angle_eq, angle_eq, dotAt_comm, mul_comm (Real.sqrt _)]

theorem sqDist_pos {p q : Pt} (h : p ≠ q) : 0 < planeSqDist p q := by
  rcases (sqDist_nonneg p q).lt_or_eq with h' | h'
  · exact h'
  · exfalso
    unfold planeSqDist at h'
    have h1 : p.1 - q.1 = 0 := by nlinarith [sq_nonneg (p.1 - q.1), sq_nonneg (p.2 - q.2)]
    have h2 : p.2 - q.2 = 0 := by nlinarith [sq_nonneg (p.1 - q.1), sq_nonneg (p.2 - q.2)]
    exact h (Prod.ext (sub_eq_zero.1 h1) (sub_eq_zero.1 h2))

theorem angle_le_iff {p q r : Pt} (h1 : p ≠ q) (h2 : r ≠ q) : angle p q r ≤ Real.pi / 2 ↔ 0 ≤ dotAt q p r := by
  have m1 := Real.sqrt_pos.2 (sqDist_pos h1.symm)
  have m2 := Real.sqrt_pos.2 (sqDist_pos h2.symm)
  rw [angle_eq, Real.arccos_le_pi_div_two]
  exact ⟨fun h => by simpa using (le_div_iff₀ (mul_pos m1 m2)).1 h, fun h => div_nonneg h (mul_pos m1 m2).le⟩

theorem angle_self {p q : Pt} (h : p ≠ q) : angle p q p = 0 := by
  have m1 := Real.sqrt_pos.2 (sqDist_pos h.symm)
  rw [angle_eq, Real.mul_self_sqrt (sqDist_nonneg _ _)]
  have : dotAt q p p = planeSqDist q p := by unfold dotAt planeSqDist; ring
  rw [this, div_self (sqDist_pos h.symm).ne', Real.arccos_one]

/-- Neither nearly zero nor nearly `π`, by the tolerance of the code. -/
def NotFlat (p q r : Pt) : Prop := 1 / 100000 ≤ angle p q r ∧ angle p q r ≤ Real.pi - 1 / 100000

theorem NotFlat.turn {p q r : Pt} (h : NotFlat p q r) (h1 : p ≠ q) (h2 : r ≠ q) : clockwiseTurn p q r ≠ 0 := by
  intro h0
  have hl := lagrange q p r
  have h0' : clockwiseTurn q p r = 0 := by
    rw [turn_swap q r p, turn_cyc q r p, turn_cyc r p q, h0, neg_zero]
  have m1 := sqDist_pos h1.symm
  have m2 := sqDist_pos h2.symm
  have hm : (Real.sqrt (planeSqDist q p) * Real.sqrt (planeSqDist q r)) ^ 2 = dotAt q p r ^ 2 := by
    rw [mul_pow, Real.sq_sqrt m1.le, Real.sq_sqrt m2.le, hl, h0']
    ring
  have hpos : 0 < Real.sqrt (planeSqDist q p) * Real.sqrt (planeSqDist q r) := mul_pos (Real.sqrt_pos.2 m1) (Real.sqrt_pos.2 m2)
  obtain ⟨ha, hb⟩ := h
  rw [angle_eq] at ha hb
  rcases sq_eq_sq_iff_eq_or_eq_neg.1 hm with e | e
  · rw [← e, div_self hpos.ne', Real.arccos_one] at ha
    norm_num at ha
  · have : dotAt q p r = - (Real.sqrt (planeSqDist q p) * Real.sqrt (planeSqDist q r)) := by linarith
    rw [this, neg_div, div_self hpos.ne', Real.arccos_neg_one] at hb
    linarith

theorem circle_eq {p q r : Pt} (h : NotFlat p q r) (h1 : p ≠ q) (h2 : r ≠ q) :
    circle p q r = (Real.sqrt (r2 p q r), cc p q r) := by
  have ht := h.turn h1 h2
  have ha := abs_of_nonneg (angle_nonneg p q r)
  have c1 : ¬ |angle p q r - Real.pi| < 1 / 100000 := by
    rw [abs_of_nonpos (by linarith [angle_le_pi p q r])]
    linarith [h.2]
  have c2 : ¬ angle p q r < 1 / 100000 := not_lt.2 h.1
  have hd : 2 * (p.1 * (q.2 - r.2) + q.1 * (r.2 - p.2) + r.1 * (p.2 - q.2)) = -2 * clockwiseTurn p q r := by
    unfold clockwiseTurn; ring
  simp only [circle, ha, if_neg c1, if_neg c2, hd, euclideanDistance]
  refine Prod.ext ?_ rfl
  simp only
  rw [← sq_cc ht]
  rfl

theorem circle_two {p q : Pt} (h : p ≠ q) :
    circle p q p = (Real.sqrt (planeSqDist p q) / 2, (p.1 + q.1) / 2, (p.2 + q.2) / 2) := by
  have c1 : ¬ |0 - Real.pi| < 1 / 100000 := by
    rw [zero_sub, abs_neg, abs_of_pos Real.pi_pos]
    linarith [Real.pi_gt_three]
  have c2 : (0 : ℝ) < 1 / 100000 := by norm_num
  simp only [circle, angle_self h, abs_zero, if_neg c1, if_pos c2, euclideanDistance]
  rfl

/-! ### The choice of a vertex -/

/-- The vertex `i` of the ring and its neighbours: the angle and the radius. -/
noncomputable def angleAt (l : List Pt) (i : ℕ) : ℝ :=
  angle (l.getD (prv l.length i) (0, 0)) (l.getD i (0, 0)) (l.getD (nxt l.length i) (0, 0))

/-- The circle of a vertex and its neighbours. -/
noncomputable def circleAt (l : List Pt) (i : ℕ) : ℝ × ℝ × ℝ :=
  circle (l.getD (prv l.length i) (0, 0)) (l.getD i (0, 0)) (l.getD (nxt l.length i) (0, 0))

/-- The vertex has the largest pair of radius and angle. -/
def IsLexMax (l : List Pt) (m : ℕ) : Prop :=
  m < l.length ∧ ∀ i < l.length, (circleAt l i).1 < (circleAt l m).1 ∨
    ((circleAt l i).1 = (circleAt l m).1 ∧ angleAt l i ≤ angleAt l m)

theorem idxOf_getD {l : List Pt} (hl : l.Nodup) {i : ℕ} (hi : i < l.length) : l.idxOf (l.getD i (0, 0)) = i := by
  rw [List.getD_eq_getElem?_getD, List.getElem?_eq_getElem hi, Option.getD_some]
  exact hl.idxOf_getElem i hi

theorem prec_getD {l : List Pt} (hl : l.Nodup) {i : ℕ} (hi : i < l.length) :
    prec (l.getD i (0, 0)) l = l.getD (prv l.length i) (0, 0) := by
  simp only [prec, idxOf_getD hl hi, prv]
  split_ifs with h
  · rw [List.getLastD_eq_getLast?, List.getLast?_eq_getElem?, List.getD_eq_getElem?_getD]
  · rfl

theorem succ_getD {l : List Pt} (hl : l.Nodup) {i : ℕ} (hi : i < l.length) :
    succ (l.getD i (0, 0)) l = l.getD (nxt l.length i) (0, 0) := by
  simp only [succ, idxOf_getD hl hi, nxt]
  by_cases h : i + 1 < l.length
  · rw [if_neg (by omega), if_pos h]
  · rw [if_pos (by omega), if_neg h]
    cases l <;> rfl

theorem map_angles {l : List Pt} (hl : l.Nodup) :
    (l.map fun p => angle (prec p l) p (succ p l)) = (List.range l.length).map (angleAt l) := by
  apply List.ext_getElem
  · simp
  · intro i h1 h2
    have hi : i < l.length := by simpa using h1
    have e : l[i] = l.getD i (0, 0) := by simp [List.getD_eq_getElem?_getD, hi]
    simp only [List.getElem_map, List.getElem_range, angleAt]
    rw [e, prec_getD hl hi, succ_getD hl hi]

theorem map_circles {l : List Pt} (hl : l.Nodup) :
    (l.map fun p => circle (prec p l) p (succ p l)) = (List.range l.length).map (circleAt l) := by
  apply List.ext_getElem
  · simp
  · intro i h1 h2
    have hi : i < l.length := by simpa using h1
    have e : l[i] = l.getD i (0, 0) := by simp [List.getD_eq_getElem?_getD, hi]
    simp only [List.getElem_map, List.getElem_range, circleAt]
    rw [e, prec_getD hl hi, succ_getD hl hi]

theorem getD_range_map (f : ℕ → ℝ) {n i : ℕ} (hi : i < n) : ((List.range n).map f).getD i 0 = f i := by
  rw [List.getD_eq_getElem?_getD, List.getElem?_map, List.getElem?_range hi]
  rfl

/-- The index that the lists choose. -/
noncomputable def pickLists (l : List Pt) : ℕ :=
  (lexsortLast ((List.range l.length).map (angleAt l)) ((List.range l.length).map fun i => (circleAt l i).1)).getD 0

theorem pickLists_spec {l : List Pt} (hne : l ≠ []) :
    lexsortLast ((List.range l.length).map (angleAt l)) ((List.range l.length).map fun i => (circleAt l i).1)
      = some (pickLists l) ∧ IsLexMax l (pickLists l) := by
  unfold pickLists
  generalize hA : (List.range l.length).map (angleAt l) = A
  generalize hR : ((List.range l.length).map fun i => (circleAt l i).1) = R
  have hRl : R.length = l.length := by rw [← hR]; simp
  have gA : ∀ i < l.length, A.getD i 0 = angleAt l i := by
    intro i hi; rw [← hA, getD_range_map _ hi]
  have gR : ∀ i < l.length, R.getD i 0 = (circleAt l i).1 := by
    intro i hi; rw [← hR, getD_range_map _ hi]
  unfold lexsortLast
  rw [hRl]
  set rel := fun i j => R.getD i 0 < R.getD j 0 ∨ (R.getD i 0 = R.getD j 0 ∧ A.getD i 0 ≤ A.getD j 0) with hrel
  have i1 : Std.Total rel := ⟨fun a b => by
    simp only [hrel]
    rcases lt_trichotomy (R.getD a 0) (R.getD b 0) with h | h | h
    · exact Or.inl (Or.inl h)
    · rcases le_total (A.getD a 0) (A.getD b 0) with h' | h'
      · exact Or.inl (Or.inr ⟨h, h'⟩)
      · exact Or.inr (Or.inr ⟨h.symm, h'⟩)
    · exact Or.inr (Or.inl h)⟩
  have i2 : IsTrans ℕ rel := ⟨fun a b c h1 h2 => by
    simp only [hrel] at *
    rcases h1 with h1 | ⟨h1, h1'⟩ <;> rcases h2 with h2 | ⟨h2, h2'⟩
    · exact Or.inl (h1.trans h2)
    · exact Or.inl (h2 ▸ h1)
    · exact Or.inl (h1 ▸ h2)
    · exact Or.inr ⟨h1.trans h2, h1'.trans h2'⟩⟩
  have hsorted := List.pairwise_insertionSort rel (List.range l.length)
  have hperm := List.perm_insertionSort rel (List.range l.length)
  generalize (List.range l.length).insertionSort rel = S at *
  have hSne : S ≠ [] := by
    rintro rfl
    have := hperm.length_eq
    simp at this
    exact hne (List.length_eq_zero_iff.1 this.symm)
  rw [List.getLast?_eq_some_getLast hSne]
  refine ⟨rfl, ?_⟩
  simp only [Option.getD_some]
  have hlast : S.getLast hSne ∈ S := List.getLast_mem hSne
  have hm : S.getLast hSne < l.length := List.mem_range.1 (hperm.mem_iff.1 hlast)
  refine ⟨hm, ?_⟩
  intro i hi
  have hiS : i ∈ S := hperm.mem_iff.2 (List.mem_range.2 hi)
  have : rel i (S.getLast hSne) := by
    rw [← List.dropLast_append_getLast hSne] at hiS hsorted
    rcases List.mem_append.1 hiS with h | h
    · exact (List.pairwise_append.1 hsorted).2.2 i h _ (by simp)
    · rw [List.mem_singleton] at h
      rw [← h]
      exact Or.inr ⟨rfl, le_refl _⟩
  simp only [hrel] at this
  rw [gA i hi, gR i hi, gA _ hm, gR _ hm] at this
  exact this

theorem argmax_spec {l : List ℝ} (hne : l ≠ []) : ∃ i < l.length, argmax l = some i ∧ ∀ j < l.length, l.getD j 0 ≤ l.getD i 0 := by
  obtain ⟨a, t, rfl⟩ := List.exists_cons_of_ne_nil hne
  have hm := listMax_mem a t
  have hi : (a :: t).idxOf (listMax a t) < (a :: t).length := List.idxOf_lt_length_of_mem hm
  refine ⟨_, hi, rfl, ?_⟩
  intro j hj
  have e : (a :: t).getD ((a :: t).idxOf (listMax a t)) 0 = listMax a t := by
    rw [List.getD_eq_getElem?_getD, List.getElem?_eq_getElem hi, Option.getD_some]
    exact List.getElem_idxOf hi
  rw [e]
  refine le_listMax ?_
  rw [List.getD_eq_getElem?_getD, List.getElem?_eq_getElem hj, Option.getD_some]
  exact List.getElem_mem hj

theorem mod_prv {n i : ℕ} (hi : i < n) : (i + (n - 1)) % n = prv n i := by
  rcases prv_cases n i with ⟨rfl, h⟩ | ⟨h0, h⟩
  · rw [h, zero_add, Nat.mod_eq_of_lt (by omega)]
  · rw [h, show i + (n - 1) = (i - 1) + n by omega, Nat.add_mod_right, Nat.mod_eq_of_lt (by omega)]

theorem mod_nxt {n i : ℕ} (hi : i < n) : (i + 1) % n = nxt n i := by
  rcases nxt_cases hi with ⟨h0, h⟩ | ⟨h0, h⟩
  · rw [h, Nat.mod_eq_of_lt h0]
  · rw [h, h0, Nat.mod_self]

/-- The index that the compiled version chooses. -/
noncomputable def pickNumba (l : List Pt) : ℕ :=
  let radii := (List.range l.length).map fun i => (circleAt l i).1
  (argmax (List.zipWith (fun a r => a * if r = radii.getD ((argmax radii).getD 0) 0 then 1 else 0)
    ((List.range l.length).map (angleAt l)) radii)).getD 0

theorem skyumIteration_eq {l : List Pt} (hne : l ≠ []) :
    pickNumba l < l.length ∧ skyumIteration l = .ok (if angleAt l (pickNumba l) ≤ Real.pi / 2
      then (true, l, pickNumba l, circleAt l (pickNumba l))
      else (false, l.eraseIdx (pickNumba l), pickNumba l, circleAt l (pickNumba l))) := by
  have hlen : 0 < l.length := List.length_pos_iff.2 hne
  have hA : (List.range l.length).map (fun i => angle (l.getD ((i + (l.length - 1)) % l.length) (0, 0))
        (l.getD (i % l.length) (0, 0)) (l.getD ((i + 1) % l.length) (0, 0)))
      = (List.range l.length).map (angleAt l) := by
    refine List.map_congr_left fun i hi => ?_
    rw [List.mem_range] at hi
    rw [mod_prv hi, mod_nxt hi, Nat.mod_eq_of_lt hi, angleAt]
  have hC : (List.range l.length).map (fun i => circle (l.getD ((i + (l.length - 1)) % l.length) (0, 0))
        (l.getD (i % l.length) (0, 0)) (l.getD ((i + 1) % l.length) (0, 0)))
      = (List.range l.length).map (circleAt l) := by
    refine List.map_congr_left fun i hi => ?_
    rw [List.mem_range] at hi
    rw [mod_prv hi, mod_nxt hi, Nat.mod_eq_of_lt hi, circleAt]
  have hR : ((List.range l.length).map (circleAt l)).map Prod.fst = (List.range l.length).map fun i => (circleAt l i).1 := by
    rw [List.map_map]; rfl
  simp only [skyumIteration, hA, hC, hR]
  obtain ⟨i, hi, hie, -⟩ := argmax_spec (l := (List.range l.length).map fun i => (circleAt l i).1) (by simpa using hlen.ne')
  obtain ⟨m, hm, hme, -⟩ := argmax_spec (l := List.zipWith (fun a r => a *
    if r = ((List.range l.length).map fun i => (circleAt l i).1).getD i 0 then (1 : ℝ) else 0)
    ((List.range l.length).map (angleAt l)) ((List.range l.length).map fun i => (circleAt l i).1)) (by
      intro h
      have := congrArg List.length h
      simp at this
      exact hlen.ne' (by simpa using this))
  have hpick : pickNumba l = m := by
    simp only [pickNumba, hie, Option.getD_some, hme]
  have hm' : m < l.length := by simpa using hm
  rw [hie]
  simp only
  rw [hme]
  simp only
  rw [hpick, getD_range_map _ hm']
  refine ⟨hm', ?_⟩
  have : ((List.range l.length).map (circleAt l)).getD m (0, 0, 0) = circleAt l m := by
    rw [List.getD_eq_getElem?_getD, List.getElem?_map, List.getElem?_range hm']
    rfl
  rw [this]
  split_ifs <;> rfl

theorem pickNumba_spec {l : List Pt} (hne : l ≠ []) (hpos : (∀ i < l.length, 0 < angleAt l i) ∨
    (∀ i < l.length, ∀ j < l.length, angleAt l i = angleAt l j ∧ (circleAt l i).1 = (circleAt l j).1)) :
    IsLexMax l (pickNumba l) := by
  have hlen : 0 < l.length := List.length_pos_iff.2 hne
  refine ⟨(skyumIteration_eq hne).1, ?_⟩
  rcases hpos with hpos | hsame
  swap
  · intro i hi
    obtain ⟨h1, h2⟩ := hsame i hi _ (skyumIteration_eq hne).1
    exact Or.inr ⟨h2, h1.le⟩
  obtain ⟨i, hi, hie, himax⟩ := argmax_spec (l := (List.range l.length).map fun i => (circleAt l i).1) (by simpa using hlen.ne')
  have hi' : i < l.length := by simpa using hi
  obtain ⟨m, hm, hme, hmmax⟩ := argmax_spec (l := List.zipWith (fun a r => a *
    if r = ((List.range l.length).map fun i => (circleAt l i).1).getD i 0 then (1 : ℝ) else 0)
    ((List.range l.length).map (angleAt l)) ((List.range l.length).map fun i => (circleAt l i).1)) (by
      intro h
      have := congrArg List.length h
      simp at this
      exact hlen.ne' (by simpa using this))
  have hpick : pickNumba l = m := by
    simp only [pickNumba, hie, Option.getD_some, hme]
  have hm' : m < l.length := by simpa using hm
  rw [hpick]
  have hz : ∀ j < l.length, (List.zipWith (fun a r => a *
      if r = ((List.range l.length).map fun i => (circleAt l i).1).getD i 0 then (1 : ℝ) else 0)
      ((List.range l.length).map (angleAt l)) ((List.range l.length).map fun i => (circleAt l i).1)).getD j 0
      = angleAt l j * if (circleAt l j).1 = (circleAt l i).1 then 1 else 0 := by
    intro j hj
    rw [List.getD_eq_getElem?_getD, List.getElem?_zipWith, List.getElem?_map, List.getElem?_map, List.getElem?_range hj,
      getD_range_map _ hi']
    rfl
  have hrad : ∀ j < l.length, (circleAt l j).1 ≤ (circleAt l i).1 := by
    intro j hj
    have := himax j (by simpa using hj)
    rwa [getD_range_map _ hj, getD_range_map _ hi'] at this
  have hval : ∀ j < l.length, (angleAt l j * if (circleAt l j).1 = (circleAt l i).1 then 1 else 0)
      ≤ angleAt l m * if (circleAt l m).1 = (circleAt l i).1 then 1 else 0 := by
    intro j hj
    have := hmmax j (by simpa using hj)
    rwa [hz j hj, hz m hm'] at this
  have hmi : (circleAt l m).1 = (circleAt l i).1 := by
    by_contra hne'
    have := hval i hi'
    rw [if_pos rfl, if_neg hne'] at this
    have := hpos i hi'
    linarith
  intro j hj
  rw [hmi]
  rcases (hrad j hj).lt_or_eq with h | h
  · exact Or.inl h
  · refine Or.inr ⟨h, ?_⟩
    have := hval j hj
    rwa [if_pos h, if_pos hmi, mul_one, mul_one] at this

end Pointpats.Skyum
