import Verif.Lemmas.Skyum

/-!
# The loop of the bounding circle
-/

namespace Pointpats.Skyum

open Spec Circ

/-- The loop with any choice of the vertex: the last index, the remaining and the removed points. -/
noncomputable def loop (pick : List Pt → ℕ) : ℕ → List Pt → Option (ℕ × List Pt × List Pt)
  | 0, _ => none
  | k + 1, l =>
      if angleAt l (pick l) ≤ Real.pi / 2 then some (pick l, l, [])
      else (loop pick k (l.eraseIdx (pick l))).map fun t => (t.1, t.2.1, l.getD (pick l) (0, 0) :: t.2.2)

theorem angleAt_two {l : List Pt} (hl : l.Nodup) (h2 : l.length = 2) {i : ℕ} (hi : i < l.length) : angleAt l i = 0 := by
  obtain ⟨a, b, rfl⟩ := List.length_eq_two.1 h2
  have hab : a ≠ b := by simpa using hl
  have : i = 0 ∨ i = 1 := by simp at hi; omega
  rcases this with rfl | rfl
  · exact angle_self hab.symm
  · exact angle_self hab

theorem nodup_eraseIdx {l : List Pt} (hl : l.Nodup) (i : ℕ) : (l.eraseIdx i).Nodup := hl.sublist (List.eraseIdx_sublist l i)

theorem length_erase {l : List Pt} {i : ℕ} (hi : i < l.length) : (l.eraseIdx i).length = l.length - 1 :=
  List.length_eraseIdx_of_lt hi

theorem three_of_not_le {l : List Pt} (hl : l.Nodup) (h2 : 2 ≤ l.length) {i : ℕ} (hi : i < l.length)
    (h : ¬ angleAt l i ≤ Real.pi / 2) : 3 ≤ l.length := by
  by_contra h3
  have e : l.length = 2 := by omega
  rw [angleAt_two hl e hi] at h
  exact h Real.pi_div_two_pos.le

theorem loop_some {pick : List Pt → ℕ} (hp : ∀ l, l ≠ [] → pick l < l.length) (k : ℕ) (l : List Pt) (hl : l.Nodup)
    (h2 : 2 ≤ l.length) (hk : l.length - 1 ≤ k) : (loop pick k l).isSome := by
  induction k generalizing l with
  | zero => omega
  | succ k ih =>
    have hi := hp l (by rintro rfl; simp at h2)
    unfold loop
    split_ifs with h
    · rfl
    · have h3 := three_of_not_le hl h2 hi h
      rw [Option.isSome_map]
      refine ih _ (nodup_eraseIdx hl _) ?_ ?_
      · rw [length_erase hi]; omega
      · rw [length_erase hi]; omega

theorem loop_perm {pick : List Pt → ℕ} (hp : ∀ l, l ≠ [] → pick l < l.length) (k : ℕ) (l : List Pt) (hl : l.Nodup)
    (h2 : 2 ≤ l.length) {m : ℕ} {pts rm : List Pt} (h : loop pick k l = some (m, pts, rm)) :
    m < pts.length ∧ 2 ≤ pts.length ∧ pts.Sublist l ∧ (rm ++ pts).Perm l ∧ pts.Nodup := by
  induction k generalizing l rm with
  | zero => simp [loop] at h
  | succ k ih =>
    have hi := hp l (by rintro rfl; simp at h2)
    unfold loop at h
    split_ifs at h with ha
    · simp only [Option.some.injEq, Prod.mk.injEq] at h
      obtain ⟨rfl, rfl, rfl⟩ := h
      exact ⟨hi, h2, List.Sublist.refl _, List.Perm.refl _, hl⟩
    · have h3 := three_of_not_le hl h2 hi ha
      rw [Option.map_eq_some_iff] at h
      obtain ⟨⟨m', pts', rm'⟩, he, hh⟩ := h
      simp only [Prod.mk.injEq] at hh
      obtain ⟨rfl, rfl, rfl⟩ := hh
      obtain ⟨i1, i2, i3, i4, i5⟩ := ih _ (nodup_eraseIdx hl _) (by rw [length_erase hi]; omega) he
      refine ⟨i1, i2, i3.trans (List.eraseIdx_sublist _ _), ?_, i5⟩
      have e : l.getD (pick l) (0, 0) = l[pick l] := by simp [List.getD_eq_getElem?_getD, hi]
      rw [List.cons_append, e]
      exact (i4.cons _).trans (List.getElem_cons_eraseIdx_perm hi)

theorem skyumLists_loop (k i : ℕ) (l : List Pt) (rem : List (Pt × ℕ)) (hl : l.Nodup) (h2 : 2 ≤ l.length) :
    skyumLists k i l rem = (loop pickLists k l).map fun t =>
      .ok { circle := circleAt t.2.1 t.1, points := t.2.1, removed := rem ++ t.2.2.zipIdx i,
            candidate := (t.2.1.getD (prv t.2.1.length t.1) (0, 0), t.2.1.getD t.1 (0, 0),
              t.2.1.getD (nxt t.2.1.length t.1) (0, 0)) } := by
  induction k generalizing i l rem with
  | zero => rfl
  | succ k ih =>
    have hne : l ≠ [] := by rintro rfl; simp at h2
    obtain ⟨hs, hi, -⟩ := pickLists_spec hne
    have hR : ((List.range l.length).map (circleAt l)).map Prod.fst = (List.range l.length).map fun i => (circleAt l i).1 := by
      rw [List.map_map]; rfl
    unfold skyumLists loop
    simp only [map_angles hl, map_circles hl, hR, hs, getD_range_map _ hi, prec_getD hl hi, succ_getD hl hi]
    split_ifs with h
    · simp [circleAt]
    · have h3 := three_of_not_le hl h2 hi h
      rw [ih _ _ _ (nodup_eraseIdx hl _) (by rw [length_erase hi]; omega), Option.map_map]
      congr 1
      funext t
      simp [List.zipIdx_cons]

theorem skyumNumba_loop (k : ℕ) (l : List Pt) (hl : l.Nodup) (h2 : 2 ≤ l.length) :
    skyumNumba k l = (loop pickNumba k l).map fun t => .ok (circleAt t.2.1 t.1, t.2.1) := by
  induction k generalizing l with
  | zero => rfl
  | succ k ih =>
    have hne : l ≠ [] := by rintro rfl; simp at h2
    obtain ⟨hi, hs⟩ := skyumIteration_eq hne
    unfold skyumNumba loop
    rw [hs]
    split_ifs with h
    · rfl
    · have h3 := three_of_not_le hl h2 hi h
      simp only
      rw [ih _ (nodup_eraseIdx hl _) (by rw [length_erase hi]; omega), Option.map_map]
      rfl

/-! ### The smallest circle -/

/-- No three different vertices are nearly on a line. -/
def Apart (l : List Pt) : Prop := ∀ x ∈ l, ∀ y ∈ l, ∀ z ∈ l, x ≠ y → y ≠ z → x ≠ z → NotFlat x y z

/-- What the loop keeps. -/
structure Good (l : List Pt) : Prop where
  conv : ConvexClockwise l
  nodup : l.Nodup
  apart : Apart l
  two : 2 ≤ l.length

theorem getD_eraseIdx (l : List Pt) (m j : ℕ) :
    (l.eraseIdx m).getD j (0, 0) = l.getD (if j < m then j else j + 1) (0, 0) := by
  rw [List.getD_eq_getElem?_getD, List.getD_eq_getElem?_getD, List.getElem?_eraseIdx]
  split_ifs <;> rfl

theorem conv_eraseIdx {l : List Pt} (h : ConvexClockwise l) {m : ℕ} (hm : m < l.length) : ConvexClockwise (l.eraseIdx m) := by
  intro i j k hij hjk hk
  rw [length_erase hm] at hk
  rw [getD_eraseIdx, getD_eraseIdx, getD_eraseIdx]
  apply h
  · split_ifs <;> omega
  · split_ifs <;> omega
  · split_ifs <;> omega

theorem Good.erase {l : List Pt} (h : Good l) {m : ℕ} (hm : m < l.length) (h3 : 3 ≤ l.length) : Good (l.eraseIdx m) := by
  refine ⟨conv_eraseIdx h.conv hm, nodup_eraseIdx h.nodup m, ?_, by rw [length_erase hm]; omega⟩
  have hs : ∀ x ∈ l.eraseIdx m, x ∈ l := fun x hx => (List.eraseIdx_sublist l m).subset hx
  intro x hx y hy z hz
  exact h.apart x (hs x hx) y (hs y hy) z (hs z hz)

theorem getD_mem' {l : List Pt} {i : ℕ} (hi : i < l.length) : l.getD i (0, 0) ∈ l := by
  rw [List.getD_eq_getElem?_getD, List.getElem?_eq_getElem hi]
  exact List.getElem_mem hi

theorem getD_ne {l : List Pt} (hl : l.Nodup) {i j : ℕ} (hi : i < l.length) (hj : j < l.length) (h : i ≠ j) :
    l.getD i (0, 0) ≠ l.getD j (0, 0) := by
  intro he
  apply h
  rw [← idxOf_getD hl hi, ← idxOf_getD hl hj, he]

theorem Good.notFlatAt {l : List Pt} (h : Good l) (h3 : 3 ≤ l.length) {i : ℕ} (hi : i < l.length) :
    NotFlat (l.getD (prv l.length i) (0, 0)) (l.getD i (0, 0)) (l.getD (nxt l.length i) (0, 0)) ∧
    l.getD (prv l.length i) (0, 0) ≠ l.getD i (0, 0) ∧ l.getD (nxt l.length i) (0, 0) ≠ l.getD i (0, 0) := by
  have hp := prv_lt hi
  have hs := nxt_lt hi
  have c1 := nxt_cases hi
  have c2 := prv_cases l.length i
  have n1 := getD_ne h.nodup hp hi (by omega)
  have n2 := getD_ne h.nodup hs hi (by omega)
  have n3 := getD_ne h.nodup hp hs (by omega)
  exact ⟨h.apart _ (getD_mem' hp) _ (getD_mem' hi) _ (getD_mem' hs) n1 n2.symm n3, n1, n2⟩

theorem Good.circleAt {l : List Pt} (h : Good l) (h3 : 3 ≤ l.length) {i : ℕ} (hi : i < l.length) :
    circleAt l i = (Real.sqrt (r2 (l.getD (prv l.length i) (0, 0)) (l.getD i (0, 0)) (l.getD (nxt l.length i) (0, 0))),
      cc (l.getD (prv l.length i) (0, 0)) (l.getD i (0, 0)) (l.getD (nxt l.length i) (0, 0))) := by
  obtain ⟨h0, h1, h2⟩ := h.notFlatAt h3 hi
  exact circle_eq h0 h1 h2

theorem Good.angleAt_le {l : List Pt} (h : Good l) (h3 : 3 ≤ l.length) {i : ℕ} (hi : i < l.length) :
    angleAt l i ≤ Real.pi / 2 ↔ 0 ≤ dotAt (l.getD i (0, 0)) (l.getD (prv l.length i) (0, 0)) (l.getD (nxt l.length i) (0, 0)) := by
  obtain ⟨-, h1, h2⟩ := h.notFlatAt h3 hi
  exact angle_le_iff h1 h2

theorem Good.pickNumba {l : List Pt} (h : Good l) : IsLexMax l (pickNumba l) := by
  have h2 := h.two
  refine pickNumba_spec (by rintro rfl; simp at h2) ?_
  by_cases h3 : 3 ≤ l.length
  · left
    intro i hi
    have := (h.notFlatAt h3 hi).1.1
    unfold angleAt
    linarith
  · right
    have e : l.length = 2 := by omega
    intro i hi j hj
    refine ⟨by rw [angleAt_two h.nodup e hi, angleAt_two h.nodup e hj], ?_⟩
    have hn := h.nodup
    obtain ⟨a, b, rfl⟩ := List.length_eq_two.1 e
    have hab : a ≠ b := by simpa using hn
    have e0 : Skyum.circleAt [a, b] 0 = circle b a b := rfl
    have e1 : Skyum.circleAt [a, b] 1 = circle a b a := rfl
    have i' : i = 0 ∨ i = 1 := by simp at hi; omega
    have j' : j = 0 ∨ j = 1 := by simp at hj; omega
    rcases i' with rfl | rfl <;> rcases j' with rfl | rfl <;> simp only [e0, e1, circle_two hab, circle_two hab.symm] <;>
      rw [sqDist_comm]

theorem Good.pickLists {l : List Pt} (h : Good l) : IsLexMax l (pickLists l) := by
  have h2 := h.two
  exact (pickLists_spec (by rintro rfl; simp at h2)).2

theorem r2_nonneg {x y z : Pt} (h : clockwiseTurn x y z ≠ 0) : 0 ≤ r2 x y z := by
  rw [← sq_cc h]; exact sqDist_nonneg _ _

theorem two_smallest {a b : Pt} : IsSmallestDisc ((a.1 + b.1) / 2, (a.2 + b.2) / 2) (Real.sqrt (planeSqDist a b) / 2) [a, b] := by
  have hn := sqDist_nonneg a b
  have hr : (Real.sqrt (planeSqDist a b) / 2) ^ 2 = planeSqDist a b / 4 := by
    rw [div_pow, Real.sq_sqrt hn]; norm_num
  refine ⟨?_, ?_⟩
  · intro p hp
    refine ⟨by positivity, ?_⟩
    rw [hr]
    simp only [List.mem_cons, List.not_mem_nil, or_false] at hp
    rcases hp with rfl | rfl <;> (unfold planeSqDist; apply le_of_eq; simp only; ring)
  · intro c' r' h
    obtain ⟨h0, ha⟩ := h a (by simp)
    obtain ⟨-, hb⟩ := h b (by simp)
    have : planeSqDist a b ≤ (2 * r') ^ 2 := by
      unfold planeSqDist at *
      nlinarith [sq_nonneg (a.1 + b.1 - 2 * c'.1), sq_nonneg (a.2 + b.2 - 2 * c'.2)]
    have := Real.sqrt_le_sqrt this
    rw [Real.sqrt_sq (by linarith)] at this
    linarith

theorem smallestDisc_congr {c : Pt} {r : ℝ} {S T : List Pt} (h : IsSmallestDisc c r S) (hST : ∀ p, p ∈ S ↔ p ∈ T) :
    IsSmallestDisc c r T :=
  ⟨fun p hp => h.1 p ((hST p).2 hp), fun c' r' h' => h.2 c' r' fun p hp => h' p ((hST p).1 hp)⟩

theorem Good.largest {l : List Pt} (h : Good l) (h3 : 3 ≤ l.length) {m : ℕ} (hm : IsLexMax l m) :
    Ring (fun i => l.getD i (0, 0)) l.length ∧
    IsLargest (fun i => l.getD i (0, 0)) l.length (prv l.length m) m (nxt l.length m) := by
  have hring : Ring (fun i => l.getD i (0, 0)) l.length := h.conv
  refine ⟨hring, isLargest_of_consecutive hring h3 ?_⟩
  intro i hi
  have hle : (Skyum.circleAt l i).1 ≤ (Skyum.circleAt l m).1 := by
    rcases hm.2 i hi with h' | ⟨h', -⟩
    · exact h'.le
    · exact h'.le
  rw [h.circleAt h3 hi, h.circleAt h3 hm.1] at hle
  have hnn := r2_nonneg (hring.pos (prv_lt hm.1) hm.1 (nxt_lt hm.1) (cyc_prv_nxt h3 hm.1)).ne'
  exact (Real.sqrt_le_sqrt_iff hnn).1 hle

theorem loop_smallest {pick : List Pt → ℕ} (hp : ∀ l, Good l → IsLexMax l (pick l)) (k : ℕ) (l : List Pt) (hg : Good l)
    {m : ℕ} {pts rm : List Pt} (h : loop pick k l = some (m, pts, rm)) :
    IsSmallestDisc (circleAt pts m).2 (circleAt pts m).1 l := by
  induction k generalizing l rm with
  | zero => simp [loop] at h
  | succ k ih =>
    have hmax := hp l hg
    have hi := hmax.1
    by_cases h3 : 3 ≤ l.length
    swap
    · -- two points
      have e : l.length = 2 := by have := hg.two; omega
      unfold loop at h
      rw [angleAt_two hg.nodup e hi, if_pos Real.pi_div_two_pos.le] at h
      simp only [Option.some.injEq, Prod.mk.injEq] at h
      obtain ⟨hm, rfl, -⟩ := h
      rw [hm] at hi
      have hn := hg.nodup
      obtain ⟨a, b, rfl⟩ := List.length_eq_two.1 e
      have hab : a ≠ b := by simpa using hn
      have e0 : circleAt [a, b] 0 = circle b a b := rfl
      have e1 : circleAt [a, b] 1 = circle a b a := rfl
      have i' : m = 0 ∨ m = 1 := by simp at hi; omega
      rcases i' with rfl | rfl
      · rw [e0, circle_two hab.symm]
        exact smallestDisc_congr (two_smallest (a := b) (b := a)) (by intro p; simp [or_comm])
      · rw [e1, circle_two hab]
        exact two_smallest
    obtain ⟨hring, hlarge⟩ := hg.largest h3 hmax
    generalize hM : pick l = M at *
    have hpl := prv_lt hi
    have hsl := nxt_lt hi
    have hcyc := cyc_prv_nxt h3 hi
    have hturn := (hring.pos hpl hi hsl hcyc).ne'
    have hnn := r2_nonneg hturn
    have hcont := fun j hj => hlarge.contains hring hpl hi hsl hcyc (l := j) hj
    have hall : ∀ p ∈ l, InDisc (circleAt l M).2 (circleAt l M).1 p := by
      intro p hpm
      obtain ⟨j, hj, rfl⟩ := List.getElem_of_mem hpm
      rw [hg.circleAt h3 hi]
      refine ⟨Real.sqrt_nonneg _, ?_⟩
      simp only
      rw [Real.sq_sqrt hnn]
      have := hcont j hj
      simpa [List.getD_eq_getElem?_getD, hj] using this
    unfold loop at h
    rw [hM] at h
    split_ifs at h with ha
    · simp only [Option.some.injEq, Prod.mk.injEq] at h
      obtain ⟨rfl, rfl, -⟩ := h
      refine ⟨hall, ?_⟩
      intro c' r' hin
      have hdm := (hg.angleAt_le h3 hi).1 ha
      have hdp : 0 ≤ dotAt (l.getD (prv l.length M) (0, 0)) (l.getD M (0, 0)) (l.getD (nxt l.length M) (0, 0)) := by
        by_contra hcon
        push Not at hcon
        obtain ⟨e1, e2⟩ := obtuse_prv hring h3 hi hlarge hcon
        have hlt : ¬ angleAt l (prv l.length M) ≤ Real.pi / 2 := by
          rw [hg.angleAt_le h3 hpl, not_le, nxt_prv hi]
          exact e2
        rcases hmax.2 _ hpl with h' | ⟨-, h'⟩
        · rw [hg.circleAt h3 hpl, hg.circleAt h3 hi, nxt_prv hi] at h'
          simp only at e1 h'
          rw [e1] at h'
          exact lt_irrefl _ h'
        · exact hlt (h'.trans ha)
      have hds : 0 ≤ dotAt (l.getD (nxt l.length M) (0, 0)) (l.getD (prv l.length M) (0, 0)) (l.getD M (0, 0)) := by
        by_contra hcon
        push Not at hcon
        obtain ⟨e1, e2⟩ := obtuse_nxt hring h3 hi hlarge hcon
        have hlt : ¬ angleAt l (nxt l.length M) ≤ Real.pi / 2 := by
          rw [hg.angleAt_le h3 hsl, not_le, prv_nxt hi]
          exact e2
        rcases hmax.2 _ hsl with h' | ⟨-, h'⟩
        · rw [hg.circleAt h3 hsl, hg.circleAt h3 hi, prv_nxt hi] at h'
          simp only at e1 h'
          rw [e1] at h'
          exact lt_irrefl _ h'
        · exact hlt (h'.trans ha)
      have hr : r2 (l.getD (prv l.length M) (0, 0)) (l.getD M (0, 0)) (l.getD (nxt l.length M) (0, 0)) ≤ r' ^ 2 := by
        rw [dotAt_comm] at hdm
        exact smallest_of_not_obtuse hturn hdp hdm hds (hin _ (getD_mem' hpl)).2 (hin _ (getD_mem' hi)).2 (hin _ (getD_mem' hsl)).2
      rw [hg.circleAt h3 hi]
      have h0 := (hin _ (getD_mem' hi)).1
      simp only
      exact (Real.sqrt_le_sqrt hr).trans (by rw [Real.sqrt_sq h0])
    · rw [Option.map_eq_some_iff] at h
      obtain ⟨⟨m', pts', rm'⟩, he, hh⟩ := h
      simp only [Prod.mk.injEq] at hh
      obtain ⟨rfl, rfl, -⟩ := hh
      obtain ⟨i1, i2⟩ := ih _ (hg.erase hi h3) he
      have hsub : ∀ x ∈ l.eraseIdx M, x ∈ l := fun x hx => (List.eraseIdx_sublist l M).subset hx
      have hle := i2 _ _ fun p hp' => hall p (hsub p hp')
      have hmem : ∀ j < l.length, j ≠ M → l.getD j (0, 0) ∈ l.eraseIdx M := by
        intro j hj hjM
        rw [List.mem_eraseIdx_iff_getElem]
        exact ⟨j, hj, hjM, by simp [List.getD_eq_getElem?_getD, hj]⟩
      have c1 := nxt_cases hi
      have c2 := prv_cases l.length M
      obtain ⟨h0, hcx⟩ := i1 _ (hmem _ hpl (by omega))
      obtain ⟨-, hcz⟩ := i1 _ (hmem _ hsl (by omega))
      have hdm : dotAt (l.getD M (0, 0)) (l.getD (nxt l.length M) (0, 0)) (l.getD (prv l.length M) (0, 0)) < 0 := by
        rw [dotAt_comm, ← not_le]
        exact fun h' => ha ((hg.angleAt_le h3 hi).2 h')
      have hR : (circleAt pts' m').1 ^ 2 ≤ r2 (l.getD (prv l.length M) (0, 0)) (l.getD M (0, 0)) (l.getD (nxt l.length M) (0, 0)) := by
        rw [hg.circleAt h3 hi] at hle
        have := pow_le_pow_left₀ h0 hle 2
        rwa [Real.sq_sqrt hnn] at this
      have hcy := contains_obtuse_corner hturn hdm hR hcx hcz
      refine ⟨?_, fun c' r' h' => i2 c' r' fun p hp' => h' p (hsub p hp')⟩
      intro p hpm
      obtain ⟨j, hj, rfl⟩ := List.getElem_of_mem hpm
      by_cases hjM : j = M
      · subst hjM
        exact ⟨h0, by simpa [List.getD_eq_getElem?_getD, hj] using hcy⟩
      · have := i1 _ (hmem j hj hjM)
        simpa [List.getD_eq_getElem?_getD, hj] using this

/-! ### The orientation of the hull -/

theorem edgeSum_fan (a b : Pt) (t : List Pt) (h : (b :: t).IsChain fun x y => clockwiseTurn a x y < 0) :
    0 ≤ edgeSum (b :: t ++ [a]) + (a.1 * b.2 - a.2 * b.1) ∧
      (t ≠ [] → 0 < edgeSum (b :: t ++ [a]) + (a.1 * b.2 - a.2 * b.1)) := by
  induction t generalizing b with
  | nil => simp [edgeSum]; ring_nf; simp
  | cons c t ih =>
    rw [List.isChain_cons_cons] at h
    obtain ⟨i1, -⟩ := ih c h.2
    have e : edgeSum (b :: c :: t ++ [a]) = (b.1 * c.2 - b.2 * c.1) + edgeSum (c :: t ++ [a]) := rfl
    have hlt := h.1
    unfold clockwiseTurn at hlt
    rw [e]
    have : 0 < b.1 * c.2 - b.2 * c.1 + edgeSum (c :: t ++ [a]) + (a.1 * b.2 - a.2 * b.1) := by nlinarith
    exact ⟨this.le, fun _ => this⟩

theorem not_clockwise_of_ring {l : List Pt} (h3 : 3 ≤ l.length) (h : ∀ i j k, i < j → j < k → k < l.length →
    clockwiseTurn (l.getD i (0, 0)) (l.getD j (0, 0)) (l.getD k (0, 0)) < 0) : isClockwise l = false := by
  obtain ⟨a, b, c, t, rfl⟩ : ∃ a b c t, l = a :: b :: c :: t := by
    match l, h3 with
    | a :: b :: c :: t, _ => exact ⟨a, b, c, t, rfl⟩
  have hch : (b :: c :: t).IsChain fun x y => clockwiseTurn a x y < 0 := by
    rw [List.isChain_iff_getElem]
    intro i hi
    have := h 0 (i + 1) (i + 2) (by omega) (by omega) (by simpa using hi)
    simpa [List.getD_eq_getElem?_getD, List.getElem?_eq_getElem (l := b :: c :: t) (i := i + 1) (by simpa using hi),
      List.getElem?_eq_getElem (l := b :: c :: t) (i := i) (by simp at hi ⊢; omega)] using this
  have := (edgeSum_fan a b (c :: t) hch).2 (by simp)
  have e : edgeSum (a :: b :: c :: t ++ [a]) = (a.1 * b.2 - a.2 * b.1) + edgeSum (b :: c :: t ++ [a]) := rfl
  unfold isClockwise
  rw [if_neg (by simp), decide_eq_false_iff_not, not_lt]
  show 0 ≤ edgeSum (a :: b :: c :: t ++ [a])
  rw [e]
  linarith

theorem edgeSum_append (l : List Pt) (a b : Pt) : edgeSum (l ++ [a, b]) = edgeSum (l ++ [a]) + (a.1 * b.2 - a.2 * b.1) := by
  induction l with
  | nil => simp [edgeSum]
  | cons x t ih =>
    cases t with
    | nil => simp [edgeSum]
    | cons y t =>
      have e1 : edgeSum (x :: y :: t ++ [a, b]) = (x.1 * y.2 - x.2 * y.1) + edgeSum (y :: t ++ [a, b]) := rfl
      have e2 : edgeSum (x :: y :: t ++ [a]) = (x.1 * y.2 - x.2 * y.1) + edgeSum (y :: t ++ [a]) := rfl
      rw [e1, e2, ih]; ring

theorem edgeSum_reverse (l : List Pt) : edgeSum l.reverse = - edgeSum l := by
  induction l with
  | nil => simp [edgeSum]
  | cons x t ih =>
    cases t with
    | nil => simp [edgeSum]
    | cons y t =>
      rw [List.reverse_cons, List.reverse_cons, List.append_assoc]
      rw [List.reverse_cons] at ih
      show edgeSum (t.reverse ++ [y, x]) = _
      rw [edgeSum_append, ih]
      show _ = -((x.1 * y.2 - x.2 * y.1) + edgeSum (y :: t))
      ring

/-- The closed sum does not depend on the first vertex. -/
theorem edgeSum_close (l : List Pt) (a : Pt) : edgeSum (l ++ [a] ++ (l ++ [a]).take 1) = edgeSum (a :: l ++ [a]) := by
  cases l with
  | nil => rfl
  | cons x t =>
    have e : edgeSum (a :: (x :: t) ++ [a]) = (a.1 * x.2 - a.2 * x.1) + edgeSum (x :: t ++ [a]) := rfl
    have : (x :: t ++ [a]) ++ (x :: t ++ [a]).take 1 = x :: t ++ [a, x] := by simp
    rw [this, edgeSum_append, e]; ring

theorem clockwise_reverse {l : List Pt} (h3 : 3 ≤ l.length) (h : ∀ i j k, i < j → j < k → k < l.length →
    clockwiseTurn (l.getD i (0, 0)) (l.getD j (0, 0)) (l.getD k (0, 0)) < 0) : isClockwise l.reverse = true := by
  obtain ⟨a, b, c, t, rfl⟩ : ∃ a b c t, l = a :: b :: c :: t := by
    match l, h3 with
    | a :: b :: c :: t, _ => exact ⟨a, b, c, t, rfl⟩
  have hch : (b :: c :: t).IsChain fun x y => clockwiseTurn a x y < 0 := by
    rw [List.isChain_iff_getElem]
    intro i hi
    have := h 0 (i + 1) (i + 2) (by omega) (by omega) (by simpa using hi)
    simpa [List.getD_eq_getElem?_getD, List.getElem?_eq_getElem (l := b :: c :: t) (i := i + 1) (by simpa using hi),
      List.getElem?_eq_getElem (l := b :: c :: t) (i := i) (by simp at hi ⊢; omega)] using this
  have := (edgeSum_fan a b (c :: t) hch).2 (by simp)
  have e : edgeSum (a :: b :: c :: t ++ [a]) = (a.1 * b.2 - a.2 * b.1) + edgeSum (b :: c :: t ++ [a]) := rfl
  unfold isClockwise
  rw [if_neg (by simp), List.reverse_cons, edgeSum_close]
  have hr : a :: (b :: c :: t).reverse ++ [a] = (a :: b :: c :: t ++ [a]).reverse := by simp
  rw [hr, edgeSum_reverse, e]
  simp only [decide_eq_true_eq]
  linarith

theorem conv_reverse {l : List Pt} (h : ∀ i j k, i < j → j < k → k < l.length →
    clockwiseTurn (l.getD i (0, 0)) (l.getD j (0, 0)) (l.getD k (0, 0)) < 0) : ConvexClockwise l.reverse := by
  intro i j k hij hjk hk
  rw [List.length_reverse] at hk
  have e : ∀ i < l.length, l.reverse.getD i (0, 0) = l.getD (l.length - 1 - i) (0, 0) := by
    intro i hi
    rw [List.getD_eq_getElem?_getD, List.getD_eq_getElem?_getD, List.getElem?_reverse hi]
  rw [e i (by omega), e j (by omega), e k hk]
  have := h (l.length - 1 - k) (l.length - 1 - j) (l.length - 1 - i) (by omega) (by omega) (by omega)
  rw [turn_swap, turn_cyc] at this
  rw [turn_cyc, turn_cyc]
  unfold clockwiseTurn at *
  linarith

theorem nodup_of_conv {l : List Pt} (h3 : 3 ≤ l.length) (h : ConvexClockwise l) : l.Nodup := by
  have hring : Ring (fun i => l.getD i (0, 0)) l.length := h
  rw [List.nodup_iff_injective_getElem]
  intro i j hij
  by_contra hne
  have := hring.sqDist_pos h3 i.2 j.2 (fun e => hne (Fin.ext e))
  simp only [List.getD_eq_getElem?_getD, List.getElem?_eq_getElem i.2, List.getElem?_eq_getElem j.2, Option.getD_some] at this
  simp only at hij
  rw [hij] at this
  simp [planeSqDist] at this

theorem disc_convex (c : Pt) (R : ℝ) : Convex ℝ {p : Pt | planeSqDist c p ≤ R} := by
  intro x hx y hy a b ha hb hab
  simp only [Set.mem_ofPred_eq, planeSqDist, Prod.fst_add, Prod.snd_add, Prod.smul_fst, Prod.smul_snd, smul_eq_mul] at *
  have hb' : b = 1 - a := by linarith
  subst hb'
  nlinarith [mul_nonneg (mul_nonneg ha hb) (sq_nonneg (x.1 - y.1)), mul_nonneg (mul_nonneg ha hb) (sq_nonneg (x.2 - y.2)),
    mul_le_mul_of_nonneg_left hx ha, mul_le_mul_of_nonneg_left hy hb]

theorem smallest_of_hull {c : Pt} {r : ℝ} {hull events : List Pt} (hh : IsHullOf hull events)
    (h : IsSmallestDisc c r hull) : IsSmallestDisc c r events := by
  refine ⟨?_, fun c' r' h' => h.2 c' r' fun p hp => h' p (hh.sub p hp)⟩
  have h0 : 0 ≤ r := by
    have : 0 < hull.length := by have := hh.three; omega
    exact (h.1 _ (List.getElem_mem this)).1
  intro e he
  refine ⟨h0, ?_⟩
  have hsub : {v | v ∈ hull} ⊆ {p : Pt | planeSqDist c p ≤ r ^ 2} := fun v hv => (h.1 v hv).2
  exact convexHull_min hsub (disc_convex c (r ^ 2)) (hh.contains e he)

end Pointpats.Skyum
