import Verif.Lemmas.Random
import Mathlib.Data.Rat.Floor
import Mathlib.Tactic.FieldSimp

/-!
# C39, C40, C41, C42: sizes and shapes of random patterns
-/

namespace Pointpats.Props

open Random Spec

variable {K : Type} [Field K] [LinearOrder K] [IsStrictOrderedRing K] [FloorRing K]

/-! ### C39 -/

private theorem toInt_trunc (x : K) : ∃ n, XF.toInt (.fin x) = .ok n ∧ IsTrunc x n := by
  show ∃ n, (Except.ok (if 0 ≤ x then ⌊x⌋ else ⌈x⌉) : Py ℤ) = .ok n ∧ IsTrunc x n
  by_cases h : 0 ≤ x
  · rw [if_pos h]
    refine ⟨_, rfl, fun _ => ⟨Int.floor_le x, Int.lt_floor_add_one x⟩, fun h' => ?_⟩
    have : x = 0 := le_antisymm h' h
    subst this
    simp
  · rw [if_neg h]
    refine ⟨_, rfl, fun h' => absurd h' h, fun _ => ⟨?_, Int.le_ceil x⟩⟩
    have := Int.ceil_lt_add_one x
    linarith

/-- **C39.** On a hull of non-zero area, for every value of `intensity` and `size`:
whenever `(n, s, i)` is returned, `i` is a number; if an intensity was given then `i` is it and `n` is
`i * area` truncated towards zero, otherwise `i * area = n`; and `s` and `n` are those of `size`: without a
size there is one replication (of 100 points if there is no intensity either), a pair gives both, an integer
gives the number of replications if an intensity was given and otherwise the number of points of one
replication. A `ValueError`, the only exception, is raised exactly for a pair together with an
intensity, for tuples that are not pairs, and for sizes that are neither tuples nor integers. -/
theorem C39_size_and_intensity (h : Hull K) (harea : h.area ≠ 0) (intensity : Option K) (size : SizeArg) :
    (∀ n s i, parseSizeAndIntensity h intensity size = .ok (n, s, i) →
      (∃ x, i = .fin x ∧ (∀ y, intensity = some y → x = y ∧ IsTrunc (y * h.area) n)
        ∧ (intensity = none → x * h.area = n))
      ∧ (size = .none → s = 1 ∧ (intensity = none → n = 100))
      ∧ (∀ a b, size = .tuple [a, b] → n = a ∧ s = b)
      ∧ (∀ k, size = .int k → (intensity = none → n = k ∧ s = 1) ∧ (intensity ≠ none → s = k)))
    ∧ (∀ e, parseSizeAndIntensity h intensity size = .error e → e = .valueError)
    ∧ ((∃ e, parseSizeAndIntensity h intensity size = .error e) ↔
        (size = .other ∨ (∃ l, size = .tuple l ∧ l.length ≠ 2) ∨ ∃ l, size = .tuple l ∧ intensity ≠ none)) := by
  have hdiv : ∀ n : ℤ, divArea h n = .ok (.fin ((n : K) / h.area)) := by
    intro n
    simp [divArea, harea, XF.div]
  obtain ⟨ti, hti⟩ : ∃ t : K → ℤ, ∀ x : K, XF.toInt (.fin x) = .ok (t x) ∧ IsTrunc x (t x) :=
    ⟨fun x => (toInt_trunc x).choose, fun x => (toInt_trunc x).choose_spec⟩
  have key : ∀ n : ℤ, (n : K) / h.area * h.area = n := fun n => by field_simp
  have k100 : (100 : K) / h.area * h.area = 100 := by field_simp
  cases size with
  | none =>
    cases intensity with
    | none =>
      have e : parseSizeAndIntensity h none .none = .ok (100, 1, .fin ((100 : ℤ) / h.area)) := by
        unfold parseSizeAndIntensity
        simp only [hdiv]; rfl
      rw [e]
      refine ⟨?_, by simp, by simp⟩
      rintro n s i ⟨⟩
      refine ⟨⟨_, rfl, by simp, fun _ => key 100⟩, by simp, by simp, by simp⟩
    | some y =>
      have e : parseSizeAndIntensity h (some y) .none = .ok (ti (h.area * y), 1, .fin y) := by
        unfold parseSizeAndIntensity
        simp only [(hti _).1]; rfl
      rw [e]
      refine ⟨?_, by simp, by simp⟩
      rintro n s i ⟨⟩
      refine ⟨⟨_, rfl, ?_, by simp⟩, by simp, by simp, by simp⟩
      rintro z ⟨⟩
      refine ⟨rfl, ?_⟩
      rw [mul_comm]; exact (hti _).2
  | int k =>
    cases intensity with
    | none =>
      have e : parseSizeAndIntensity h none (.int k) = .ok (k, 1, .fin ((k : K) / h.area)) := by
        unfold parseSizeAndIntensity
        simp only [hdiv]; rfl
      rw [e]
      refine ⟨?_, by simp, by simp⟩
      rintro n s i ⟨⟩
      refine ⟨⟨_, rfl, by simp, fun _ => key k⟩, by simp, by simp, by simp⟩
    | some y =>
      have e : parseSizeAndIntensity h (some y) (.int k) = .ok (ti (y * h.area), k, .fin y) := by
        unfold parseSizeAndIntensity
        simp only [(hti _).1]; rfl
      rw [e]
      refine ⟨?_, by simp, by simp⟩
      rintro n s i ⟨⟩
      refine ⟨⟨_, rfl, ?_, by simp⟩, by simp, by simp, by simp⟩
      rintro z ⟨⟩
      exact ⟨rfl, (hti _).2⟩
  | other =>
    have e : parseSizeAndIntensity h intensity .other = .error .valueError := rfl
    rw [e]
    exact ⟨by rintro _ _ _ ⟨⟩, by rintro _ ⟨⟩; rfl, by simp⟩
  | tuple l =>
    match l with
    | [a, b] =>
      cases intensity with
      | none =>
        have e : parseSizeAndIntensity h none (.tuple [a, b]) = .ok (a, b, .fin ((a : K) / h.area)) := by
          unfold parseSizeAndIntensity
          simp only [hdiv]; rfl
        rw [e]
        refine ⟨?_, by simp, by simp⟩
        rintro n s i ⟨⟩
        refine ⟨⟨_, rfl, by simp, fun _ => key a⟩, by simp, by simp, by simp⟩
      | some y =>
        have e : parseSizeAndIntensity h (some y) (.tuple [a, b]) = .error .valueError := rfl
        rw [e]
        exact ⟨by rintro _ _ _ ⟨⟩, by rintro _ ⟨⟩; rfl, by simp⟩
    | [] =>
      have e : parseSizeAndIntensity h intensity (.tuple []) = .error .valueError := rfl
      rw [e]
      exact ⟨by rintro _ _ _ ⟨⟩, by rintro _ ⟨⟩; rfl, by simp⟩
    | [a] =>
      have e : parseSizeAndIntensity h intensity (.tuple [a]) = .error .valueError := rfl
      rw [e]
      exact ⟨by rintro _ _ _ ⟨⟩, by rintro _ ⟨⟩; rfl, by simp⟩
    | a :: b :: c :: l =>
      have e : parseSizeAndIntensity h intensity (.tuple (a :: b :: c :: l)) = .error .valueError := rfl
      rw [e]
      exact ⟨by rintro _ _ _ ⟨⟩, by rintro _ ⟨⟩; rfl, by simp⟩

/-- Non-vacuity: a 2 by 3 box with intensity 5/4 in 4 replications. -/
example : parseSizeAndIntensity (Hull.ofBBox (⟨0, 0, 2, 3⟩ : BBox ℚ)) (some (5 / 4)) (.int 4)
    = .ok (7, 4, .fin (5 / 4)) ∧ (Hull.ofBBox (⟨0, 0, 2, 3⟩ : BBox ℚ)).area ≠ 0 := by decide +kernel

/-- **C39, boxes.** On a box of positive width and height an intensity `y ≥ 0` means as many points as fit, rounded down:
`⌊y * width * height⌋`, in one replication or in as many as `size` says; and without an intensity the intensity reported
for `n` points is `n / (width * height)`. -/
theorem C39_box (b : BBox K) (hx : b.xmin < b.xmax) (hy : b.ymin < b.ymax) (y : K) (hy0 : 0 ≤ y) (k : ℤ) :
    parseSizeAndIntensity (Hull.ofBBox b) (some y) .none
      = .ok (⌊y * (b.xmax - b.xmin) * (b.ymax - b.ymin)⌋, 1, .fin y)
    ∧ parseSizeAndIntensity (Hull.ofBBox b) (some y) (.int k)
      = .ok (⌊y * (b.xmax - b.xmin) * (b.ymax - b.ymin)⌋, k, .fin y)
    ∧ parseSizeAndIntensity (Hull.ofBBox b) none (.int k)
      = .ok (k, 1, .fin ((k : K) / ((b.xmax - b.xmin) * (b.ymax - b.ymin)))) := by
  have hw : 0 < b.xmax - b.xmin := sub_pos.2 hx
  have hh : 0 < b.ymax - b.ymin := sub_pos.2 hy
  have ha : (Hull.ofBBox b).area = (b.xmax - b.xmin) * (b.ymax - b.ymin) := abs_of_pos (mul_pos hw hh)
  have ha0 : (b.xmax - b.xmin) * (b.ymax - b.ymin) ≠ 0 := (mul_pos hw hh).ne'
  have h1 : y * ((b.xmax - b.xmin) * (b.ymax - b.ymin)) = y * (b.xmax - b.xmin) * (b.ymax - b.ymin) := by ring
  have h2 : (b.xmax - b.xmin) * (b.ymax - b.ymin) * y = y * (b.xmax - b.xmin) * (b.ymax - b.ymin) := by ring
  have h3 : 0 ≤ y * (b.xmax - b.xmin) * (b.ymax - b.ymin) := by positivity
  refine ⟨?_, ?_, ?_⟩
  · unfold parseSizeAndIntensity
    simp only [ha, h2, XF.toInt, if_pos h3]
    rfl
  · unfold parseSizeAndIntensity
    simp only [ha, h1, XF.toInt, if_pos h3]
    rfl
  · unfold parseSizeAndIntensity divArea
    simp only [ha, ha0, XF.div, false_and, if_false]
    rfl

example : (⟨0, 0, 2, 3⟩ : BBox ℚ).xmin < (⟨0, 0, 2, 3⟩ : BBox ℚ).xmax ∧ (⟨0, 0, 2, 3⟩ : BBox ℚ).ymin < (⟨0, 0, 2, 3⟩ : BBox ℚ).ymax
    ∧ ⌊(5 / 4 : ℚ) * (2 - 0) * (3 - 0)⌋ = 7 := by decide +kernel

/-- **C39, hulls without area.** An intensity then means no points. Without an intensity the number of points is still taken
from `size`, and the intensity reported is that of the division by zero: an exception for Python numbers, infinite or `nan`
for arrays. -/
theorem C39_zero_area (h : Hull K) (harea : h.area = 0) :
    (∀ y, parseSizeAndIntensity h (some y) .none = .ok (0, 1, .fin y)
      ∧ ∀ k, parseSizeAndIntensity h (some y) (.int k) = .ok (0, k, .fin y))
    ∧ (h.isArray = false → ∀ n s : ℤ, parseSizeAndIntensity h none .none = .error .zeroDivisionError
      ∧ parseSizeAndIntensity h none (.int n) = .error .zeroDivisionError
      ∧ parseSizeAndIntensity h none (.tuple [n, s]) = .error .zeroDivisionError)
    ∧ (h.isArray = true → ∀ n s : ℤ, parseSizeAndIntensity h none .none = .ok (100, 1, .pinf)
      ∧ (0 < n → parseSizeAndIntensity h none (.int n) = .ok (n, 1, .pinf)
          ∧ parseSizeAndIntensity h none (.tuple [n, s]) = .ok (n, s, .pinf))
      ∧ parseSizeAndIntensity h none (.int 0) = .ok (0, 1, .nan))
    ∧ (∀ intensity size, size = .other ∨ (∃ l, size = .tuple l ∧ (l.length ≠ 2 ∨ intensity ≠ none)) →
        parseSizeAndIntensity h intensity size = .error .valueError) := by
  have h0 : XF.toInt (.fin (0 : K)) = .ok 0 := by simp [XF.toInt]
  refine ⟨fun y => ⟨?_, fun k => ?_⟩, fun ha n s => ?_, fun ha n s => ⟨?_, fun hn => ?_, ?_⟩, ?_⟩
  · simp only [parseSizeAndIntensity, harea, zero_mul, h0]; rfl
  · simp only [parseSizeAndIntensity, harea, mul_zero, h0]; rfl
  · have : ∀ m, divArea h m = .error .zeroDivisionError := fun m => by simp [divArea, harea, ha]
    simp only [parseSizeAndIntensity, this]; exact ⟨rfl, rfl, rfl⟩
  · have : divArea h 100 = .ok .pinf := by simp [divArea, harea, ha, XF.div]
    simp only [parseSizeAndIntensity, this]; rfl
  · have : divArea h n = .ok .pinf := by
      have h1 : (0 : K) < n := by exact_mod_cast hn
      simp [divArea, harea, ha, XF.div, h1]
    simp only [parseSizeAndIntensity, this]; exact ⟨rfl, rfl⟩
  · have : divArea h 0 = .ok .nan := by simp [divArea, harea, ha, XF.div]
    simp only [parseSizeAndIntensity, this]; rfl
  · rintro intensity size (rfl | ⟨l, rfl, hl⟩)
    · rfl
    · match l, hl with
      | [], _ => rfl
      | [_], _ => rfl
      | [_, _], .inl hl => exact absurd rfl hl
      | [_, _], .inr hl =>
        cases intensity with
        | none => exact absurd rfl hl
        | some _ => rfl
      | _ :: _ :: _ :: _, _ => rfl

/-- **C39, flat boxes.** For a bounding box without width or height an intensity means no points, and a size is obeyed. -/
theorem C39_flat_box (b : BBox K) (hb : b.xmin = b.xmax ∨ b.ymin = b.ymax) :
    (∀ (y : K) (k : ℤ), parseSizeAndIntensity (Hull.ofBBox b) (some y) (.int k) = .ok (0, k, .fin y))
    ∧ ∀ n s : ℤ, 0 < n → parseSizeAndIntensity (Hull.ofBBox b) none (.int n) = .ok (n, 1, .pinf)
      ∧ parseSizeAndIntensity (Hull.ofBBox b) none (.tuple [n, s]) = .ok (n, s, .pinf) := by
  have ha : (Hull.ofBBox b).area = 0 := by
    rcases hb with hb | hb <;> simp [Hull.ofBBox, Geometry.areaBBox, hb]
  obtain ⟨h1, _, h2, _⟩ := C39_zero_area (Hull.ofBBox b) ha
  exact ⟨fun y k => (h1 y).2 k, fun n s hn => (h2 rfl n s).2.1 hn⟩

/-- A box without height, as an array: an intensity gives no points, a size is obeyed. -/
example : (Hull.ofBBox (⟨0, 1, 5, 1⟩ : BBox ℚ)).area = 0 ∧ (Hull.ofBBox (⟨0, 1, 5, 1⟩ : BBox ℚ)).isArray = true
    ∧ parseSizeAndIntensity (Hull.ofBBox (⟨0, 1, 5, 1⟩ : BBox ℚ)) (some 3) (.int 7) = .ok (0, 7, .fin 3)
    ∧ parseSizeAndIntensity (Hull.ofBBox (⟨0, 1, 5, 1⟩ : BBox ℚ)) none (.int 7) = .ok (7, 1, .pinf) := by
  refine ⟨?_, ?_, ?_, ?_⟩ <;> decide +kernel

/-! ### C40 -/

omit [IsStrictOrderedRing K] in
theorem poisson_ok (h : Hull K) (u : ℕ → K) (intensity : Option K) (size : SizeArg) (n s : ℤ) (i : XF K)
    (hp : parseSizeAndIntensity h intensity size = .ok (n, s, i)) (fuel pos : ℕ) (r : Squeezed K) (pos' : ℕ) :
    poisson h u intensity size fuel pos = some (.ok (r, pos')) ↔ 0 ≤ n ∧ 0 ≤ s ∧
      ∃ reps, poissonReps h u n.toNat s.toNat fuel pos = some (.ok (reps, pos'))
        ∧ r = squeeze s.toNat n.toNat reps := by
  unfold poisson
  rw [hp]
  simp only
  by_cases hneg : n < 0 ∨ s < 0
  · rw [if_pos hneg]
    constructor
    · intro h; cases h
    · rintro ⟨h1, h2, _⟩; omega
  · rw [if_neg hneg, Run.andThen_ok]
    push Not at hneg
    constructor
    · rintro ⟨reps, p, h1, h2⟩
      rw [Run.ret_ok] at h2
      obtain ⟨rfl, rfl⟩ := h2
      exact ⟨hneg.1, hneg.2, reps, h1, rfl⟩
    · rintro ⟨_, _, reps, h1, rfl⟩
      exact ⟨reps, pos', h1, rfl⟩

omit [LinearOrder K] [IsStrictOrderedRing K] [FloorRing K] in
theorem poissonReps_lengths (h : Hull K) (u : ℕ → K) (n s fuel pos : ℕ) (reps : List (List (K × K)))
    (pos' : ℕ) (hr : poissonReps h u n s fuel pos = some (.ok (reps, pos'))) :
    reps.length = s ∧ ∀ rep ∈ reps, rep.length = n ∧ ∀ p ∈ rep, h.contains p.1 p.2 = true := by
  obtain ⟨h1, h2⟩ := replications_spec _ _ _ _ _ _ hr
  refine ⟨h1, ?_⟩
  intro rep hrep
  obtain ⟨j, p, p', _, hb⟩ := h2 rep hrep
  obtain ⟨g1, g2⟩ := rejection_mem _ _ _ _ _ _ _ hb
  exact ⟨g1, fun q hq => (g2 q hq).1⟩

/-- The `j`-th candidate after position `pos`: uniform in the bounding box of the hull, from the next two
draws. -/
def candidateAt (h : Hull K) (u : ℕ → K) (pos j : ℕ) : K × K :=
  (h.bbox.xmin + (h.bbox.xmax - h.bbox.xmin) * u (pos + 2 * j),
   h.bbox.ymin + (h.bbox.ymax - h.bbox.ymin) * u (pos + 2 * j + 1))

omit [IsStrictOrderedRing K] in
/-- **C40.** Let the arguments resolve to `n` points in `s` replications. Whenever `poisson` returns an array,
it holds `s` replications of `n` points each, in row-major order, and every point is in the hull; its shape is
`(s, n, 2)` without the axes of length one. The points are the first `n s` acceptable ones among the
uniform candidates in the bounding box. -/
theorem C40_poisson (h : Hull K) (u : ℕ → K) (intensity : Option K) (size : SizeArg) (n s : ℤ) (i : XF K)
    (hp : parseSizeAndIntensity h intensity size = .ok (n, s, i)) (pos : ℕ) (r : Squeezed K) (pos' : ℕ)
    (hr : Returns (fun fuel => poisson h u intensity size fuel pos) (.ok (r, pos'))) :
    (∃ reps : List (List (K × K)), r.data = reps.flatten ∧ (reps.length : ℤ) = s
      ∧ ∀ rep ∈ reps, (rep.length : ℤ) = n ∧ ∀ p ∈ rep, h.contains p.1 p.2 = true)
    ∧ r.shape = [s.toNat, n.toNat].filter (· ≠ 1) ++ [2]
    ∧ ∃ m, pos' = pos + 2 * m
      ∧ FirstAccepted (candidateAt h u pos) (fun p => h.contains p.1 p.2) (n * s).toNat r.data m := by
  obtain ⟨fuel, hf⟩ := hr
  obtain ⟨hn, hs, reps, h1, rfl⟩ := (poisson_ok h u intensity size n s i hp fuel pos r pos').1 hf
  obtain ⟨g1, g2⟩ := poissonReps_lengths _ _ _ _ _ _ _ _ h1
  have hd := squeeze_data s.toNat n.toNat reps g1 (fun rep hrep => (g2 rep hrep).1)
  refine ⟨⟨reps, hd, by omega, ?_⟩, squeeze_shape _ _ _ g1 (fun rep hrep => (g2 rep hrep).1), ?_⟩
  · intro rep hrep
    have := g2 rep hrep
    exact ⟨by omega, this.2⟩
  · have h2 := replications_flatten _ _ _ _ _ _ _ _ _ h1
    obtain ⟨m, hm, hF⟩ := (rejection_iff _ _ _ _ _ _).1 h2
    refine ⟨m, hm, ?_⟩
    rw [hd]
    have e : (n * s).toNat = n.toNat * s.toNat := Int.toNat_mul hn hs
    rw [e]
    exact hF

omit [Field K] [LinearOrder K] [IsStrictOrderedRing K] [FloorRing K] in
private theorem firstAccepted_exists (cand : ℕ → K × K) (accept : K × K → Bool) (N M : ℕ)
    (h : N ≤ (((List.range M).map cand).filter accept).length) :
    ∃ l m, FirstAccepted cand accept N l m := by
  induction M generalizing N with
  | zero =>
    simp at h
    subst h
    exact ⟨[], 0, by simp [FirstAccepted]⟩
  | succ M ih =>
    rw [List.range_succ, List.map_append, List.filter_append, List.length_append] at h
    by_cases hle : N ≤ (((List.range M).map cand).filter accept).length
    · exact ih N hle
    · by_cases hc : accept (cand M) = true
      · refine ⟨((List.range (M + 1)).map cand).filter accept, M + 1, rfl, ?_, Or.inr (by simpa using hc)⟩
        rw [List.range_succ, List.map_append, List.filter_append, List.length_append]
        simp [hc] at h hle ⊢
        omega
      · simp [hc] at h hle
        omega

omit [IsStrictOrderedRing K] in
/-- **C40, termination.** `poisson` ends with an array exactly if the candidates include enough acceptable
ones. -/
theorem C40_poisson_ends (h : Hull K) (u : ℕ → K) (intensity : Option K) (size : SizeArg) (n s : ℤ) (i : XF K)
    (hp : parseSizeAndIntensity h intensity size = .ok (n, s, i)) (hn : 0 ≤ n) (hs : 0 ≤ s) (pos : ℕ) :
    (∃ r pos', Returns (fun fuel => poisson h u intensity size fuel pos) (.ok (r, pos'))) ↔
      ∃ M, (n * s).toNat
        ≤ (((List.range M).map (candidateAt h u pos)).filter fun p => h.contains p.1 p.2).length := by
  constructor
  · rintro ⟨r, pos', hr⟩
    obtain ⟨_, _, m, _, hF⟩ := C40_poisson h u intensity size n s i hp pos r pos' hr
    exact ⟨m, by rw [← hF.1, hF.2.1]⟩
  · rintro ⟨M, hM⟩
    obtain ⟨l, m, hF⟩ := firstAccepted_exists _ _ _ _ hM
    have e : (n * s).toNat = n.toNat * s.toNat := Int.toNat_mul hn hs
    rw [e] at hF
    have h1 := rejection_complete (boxCandidate h u) (fun p => h.contains p.1 p.2) m pos _ l hF
    obtain ⟨reps, _, h2⟩ := replications_cut _ _ _ _ 0 _ _ _ _ h1
    exact ⟨squeeze s.toNat n.toNat reps, pos + 2 * m, m,
      (poisson_ok h u intensity size n s i hp m pos _ _).2 ⟨hn, hs, reps, h2, rfl⟩⟩

/-- **C40, boxes.** If the hull is a box then `poisson` always returns, every candidate is used, and exactly
`2 n s` numbers are drawn. -/
theorem C40_poisson_box (b : BBox K) (hx : b.xmin ≤ b.xmax) (hy : b.ymin ≤ b.ymax) (u : ℕ → K) (hu : IsDraws u)
    (intensity : Option K) (size : SizeArg) (n s : ℤ) (i : XF K)
    (hp : parseSizeAndIntensity (Hull.ofBBox b) intensity size = .ok (n, s, i)) (hn : 0 ≤ n) (hs : 0 ≤ s)
    (pos : ℕ) :
    ∃ r, Returns (fun fuel => poisson (Hull.ofBBox b) u intensity size fuel pos)
        (.ok (r, pos + 2 * (n * s).toNat))
      ∧ r.data = (List.range (n * s).toNat).map (candidateAt (Hull.ofBBox b) u pos) := by
  have hin : ∀ (lo hi x : K), lo ≤ hi → 0 ≤ x → x < 1 → lo ≤ lo + (hi - lo) * x ∧ lo + (hi - lo) * x ≤ hi := by
    intro lo hi x h1 h2 h3
    have a := mul_nonneg (sub_nonneg.2 h1) h2
    have b := mul_le_mul_of_nonneg_left h3.le (sub_nonneg.2 h1)
    constructor
    · linarith
    · rw [mul_one] at b; linarith
  have hall : ∀ M, (((List.range M).map (candidateAt (Hull.ofBBox b) u pos)).filter
      fun p => (Hull.ofBBox b).contains p.1 p.2) = (List.range M).map (candidateAt (Hull.ofBBox b) u pos) := by
    intro M
    rw [List.filter_eq_self]
    intro p hp
    obtain ⟨j, _, rfl⟩ := List.mem_map.1 hp
    have a := hin b.xmin b.xmax _ hx (hu (pos + 2 * j)).1 (hu (pos + 2 * j)).2
    have c := hin b.ymin b.ymax _ hy (hu (pos + 2 * j + 1)).1 (hu (pos + 2 * j + 1)).2
    simp [Hull.ofBBox, Geometry.containsBBox, candidateAt, a, c]
  obtain ⟨r, pos', hr⟩ := (C40_poisson_ends (Hull.ofBBox b) u intensity size n s i hp hn hs pos).2
    ⟨(n * s).toNat, by rw [hall]; simp⟩
  obtain ⟨_, _, m, hm, e1, e2, _⟩ := C40_poisson _ u intensity size n s i hp pos r pos' hr
  rw [hall] at e1
  have hmm : m = (n * s).toNat := by rw [e1] at e2; simpa using e2
  subst hmm
  subst hm
  exact ⟨r, hr, e1⟩

/-- Non-vacuity: two points in three replications in a 2 by 3 box, from a stream of halves. -/
example : poisson (Hull.ofBBox (⟨0, 0, 2, 3⟩ : BBox ℚ)) (fun _ => 1 / 2) none (.tuple [2, 3]) 2 0
    = some (.ok (.cube 2 [[(1, 3 / 2), (1, 3 / 2)], [(1, 3 / 2), (1, 3 / 2)], [(1, 3 / 2), (1, 3 / 2)]], 12)) := by
  decide +kernel

/-! ### C41 -/

omit [IsStrictOrderedRing K] in
private theorem parse_tuple {h : Hull K} {n s m t : ℤ} {i : XF K}
    (hp : parseSizeAndIntensity h none (.tuple [n, s]) = .ok (n, s, i)) :
    ∃ i', parseSizeAndIntensity h none (.tuple [m, t]) = .ok (m, t, i') := by
  unfold parseSizeAndIntensity divArea at *
  simp only at *
  split at hp
  · cases hp
  · next hc => exact ⟨_, by rw [if_neg hc]; rfl⟩

omit [IsStrictOrderedRing K] in
private theorem parse_tuple_of_ok {h : Hull K} {u : ℕ → K} {n s : ℤ} {fuel pos : ℕ} {r : Squeezed K × ℕ}
    (hr : poisson h u none (.tuple [n, s]) fuel pos = some (.ok r)) :
    ∃ i, parseSizeAndIntensity h none (.tuple [n, s]) = .ok (n, s, i) := by
  unfold poisson at hr
  split at hr
  · cases hr
  · next n' s' i' hp =>
    refine ⟨i', ?_⟩
    rw [hp]
    unfold parseSizeAndIntensity divArea at hp
    simp only at hp
    split at hp
    · cases hp
    · cases hp; rfl

omit [IsStrictOrderedRing K] in
/-- **C41, replications.** For all sizes: `size=(n, s)` and `size=(n s, 1)` with generators in the same state
either both do not end or give the same points in the same order and leave the generators in the same
state. -/
theorem C41_replications (h : Hull K) (u : ℕ → K) (n s : ℕ) (pos pos' : ℕ) (points : List (K × K)) :
    (∃ r, Returns (fun fuel => poisson h u none (.tuple [n, s]) fuel pos) (.ok (r, pos')) ∧ r.data = points)
    ↔ (∃ r, Returns (fun fuel => poisson h u none (.tuple [((n * s : ℕ) : ℤ), 1]) fuel pos) (.ok (r, pos'))
        ∧ r.data = points) := by
  constructor
  · rintro ⟨r, ⟨fuel, hf⟩, hd⟩
    obtain ⟨i, hp⟩ := parse_tuple_of_ok hf
    obtain ⟨i', hp'⟩ := parse_tuple (m := ((n * s : ℕ) : ℤ)) (t := 1) hp
    obtain ⟨_, _, reps, h1, rfl⟩ := (poisson_ok h u none _ n s i hp fuel pos r pos').1 hf
    obtain ⟨g1, g2⟩ := poissonReps_lengths _ _ _ _ _ _ _ _ h1
    rw [squeeze_data _ _ _ g1 (fun rep hrep => (g2 rep hrep).1)] at hd
    obtain ⟨f, hf⟩ := replications_flatten _ _ _ _ _ _ _ _ _ h1
    simp only [Int.toNat_natCast] at hf
    have h2 : poissonReps h u (n * s) 1 f pos = some (.ok ([reps.flatten], pos')) := by
      unfold poissonReps
      rw [replications]
      exact Run.andThen_ok.2 ⟨reps.flatten, pos', hf, rfl⟩
    refine ⟨_, ⟨f, (poisson_ok h u none _ _ _ i' hp' f pos _ pos').2 ⟨by omega, by omega, _, h2, rfl⟩⟩, ?_⟩
    obtain ⟨g3, g4⟩ := poissonReps_lengths _ _ _ _ _ _ _ _ h2
    have e := squeeze_data 1 (n * s) [reps.flatten] g3 (fun rep hrep => (g4 rep hrep).1)
    rw [← hd, Int.toNat_natCast]
    simpa using e
  · rintro ⟨r, ⟨fuel, hf⟩, hd⟩
    obtain ⟨i, hp⟩ := parse_tuple_of_ok hf
    obtain ⟨i', hp'⟩ := parse_tuple (m := (n : ℤ)) (t := (s : ℤ)) hp
    obtain ⟨_, _, reps, h1, rfl⟩ := (poisson_ok h u none _ _ _ i hp fuel pos r pos').1 hf
    obtain ⟨g1, g2⟩ := poissonReps_lengths _ _ _ _ _ _ _ _ h1
    rw [squeeze_data _ _ _ g1 (fun rep hrep => (g2 rep hrep).1)] at hd
    obtain ⟨f, hf⟩ := replications_flatten _ _ _ _ _ _ _ _ _ h1
    simp only [Int.toNat_natCast, Int.toNat_one, Nat.mul_one] at hf
    rw [hd] at hf
    obtain ⟨reps', hflat, h2⟩ := replications_cut _ _ _ _ 0 _ _ _ _ hf
    have h3 : poissonReps h u n s f pos = some (.ok (reps', pos')) := h2
    refine ⟨_, ⟨f, (poisson_ok h u none _ _ _ i' hp' f pos _ pos').2
      ⟨by omega, by omega, reps', h3, rfl⟩⟩, ?_⟩
    obtain ⟨g3, g4⟩ := poissonReps_lengths _ _ _ _ _ _ _ _ h3
    have e := squeeze_data s n reps' g3 (fun rep hrep => (g4 rep hrep).1)
    rw [← hflat]
    simpa using e

omit [IsStrictOrderedRing K] in
/-- **C41, successive calls.** Two calls for `a` and for `b` points that share a generator give, together, the
points of one call for `a + b` points, and the generator is in the same state afterwards; and conversely a
call for `a + b` points can be split. -/
theorem C41_successive (h : Hull K) (u : ℕ → K) (a b : ℕ) (pos pos' : ℕ) (points : List (K × K)) :
    (∃ r1 r2 p, Returns (fun fuel => poisson h u none (.tuple [(a : ℤ), 1]) fuel pos) (.ok (r1, p))
        ∧ Returns (fun fuel => poisson h u none (.tuple [(b : ℤ), 1]) fuel p) (.ok (r2, pos'))
        ∧ r1.data ++ r2.data = points)
    ↔ (∃ r, Returns (fun fuel => poisson h u none (.tuple [((a + b : ℕ) : ℤ), 1]) fuel pos) (.ok (r, pos'))
        ∧ r.data = points) := by
  -- one replication is one run of rejection sampling
  have one : ∀ (n pos pos' : ℕ) (pts : List (K × K)),
      (∃ r, Returns (fun fuel => poisson h u none (.tuple [(n : ℤ), 1]) fuel pos) (.ok (r, pos')) ∧ r.data = pts)
      ↔ (∃ i, parseSizeAndIntensity h none (.tuple [(n : ℤ), 1]) = .ok ((n : ℤ), 1, i))
        ∧ Returns (fun fuel => rejection (boxCandidate h u) (fun p => h.contains p.1 p.2) fuel pos n)
          (.ok (pts, pos')) := by
    intro n pos pos' pts
    constructor
    · rintro ⟨r, ⟨fuel, hf⟩, hd⟩
      obtain ⟨i, hp⟩ := parse_tuple_of_ok hf
      refine ⟨⟨i, hp⟩, ?_⟩
      obtain ⟨_, _, reps, h1, rfl⟩ := (poisson_ok h u none _ _ _ i hp fuel pos r pos').1 hf
      obtain ⟨g1, g2⟩ := poissonReps_lengths _ _ _ _ _ _ _ _ h1
      rw [squeeze_data _ _ _ g1 (fun rep hrep => (g2 rep hrep).1)] at hd
      obtain ⟨f, hf⟩ := replications_flatten _ _ _ _ _ _ _ _ _ h1
      simp only [Int.toNat_natCast, Int.toNat_one, Nat.mul_one] at hf
      rw [hd] at hf
      exact ⟨f, hf⟩
    · rintro ⟨⟨i, hp⟩, f, hf⟩
      have h2 : poissonReps h u n 1 f pos = some (.ok ([pts], pos')) := by
        unfold poissonReps
        rw [replications]
        exact Run.andThen_ok.2 ⟨pts, pos', hf, rfl⟩
      refine ⟨_, ⟨f, (poisson_ok h u none _ _ _ i hp f pos _ pos').2 ⟨by omega, by omega, _, h2, rfl⟩⟩, ?_⟩
      obtain ⟨g3, g4⟩ := poissonReps_lengths _ _ _ _ _ _ _ _ h2
      have e := squeeze_data 1 n [pts] g3 (fun rep hrep => (g4 rep hrep).1)
      simpa using e
  constructor
  · rintro ⟨r1, r2, p, h1, h2, rfl⟩
    obtain ⟨⟨i, hi⟩, f1, g1⟩ := (one a pos p r1.data).1 ⟨r1, h1, rfl⟩
    obtain ⟨_, f2, g2⟩ := (one b p pos' r2.data).1 ⟨r2, h2, rfl⟩
    exact (one (a + b) pos pos' _).2 ⟨parse_tuple hi, rejection_append _ _ _ _ _ _ _ _ _ _ _ g1 g2⟩
  · rintro hr
    obtain ⟨⟨i, hi⟩, f, g⟩ := (one (a + b) pos pos' points).1 hr
    obtain ⟨l1, l2, p, rfl, g1, g2⟩ := rejection_split _ _ _ _ _ _ _ _ g
    obtain ⟨r1, k1, e1⟩ := (one a pos p l1).2 ⟨parse_tuple hi, f, g1⟩
    obtain ⟨r2, k2, e2⟩ := (one b p pos' l2).2 ⟨parse_tuple hi, f, g2⟩
    exact ⟨r1, r2, p, k1, k2, by rw [e1, e2]⟩

/-! ### C42 -/

omit [IsStrictOrderedRing K] in
/-- **C42, refuted.** For every hull, generator state and `n ≥ 2`: `n` points in one replication and one point
in `n` replications are the same array. -/
theorem C42_shape_refuted (h : Hull K) (u : ℕ → K) (n : ℕ) (hn : 2 ≤ n) (pos pos' : ℕ) (r : Squeezed K)
    (hr : Returns (fun fuel => poisson h u none (.tuple [(n : ℤ), 1]) fuel pos) (.ok (r, pos'))) :
    Returns (fun fuel => poisson h u none (.tuple [1, (n : ℤ)]) fuel pos) (.ok (r, pos'))
    ∧ r.shape = [n, 2] := by
  obtain ⟨r', hr', hd⟩ := (C41_replications h u 1 n pos pos' r.data).2 ⟨r, by simpa using hr, rfl⟩
  have hr'' : Returns (fun fuel => poisson h u none (.tuple [1, (n : ℤ)]) fuel pos) (.ok (r', pos')) := by
    simpa using hr'
  obtain ⟨f, hf⟩ := hr
  obtain ⟨f', hf'⟩ := hr''
  obtain ⟨i, hp⟩ := parse_tuple_of_ok hf
  obtain ⟨i', hp'⟩ := parse_tuple_of_ok hf'
  obtain ⟨_, s1, _⟩ := C40_poisson h u none _ _ _ i hp pos r pos' ⟨f, hf⟩
  obtain ⟨_, s2, _⟩ := C40_poisson h u none _ _ _ i' hp' pos r' pos' ⟨f', hf'⟩
  have hne : n ≠ 1 := by omega
  simp [hne] at s1 s2
  have rows : ∀ x : Squeezed K, x.shape = [n, 2] → ∃ l, x = .rows l := by
    intro x hx
    cases x with
    | point p => simp [Squeezed.shape] at hx
    | rows l => exact ⟨l, rfl⟩
    | cube m l => simp [Squeezed.shape] at hx
  obtain ⟨l, rfl⟩ := rows r s1
  obtain ⟨l', rfl⟩ := rows r' s2
  simp only [Squeezed.data] at hd
  subst hd
  exact ⟨⟨f', hf'⟩, s1⟩

/-- Non-vacuity, and the effect: the first element of the first row is a coordinate, not an observation. -/
example : ∃ r, poisson (Hull.ofBBox (⟨0, 0, 2, 3⟩ : BBox ℚ)) (fun _ => 1 / 2) none (.tuple [3, 1]) 3 0
    = some (.ok (r, 6)) ∧ r.index2 0 0 = .ok (.inl 1) :=
  ⟨.rows [(1, 3 / 2), (1, 3 / 2), (1, 3 / 2)], by decide +kernel, by decide +kernel⟩

omit [IsStrictOrderedRing K] in
/-- **C42 is false** of one point in one replication: the array has only one dimension, so that every `result[i][j]` is an
`IndexError`. -/
theorem C42_single_refuted (h : Hull K) (u : ℕ → K) (intensity : Option K) (size : SizeArg) (i : XF K)
    (hp : parseSizeAndIntensity h intensity size = .ok (1, 1, i)) (pos : ℕ) (r : Squeezed K) (pos' : ℕ)
    (hr : Returns (fun fuel => poisson h u intensity size fuel pos) (.ok (r, pos'))) :
    r.shape = [2] ∧ ∀ a b : ℕ, r.index2 a b = .error .indexError := by
  obtain ⟨fuel, hf⟩ := hr
  obtain ⟨_, _, reps, _, rfl⟩ := (poisson_ok h u intensity size 1 1 i hp fuel pos r pos').1 hf
  simp [squeeze, Squeezed.shape, Squeezed.index2]

example : ∃ r, poisson (Hull.ofBBox (⟨0, 0, 2, 3⟩ : BBox ℚ)) (fun _ => 1 / 2) none (.int 1) 3 0 = some (.ok (r, 2)) :=
  ⟨.point (1, 3 / 2), by decide +kernel⟩

omit [IsStrictOrderedRing K] in
/-- **C42, partial.** If neither the number of points nor the number of replications is one then the array has
the shape `(s, n, 2)`, and `result[i][j]` is observation `j` of replication `i`: there are `s` lists of `n`
points, whose concatenation is the list of the sampled points, such that the elements of the array are those
of the lists; other positions are an `IndexError`. Missing: one point or one replication (`C42_shape_refuted`). -/
theorem C42_shape_partial (h : Hull K) (u : ℕ → K) (intensity : Option K) (size : SizeArg) (n s : ℤ) (i : XF K)
    (hp : parseSizeAndIntensity h intensity size = .ok (n, s, i)) (hn : n ≠ 1) (hs : s ≠ 1) (pos : ℕ)
    (r : Squeezed K) (pos' : ℕ)
    (hr : Returns (fun fuel => poisson h u intensity size fuel pos) (.ok (r, pos'))) :
    r.shape = [s.toNat, n.toNat, 2]
    ∧ ∃ reps : List (List (K × K)), r.data = reps.flatten ∧ (reps.length : ℤ) = s
      ∧ (∀ rep ∈ reps, (rep.length : ℤ) = n)
      ∧ (∀ (a b : ℕ) (rep : List (K × K)) (p : K × K), reps[a]? = some rep → rep[b]? = some p →
          r.index2 a b = .ok (.inr p))
      ∧ ∀ a b : ℕ, s ≤ a ∨ n ≤ b → r.index2 a b = .error .indexError := by
  obtain ⟨fuel, hf⟩ := hr
  obtain ⟨hn0, hs0, reps, h1, rfl⟩ := (poisson_ok h u intensity size n s i hp fuel pos r pos').1 hf
  obtain ⟨g1, g2⟩ := poissonReps_lengths _ _ _ _ _ _ _ _ h1
  have hd := squeeze_data s.toNat n.toNat reps g1 (fun rep hrep => (g2 rep hrep).1)
  have hsh := squeeze_shape s.toNat n.toNat reps g1 (fun rep hrep => (g2 rep hrep).1)
  have e1 : s.toNat ≠ 1 := by omega
  have e2 : n.toNat ≠ 1 := by omega
  refine ⟨by rw [hsh]; simp [e1, e2], reps, hd, by omega, ?_, ?_, ?_⟩
  · intro rep hrep
    have := (g2 rep hrep).1
    omega
  · intro a b rep p ha hb
    unfold squeeze
    rw [if_neg e1, if_neg e2]
    simp only [Squeezed.index2, ha, hb]
  · intro a b hab
    unfold squeeze
    rw [if_neg e1, if_neg e2]
    simp only [Squeezed.index2]
    cases ha : reps[a]? with
    | none => rfl
    | some rep =>
      have h3 := (g2 rep (List.mem_of_getElem? ha)).1
      have h4 : a < reps.length := (List.getElem?_eq_some_iff.1 ha).1
      have hb : rep[b]? = none := List.getElem?_eq_none (by omega)
      simp only [hb]

end Pointpats.Props
