import Verif.Lemmas.Random
import Mathlib.Data.Rat.Floor
import Mathlib.Analysis.Real.Sqrt
import Mathlib.Tactic.LinearCombination
import Mathlib.Tactic.FieldSimp
import Mathlib.Tactic.NormNum

/-!
# C43: the covariance of normal patterns
-/

namespace Pointpats.Props

open Random Spec

variable {K : Type} [Field K] [LinearOrder K] [IsStrictOrderedRing K]

omit [IsStrictOrderedRing K] in
/-- What is assumed of the square root: it is the non-negative root of non-negative numbers. -/
private theorem root_pos {root : K → K} (hroot : ∀ x, 0 ≤ x → 0 ≤ root x ∧ root x * root x = x) {x : K}
    (hx : 0 < x) : 0 < root x := by
  obtain ⟨h1, h2⟩ := hroot x hx.le
  rcases h1.lt_or_eq with h | h
  · exact h
  · rw [← h] at h2; simp at h2; exact absurd h2 hx.ne

/-- **C43, refuted.** For every valid covariance matrix with unequal variances and a non-zero covariance, the matrix
that `normal` passes to the generator of correlated numbers is not symmetric: it is not a correlation matrix and not
the covariance matrix of any linear image of independent standard numbers. -/
theorem C43_covariance_refuted (root : K → K) (hroot : ∀ x, 0 ≤ x → 0 ≤ root x ∧ root x * root x = x) (m : M2 K)
    (hm : IsCovariance m.a m.b m.c m.d) (hb : m.b ≠ 0) (hne : m.a ≠ m.d) :
    ¬ IsCorrelation (replicationCor root m).a (replicationCor root m).b (replicationCor root m).c
        (replicationCor root m).d
    ∧ ∀ p q r s : K, ¬ IsFactor p q r s (replicationCor root m).a (replicationCor root m).b
        (replicationCor root m).c (replicationCor root m).d := by
  obtain ⟨ha, hd, hbc, _⟩ := hm
  have key : (replicationCor root m).b ≠ (replicationCor root m).c := by
    have e1 : (replicationCor root m).b = m.b / m.d := by
      show 1 / root m.d * m.b * (1 / root m.d) = _
      have := (hroot m.d hd.le).2
      have h0 := (root_pos hroot hd).ne'
      have hd' := hd.ne'
      field_simp
      rw [pow_two, this]
    have e2 : (replicationCor root m).c = m.c / m.a := by
      show 1 / root m.a * m.c * (1 / root m.a) = _
      have := (hroot m.a ha.le).2
      have h0 := (root_pos hroot ha).ne'
      have ha' := ha.ne'
      field_simp
      rw [pow_two, this, mul_comm]
    rw [e1, e2, ← hbc]
    intro h
    rw [div_eq_div_iff hd.ne' ha.ne'] at h
    exact hne (mul_left_cancel₀ hb h)
  refine ⟨fun h => key h.2.2.1, ?_⟩
  rintro p q r s ⟨_, h1, h2, _⟩
  apply key
  rw [← h1, ← h2]
  ring

/-- **C43, refuted, in numbers.** The covariance matrix `[[4, 1/2], [1/2, 1/4]]` (correlation 1/2) leads to the
"correlations" 2 and 1/8. -/
theorem C43_correlation_refuted : IsCovariance (4 : ℝ) (1 / 2) (1 / 2) (1 / 4)
    ∧ (replicationCor Real.sqrt ⟨4, 1 / 2, 1 / 2, 1 / 4⟩).b = 2
    ∧ (replicationCor Real.sqrt ⟨4, 1 / 2, 1 / 2, 1 / 4⟩).c = 1 / 8 := by
  have h4 : Real.sqrt 4 = 2 := by
    rw [show (4 : ℝ) = 2 ^ 2 by norm_num]; exact Real.sqrt_sq (by norm_num)
  have h1 : Real.sqrt (1 / 4) = 1 / 2 := by
    rw [show (1 / 4 : ℝ) = (1 / 2) ^ 2 by norm_num]; exact Real.sqrt_sq (by norm_num)
  refine ⟨⟨by norm_num, by norm_num, rfl, by norm_num⟩, ?_, ?_⟩
  · simp only [replicationCor, h1]; norm_num
  · simp only [replicationCor, h4]; norm_num

/-- **C43, partial.** If the two variances are equal or the covariance is zero then the matrix passed to the
generator is a correlation matrix, and, for a generator that maps independent standard numbers `(x, y)` through
any factor of that matrix, the candidates are the centre plus the image of `(x, y)` under a factor of the
requested covariance matrix. Missing: the other matrices, for which this fails (`C43_covariance_refuted`). -/
theorem C43_covariance_partial (root : K → K) (hroot : ∀ x, 0 ≤ x → 0 ≤ root x ∧ root x * root x = x) (m : M2 K)
    (hm : IsCovariance m.a m.b m.c m.d) (hcase : m.b = 0 ∨ m.a = m.d) :
    IsCorrelation (replicationCor root m).a (replicationCor root m).b (replicationCor root m).c
        (replicationCor root m).d
    ∧ ∀ p q r s : K, IsFactor p q r s (replicationCor root m).a (replicationCor root m).b
        (replicationCor root m).c (replicationCor root m).d →
      ∃ p' q' r' s' : K, IsFactor p' q' r' s' m.a m.b m.c m.d
        ∧ ∀ (center : K × K) (u : ℕ → K) (pos : ℕ),
          normalCandidate root (fun _ x y => (p * x + q * y, r * x + s * y)) center m u pos
            = (center.1 + (p' * u pos + q' * u (pos + 1)), center.2 + (r' * u pos + s' * u (pos + 1))) := by
  obtain ⟨ha, hd, hbc, hdet⟩ := hm
  have ra := (hroot m.a ha.le).2
  have rd := (hroot m.d hd.le).2
  have pa := root_pos hroot ha
  have pd := root_pos hroot hd
  generalize hA : root m.a = A at *
  generalize hD : root m.d = D at *
  have e1 : (replicationCor root m).a = 1 := by
    show 1 / root m.a * m.a * (1 / root m.a) = _
    rw [hA, ← ra]; field_simp
  have e4 : (replicationCor root m).d = 1 := by
    show 1 / root m.d * m.d * (1 / root m.d) = _
    rw [hD, ← rd]; field_simp
  have e2 : (replicationCor root m).b = m.b / (D * D) := by
    show 1 / root m.d * m.b * (1 / root m.d) = _
    rw [hD]; field_simp
  have e3 : (replicationCor root m).c = m.c / (A * A) := by
    show 1 / root m.a * m.c * (1 / root m.a) = _
    rw [hA]; field_simp
  have hAD : m.b = 0 ∨ A = D := by
    rcases hcase with h | h
    · exact Or.inl h
    · right; rw [← hA, ← hD, h]
  rw [e1, e2, e3, e4]
  refine ⟨⟨rfl, rfl, ?_, ?_, ?_⟩, ?_⟩
  · rcases hAD with h | h
    · rw [← hbc, h]; simp
    · rw [← hbc, h]
  · rcases hAD with h | h
    · rw [h]; simp
    · rw [le_div_iff₀ (mul_pos pd pd), rd]
      have h5 : m.a = m.d := by rw [← ra, ← rd, h]
      rw [h5, ← hbc] at hdet
      nlinarith [abs_le_of_sq_le_sq' (show m.b ^ 2 ≤ m.d ^ 2 by nlinarith) hd.le]
  · rcases hAD with h | h
    · rw [h]; simp
    · rw [div_le_iff₀ (mul_pos pd pd), rd]
      have h5 : m.a = m.d := by rw [← ra, ← rd, h]
      rw [h5, ← hbc] at hdet
      nlinarith [abs_le_of_sq_le_sq' (show m.b ^ 2 ≤ m.d ^ 2 by nlinarith) hd.le]
  · rintro p q r s ⟨f1, f2, f3, f4⟩
    refine ⟨A * p, A * q, D * r, D * s, ⟨?_, ?_, ?_, ?_⟩, ?_⟩
    · rw [← ra]; linear_combination A * A * f1
    · have : A * D * (m.b / (D * D)) = m.b := by
        rcases hAD with h | h
        · rw [h]; simp
        · rw [h]; field_simp
      linear_combination A * D * f2 + this
    · have : A * D * (m.c / (A * A)) = m.c := by
        rcases hAD with h | h
        · rw [← hbc, h]; simp
        · rw [h]; field_simp
      linear_combination A * D * f3 + this
    · rw [← rd]; linear_combination D * D * f4
    · intro center u pos
      simp only [normalCandidate, hA, hD, Prod.mk.injEq]
      constructor <;> ring

/-- Non-vacuity: equal variances 4 and covariance 2 over the reals. -/
example : IsCovariance (4 : ℝ) 2 2 4 ∧ (∀ x : ℝ, 0 ≤ x → 0 ≤ Real.sqrt x ∧ Real.sqrt x * Real.sqrt x = x) :=
  ⟨⟨by norm_num, by norm_num, rfl, by norm_num⟩, fun x hx => ⟨Real.sqrt_nonneg x, Real.mul_self_sqrt hx⟩⟩

variable [FloorRing K]

omit [IsStrictOrderedRing K] in
theorem normal_ok (h : Hull K) (root : K → K) (mvn : M2 K → K → K → K × K) (center : K × K)
    (cov : CovArg K) (u : ℕ → K) (size : SizeArg) (n s : ℤ) (i : XF K)
    (hp : parseSizeAndIntensity h none size = .ok (n, s, i)) (fuel pos : ℕ) (r : Squeezed K) (pos' : ℕ)
    (hr : normal h root mvn center cov u size fuel pos = some (.ok (r, pos'))) :
    ∃ cov', resolveCov h cov s = .ok cov' ∧ 0 ≤ n ∧ 0 ≤ s ∧ ∃ reps,
      replications (fun i pos => rejection (normalCandidate root mvn center (cov'.at i) u)
              (fun p => h.contains p.1 p.2) fuel pos n.toNat) 0 s.toNat pos = some (.ok (reps, pos'))
      ∧ r = squeeze s.toNat n.toNat reps := by
  unfold normal at hr
  rw [hp] at hr
  simp only at hr
  cases hc : resolveCov h cov s with
  | error e => rw [hc] at hr; cases hr
  | ok cov' =>
    rw [hc] at hr
    simp only at hr
    by_cases hneg : n < 0 ∨ s < 0
    · rw [if_pos hneg] at hr; cases hr
    · rw [if_neg hneg] at hr
      push Not at hneg
      obtain ⟨reps, p, h1, h2⟩ := Run.andThen_ok.1 hr
      rw [Run.ret_ok] at h2
      obtain ⟨rfl, rfl⟩ := h2
      exact ⟨cov', rfl, hneg.1, hneg.2, reps, h1, rfl⟩

/-- `p` is the centre plus a value of the generator of correlated numbers, scaled by the standard deviations
`root a` and `root d` of the matrix `m`. -/
def IsScaledDraw (root : K → K) (mvn : M2 K → K → K → K × K) (center : K × K) (m : M2 K) (p : K × K) : Prop :=
  ∃ x y : K, p = (center.1 + (mvn (replicationCor root m) x y).1 * root m.a,
    center.2 + (mvn (replicationCor root m) x y).2 * root m.d)

omit [IsStrictOrderedRing K] in
/-- **C43, points.** Whenever `normal` returns, it returns the requested number of replications and of points, all in
the hull, in the documented shape; the points are draws around the centre, scaled by the standard deviations of
the requested matrix, which is the `k`-th one of a stack in replication `k`. -/
theorem C43_normal_points (h : Hull K) (root : K → K) (mvn : M2 K → K → K → K × K) (center : K × K)
    (cov : CovArg K) (u : ℕ → K) (size : SizeArg) (n s : ℤ) (i : XF K)
    (hp : parseSizeAndIntensity h none size = .ok (n, s, i)) (pos : ℕ) (r : Squeezed K) (pos' : ℕ)
    (hr : Returns (fun fuel => normal h root mvn center cov u size fuel pos) (.ok (r, pos'))) :
    (∃ reps : List (List (K × K)), r.data = reps.flatten ∧ (reps.length : ℤ) = s
      ∧ (∀ rep ∈ reps, (rep.length : ℤ) = n ∧ ∀ p ∈ rep, h.contains p.1 p.2 = true)
      ∧ (∀ m, cov = .mat m → ∀ rep ∈ reps, ∀ p ∈ rep, IsScaledDraw root mvn center m p)
      ∧ ∀ l, cov = .mats l → ∀ (k : ℕ) (rep : List (K × K)) (m : M2 K), reps[k]? = some rep → l[k]? = some m →
          ∀ p ∈ rep, IsScaledDraw root mvn center m p)
    ∧ r.shape = [s.toNat, n.toNat].filter (· ≠ 1) ++ [2] := by
  obtain ⟨fuel, hf⟩ := hr
  obtain ⟨cov', hc, hn, hs, reps, h1, rfl⟩ := normal_ok h root mvn center cov u size n s i hp fuel pos r pos' hf
  obtain ⟨g1, g2⟩ := replications_spec _ _ _ _ _ _ h1
  have hm : ∀ rep ∈ reps, rep.length = n.toNat ∧ ∀ p ∈ rep, h.contains p.1 p.2 = true := by
    intro rep hrep
    obtain ⟨j, p, p', _, hb⟩ := g2 rep hrep
    obtain ⟨k1, k2⟩ := rejection_mem _ _ _ _ _ _ _ hb
    exact ⟨k1, fun q hq => (k2 q hq).1⟩
  have hk : ∀ (k : ℕ) (rep : List (K × K)), reps[k]? = some rep → ∀ p ∈ rep,
      IsScaledDraw root mvn center (cov'.at k) p := by
    intro k rep hrep p hp
    obtain ⟨q, q', hb⟩ := replications_index _ _ _ _ _ _ h1 k rep hrep
    obtain ⟨_, k2⟩ := rejection_mem _ _ _ _ _ _ _ hb
    obtain ⟨_, j, rfl⟩ := k2 p hp
    rw [Nat.zero_add]
    exact ⟨_, _, rfl⟩
  have hd := squeeze_data s.toNat n.toNat reps g1 (fun rep hrep => (hm rep hrep).1)
  refine ⟨⟨reps, hd, by omega, ?_, ?_, ?_⟩, squeeze_shape _ _ _ g1 (fun rep hrep => (hm rep hrep).1)⟩
  · intro rep hrep
    have := hm rep hrep
    exact ⟨by omega, this.2⟩
  · rintro m rfl rep hrep p hp
    obtain ⟨k, hk'⟩ := List.mem_iff_getElem?.1 hrep
    have e : cov' = .mat m := by simpa [resolveCov] using hc.symm
    have := hk k rep hk' p hp
    rw [e] at this
    exact this
  · rintro l rfl k rep m hrep hl p hp
    have e : cov' = .mats l := by
      by_cases hl : (l.length : ℤ) = s
      · simpa [resolveCov, hl] using hc.symm
      · simp [resolveCov, hl] at hc
    have := hk k rep hrep p hp
    rw [e] at this
    simpa [CovArg.at, List.getD_eq_getElem?_getD, hl] using this

omit [IsStrictOrderedRing K] in
/-- **C43, argument.** A number `c` stands for the matrix `c` times the identity (so it is a variance, although the
error message calls it a standard deviation); no argument stands for the square of half of the larger side of
the bounding box; a stack of matrices that does not have one matrix per replication raises an `AssertionError`;
arguments of other types raise a `ValueError`. -/
theorem C43_normal_argument (h : Hull K) (root : K → K) (mvn : M2 K → K → K → K × K) (center : K × K)
    (u : ℕ → K) (size : SizeArg) (fuel pos : ℕ) :
    (∀ c, normal h root mvn center (.num c) u size fuel pos
      = normal h root mvn center (.mat ⟨c, 0, 0, c⟩) u size fuel pos)
    ∧ normal h root mvn center .none u size fuel pos
      = normal h root mvn center (.num (max ((h.bbox.xmax - h.bbox.xmin) / 2) ((h.bbox.ymax - h.bbox.ymin) / 2) ^ 2))
          u size fuel pos
    ∧ ∀ n s i, parseSizeAndIntensity h none size = .ok (n, s, i) →
      (∀ l, (l.length : ℤ) ≠ s → normal h root mvn center (.mats l) u size fuel pos = some (.error .assertionError))
      ∧ normal h root mvn center .other u size fuel pos = some (.error .valueError) := by
  refine ⟨fun c => rfl, rfl, ?_⟩
  intro n s i hp
  refine ⟨?_, ?_⟩
  · intro l hl
    unfold normal
    rw [hp]
    simp only [resolveCov, if_neg hl]
    rfl
  · unfold normal
    rw [hp]
    rfl

/-- Non-vacuity: a run on a box with unit variances, a generator that returns its draws minus 1/2. -/
example : normal (Hull.ofBBox (⟨0, 0, 2, 2⟩ : BBox ℚ)) (fun x => x) (fun _ x y => (x - 1 / 2, y - 1 / 2)) (1, 1)
    (.num 1) (fun i => ((i % 5 : ℕ) : ℚ) / 5) (.int 2) 5 0
    = some (.ok (.rows [(1 / 2, 7 / 10), (9 / 10, 11 / 10)], 4)) := by decide +kernel

end Pointpats.Props
