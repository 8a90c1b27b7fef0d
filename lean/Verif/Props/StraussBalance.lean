import Verif.Props.Strauss
import Verif.Spec.Strauss
import Verif.Lemmas.Spacetime

/-!
# C142, C143: the moves of the Strauss sampler
-/

set_option linter.unusedSectionVars false

namespace Pointpats.Props

open Random Spec Spacetime

variable {K : Type} [Field K] [LinearOrder K] [IsStrictOrderedRing K] [FloorRing K]

theorem pairCount_closePairs (r : K) (l : List (K × K)) : pairCount r l = closePairs (Within r) l := by
  induction l with
  | nil => rfl
  | cons p l ih =>
    rw [pairCount, ih, closePairs, closePairs, pairs, List.countP_append, List.countP_map, ← List.countP_eq_length_filter]
    rfl

theorem within_comm (r : K) (a b : K × K) : Within r a b ↔ Within r b a := by
  unfold Within
  rw [show (a.1 - b.1) ^ 2 + (a.2 - b.2) ^ 2 = (b.1 - a.1) ^ 2 + (b.2 - a.2) ^ 2 by ring]

theorem perm_eraseIdx {α : Type} {l : List α} {i : ℕ} {a : α} (h : l[i]? = some a) : l.Perm (a :: l.eraseIdx i) := by
  induction l generalizing i with
  | nil => simp at h
  | cons b l ih =>
    cases i with
    | zero => simp at h; subst h; simp
    | succ i =>
      simp only [List.getElem?_cons_succ] at h
      rw [List.eraseIdx_cons_succ]
      exact ((ih h).cons b).trans (List.Perm.swap ..)

theorem closePairs_cons_ge (r : K) (p : K × K) (l : List (K × K)) :
    closePairs (Within r) l ≤ closePairs (Within r) (p :: l) := by
  rw [← pairCount_closePairs, ← pairCount_closePairs, pairCount]
  omega

theorem balance_algebra (A n g D D' k1 : K) (hA : 0 < A) (hn : 0 < n) (hg : 0 < g) (hk : 0 < k1)
    (hD : D' = D * (n / A) * g) :
    D * (min 1 (n * g / k1) * (1 / A)) = D' * (min 1 (k1 / (n * g)) * (1 / k1)) := by
  have hng : 0 < n * g := mul_pos hn hg
  have e : min 1 (n * g / k1) = n * g / k1 * min 1 (k1 / (n * g)) := by
    have hp : 0 < n * g / k1 := div_pos hng hk
    have e1 : n * g / k1 * (k1 / (n * g)) = 1 := by field_simp
    rw [mul_min_of_nonneg _ _ hp.le, mul_one, e1, min_comm]
  rw [e, hD]
  field_simp

/-- **C142.** On patterns `l` of at least the requested number `n` of points and their enlargement `l'` by one point `p`, the
moves satisfy detailed balance with respect to the density of the Strauss process whose activity is the requested intensity: the
density at `l`, times the probability with which the point `p` is accepted, times the density `1 / area` of proposing it, is the
density at `l'` times the probability with which deleting `p` is accepted, times the probability `1 / |l'|` of choosing it. Both
moves are tried with the same probability, when the first draw is below or above one half. Missing: hulls of area 2 and more
(`C142_two_points_refuted`). -/
theorem C142_balance_partial (h : Hull K) (hA : 0 < h.area) (n : ℕ) (hn : 1 ≤ n) (gamma r : K) (hg : 0 < gamma)
    (l l' : List (K × K)) (hl : n ≤ l.length) (idx : ℕ) (p : K × K) (hp : l'[idx]? = some p) (he : l'.eraseIdx idx = l) :
    ∃ birth death : K, (0 < birth ∧ birth ≤ 1) ∧ (0 < death ∧ death ≤ 1)
      ∧ (∀ (u : ℕ → K) (fuel pos pos' : ℕ), u pos < 1 / 2 →
          poisson h u (some 1) .none fuel (pos + 1) = some (.ok (.point p, pos')) →
          straussStep h u gamma r n fuel (.rows l) pos
            = some (.ok (.rows (if u pos' < birth then l ++ [p] else l), pos' + 1)))
      ∧ (∀ (u : ℕ → K) (fuel pos : ℕ), 1 / 2 ≤ u pos →
          (idx : K) / l'.length ≤ u (pos + 1) → u (pos + 1) < ((idx : K) + 1) / l'.length →
          straussStep h u gamma r n fuel (.rows l') pos
            = some (.ok (.rows (if u (pos + 2) < death then l else l'), pos + 3)))
      ∧ straussDensity (n / h.area) gamma r l * (birth * (1 / h.area))
          = straussDensity (n / h.area) gamma r l' * (death * (1 / (l'.length : K))) := by
  have hP : l'.Perm (p :: l) := by rw [← he]; exact perm_eraseIdx hp
  have hlen : l'.length = l.length + 1 := by rw [hP.length_eq, List.length_cons]
  have hlenK : (l'.length : K) = (l.length : K) + 1 := by rw [hlen]; push_cast; ring
  have hk1 : (0 : K) < (l.length : K) + 1 := by positivity
  have hn' : (0 : K) < (n : K) := by exact_mod_cast hn
  have c1 : closePairs (Within r) l' = closePairs (Within r) (p :: l) := closePairs_perm _ (within_comm r) hP
  have c2 : closePairs (Within r) (l ++ [p]) = closePairs (Within r) (p :: l) :=
    closePairs_perm _ (within_comm r) (List.perm_append_singleton p l)
  have c3 := closePairs_cons_ge r p l
  set s := closePairs (Within r) l with hs
  set s' := closePairs (Within r) (p :: l) with hs'
  have hgp : 0 < gamma ^ (s' - s) := pow_pos hg _
  refine ⟨min 1 ((n : K) * gamma ^ (s' - s) / ((l.length : K) + 1)),
    min 1 (((l.length : K) + 1) / ((n : K) * gamma ^ (s' - s))), ⟨lt_min one_pos (by positivity), min_le_left ..⟩,
    ⟨lt_min one_pos (by positivity), min_le_left ..⟩, ?_, ?_, ?_⟩
  · intro u fuel pos pos' hu hpo
    unfold straussStep
    simp only [show ¬ l.length < n by omega, decide_false, Bool.false_or, decide_eq_true hu, if_true, if_false, hpo,
      Run.andThen, vstackRows, pairCount_closePairs, c2, ← hs]
    split_ifs <;> rfl
  · intro u fuel pos hu h1 h2
    have hidx : ⌊u (pos + 1) * (l'.length : K)⌋.toNat = idx := by
      have hpos : (0 : K) < l'.length := by rw [hlenK]; exact hk1
      rw [div_le_iff₀ hpos] at h1
      rw [lt_div_iff₀ hpos] at h2
      have : ⌊u (pos + 1) * (l'.length : K)⌋ = (idx : ℤ) := Int.floor_eq_iff.2 ⟨by push_cast; exact h1, by push_cast; exact h2⟩
      rw [this]; simp
    rw [hlenK] at hidx
    unfold straussStep
    have hden : (n : K) * gamma ^ (s' - s) ≠ 0 := (mul_pos hn' hgp).ne'
    simp only [show ¬ l'.length < n by omega, decide_false, Bool.false_or, decide_eq_false (not_lt.2 hu), if_false,
      Bool.false_eq_true, show n < l'.length by omega, if_true, hidx, he, pairCount_closePairs, c1, ← hs, hden, hlenK]
    split_ifs <;> rfl
  · rw [hlenK]
    refine balance_algebra _ _ _ _ _ _ hA hn' hgp hk1 ?_
    unfold straussDensity
    rw [hlen, c1, ← hs, show gamma ^ s' = gamma ^ s * gamma ^ (s' - s) by rw [← pow_add]; congr 1; omega, pow_succ]
    ring

/-- The proposals are single points of the hull when its area is at least 1 and less than 2. -/
theorem C142_one_point (h : Hull K) (h1 : 1 ≤ h.area) (h2 : h.area < 2) (u : ℕ → K) (fuel pos : ℕ) (x : Squeezed K) (pos' : ℕ)
    (hx : poisson h u (some 1) .none fuel pos = some (.ok (x, pos'))) :
    ∃ p, x = .point p ∧ h.contains p.1 p.2 = true := by
  obtain ⟨hs, hi⟩ := strauss_embedded h u 1 fuel pos x pos' hx
  have hc : straussCount h 1 = 1 := by
    unfold straussCount
    rw [mul_one, if_pos (by linarith), Int.floor_eq_iff]
    constructor <;> push_cast <;> linarith
  obtain ⟨p, rfl⟩ := hi.2 hc
  rcases hs with ⟨q, hq, hq'⟩ | ⟨l, hq, -⟩
  · cases hq; exact ⟨p, rfl, hq'⟩
  · cases hq

/-- No iteration removes more than one point. -/
theorem step_removes (h : Hull K) (u : ℕ → K) (gamma r : K) (n fuel : ℕ) (l : List (K × K)) (pos : ℕ) (x : Squeezed K)
    (pos' : ℕ) (hx : straussStep h u gamma r n fuel (.rows l) pos = some (.ok (x, pos'))) :
    ∃ l', x = .rows l' ∧ l.length ≤ l'.length + 1 := by
  unfold straussStep at hx
  simp only at hx
  generalize (if l.length < n then pos else pos + 1) = q0 at hx
  split at hx
  · obtain ⟨np, q, -, h2⟩ := Run.andThen_ok.1 hx
    cases hvs : vstackRows l np with
    | error e => rw [hvs] at h2; cases h2
    | ok l' =>
      have hl' : l.length ≤ l'.length := by
        cases np with
        | point p => injection hvs with hvs; rw [← hvs]; simp
        | rows m => injection hvs with hvs; rw [← hvs]; simp
        | cube _ _ => cases hvs
      rw [hvs] at h2
      simp only at h2
      split at h2
      · rw [Run.ret_ok] at h2
        obtain ⟨rfl, _⟩ := h2
        exact ⟨l', rfl, by omega⟩
      · rw [Run.ret_ok] at h2
        obtain ⟨rfl, _⟩ := h2
        exact ⟨l, rfl, by omega⟩
  · split at hx
    · split at hx
      · cases hx
      · split at hx
        · rw [Run.ret_ok] at hx
          obtain ⟨rfl, _⟩ := hx
          refine ⟨_, rfl, ?_⟩
          rw [List.length_eraseIdx]
          split_ifs <;> omega
        · rw [Run.ret_ok] at hx
          obtain ⟨rfl, _⟩ := hx
          exact ⟨l, rfl, by omega⟩
    · rw [Run.ret_ok] at hx
      obtain ⟨rfl, _⟩ := hx
      exact ⟨l, rfl, by omega⟩

/-- **C142 is false of hulls of area 2.** New points come two at a time, because the second argument of `poisson` is the intensity
and not the number of points; they are accepted, but no iteration leads back, whatever the draws. -/
theorem C142_two_points_refuted (gamma r : ℚ) (hg : 0 < gamma) : ∃ (u : ℕ → ℚ) (l l' : List (ℚ × ℚ)) (pos' : ℕ), IsDraws u
    ∧ straussStep (Hull.ofBBox (⟨0, 0, 1, 2⟩ : BBox ℚ)) u gamma r 1 5 (.rows l) 0 = some (.ok (.rows l', pos'))
    ∧ l' ≠ l ∧ ∀ (u' : ℕ → ℚ) (fuel pos pos' : ℕ),
        straussStep (Hull.ofBBox (⟨0, 0, 1, 2⟩ : BBox ℚ)) u' gamma r 1 fuel (.rows l') pos ≠ some (.ok (.rows l, pos')) := by
  refine ⟨fun _ => 0, [(0, 0)], [(0, 0), (0, 0), (0, 0)], 6, fun _ => ⟨le_rfl, by norm_num⟩, ?_, by simp, ?_⟩
  · have hsq : (0 : ℚ) ≤ r ^ 2 := sq_nonneg r
    have hp : poisson (Hull.ofBBox (⟨0, 0, 1, 2⟩ : BBox ℚ)) (fun _ => 0) (some 1) .none 5 1
        = some (.ok (.rows [(0, 0), (0, 0)], 5)) := by decide +kernel
    have hpos : (0 : ℚ) < min 1 (gamma ^ 3 / (1 + 1)) := lt_min one_pos (by positivity)
    unfold straussStep
    simp [hp, Run.andThen, vstackRows, pairCount, hsq, Run.ret]
    exact pow_pos hg 3
  · intro u' fuel pos pos' hx
    obtain ⟨m, hm, hlen⟩ := step_removes _ _ _ _ _ _ _ _ _ _ hx
    cases hm
    simp at hlen

/-- The hypotheses are met: one point of a pattern in the unit square, and a second one close to it. -/
example : ([((1 : ℚ) / 2, (1 : ℚ) / 2), (1 / 4, 1 / 4)] : List (ℚ × ℚ))[1]? = some (1 / 4, 1 / 4)
    ∧ ([((1 : ℚ) / 2, (1 : ℚ) / 2), (1 / 4, 1 / 4)] : List (ℚ × ℚ)).eraseIdx 1 = [(1 / 2, 1 / 2)]
    ∧ (Hull.ofBBox (⟨0, 0, 1, 1⟩ : BBox ℚ)).area = 1 := by decide +kernel

/-- With `gamma = 1/10` and `r = 1/2` the density at the two points is a tenth of that at one, times the activity. -/
example : straussDensity (1 : ℚ) (1 / 10) (1 / 2) [(1 / 2, 1 / 2), (1 / 4, 1 / 4)] = 1 / 10
    ∧ straussDensity (1 : ℚ) (1 / 10) (1 / 2) [(1 / 2, 1 / 2)] = 1 := by decide +kernel

/-! ### C143 -/

theorem step_gamma_one (h : Hull K) (u : ℕ → K) (r r' : K) (n fuel : ℕ) :
    straussStep h u 1 r n fuel = straussStep h u 1 r' n fuel := by
  funext points pos
  unfold straussStep
  simp only [one_pow]

/-- **C143.** Without interaction, `gamma = 1`, the simulated patterns do not depend on the interaction radius: for the same
draws they are the same, or the same exception is raised. -/
theorem C143_gamma_one (h : Hull K) (u : ℕ → K) (intensity : Option K) (size : SizeArg) (r r' : K) (n_iter max_iter fuel pos : ℕ) :
    strauss h u intensity size 1 r n_iter max_iter fuel pos = strauss h u intensity size 1 r' n_iter max_iter fuel pos := by
  have hi : ∀ n k points pos, straussIter h u 1 r n fuel k points pos = straussIter h u 1 r' n fuel k points pos := by
    intro n k
    induction k with
    | zero => intro points pos; rfl
    | succ k ih =>
      intro points pos
      rw [straussIter, straussIter, step_gamma_one h u r r']
      congr 1
      funext a b
      exact ih a b
  have ha : ∀ n k pos, straussAttempts h u 1 r n n_iter fuel k pos = straussAttempts h u 1 r' n n_iter fuel k pos := by
    intro n k
    induction k with
    | zero => intro pos; rfl
    | succ k ih =>
      intro pos
      rw [straussAttempts, straussAttempts]
      congr 1
      funext a b
      rw [hi]
      congr 1
      funext c d
      split
      · rfl
      · exact ih d
  unfold strauss
  simp only [ha]

end Pointpats.Props
