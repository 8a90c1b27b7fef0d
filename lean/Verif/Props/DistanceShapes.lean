import Verif.Props.DistanceJKL
import Verif.Props.DistanceTests
import Verif.Spec.DistanceShapes

/-!
# C135: precomputed distances of the wrong shape
-/

namespace Pointpats.Props

open Pointpats Pointpats.DistStats Pointpats.Geometry Pointpats.Random Pointpats.Spec

set_option linter.unusedSectionVars false

variable {K : Type} [Field K] [LinearOrder K] [IsStrictOrderedRing K] [FloorRing K]

private theorem choose_two (n k : ℕ) : 2 * k = n * (n - 1) ↔ k = n.choose 2 := by
  have h := Nat.triangle_succ (n - 1)
  rw [Nat.choose_two_right]
  have he : 2 ∣ n * (n - 1) := by
    rcases n with _ | n
    · simp
    · simpa [mul_comm] using (Nat.even_mul_succ_self n).two_dvd
  omega

private theorem rowMins_ok {n : ℕ} (hn : 0 < n) : ∀ m : List (List K), (∀ r ∈ m, r.length = n) → ∃ d, rowMins m = .ok d := by
  intro m
  induction m with
  | nil => intro _; exact ⟨[], rfl⟩
  | cons r m ih =>
    intro h
    obtain ⟨d, hd⟩ := ih fun r hr => h r (List.mem_cons_of_mem _ hr)
    have hr := h r (List.mem_cons_self ..)
    cases r with
    | nil => simp at hr; omega
    | cons a l =>
      refine ⟨listMin a l :: d, ?_⟩
      unfold rowMins at hd ⊢
      rw [List.mapM_cons, hd]
      rfl

private theorem g_distances_iff (lib : Lib K) (m : Metric) (coordinates : List (K × K)) (hne : coordinates ≠ []) {d : DistArg K}
    (hd : IsArray d) : (FitsG coordinates.length d → ∃ x, gDistances lib m coordinates d = .ok x)
      ∧ (¬ FitsG coordinates.length d → gDistances lib m coordinates d = .error .valueError) := by
  have hn := List.length_pos_of_ne_nil hne
  refine ⟨?_, ?_⟩
  · rintro (⟨l, rfl, h⟩ | ⟨rows, rfl, h1, h2⟩)
    · exact ⟨l, by simp only [gDistances, if_pos h]⟩
    · obtain ⟨x, hx⟩ := rowMins_ok hn rows h2
      exact ⟨x, by simp only [gDistances, h1, and_self, if_true, hx]⟩
  · intro h
    obtain ⟨r, c, hs⟩ := hd
    cases c with
    | none =>
      obtain ⟨l, rfl, hl⟩ := hs
      simp only [gDistances]
      exact if_neg fun hl => h (Or.inl ⟨l, rfl, hl⟩)
    | some c =>
      obtain ⟨rows, rfl, h1, h2⟩ := hs
      simp only [gDistances]
      refine if_neg ?_
      rintro ⟨h3, rfl⟩
      exact h (Or.inr ⟨rows, rfl, h3, h2⟩)

private theorem k_distances_iff (lib : Lib K) (m : Metric) (coordinates : List (K × K)) {d : DistArg K}
    (hd : IsArray d) : (FitsK coordinates.length d → ∃ x, kDistances lib m coordinates d = .ok x)
      ∧ (¬ FitsK coordinates.length d → kDistances lib m coordinates d = .error .valueError) := by
  refine ⟨?_, ?_⟩
  · rintro (⟨l, rfl, h⟩ | ⟨rows, rfl, h1, h2⟩)
    · exact ⟨l, by simp only [kDistances, choose_two, if_pos h]⟩
    · exact ⟨triu rows, by simp only [kDistances, h1, and_self, if_true]⟩
  · intro h
    obtain ⟨r, c, hs⟩ := hd
    cases c with
    | none =>
      obtain ⟨l, rfl, hl⟩ := hs
      simp only [kDistances, choose_two]
      exact if_neg fun hl => h (Or.inl ⟨l, rfl, hl⟩)
    | some c =>
      obtain ⟨rows, rfl, h1, h2⟩ := hs
      simp only [kDistances]
      refine if_neg ?_
      rintro ⟨h3, rfl⟩
      exact h (Or.inr ⟨rows, rfl, h3, h2⟩)

private theorem f_distances_iff (coordinates : List (K × K)) (hne : coordinates ≠ []) {d : DistArg K}
    (hd : IsArray d) : (FitsF coordinates.length d → ∃ x, fDistances coordinates d = .ok x)
      ∧ (¬ FitsF coordinates.length d → fDistances coordinates d = .error .valueError) := by
  have hn := List.length_pos_of_ne_nil hne
  refine ⟨?_, ?_⟩
  · rintro (⟨p, l, rfl, h⟩ | ⟨p, rows, rfl, h1, h2⟩)
    · exact ⟨l, rfl⟩
    · cases rows with
      | nil => simp at h1; omega
      | cons r rs => simp only [fDistances, if_pos h1, colMins]; exact ⟨_, rfl⟩
  · intro h
    obtain ⟨r, c, hs⟩ := hd
    cases c with
    | none => exact absurd (Or.inl ⟨_, hs⟩) h
    | some c =>
      obtain ⟨rows, rfl, h1, h2⟩ := hs
      simp only [fDistances]
      exact if_neg fun h3 => h (Or.inr ⟨c, rows, rfl, h3, h2⟩)

private theorem given_of_array {d : DistArg K} (hd : IsArray d) : d.isNone = false := by
  obtain ⟨r, c, hs⟩ := hd
  cases c with
  | none => obtain ⟨l, rfl, _⟩ := hs; rfl
  | some c => obtain ⟨l, rfl, _⟩ := hs; rfl

private theorem prepare_given (lib : Lib K) (coordinates : List (K × K)) (s : List K) (m : Metric) {hull : HullArg K}
    {H : HullRes K} (hH : prepareHull coordinates hull = .ok H) :
    prepare lib coordinates (.array s) true (.metric m) hull false = .ok ⟨s, true, .name "euclidean", H⟩ := by
  unfold prepare
  rw [if_neg (by simp), hH]
  rfl

private theorem shares_ok {s : List K} (hs : s.Pairwise (· ≤ ·)) (d : List K) : ∃ v, shares d s = .ok (s, v) := by
  have hm : monotoneBins s = true := by
    clear d
    induction s with
    | nil => rfl
    | cons a l ih =>
      cases l with
      | nil => rfl
      | cons b l =>
        rw [List.pairwise_cons] at hs
        simp only [monotoneBins, Bool.and_eq_true, decide_eq_true_eq]
        exact ⟨hs.1 b (List.mem_cons_self ..), ih hs.2⟩
  exact ⟨_, by simp only [shares, histogram, hm, if_true]; rfl⟩

/-- **C135 (G).** Precomputed distances of shape (n,) or (n, n) are used; with any other array `g` raises a ValueError at every
support array, and never returns, whatever the other arguments are. -/
theorem C135_g (lib : Lib K) (coordinates : List (K × K)) (hne : coordinates ≠ []) (d : DistArg K) (hd : IsArray d) :
    (FitsG coordinates.length d → ∀ s m, s.Pairwise (· ≤ ·) →
      ∃ v, g lib coordinates (.array s) d (.metric m) false = .ok (s, v))
    ∧ (¬ FitsG coordinates.length d →
      (∀ s m, g lib coordinates (.array s) d (.metric m) false = .error .valueError)
      ∧ ∀ support metric edge answer, g lib coordinates support d metric edge ≠ .ok answer) := by
  obtain ⟨b, hb⟩ := bboxPts_ok hne
  have hh : prepareHull coordinates .none = .ok (.bboxOf b) := by simp only [prepareHull, hb]; rfl
  have hg := given_of_array hd
  refine ⟨fun hf s m hs => ?_, fun hf => ⟨fun s m => ?_, fun support metric edge answer h => ?_⟩⟩
  · obtain ⟨x, hx⟩ := (g_distances_iff lib (.name "euclidean") coordinates hne hd).1 hf
    obtain ⟨v, hv⟩ := shares_ok hs x
    refine ⟨v, ?_⟩
    unfold g
    rw [hg, Bool.not_false, prepare_given lib coordinates s m hh]
    change (do let d ← gDistances lib (.name "euclidean") coordinates d; shares d s) = _
    rw [hx]
    exact hv
  · unfold g
    rw [hg, Bool.not_false, prepare_given lib coordinates s m hh]
    change (do let d ← gDistances lib (.name "euclidean") coordinates d; shares d s) = _
    rw [(g_distances_iff lib (.name "euclidean") coordinates hne hd).2 hf]
    rfl
  · obtain ⟨p, x, _, hx, _⟩ := g_ok h
    rw [(g_distances_iff lib p.metric coordinates hne hd).2 hf] at hx
    cases hx

/-- **C135 (K and L).** The full matrix and one number for each pair of events are used; with any other array `k` and `l` raise a
ValueError at every support array, and never return, whatever the other arguments are. -/
theorem C135_k_l (lib : Lib K) (coordinates : List (K × K)) (hne : coordinates ≠ []) (d : DistArg K) (hd : IsArray d) :
    (FitsK coordinates.length d → ∀ s m, (∃ v, k lib coordinates (.array s) d (.metric m) false = .ok (s, v))
      ∧ ∀ root pi linearized, ∃ v, l lib root pi coordinates (.array s) d (.metric m) false linearized = .ok (s, v))
    ∧ (¬ FitsK coordinates.length d →
      (∀ s m, k lib coordinates (.array s) d (.metric m) false = .error .valueError
        ∧ ∀ root pi linearized, l lib root pi coordinates (.array s) d (.metric m) false linearized = .error .valueError)
      ∧ ∀ support metric edge answer, k lib coordinates support d metric edge ≠ .ok answer
        ∧ ∀ root pi linearized, l lib root pi coordinates support d metric edge linearized ≠ .ok answer) := by
  obtain ⟨b, hb⟩ := bboxPts_ok hne
  have hh : prepareHull coordinates .none = .ok (.bboxOf b) := by simp only [prepareHull, hb]; rfl
  have hg := given_of_array hd
  refine ⟨fun hf s m => ?_, fun hf => ⟨fun s m => ?_, fun support metric edge answer => ?_⟩⟩
  · obtain ⟨x, hx⟩ := (k_distances_iff lib (.name "euclidean") coordinates hd).1 hf
    have hk : ∃ v, k lib coordinates (.array s) d (.metric m) false = .ok (s, v) := by
      unfold k
      rw [hg, Bool.not_false, prepare_given lib coordinates s m hh]
      refine ⟨s.map fun t => XF.div (.fin (((x.filter fun y => decide (y < t)).length : K) * 2
          / (coordinates.length : K))) (XF.div (.fin (coordinates.length : K)) (.fin (lib.hullOf (.bboxOf b)).area)), ?_⟩
      change (do let u ← kDistances lib (.name "euclidean") coordinates d; _) = _
      rw [hx]
      rfl
    obtain ⟨v, hv⟩ := hk
    refine ⟨⟨v, hv⟩, fun root pi linearized => ?_⟩
    unfold l
    rw [hv]
    exact ⟨_, rfl⟩
  · have hk : k lib coordinates (.array s) d (.metric m) false = .error .valueError := by
      unfold k
      rw [hg, Bool.not_false, prepare_given lib coordinates s m hh]
      change (do let u ← kDistances lib (.name "euclidean") coordinates d; _) = _
      rw [(k_distances_iff lib (.name "euclidean") coordinates hd).2 hf]
      rfl
    refine ⟨hk, fun root pi linearized => ?_⟩
    unfold l
    rw [hk]
    rfl
  · have hk : ∀ answer, k lib coordinates support d metric edge ≠ .ok answer := by
      intro answer h
      obtain ⟨p, x, _, hx, _⟩ := k_ok h
      rw [(k_distances_iff lib p.metric coordinates hd).2 hf] at hx
      cases hx
    refine ⟨hk answer, fun root pi linearized h => ?_⟩
    unfold l at h
    cases h' : k lib coordinates support d metric edge with
    | error e => rw [h'] at h; cases h
    | ok r => exact hk r h'

/-- **C135 (F).** One-dimensional arrays and matrices with a row for every event are used; with any other array `f` raises a
ValueError at every support array, and never returns, whatever the other arguments are. -/
theorem C135_f (lib : Lib K) (u : ℕ → K) (coordinates : List (K × K)) (hne : coordinates ≠ []) (d : DistArg K) (hd : IsArray d)
    (hull : HullArg K) (fuel pos : ℕ) :
    (FitsF coordinates.length d → ∀ H, prepareHull coordinates hull = .ok H → ∀ s m, s.Pairwise (· ≤ ·) →
      ∃ v, f lib u coordinates (.array s) d (.metric m) hull false fuel pos = some (.ok ((s, v), pos)))
    ∧ (¬ FitsF coordinates.length d →
      (∀ H, prepareHull coordinates hull = .ok H → ∀ s m,
        f lib u coordinates (.array s) d (.metric m) hull false fuel pos = some (.error .valueError))
      ∧ ∀ support metric edge answer, f lib u coordinates support d metric hull edge fuel pos ≠ some (.ok answer)) := by
  have hg := given_of_array hd
  have hnn : d ≠ .none := by rintro rfl; simp [DistArg.isNone] at hg
  refine ⟨fun hf H hH s m hs => ?_, fun hf => ⟨fun H hH s m => ?_, fun support metric edge answer h => ?_⟩⟩
  · obtain ⟨x, hx⟩ := (f_distances_iff coordinates hne hd).1 hf
    obtain ⟨v, hv⟩ := shares_ok hs x
    refine ⟨v, ?_⟩
    unfold f
    rw [hg, Bool.not_false, prepare_given lib coordinates s m hH]
    simp only [Bool.false_eq_true, if_false, hx]
    change liftPy (shares x s) pos = _
    rw [hv]
    rfl
  · unfold f
    rw [hg, Bool.not_false, prepare_given lib coordinates s m hH]
    simp only [Bool.false_eq_true, if_false, (f_distances_iff coordinates hne hd).2 hf]
    rfl
  · obtain ⟨r, pos'⟩ := answer
    obtain ⟨p, _, _, hb⟩ := f_ok h
    obtain ⟨x, hx, _⟩ := hb hnn
    rw [(f_distances_iff coordinates hne hd).2 hf] at hx
    cases hx

/-- **C135 (J).** `j` never returns if the distances for G or those for F do not fit. -/
theorem C135_j (lib : Lib K) (num : Num K) (u : ℕ → K) (coordinates : List (K × K)) (hne : coordinates ≠ []) (dg df : DistArg K)
    (hdg : IsArray dg) (hdf : IsArray df) (hbad : ¬ FitsG coordinates.length dg ∨ ¬ FitsF coordinates.length df)
    (support : SupportArg K) (metric : MetricArg) (hull : HullArg K) (edge truncate : Bool) (fuel pos : ℕ)
    (answer : (List K × List (XF K)) × ℕ) :
    j lib u num.allclose num.interp coordinates support (some (dg, df)) metric hull edge truncate fuel pos
      ≠ some (.ok answer) := by
  obtain ⟨r, pos'⟩ := answer
  intro h
  obtain ⟨fres, gres, _, _, hf, hgr, _⟩ := j_parts.1 h
  rcases hbad with hbad | hbad
  · exact ((C135_g lib coordinates hne dg hdg).2 hbad).2 _ _ _ _ hgr
  · exact ((C135_f lib u coordinates hne df hdf hull fuel pos).2 hbad).2 _ _ _ _ hf

/-- **C135 (tests).** A test never returns if the distances it is given do not fit its statistic. -/
theorem C135_tests (lib : Lib K) (num : Num K) (u : ℕ → K) (gen : ℕ → ℕ → K) (coordinates : List (K × K))
    (hne : coordinates ≠ []) (support : SupportArg K) (metric : MetricArg) (hull : HullArg K) (edge keep : Bool)
    (n_simulations : ℤ) (fuel : ℕ) (d dg df : DistArg K) (hd : IsArray d) (hdg : IsArray dg) (hdf : IsArray df)
    (answer : TestResult K × ℕ) :
    (¬ FitsF coordinates.length d →
      ripleyTest lib num .F u gen coordinates support (.single d) metric hull edge keep n_simulations fuel ≠ some (.ok answer))
    ∧ (¬ FitsG coordinates.length d →
      ripleyTest lib num .G u gen coordinates support (.single d) metric hull edge keep n_simulations fuel ≠ some (.ok answer))
    ∧ (¬ FitsK coordinates.length d →
      ripleyTest lib num .K u gen coordinates support (.single d) metric hull edge keep n_simulations fuel ≠ some (.ok answer)
      ∧ ∀ linearized, ripleyTest lib num (.L linearized) u gen coordinates support (.single d) metric hull edge keep
          n_simulations fuel ≠ some (.ok answer))
    ∧ (¬ FitsG coordinates.length dg ∨ ¬ FitsF coordinates.length df →
      ripleyTest lib num .J u gen coordinates support (.pair dg df) metric hull edge keep n_simulations fuel
        ≠ some (.ok answer)) := by
  obtain ⟨r, pos'⟩ := answer
  refine ⟨fun hbad h => ?_, fun hbad h => ?_, fun hbad => ⟨fun h => ?_, fun linearized h => ?_⟩, fun hbad h => ?_⟩ <;>
    obtain ⟨m, t, H, empty, pos0, d', obs, pos1, sims, -, -, -, -, hd', hc, -, -⟩ := ripleyTest_ok.1 h
  · injection hd' with hd'
    subst hd'
    exact ((C135_f lib u coordinates hne d hd (rehull H) fuel pos0).2 hbad).2 _ _ _ _ hc
  · injection hd' with hd'
    subst hd'
    exact ((C135_g lib coordinates hne d hd).2 hbad).2 _ _ _ _ (liftPy_ok hc).1
  · injection hd' with hd'
    subst hd'
    exact (((C135_k_l lib coordinates hne d hd).2 hbad).2 _ _ _ _).1 (liftPy_ok hc).1
  · injection hd' with hd'
    subst hd'
    exact (((C135_k_l lib coordinates hne d hd).2 hbad).2 _ _ _ _).2 _ _ _ (liftPy_ok hc).1
  · injection hd' with hd'
    subst hd'
    exact C135_j lib num u coordinates hne dg df hdg hdf hbad support metric (rehull H) edge false fuel pos0 _ hc

/-- The hypotheses of C135 can be met: three events, a matrix of the right and one of the wrong shape. -/
example : FitsG 3 (.mat 3 [[(1 : ℚ), 2, 3], [1, 2, 3], [1, 2, 3]]) ∧ ¬ FitsG 3 (.mat 2 [[(1 : ℚ), 2], [1, 2], [1, 2]])
    ∧ FitsF 3 (.mat 2 [[(1 : ℚ), 2], [1, 2], [1, 2]]) ∧ ¬ FitsF 2 (.mat 2 [[(1 : ℚ), 2], [1, 2], [1, 2]])
    ∧ FitsK 4 (.vec [(1 : ℚ), 2, 3, 4, 5, 6]) ∧ ¬ FitsK 4 (.vec [(1 : ℚ), 2, 3, 4]) := by
  refine ⟨Or.inr ⟨_, rfl, rfl, by decide +kernel⟩, ?_, Or.inr ⟨2, _, rfl, rfl, by decide +kernel⟩, ?_, Or.inl ⟨_, rfl, rfl⟩, ?_⟩
  · rintro (⟨_, h, _⟩ | ⟨_, h, _⟩)
    · cases h
    · injection h with h; omega
  · rintro (⟨_, _, h, _⟩ | ⟨_, _, h, h2, _⟩)
    · cases h
    · injection h with h1 h3; rw [← h3] at h2; simp at h2
  · rintro (⟨_, h, h2⟩ | ⟨_, h, _⟩)
    · injection h with h; rw [← h] at h2; simp [Nat.choose] at h2
    · cases h

end Pointpats.Props
