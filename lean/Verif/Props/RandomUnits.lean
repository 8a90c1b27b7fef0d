import Verif.Spec.RandomMotion
import Verif.Lemmas.DistanceMotion
import Verif.Model.Process
import Verif.Props.Strauss
import Verif.Props.RandomCluster

/-!
# C132: simulated patterns in other units

The samplers give the converted points when the hull and the lengths among the parameters are given in other units from another
origin and the random numbers are the same.
-/

namespace Pointpats.Props

open Spec Random Motion

set_option linter.unusedSectionVars false

variable {K : Type} [Field K] [LinearOrder K] [IsStrictOrderedRing K] [FloorRing K]

/-! ### Computations with moved points -/

private theorem moved_andThen {α β α' β' : Type} (f : α → α') (g : β → β') (x : Run α) (k : α → ℕ → Run β)
    (k' : α' → ℕ → Run β') (hk : ∀ a pos, x = some (.ok (a, pos)) → k' (f a) pos = movedOutcome g (k a pos)) :
    (movedOutcome f x).andThen k' = movedOutcome g (x.andThen k) := by
  rcases x with _ | (_ | ⟨a, pos⟩)
  · rfl
  · rfl
  · exact hk a pos rfl

private theorem moved_eq {α β : Type} (f : α → β) (x : Run α) :
    (x.andThen fun a pos => Run.ret (f a) pos) = movedOutcome f x := by
  rcases x with _ | (_ | ⟨a, pos⟩) <;> rfl

private theorem rejection_moved (f : K × K → K × K) (cand cand' : ℕ → K × K) (accept accept' : K × K → Bool)
    (hc : ∀ pos, cand' pos = f (cand pos)) (ha : ∀ p, accept' (f p) = accept p) (fuel pos n : ℕ) :
    rejection cand' accept' fuel pos n = movedOutcome (List.map f) (rejection cand accept fuel pos n) := by
  rw [← moved_eq]
  exact rejection_map f cand cand' accept accept' hc ha fuel pos n

private theorem replications_moved {α β : Type} (g : α → β) (body : ℕ → ℕ → Run α) (body' : ℕ → ℕ → Run β)
    (hb : ∀ i pos, body' i pos = movedOutcome g (body i pos)) (i s pos : ℕ) :
    replications body' i s pos = movedOutcome (List.map g) (replications body i s pos) := by
  rw [← moved_eq]
  exact replications_map g body body' (fun i pos => by rw [moved_eq]; exact hb i pos) i s pos

private theorem squeeze_moved (f : K × K → K × K) (s n : ℕ) {reps : List (List (K × K))}
    (hl : reps.length = s) (hr : ∀ rep ∈ reps, rep.length = n) :
    squeeze s n (reps.map (List.map f)) = mapSqueezed f (squeeze s n reps) := by
  refine squeeze_map f s n reps ?_
  rintro rfl rfl he
  obtain ⟨rep, rfl⟩ := List.length_eq_one_iff.1 hl
  have := hr rep (by simp)
  simp at he
  simp [he] at this

section

variable {r a b : K} {w w' : Hull K}

/-- The sizes do not depend on the units. -/
private theorem parse_moved (hr : 0 < r) (hw : RescaledWindow r r a b w w') (hk : w'.isArray = w.isArray)
    (intensity : Option K) (size : SizeArg) :
    (parseSizeAndIntensity w' (intensity.map (· / r ^ 2)) size).map (fun x => (x.1, x.2.1))
      = (parseSizeAndIntensity w intensity size).map fun x => (x.1, x.2.1) := by
  have h0 : w'.area = 0 ↔ w.area = 0 := by rw [hw.area]; simp [hr.ne']
  have hdiv : ∀ n : ℤ, (divArea w' n).map (fun _ => ()) = (divArea w n).map fun _ => () := by
    intro n
    unfold divArea
    rw [hk]
    by_cases h : w.area = 0 ∧ (!w.isArray) = true
    · rw [if_pos h, if_pos ⟨h0.2 h.1, h.2⟩]
    · rw [if_neg h, if_neg (fun h' => h ⟨h0.1 h'.1, h'.2⟩)]
      rfl
  have key : ∀ n m : ℤ, ((do let i ← divArea w' n; return (n, m, i) : Py (ℤ × ℤ × XF K))).map (fun x => (x.1, x.2.1))
      = ((do let i ← divArea w n; return (n, m, i) : Py (ℤ × ℤ × XF K))).map fun x => (x.1, x.2.1) := by
    intro n m
    have := hdiv n
    cases h1 : divArea w n <;> cases h2 : divArea w' n <;> simp_all [Except.map, bind, Except.bind, pure, Except.pure]
  have hi : ∀ i : K, w'.area * (i / r ^ 2) = w.area * i := by
    intro i
    rw [hw.area]
    field_simp
  have hi' : ∀ i : K, i / r ^ 2 * w'.area = i * w.area := by
    intro i
    rw [mul_comm, hi, mul_comm]
  cases intensity with
  | none =>
    unfold parseSizeAndIntensity
    simp only [Option.map_none]
    split
    · exact key 100 1
    · exact key _ _
    · rfl
    · exact key _ 1
    · rfl
  | some i =>
    unfold parseSizeAndIntensity
    simp only [Option.map_some, hi, hi']
    split <;> rfl

/-- A sampler that asks for its sizes first. -/
private theorem sized_moved (hr : 0 < r) (hw : RescaledWindow r r a b w w') (hk : w'.isArray = w.isArray)
    (intensity : Option K) (size : SizeArg) (body body' : ℤ → ℤ → Run (Squeezed K)) (g : Squeezed K → Squeezed K)
    (hb : ∀ n s, body' n s = movedOutcome g (body n s)) :
    (match parseSizeAndIntensity w' (intensity.map (· / r ^ 2)) size with
      | .error e => Run.fail e
      | .ok (n, s, _) => body' n s)
    = movedOutcome g (match parseSizeAndIntensity w intensity size with
      | .error e => Run.fail e
      | .ok (n, s, _) => body n s) := by
  have hps := parse_moved hr hw hk intensity size
  cases h1 : parseSizeAndIntensity w intensity size with
  | error e =>
    cases h2 : parseSizeAndIntensity w' (intensity.map (· / r ^ 2)) size with
    | error e' => simp [h1, h2, Except.map] at hps; subst hps; rfl
    | ok x => simp [h1, h2, Except.map] at hps
  | ok x =>
    cases h2 : parseSizeAndIntensity w' (intensity.map (· / r ^ 2)) size with
    | error e' => simp [h1, h2, Except.map] at hps
    | ok x' =>
      obtain ⟨n, m, i⟩ := x
      obtain ⟨n', m', i'⟩ := x'
      simp only [h1, h2, Except.map, Except.ok.injEq, Prod.mk.injEq] at hps
      obtain ⟨rfl, rfl⟩ := hps
      exact hb _ _

private theorem boxCandidate_moved (hw : RescaledWindow r r a b w w') (u : ℕ → K) (pos : ℕ) :
    boxCandidate w' u pos = rescale r r a b (boxCandidate w u pos) := by
  have hl := Prod.ext_iff.1 hw.lower
  have hu := Prod.ext_iff.1 hw.upper
  simp only [rescale] at hl hu
  simp only [boxCandidate, uniform, hl.1, hl.2, hu.1, hu.2, rescale]
  congr 1 <;> ring

private theorem rejections_length {cand : ℕ → ℕ → K × K} {accept : K × K → Bool} {fuel n i s pos : ℕ}
    {reps : List (List (K × K))} {q : ℕ}
    (h : replications (fun i pos => rejection (cand i) accept fuel pos n) i s pos = some (.ok (reps, q))) :
    reps.length = s ∧ ∀ rep ∈ reps, rep.length = n := by
  obtain ⟨h1, h2⟩ := replications_spec _ _ _ _ _ _ h
  refine ⟨h1, fun rep hrep => ?_⟩
  obtain ⟨j, p, p', _, hj⟩ := h2 rep hrep
  exact rejection_length _ _ _ _ _ hj

/-- **C132, poisson.** With the hull in other units from another origin, the intensity (points per area) converted and the same
random numbers, `poisson` returns the converted points, raises the same exception or goes on forever in the same cases. -/
theorem C132_poisson (hr : 0 < r) (hw : RescaledWindow r r a b w w') (hk : w'.isArray = w.isArray) (u : ℕ → K)
    (intensity : Option K) (size : SizeArg) (fuel pos : ℕ) :
    poisson w' u (intensity.map (· / r ^ 2)) size fuel pos
      = movedOutcome (mapSqueezed (rescale r r a b)) (poisson w u intensity size fuel pos) := by
  unfold poisson
  refine sized_moved hr hw hk intensity size _ _ _ ?_
  intro n s
  split
  · rfl
  · rw [poissonReps, replications_moved (List.map (rescale r r a b)) _ _ (fun i pos => rejection_moved (rescale r r a b) _ _ _ _
      (boxCandidate_moved hw u) hw.inside _ _ _), ← poissonReps]
    refine moved_andThen _ _ _ _ _ ?_
    intro reps q hq
    obtain ⟨h1, h2⟩ := rejections_length hq
    simp only [Run.ret, movedOutcome]
    rw [squeeze_moved _ _ _ h1 h2]

/-! ### Normal -/

private theorem cor_scale (hr : 0 < r) (root : K → K) (hroot : ∀ x, root (r ^ 2 * x) = r * root x) (m : M2 K) :
    replicationCor root ⟨r ^ 2 * m.a, r ^ 2 * m.b, r ^ 2 * m.c, r ^ 2 * m.d⟩ = replicationCor root m := by
  have key : ∀ s x : K, 1 / (r * s) * (r ^ 2 * x) * (1 / (r * s)) = 1 / s * x * (1 / s) := by
    intro s x
    by_cases hs : s = 0
    · simp [hs]
    · field_simp
  simp only [replicationCor, hroot, key]

private theorem normalCandidate_moved (hr : 0 < r) (root : K → K) (hroot : ∀ x, root (r ^ 2 * x) = r * root x)
    (mvn : M2 K → K → K → K × K) (center : K × K) (m : M2 K) (u : ℕ → K) (pos : ℕ) :
    normalCandidate root mvn (rescale r r a b center) ⟨r ^ 2 * m.a, r ^ 2 * m.b, r ^ 2 * m.c, r ^ 2 * m.d⟩ u pos
      = rescale r r a b (normalCandidate root mvn center m u pos) := by
  simp only [normalCandidate, cor_scale hr root hroot, hroot, rescale]
  congr 1 <;> ring

private theorem resolveCov_moved (hr : 0 < r) (hw : RescaledWindow r r a b w w') (cov : CovArg K) (s : ℤ) :
    resolveCov w' (scaleCov (r ^ 2) cov) s = (resolveCov w cov s).map (scaleCov (r ^ 2)) := by
  have hl := Prod.ext_iff.1 hw.lower
  have hu := Prod.ext_iff.1 hw.upper
  simp only [rescale] at hl hu
  cases cov with
  | none =>
    have e1 : (w'.bbox.xmax - w'.bbox.xmin) / 2 = r * ((w.bbox.xmax - w.bbox.xmin) / 2) := by rw [hl.1, hu.1]; ring
    have e2 : (w'.bbox.ymax - w'.bbox.ymin) / 2 = r * ((w.bbox.ymax - w.bbox.ymin) / 2) := by rw [hl.2, hu.2]; ring
    simp only [resolveCov, scaleCov, e1, e2, Except.map, ← mul_max_of_nonneg _ _ hr.le, mul_pow, mul_zero]
  | num v => simp [resolveCov, scaleCov, Except.map]
  | mat m => simp [resolveCov, scaleCov, Except.map]
  | mats l =>
    simp only [resolveCov, scaleCov, List.length_map]
    split <;> simp [Except.map, scaleCov]
  | badShape => rfl
  | other => rfl

private theorem cov_at (c : K) (cov : CovArg K) (i : ℕ) :
    (scaleCov c cov).at i = ⟨c * (cov.at i).a, c * (cov.at i).b, c * (cov.at i).c, c * (cov.at i).d⟩ := by
  cases cov with
  | mats l =>
    simp only [scaleCov, CovArg.at, List.getD_eq_getElem?_getD, List.getElem?_map]
    cases l[i]? <;> simp
  | _ => simp [scaleCov, CovArg.at]

/-- **C132, normal.** The same for `normal`, with the centre and the covariance (if they are given) converted. `root` is the square
root. -/
theorem C132_normal (hr : 0 < r) (hw : RescaledWindow r r a b w w') (hk : w'.isArray = w.isArray) (root : K → K)
    (hroot : ∀ x, root (r ^ 2 * x) = r * root x) (mvn : M2 K → K → K → K × K) (center : K × K) (cov : CovArg K) (u : ℕ → K)
    (size : SizeArg) (fuel pos : ℕ) :
    normal w' root mvn (rescale r r a b center) (scaleCov (r ^ 2) cov) u size fuel pos
      = movedOutcome (mapSqueezed (rescale r r a b)) (normal w root mvn center cov u size fuel pos) := by
  unfold normal
  refine sized_moved hr hw hk none size _ _ _ ?_
  intro n s
  rw [resolveCov_moved hr hw]
  cases resolveCov w cov s with
  | error e => rfl
  | ok cov =>
    simp only [Except.map]
    split
    · rfl
    · rw [replications_moved (List.map (rescale r r a b)) _ _ (fun i pos => rejection_moved (rescale r r a b)
        (normalCandidate root mvn center (cov.at i) u) _ _ _ (fun pos => by
          rw [cov_at]; exact normalCandidate_moved hr root hroot mvn center _ u pos) hw.inside _ _ _)]
      refine moved_andThen _ _ _ _ _ ?_
      intro reps q hq
      obtain ⟨h1, h2⟩ := rejections_length hq
      simp only [Run.ret, movedOutcome]
      rw [squeeze_moved _ _ _ h1 h2]

/-! ### Clusters -/

private theorem circleChunk_moved (hr : 0 < r) (ρ : K) (center : K × K) (inHull inHull' : K → K → Bool)
    (hin : ∀ p : K × K, inHull' (rescale r r a b p).1 (rescale r r a b p).2 = inHull p.1 p.2) (u : ℕ → K) (n pos : ℕ) :
    circleChunk (r * ρ) (rescale r r a b center) inHull' u n pos
      = (circleChunk ρ center inHull u n pos).map fun p => (r * p.1, r * p.2) := by
  unfold circleChunk
  have huni : ∀ x : K, uniform (-(r * ρ)) (r * ρ) x = r * uniform (-ρ) ρ x := by
    intro x
    simp only [uniform]
    ring
  simp only [huni]
  rw [show ((List.range (2 * n)).map fun i => (r * uniform (-ρ) ρ (u (pos + i)), r * uniform (-ρ) ρ (u (pos + 2 * n + i))))
      = ((List.range (2 * n)).map fun i => (uniform (-ρ) ρ (u (pos + i)), uniform (-ρ) ρ (u (pos + 2 * n + i)))).map
          (fun p => (r * p.1, r * p.2)) by simp [Function.comp_def], List.filter_map]
  congr 1
  refine List.filter_congr ?_
  rintro p -
  have h1 : (r * p.1 * (r * p.1) + r * p.2 * (r * p.2) ≤ r * ρ * (r * ρ)) ↔ p.1 * p.1 + p.2 * p.2 ≤ ρ * ρ := by
    have e1 : r * p.1 * (r * p.1) + r * p.2 * (r * p.2) = (r * r) * (p.1 * p.1 + p.2 * p.2) := by ring
    have e2 : r * ρ * (r * ρ) = (r * r) * (ρ * ρ) := by ring
    rw [e1, e2, mul_le_mul_iff_right₀ (mul_pos hr hr)]
  have h2 := hin (p.1 + center.1, p.2 + center.2)
  simp only [rescale] at h2
  have e3 : r * p.1 + (a + r * center.1) = a + r * (p.1 + center.1) := by ring
  have e4 : r * p.2 + (b + r * center.2) = b + r * (p.2 + center.2) := by ring
  simp only [Function.comp_apply, rescale, h1, e3, e4, h2]

private theorem circleLoop_moved (hr : 0 < r) (ρ : K) (center : K × K) (inHull inHull' : K → K → Bool)
    (hin : ∀ p : K × K, inHull' (rescale r r a b p).1 (rescale r r a b p).2 = inHull p.1 p.2) (u : ℕ → K) (n fuel pos : ℕ)
    (good : List (K × K)) :
    circleLoop (r * ρ) (rescale r r a b center) inHull' u n fuel pos (good.map fun p => (r * p.1, r * p.2))
      = movedOutcome (List.map (rescale r r a b)) (circleLoop ρ center inHull u n fuel pos good) := by
  induction fuel generalizing pos good with
  | zero =>
    rw [circleLoop, circleLoop, List.length_map]
    split
    · simp only [Run.ret, movedOutcome, List.map_map]
      congr 3
      refine List.map_congr_left fun p _ => ?_
      simp only [Function.comp_apply, rescale]
      congr 1 <;> ring
    · rfl
  | succ fuel ih =>
    rw [circleLoop, circleLoop, List.length_map]
    split
    · simp only [Run.ret, movedOutcome, List.map_map]
      congr 3
      refine List.map_congr_left fun p _ => ?_
      simp only [Function.comp_apply, rescale]
      congr 1 <;> ring
    · rw [circleChunk_moved hr ρ center inHull inHull' hin, ← List.map_take, ← List.map_append]
      exact ih _ _

private theorem uniformCircle_moved (hr : 0 < r) (n : ℕ) (ρ : K) (center : K × K) (inHull inHull' : K → K → Bool)
    (hin : ∀ p : K × K, inHull' (rescale r r a b p).1 (rescale r r a b p).2 = inHull p.1 p.2) (u : ℕ → K) (fuel pos : ℕ) :
    uniformCircle n (r * ρ) (rescale r r a b center) inHull' u fuel pos
      = movedOutcome (List.map (rescale r r a b)) (uniformCircle n ρ center inHull u fuel pos) :=
  circleLoop_moved hr ρ center inHull inHull' hin u n fuel pos []

private theorem random_pdist_moved (root : K → K) (hroot : ∀ x, root (r ^ 2 * x) = r * root x) (l : List (K × K)) :
    pdist root (l.map (rescale r r a b)) = (pdist root l).map (r * ·) := by
  induction l with
  | nil => rfl
  | cons p l ih =>
    simp only [List.map_cons, pdist, List.map_append, List.map_map, ih]
    congr 1
    refine List.map_congr_left fun q _ => ?_
    simp only [Function.comp_apply, rescale, ← hroot]
    congr 1
    ring

private theorem listMin_scale (hr : 0 < r) (d : K) (ds : List K) : listMin (r * d) (ds.map (r * ·)) = r * listMin d ds := by
  induction ds generalizing d with
  | nil => rfl
  | cons e ds ih =>
    simp only [List.map_cons, listMin, List.foldl_cons] at ih ⊢
    rw [← mul_min_of_nonneg _ _ hr.le]
    exact ih _

private theorem clusterRadii_moved (hr : 0 < r) (root : K → K) (hroot : ∀ x, root (r ^ 2 * x) = r * root x)
    (radius : RadiusArg K) (n_seeds : ℕ) (seeds : Squeezed K) :
    clusterRadii root (scaleRadius r radius) n_seeds (mapSqueezed (rescale r r a b) seeds)
      = (clusterRadii root radius n_seeds seeds).map (List.map (r * ·)) := by
  cases radius with
  | arr l => rfl
  | num x => simp [clusterRadii, scaleRadius, Except.map]
  | otherIterable => rfl
  | none =>
    cases seeds with
    | rows l =>
      simp only [clusterRadii, scaleRadius, mapSqueezed, random_pdist_moved root hroot]
      cases pdist root l with
      | nil => rfl
      | cons d ds =>
        simp only [List.map_cons, Except.map, List.map_replicate, listMin_scale hr]
        congr 2
        ring
    | point p => rfl
    | cube n l => rfl

private theorem clusterPoints_moved (hr : 0 < r) (hw : RescaledWindow r r a b w w') (u : ℕ → K) (fuel : ℕ) (l : List (K × K))
    (i : ℕ) (ρ : K) (m pos : ℕ) :
    clusterPoints w' u fuel (.rows (l.map (rescale r r a b))) i (r * ρ) m pos
      = movedOutcome (List.map (rescale r r a b)) (clusterPoints w u fuel (.rows l) i ρ m pos) := by
  simp only [clusterPoints, List.getElem?_map]
  cases l[i]? with
  | none => rfl
  | some seed =>
    simp only [Option.map_some]
    split
    · rfl
    · split
      · rfl
      · rw [uniformCircle_moved hr _ ρ seed w.contains w'.contains hw.inside]
        refine moved_andThen _ _ _ _ _ ?_
        intro l' q _
        rfl

private theorem clusterLoop_moved (hr : 0 < r) (hw : RescaledWindow r r a b w w') (u : ℕ → K) (fuel : ℕ) (l : List (K × K))
    (i : ℕ) (parts : List (K × ℕ)) (pos : ℕ) :
    clusterLoop w' u fuel (.rows (l.map (rescale r r a b))) i (parts.map fun x => (r * x.1, x.2)) pos
      = movedOutcome (List.map (List.map (rescale r r a b))) (clusterLoop w u fuel (.rows l) i parts pos) := by
  induction parts generalizing i pos with
  | nil => rfl
  | cons x parts ih =>
    obtain ⟨ρ, m⟩ := x
    rw [List.map_cons, clusterLoop, clusterLoop, clusterPoints_moved hr hw]
    refine moved_andThen _ _ _ _ _ ?_
    intro l' q _
    rw [ih]
    refine moved_andThen _ _ _ _ _ ?_
    intro ls q' _
    rfl

omit [IsStrictOrderedRing K] [FloorRing K] in
private theorem circleLoop_length (ρ : K) (center : K × K) (inHull : K → K → Bool) (u : ℕ → K) (n fuel pos : ℕ)
    (good : List (K × K)) (hg : good.length ≤ n) {l : List (K × K)} {q : ℕ}
    (h : circleLoop ρ center inHull u n fuel pos good = some (.ok (l, q))) : l.length = n := by
  induction fuel generalizing pos good with
  | zero =>
    rw [circleLoop] at h
    split at h
    · rw [Run.ret_ok] at h
      rw [← h.1, List.length_map]
      omega
    · cases h
  | succ fuel ih =>
    rw [circleLoop] at h
    split at h
    · rw [Run.ret_ok] at h
      rw [← h.1, List.length_map]
      omega
    · exact ih _ _ (by rw [List.length_append, List.length_take]; omega) h

private theorem clusterLoop_length (u : ℕ → K) (fuel : ℕ) (l : List (K × K)) (i : ℕ) (parts : List (K × ℕ)) (pos : ℕ)
    {ls : List (List (K × K))} {q : ℕ} (h : clusterLoop w u fuel (.rows l) i parts pos = some (.ok (ls, q))) :
    ls.flatten.length = (parts.map Prod.snd).sum := by
  induction parts generalizing i pos ls q with
  | nil =>
    rw [clusterLoop, Run.ret_ok] at h
    simp [← h.1]
  | cons x parts ih =>
    obtain ⟨ρ, m⟩ := x
    rw [clusterLoop] at h
    obtain ⟨l1, q1, h1, h2⟩ := Run.andThen_ok.1 h
    obtain ⟨ls1, q2, h3, h4⟩ := Run.andThen_ok.1 h2
    rw [Run.ret_ok] at h4
    rw [← h4.1, List.flatten_cons, List.length_append, ih _ _ h3]
    have : l1.length = m := by
      simp only [clusterPoints] at h1
      split at h1
      · cases h1
      · split at h1
        · next hm =>
          rw [Run.ret_ok] at h1
          rw [← h1.1, hm]
          rfl
        · split at h1
          · cases h1
          · obtain ⟨l2, q3, h5, h6⟩ := Run.andThen_ok.1 h1
            rw [Run.ret_ok] at h6
            have := circleLoop_length _ _ _ _ _ _ _ _ (by simp) h5
            rw [← h6.1, List.length_cons]
            omega
    simp [this]

private theorem seeds_moved (hr : 0 < r) (hw : RescaledWindow r r a b w w') (hk : w'.isArray = w.isArray) (u : ℕ → K)
    (size : SizeArg) (fuel pos : ℕ) :
    poisson w' u none size fuel pos = movedOutcome (mapSqueezed (rescale r r a b)) (poisson w u none size fuel pos) :=
  C132_poisson hr hw hk u none size fuel pos

private theorem clusterPoissonReps_moved (hr : 0 < r) (hw : RescaledWindow r r a b w w') (hk : w'.isArray = w.isArray)
    (root : K → K) (hroot : ∀ x, root (r ^ 2 * x) = r * root x) (gen : ℕ → ℕ → K) (u : ℕ → K) (n s n_seeds : ℕ)
    (hseeds : n_seeds ≠ 1) (radius : RadiusArg K) (fuel pos : ℕ) :
    clusterPoissonReps w' root gen u n s n_seeds (scaleRadius r radius) fuel pos
      = movedOutcome (List.map (List.map (List.map (rescale r r a b))))
          (clusterPoissonReps w root gen u n s n_seeds radius fuel pos) := by
  unfold clusterPoissonReps
  refine replications_moved _ _ _ ?_ _ _ _
  intro i pos'
  rw [seeds_moved hr hw hk]
  rcases hp : poisson w (gen (seedDraw (u (pos + i)))) none (.int n_seeds) fuel 0 with _ | (_ | ⟨seeds, q⟩)
  · rfl
  · rfl
  · simp only [movedOutcome]
    rw [clusterRadii_moved hr root hroot]
    cases clusterRadii root radius n_seeds seeds with
    | error e => rfl
    | ok radii =>
      simp only [Except.map]
      by_cases h0 : n_seeds = 0
      · simp only [if_pos h0]
        rfl
      · simp only [if_neg h0]
        obtain ⟨l, rfl, _⟩ := DistMotion.poisson_int_rows (by omega) hp
        rw [List.zip_map_left]
        exact clusterLoop_moved hr hw u fuel l 0 _ pos'

private theorem clusterPoissonReps_one (root : K → K) (gen : ℕ → ℕ → K) (u : ℕ → K) (n_seeds : ℕ)
    (hseeds : n_seeds ≠ 1) (radius : RadiusArg K) (hrad : ∀ l, radius = .arr l → l.length = n_seeds) (fuel pos : ℕ)
    {reps : List (List (List (K × K)))} {q : ℕ}
    (h : clusterPoissonReps w root gen u 1 1 n_seeds radius fuel pos = some (.ok (reps, q))) :
    (reps.map List.flatten).flatten ≠ [] := by
  unfold clusterPoissonReps at h
  obtain ⟨g1, g2⟩ := replications_spec _ _ _ _ _ _ h
  obtain ⟨rep, rfl⟩ := List.length_eq_one_iff.1 g1
  obtain ⟨j, p, p', _, hj⟩ := g2 rep (by simp)
  rcases hp : poisson w (gen (seedDraw (u (pos + j)))) none (.int n_seeds) fuel 0 with _ | (_ | ⟨seeds, q⟩)
  · simp [hp] at hj
  · simp [hp, Run.fail] at hj
  · simp only [hp] at hj
    cases hc : clusterRadii root radius n_seeds seeds with
    | error e => simp [hc, Run.fail] at hj
    | ok radii =>
      simp only [hc] at hj
      by_cases h0 : n_seeds = 0
      · rw [if_pos h0] at hj; cases hj
      · rw [if_neg h0] at hj
        obtain ⟨l, rfl, _⟩ := DistMotion.poisson_int_rows (by omega) hp
        have hlen := clusterLoop_length u fuel l 0 _ _ hj
        have hrl : radii.length = n_seeds := by
          cases radius with
          | arr l => simp only [clusterRadii] at hc; injection hc with hc; rw [← hc]; exact hrad l rfl
          | num x => simp only [clusterRadii] at hc; injection hc with hc; simp [← hc]
          | otherIterable => cases hc
          | none =>
            simp only [clusterRadii] at hc
            cases hpd : pdist root l with
            | nil => simp [hpd] at hc
            | cons d ds => simp only [hpd] at hc; injection hc with hc; simp [← hc]
        rw [List.map_snd_zip (by rw [sizes_length _ _ (by omega)]; omega), sizes_sum _ _ (by omega)] at hlen
        intro he
        simp only [List.map_cons, List.map_nil, List.flatten_cons, List.flatten_nil, List.append_nil] at he
        rw [he] at hlen
        cases hlen

/-- **C132, cluster_poisson.** The same for `cluster_poisson`, with the radii (if they are given) converted, for any number of seeds
but one. (With one seed only patterns of one point are returned, with wrong coordinates.) -/
theorem C132_cluster_poisson (hr : 0 < r) (hw : RescaledWindow r r a b w w') (hk : w'.isArray = w.isArray) (root : K → K)
    (hroot : ∀ x, root (r ^ 2 * x) = r * root x) (gen : ℕ → ℕ → K) (u : ℕ → K) (intensity : Option K) (size : SizeArg)
    (n_seeds : ℕ) (hseeds : n_seeds ≠ 1) (radius : RadiusArg K) (fuel pos : ℕ) :
    clusterPoisson w' root gen u (intensity.map (· / r ^ 2)) size n_seeds (scaleRadius r radius) fuel pos
      = movedOutcome (mapSqueezed (rescale r r a b)) (clusterPoisson w root gen u intensity size n_seeds radius fuel pos) := by
  have core : (∀ l, radius = .arr l → l.length = n_seeds) →
      (match parseSizeAndIntensity w' (intensity.map (· / r ^ 2)) size with
        | .error e => Run.fail e
        | .ok (n, s, _) =>
            if n < 0 ∨ s < 0 then Run.fail .valueError
            else (clusterPoissonReps w' root gen u n.toNat s.toNat n_seeds (scaleRadius r radius) fuel pos).andThen
              fun reps pos' => Run.ret (squeeze s.toNat n.toNat (reps.map List.flatten)) pos')
      = movedOutcome (mapSqueezed (rescale r r a b)) (match parseSizeAndIntensity w intensity size with
        | .error e => Run.fail e
        | .ok (n, s, _) =>
            if n < 0 ∨ s < 0 then Run.fail .valueError
            else (clusterPoissonReps w root gen u n.toNat s.toNat n_seeds radius fuel pos).andThen
              fun reps pos' => Run.ret (squeeze s.toNat n.toNat (reps.map List.flatten)) pos') := by
    intro hrad
    refine sized_moved hr hw hk intensity size
      (fun n s => if n < 0 ∨ s < 0 then Run.fail .valueError
        else (clusterPoissonReps w root gen u n.toNat s.toNat n_seeds radius fuel pos).andThen
          fun reps pos' => Run.ret (squeeze s.toNat n.toNat (reps.map List.flatten)) pos')
      (fun n s => if n < 0 ∨ s < 0 then Run.fail .valueError
        else (clusterPoissonReps w' root gen u n.toNat s.toNat n_seeds (scaleRadius r radius) fuel pos).andThen
          fun reps pos' => Run.ret (squeeze s.toNat n.toNat (reps.map List.flatten)) pos') _ ?_
    intro n s
    split
    · rfl
    · rw [clusterPoissonReps_moved hr hw hk root hroot _ _ _ _ _ hseeds]
      refine moved_andThen _ _ _ _ _ ?_
      intro reps q hq
      simp only [Run.ret, movedOutcome]
      have e : (reps.map (List.map (List.map (rescale r r a b)))).map List.flatten
          = (reps.map List.flatten).map (List.map (rescale r r a b)) := by
        simp only [List.map_map]
        refine List.map_congr_left fun x _ => ?_
        simp [List.map_flatten]
      rw [e, squeeze_map]
      intro hs hn
      rw [hs, hn] at hq
      exact clusterPoissonReps_one root gen u n_seeds hseeds radius hrad fuel pos hq
  unfold clusterPoisson
  cases radius with
  | arr l =>
    simp only [scaleRadius, List.length_map]
    by_cases hl : l.length = n_seeds
    · rw [if_neg (by simp [hl]), if_neg (by simp [hl])]
      exact core (by rintro l' h; injection h with h; rw [← h, hl])
    · rw [if_pos (by simp [hl]), if_pos (by simp [hl])]
      rfl
  | none => exact core (by rintro l' h; cases h)
  | num x => exact core (by rintro l' h; cases h)
  | otherIterable => exact core (by rintro l' h; cases h)

private theorem meanSpacing_moved (root : K → K) (hroot : ∀ x, root (r ^ 2 * x) = r * root x) (centers : Squeezed K) :
    meanSpacingSq root (mapSqueezed (rescale r r a b) centers) = (meanSpacingSq root centers).map (r ^ 2 * ·) := by
  cases centers with
  | rows l =>
    simp only [mapSqueezed, meanSpacingSq, random_pdist_moved root hroot]
    cases hpd : pdist root l with
    | nil => rfl
    | cons d ds =>
      have e : ((d :: ds).map (r * ·)).sum = r * (d :: ds).sum := by
        rw [List.sum_map_mul_left, List.map_id'']
        intro; rfl
      simp only [List.map_cons, Except.map] at e ⊢
      rw [e]
      simp only [List.length_cons, List.length_map]
      congr 1
      ring
  | point p => rfl
  | cube n l => rfl

/-- An outcome without a position. -/
private def movedAnswer {α β : Type} (f : α → β) : Option (Py α) → Option (Py β)
  | none => none
  | some (.error e) => some (.error e)
  | some (.ok x) => some (.ok (f x))

private theorem clusterNormalLoop_moved (hr : 0 < r) (hw : RescaledWindow r r a b w w') (hk : w'.isArray = w.isArray)
    (root : K → K) (hroot : ∀ x, root (r ^ 2 * x) = r * root x) (mvn : M2 K → K → K → K × K) (gen : ℕ → ℕ → K)
    (cov : CovArg K) (fuel : ℕ) (parts : List ((K × K) × ℕ × ℕ)) :
    clusterNormalLoop w' root mvn gen (scaleCov (r ^ 2) cov) fuel (parts.map fun x => (rescale r r a b x.1, x.2))
      = movedAnswer (List.map (List.map (rescale r r a b))) (clusterNormalLoop w root mvn gen cov fuel parts) := by
  induction parts with
  | nil => rfl
  | cons x parts ih =>
    obtain ⟨center, n_in, seed⟩ := x
    rw [List.map_cons, clusterNormalLoop, clusterNormalLoop, ih]
    have rest : ∀ l : List (K × K),
        (match movedAnswer (List.map (List.map (rescale r r a b))) (clusterNormalLoop w root mvn gen cov fuel parts) with
          | none => none
          | some (.error e) => some (.error e)
          | some (.ok ls) => some (.ok (l.map (rescale r r a b) :: ls)) : Option (Py (List (List (K × K)))))
        = movedAnswer (List.map (List.map (rescale r r a b))) (match clusterNormalLoop w root mvn gen cov fuel parts with
          | none => none
          | some (.error e) => some (.error e)
          | some (.ok ls) => some (.ok (l :: ls))) := by
      intro l
      rcases clusterNormalLoop w root mvn gen cov fuel parts with _ | (_ | ls) <;> rfl
    by_cases h1 : n_in = 1
    · simp only [if_pos h1]
      exact rest [center]
    · by_cases h2 : n_in < 1
      · simp only [if_neg h1, if_pos h2]
        rfl
      · simp only [if_neg h1, if_neg h2]
        rw [C132_normal hr hw hk root hroot]
        rcases normal w root mvn center cov (gen seed) (.int ((n_in : ℤ) - 1)) fuel 0 with _ | (_ | ⟨c, q⟩)
        · rfl
        · rfl
        · cases c with
          | point p => exact rest [center, p]
          | rows l => exact rest (center :: l)
          | cube m l => rfl

private theorem clusterNormalReps_moved (hr : 0 < r) (hw : RescaledWindow r r a b w w') (hk : w'.isArray = w.isArray)
    (root : K → K) (hroot : ∀ x, root (r ^ 2 * x) = r * root x) (mvn : M2 K → K → K → K × K) (gen : ℕ → ℕ → K) (u : ℕ → K)
    (n n_seeds fuel seedPos i s : ℕ) (cov : CovArg K) (pos : ℕ) :
    clusterNormalReps w' root mvn gen u n n_seeds fuel seedPos i s (scaleCov (r ^ 2) cov) pos
      = movedOutcome (List.map fun x => (x.1.map (rescale r r a b), scaleCov (r ^ 2) x.2.1,
          x.2.2.map (List.map (rescale r r a b))))
          (clusterNormalReps w root mvn gen u n n_seeds fuel seedPos i s cov pos) := by
  induction s generalizing i cov pos with
  | zero => cases cov <;> rfl
  | succ s ih =>
    rw [clusterNormalReps, clusterNormalReps, seeds_moved hr hw hk]
    rcases poisson w (gen (seedDraw (u (seedPos + i)))) none (.int n_seeds) fuel 0 with _ | (_ | ⟨centers, q⟩)
    · rfl
    · rfl
    · have tail : ∀ cov' : CovArg K,
          (if n_seeds = 0 then Run.fail .valueError
            else match mapSqueezed (rescale r r a b) centers with
            | .rows l =>
                match clusterNormalLoop w' root mvn gen (scaleCov (r ^ 2) cov') fuel
                    (l.zip ((arraySplitSizes n n_seeds).zip ((List.range n_seeds).map fun j => seedDraw (u (pos + j))))) with
                | none => none
                | some (.error e) => Run.fail e
                | some (.ok clusters) =>
                    (clusterNormalReps w' root mvn gen u n n_seeds fuel seedPos (i + 1) s (scaleCov (r ^ 2) cov')
                        (pos + n_seeds)).andThen fun rest pos' =>
                      Run.ret ((l, scaleCov (r ^ 2) cov', clusters) :: rest) pos'
            | .point _ =>
                if n = 1 then Run.fail .indexError
                else if n < 1 then Run.fail .exception
                else Run.fail .valueError
            | .cube _ _ => Run.fail .valueError)
          = movedOutcome (List.map fun x => (x.1.map (rescale r r a b), scaleCov (r ^ 2) x.2.1,
              x.2.2.map (List.map (rescale r r a b))))
            (if n_seeds = 0 then Run.fail .valueError
            else match centers with
            | .rows l =>
                match clusterNormalLoop w root mvn gen cov' fuel
                    (l.zip ((arraySplitSizes n n_seeds).zip ((List.range n_seeds).map fun j => seedDraw (u (pos + j))))) with
                | none => none
                | some (.error e) => Run.fail e
                | some (.ok clusters) =>
                    (clusterNormalReps w root mvn gen u n n_seeds fuel seedPos (i + 1) s cov'
                        (pos + n_seeds)).andThen fun rest pos' =>
                      Run.ret ((l, cov', clusters) :: rest) pos'
            | .point _ =>
                if n = 1 then Run.fail .indexError
                else if n < 1 then Run.fail .exception
                else Run.fail .valueError
            | .cube _ _ => Run.fail .valueError) := by
        intro cov'
        split
        · rfl
        · cases centers with
          | cube m l => rfl
          | point p =>
            simp only [mapSqueezed]
            split
            · rfl
            · split <;> rfl
          | rows l =>
            simp only [mapSqueezed]
            rw [show (l.map (rescale r r a b)).zip ((arraySplitSizes n n_seeds).zip
                  ((List.range n_seeds).map fun j => seedDraw (u (pos + j))))
                = (l.zip ((arraySplitSizes n n_seeds).zip ((List.range n_seeds).map fun j => seedDraw (u (pos + j))))).map
                    (fun x => (rescale r r a b x.1, x.2)) from by rw [List.zip_map_left]; rfl,
              clusterNormalLoop_moved hr hw hk root hroot]
            rcases clusterNormalLoop w root mvn gen cov' fuel (l.zip ((arraySplitSizes n n_seeds).zip
                ((List.range n_seeds).map fun j => seedDraw (u (pos + j))))) with _ | (_ | clusters)
            · rfl
            · rfl
            · simp only [movedAnswer]
              rw [ih]
              exact moved_andThen _ _ _ _ _ (fun rest q _ => rfl)
      simp only [movedOutcome]
      cases cov with
      | none =>
        simp only [scaleCov, meanSpacing_moved root hroot]
        cases meanSpacingSq root centers with
        | error e => rfl
        | ok v => exact tail (.num v)
      | num v => exact tail (.num v)
      | mat m => exact tail (.mat m)
      | mats l => exact tail (.mats l)
      | badShape => exact tail .badShape
      | other => exact tail .other

private theorem poisson_int_length {u : ℕ → K} {n fuel pos pos' : ℕ} {q : Squeezed K}
    (h : poisson w u none (.int n) fuel pos = some (.ok (q, pos'))) : q.data.length = n := by
  cases hd : divArea w (n : ℤ) with
  | error e => simp [poisson, parseSizeAndIntensity, hd, bind, Except.bind, Run.fail] at h
  | ok i =>
    have hp : parseSizeAndIntensity w none (.int n) = .ok ((n : ℤ), 1, i) := by
      simp [parseSizeAndIntensity, hd, bind, Except.bind, pure, Except.pure]
    obtain ⟨⟨reps, h1, h2, h3⟩, _⟩ := C40_poisson w u none (.int n) n 1 i hp pos q pos' ⟨fuel, h⟩
    obtain ⟨rep, rfl⟩ := List.length_eq_one_iff.1 (by omega : reps.length = 1)
    have := (h3 rep (by simp)).1
    rw [h1]
    simp
    omega

private theorem clusterNormalLoop_ne (root : K → K) (mvn : M2 K → K → K → K × K) (gen : ℕ → ℕ → K) (cov : CovArg K) (fuel : ℕ)
    (parts : List ((K × K) × ℕ × ℕ)) (hne : parts ≠ []) {ls : List (List (K × K))}
    (h : clusterNormalLoop w root mvn gen cov fuel parts = some (.ok ls)) : ls.flatten ≠ [] := by
  cases parts with
  | nil => exact absurd rfl hne
  | cons x parts =>
    obtain ⟨center, n_in, seed⟩ := x
    rw [clusterNormalLoop] at h
    split at h
    · cases h
    · cases h
    · next l hl =>
      have hl0 : l ≠ [] := by
        split at hl
        · injection hl with hl
          injection hl with hl
          simp [← hl]
        · split at hl
          · cases hl
          · split at hl
            · cases hl
            · cases hl
            · next c _ _ =>
              injection hl with hl
              cases c with
              | point p => injection hl with hl; simp [← hl]
              | rows l' => injection hl with hl; simp [← hl]
              | cube n l' => cases hl
      split at h
      · cases h
      · cases h
      · injection h with h
        injection h with h
        rw [← h]
        simp [hl0]

/-- **C132, cluster_normal.** The same for `cluster_normal`, with the covariance (if it is given) converted. -/
theorem C132_cluster_normal (hr : 0 < r) (hw : RescaledWindow r r a b w w') (hk : w'.isArray = w.isArray) (root : K → K)
    (hroot : ∀ x, root (r ^ 2 * x) = r * root x) (mvn : M2 K → K → K → K × K) (gen : ℕ → ℕ → K) (u : ℕ → K)
    (cov : CovArg K) (size : SizeArg) (n_seeds fuel pos : ℕ) :
    clusterNormal w' root mvn gen u (scaleCov (r ^ 2) cov) size n_seeds fuel pos
      = movedOutcome (mapSqueezed (rescale r r a b)) (clusterNormal w root mvn gen u cov size n_seeds fuel pos) := by
  unfold clusterNormal
  refine sized_moved hr hw hk none size _ _ _ ?_
  intro n s
  split
  · rfl
  · rw [clusterNormalReps_moved hr hw hk root hroot]
    refine moved_andThen _ _ _ _ _ ?_
    intro reps q hq
    simp only [Run.ret, movedOutcome, List.map_map]
    have e : reps.map ((fun x : List (K × K) × CovArg K × List (List (K × K)) => x.2.2.flatten) ∘
          fun x => (x.1.map (rescale r r a b), scaleCov (r ^ 2) x.2.1, x.2.2.map (List.map (rescale r r a b))))
        = (reps.map fun x => x.2.2.flatten).map (List.map (rescale r r a b)) := by
      simp only [List.map_map]
      refine List.map_congr_left fun x _ => ?_
      simp [List.map_flatten]
    rw [e, squeeze_map]
    intro hs hn
    rw [hs] at hq
    rw [clusterNormalReps] at hq
    generalize hp : poisson w (gen (seedDraw (u (pos + 0)))) none (.int n_seeds) fuel 0 = seeds at hq
    rcases seeds with _ | (_ | ⟨centers, q'⟩)
    · cases hq
    · cases hq
    · simp only at hq
      split at hq
      · cases hq
      · split at hq
        · cases hq
        · next hns =>
          split at hq
          · next l =>
            split at hq
            · cases hq
            · cases hq
            · next clusters hcl =>
              obtain ⟨rest, q2, h1, h2⟩ := Run.andThen_ok.1 hq
              rw [Run.ret_ok] at h2
              rw [← h2.1]
              have hlen := poisson_int_length hp
              simp only [Squeezed.data] at hlen
              have := clusterNormalLoop_ne root mvn gen _ fuel _ (by
                intro h0
                have := congrArg List.length h0
                simp [sizes_length n.toNat n_seeds (by omega), hlen] at this
                omega) hcl
              simp only [List.map_cons, List.flatten_cons]
              intro h0
              exact this (List.append_eq_nil_iff.1 h0).1
          · cases hq
          · cases hq

end

/-! ### Point processes -/

section

variable {r a b : K}

/-- **C132, runif_in_circle.** With the radius and the centre converted and the same random numbers, `runif_in_circle` gives the
converted points. -/
theorem C132_runif_in_circle (hr : 0 < r) (n : ℕ) (radius : K) (center : K × K) (u : ℕ → K) (fuel pos : ℕ) :
    Process.runifInCircle n (r * radius) (rescale r r a b center) u fuel pos
      = movedOutcome (List.map (rescale r r a b)) (Process.runifInCircle n radius center u fuel pos) :=
  uniformCircle_moved hr n radius center _ _ (fun _ => rfl) u fuel pos

private def moveCoords (r a b : K) (p : Process.Coord K × Process.Coord K) : Process.Coord K × Process.Coord K :=
  (match p.1 with
    | .arr1 x => .arr1 (a + r * x)
    | .scalar x => .scalar (a + r * x),
   match p.2 with
    | .arr1 x => .arr1 (b + r * x)
    | .scalar x => .scalar (b + r * x))

private theorem toPoints_moved (l : List (Process.Coord K × Process.Coord K)) :
    Process.toPoints (l.map (moveCoords r a b)) = (Process.toPoints l).map (List.map (rescale r r a b)) := by
  induction l with
  | nil => rfl
  | cons p l ih =>
    obtain ⟨x, y⟩ := p
    cases x with
    | scalar x => rfl
    | arr1 x =>
      cases y with
      | scalar y => rfl
      | arr1 y =>
        rw [List.map_cons]
        simp only [Process.toPoints, moveCoords, Process.Coord.item0, bind, Except.bind, pure, Except.pure] at ih ⊢
        rw [ih]
        cases Process.toPoints l <;> rfl

private theorem draw_moved (contains contains' : K × K → Bool) (hin : ∀ p, contains' (rescale r r a b p) = contains p)
    (realize realize' : ℕ → ℕ → Run (List (Process.Coord K × Process.Coord K)))
    (hre : ∀ n pos, realize' n pos = movedOutcome (List.map (moveCoords r a b)) (realize n pos)) (n fuel pos : ℕ)
    (sample : List (K × K)) :
    Process.draw contains' realize' n fuel pos (sample.map (rescale r r a b))
      = movedOutcome (List.map (rescale r r a b)) (Process.draw contains realize n fuel pos sample) := by
  have hf : ∀ l : List (K × K), Window.filterContained contains' (l.map (rescale r r a b))
      = (Window.filterContained contains l).map (rescale r r a b) := by
    intro l
    rw [Window.filterContained, Window.filterContained, List.filter_map]
    congr 1
    exact List.filter_congr fun p _ => hin p
  induction fuel generalizing pos sample with
  | zero =>
    rw [Process.draw, Process.draw, List.length_map]
    split
    · simp [Run.ret, movedOutcome, List.map_take]
    · rfl
  | succ fuel ih =>
    rw [Process.draw, Process.draw, List.length_map]
    split
    · simp [Run.ret, movedOutcome, List.map_take]
    · rw [hre]
      refine moved_andThen _ _ _ _ _ fun l q _ => ?_
      rw [toPoints_moved]
      cases Process.toPoints l with
      | error e => rfl
      | ok l =>
        simp only [Except.map]
        rw [hf, ← List.map_append]
        exact ih _ _

/-- **C132, PoissonPointProcess.** The realisations for a window in other units from another origin are the converted ones. -/
theorem C132_poisson_process (bbox bbox' : BBox K) (contains contains' : K × K → Bool)
    (hlow : (bbox'.xmin, bbox'.ymin) = rescale r r a b (bbox.xmin, bbox.ymin))
    (hup : (bbox'.xmax, bbox'.ymax) = rescale r r a b (bbox.xmax, bbox.ymax))
    (hin : ∀ p, contains' (rescale r r a b p) = contains p) (u : ℕ → K) (n samples : ℕ) (conditioning : Bool)
    (lambdas : List ℕ) (fuel pos : ℕ) :
    Process.poissonProcess bbox' contains' u n samples conditioning lambdas fuel pos
      = movedOutcome (List.map (List.map (rescale r r a b)))
          (Process.poissonProcess bbox contains u n samples conditioning lambdas fuel pos) := by
  have hre : ∀ n pos, Process.poissonRealize bbox' u n pos
      = movedOutcome (List.map (moveCoords r a b)) (Process.poissonRealize bbox u n pos) := by
    intro n pos
    have hl := Prod.ext_iff.1 hlow
    have hu := Prod.ext_iff.1 hup
    simp only [rescale] at hl hu
    simp only [Process.poissonRealize, Run.ret, movedOutcome, List.map_map, moveCoords, Function.comp_def, uniform, hl.1, hl.2,
      hu.1, hu.2]
    congr 3
    refine List.map_congr_left fun i _ => ?_
    congr 2 <;> ring
  unfold Process.poissonProcess
  generalize Process.poissonSizes n samples conditioning lambdas = sizes
  induction sizes generalizing pos with
  | nil => rfl
  | cons m sizes ih =>
    rw [Process.realizations, Process.realizations]
    have hd := draw_moved contains contains' hin (Process.poissonRealize bbox u) (Process.poissonRealize bbox' u) hre m fuel pos []
    rw [List.map_nil] at hd
    rw [hd]
    refine moved_andThen _ _ _ _ _ fun l q _ => ?_
    rw [ih]
    exact moved_andThen _ _ _ _ _ fun ls q _ => rfl

end

/-! ### Strauss patterns -/

section

variable {a b : K} {w w' : Hull K}

private theorem shifted_poisson (hw : RescaledWindow 1 1 a b w w') (hk : w'.isArray = w.isArray) (u : ℕ → K) (i : K)
    (size : SizeArg) (fuel pos : ℕ) :
    poisson w' u (some i) size fuel pos
      = movedOutcome (mapSqueezed (rescale 1 1 a b)) (poisson w u (some i) size fuel pos) := by
  have := C132_poisson one_pos hw hk u (some i) size fuel pos
  simpa using this

private theorem pairCount_shifted (r : K) (l : List (K × K)) : pairCount r (l.map (rescale 1 1 a b)) = pairCount r l := by
  induction l with
  | nil => rfl
  | cons p l ih =>
    rw [List.map_cons, pairCount, pairCount, ih, List.filter_map, List.length_map]
    congr 2
    refine List.filter_congr fun q _ => ?_
    simp only [Function.comp_apply, rescale, one_mul, add_sub_add_left_eq_sub]

private theorem step_shifted (hw : RescaledWindow 1 1 a b w w') (hk : w'.isArray = w.isArray) (u : ℕ → K) (gamma r : K)
    (n fuel : ℕ) (x : Squeezed K) (pos : ℕ) :
    straussStep w' u gamma r n fuel (mapSqueezed (rescale 1 1 a b) x) pos
      = movedOutcome (mapSqueezed (rescale 1 1 a b)) (straussStep w u gamma r n fuel x pos) := by
  cases x with
  | point p =>
    show straussStep w' u gamma r n fuel (.point (rescale 1 1 a b p)) pos = _
    unfold straussStep
    simp only
    generalize (if 2 < n then pos else pos + 1) = q0
    split
    · rw [shifted_poisson hw hk]
      exact moved_andThen _ _ _ _ _ fun _ _ _ => rfl
    · split <;> rfl
  | cube m l =>
    show straussStep w' u gamma r n fuel (.cube m (l.map (List.map (rescale 1 1 a b)))) pos = _
    unfold straussStep
    simp only [List.length_map]
    generalize (if l.length < n then pos else pos + 1) = q0
    split
    · rw [shifted_poisson hw hk]
      exact moved_andThen _ _ _ _ _ fun _ _ _ => rfl
    · split <;> rfl
  | rows l =>
    show straussStep w' u gamma r n fuel (.rows (l.map (rescale 1 1 a b))) pos = _
    unfold straussStep
    simp only [List.length_map]
    generalize (if l.length < n then pos else pos + 1) = q0
    split
    · rw [shifted_poisson hw hk]
      refine moved_andThen _ _ _ _ _ fun new q _ => ?_
      have hv : vstackRows (l.map (rescale 1 1 a b)) (mapSqueezed (rescale 1 1 a b) new)
          = (vstackRows l new).map (List.map (rescale 1 1 a b)) := by
        cases new <;> simp [vstackRows, mapSqueezed, Except.map]
      rw [hv]
      cases vstackRows l new with
      | error e => rfl
      | ok l' =>
        simp only [Except.map, pairCount_shifted]
        split <;> rfl
    · split
      · simp only [List.eraseIdx_map, pairCount_shifted]
        split
        · rfl
        · split <;> rfl
      · rfl

private theorem iter_shifted (hw : RescaledWindow 1 1 a b w w') (hk : w'.isArray = w.isArray) (u : ℕ → K) (gamma r : K)
    (n fuel k : ℕ) (x : Squeezed K) (pos : ℕ) :
    straussIter w' u gamma r n fuel k (mapSqueezed (rescale 1 1 a b) x) pos
      = movedOutcome (mapSqueezed (rescale 1 1 a b)) (straussIter w u gamma r n fuel k x pos) := by
  induction k generalizing x pos with
  | zero => rfl
  | succ k ih =>
    rw [straussIter, straussIter, step_shifted hw hk]
    exact moved_andThen _ _ _ _ _ fun y q _ => ih y q

private theorem attempts_shifted (hw : RescaledWindow 1 1 a b w w') (hk : w'.isArray = w.isArray) (u : ℕ → K) (gamma r : K)
    (n n_iter fuel : ℕ) (hi : 1 ≤ n_iter) (m pos : ℕ) :
    straussAttempts w' u gamma r n n_iter fuel m pos
      = movedOutcome (List.map (rescale 1 1 a b)) (straussAttempts w u gamma r n n_iter fuel m pos) := by
  induction m generalizing pos with
  | zero => rfl
  | succ m ih =>
    rw [straussAttempts, straussAttempts, shifted_poisson hw hk]
    refine moved_andThen _ _ _ _ _ fun x q hx => ?_
    rw [iter_shifted hw hk]
    refine moved_andThen _ _ _ _ _ fun y q' hy => ?_
    have hs := (strauss_iter w u gamma r n fuel n_iter q x y q' (strauss_embedded w u _ _ _ _ _ hx).1 hy).2
    have ht : straussTake n (mapSqueezed (rescale 1 1 a b) y) = (straussTake n y).map (List.map (rescale 1 1 a b)) := by
      cases y with
      | rows l =>
        simp only [mapSqueezed, straussTake, List.length_map]
        split <;> simp
      | cube k l => rfl
      | point p =>
        have hn : n ≠ 1 := by
          intro h1
          obtain ⟨l, hl⟩ := hs h1 hi
          cases hl
        simp only [mapSqueezed, straussTake, if_neg hn]
        split <;> simp
    rw [ht]
    cases straussTake n y with
    | none => exact ih _
    | some l => rfl

private theorem attempts_length (u : ℕ → K) (gamma r : K) (n n_iter fuel m pos : ℕ) {l : List (K × K)} {q : ℕ}
    (h : straussAttempts w u gamma r n n_iter fuel m pos = some (.ok (l, q))) : l.length = n := by
  induction m generalizing pos with
  | zero => rw [straussAttempts] at h; cases h
  | succ m ih =>
    rw [straussAttempts] at h
    obtain ⟨x, p, h1, h2⟩ := Run.andThen_ok.1 h
    obtain ⟨y, p', h3, h4⟩ := Run.andThen_ok.1 h2
    cases ht : straussTake n y with
    | none => rw [ht] at h4; exact ih _ h4
    | some l' =>
      rw [ht] at h4
      rw [Run.ret_ok] at h4
      rw [← h4.1]
      cases y with
      | rows l0 =>
        simp only [straussTake] at ht
        split at ht
        · injection ht with ht
          rw [← ht, List.length_take]
          omega
        · cases ht
      | cube k l0 => cases ht
      | point p =>
        simp only [straussTake] at ht
        split at ht
        · injection ht with ht
          rw [← ht]
          split
          · next h1 => simp [h1]
          · simp
        · cases ht

/-- **C132, strauss.** A new origin moves the pattern along (with at least one iteration); with another unit of length it is false,
see `C132_strauss_refuted`. -/
theorem C132_strauss_partial (hw : RescaledWindow 1 1 a b w w') (hk : w'.isArray = w.isArray) (u : ℕ → K)
    (intensity : Option K) (size : SizeArg) (gamma r : K) (n_iter max_iter : ℕ) (hi : 1 ≤ n_iter) (fuel pos : ℕ) :
    strauss w' u intensity size gamma r n_iter max_iter fuel pos
      = movedOutcome (mapSqueezed (rescale 1 1 a b)) (strauss w u intensity size gamma r n_iter max_iter fuel pos) := by
  have key := sized_moved one_pos hw hk intensity size
    (fun n s => if n < 0 ∨ s < 0 then Run.fail .valueError
      else (replications (fun _ pos => straussAttempts w u gamma r n.toNat n_iter fuel max_iter pos) 0 s.toNat pos).andThen
        fun reps pos' => Run.ret (squeeze s.toNat n.toNat reps) pos')
    (fun n s => if n < 0 ∨ s < 0 then Run.fail .valueError
      else (replications (fun _ pos => straussAttempts w' u gamma r n.toNat n_iter fuel max_iter pos) 0 s.toNat pos).andThen
        fun reps pos' => Run.ret (squeeze s.toNat n.toNat reps) pos') (mapSqueezed (rescale 1 1 a b)) (by
      intro n s
      split
      · rfl
      · rw [replications_moved (List.map (rescale 1 1 a b)) _ _ (fun i pos =>
          attempts_shifted hw hk u gamma r n.toNat n_iter fuel hi max_iter pos)]
        refine moved_andThen _ _ _ _ _ fun reps q hq => ?_
        obtain ⟨h1, h2⟩ := replications_spec _ _ _ _ _ _ hq
        simp only [Run.ret, movedOutcome]
        rw [squeeze_moved _ _ _ h1]
        intro rep hrep
        obtain ⟨j, p, p', _, hj⟩ := h2 rep hrep
        exact attempts_length u gamma r _ _ _ _ _ hj)
  have e : (intensity.map (· / (1 : K) ^ 2)) = intensity := by cases intensity <;> simp
  rw [e] at key
  exact key

/-- **C132 is false of `strauss`.** Two points on the square of side 1: a pattern is returned for all draws, whatever the
radius, the numbers of iterations and the positive interaction. On the same square in a unit twice as long, of side 1/2, with
the same draws and the radius converted, it raises `RuntimeError`: the numbers of initial and of new points are the area times the
numbers asked for. -/
theorem C132_strauss_refuted (u : ℕ → K) (hu : IsDraws u) (gamma r : K) (hg : 0 < gamma) (n_iter max_iter : ℕ)
    (hm : 1 ≤ max_iter) (pos : ℕ) :
    RescaledWindow (1/2) (1/2) 0 0 (Hull.ofBBox (⟨0, 0, 1, 1⟩ : BBox K)) (Hull.ofBBox ⟨0, 0, 1/2, 1/2⟩) ∧
    (∃ x pos', Returns (fun fuel => strauss (Hull.ofBBox (⟨0, 0, 1, 1⟩ : BBox K)) u none (.int 2) gamma r n_iter max_iter fuel pos)
      (.ok (x, pos'))) ∧
    Returns (fun fuel => strauss (Hull.ofBBox (⟨0, 0, 1/2, 1/2⟩ : BBox K)) u none (.int 2) gamma (1/2 * r) n_iter max_iter fuel pos)
      (.error .runtimeError) := by
  have hp : ∀ c : K, 0 < c → ∃ i, parseSizeAndIntensity (Hull.ofBBox (⟨0, 0, c, c⟩ : BBox K)) none (.int 2) = .ok (2, 1, i) := by
    intro c hc
    refine ⟨.fin (((2 : ℤ) : K) / (c * c)), ?_⟩
    have : (c : K) ≠ 0 := hc.ne'
    simp [parseSizeAndIntensity, divArea, Hull.ofBBox, Geometry.areaBBox, XF.div, this, bind, Except.bind, pure, Except.pure]
  refine ⟨⟨by simp [rescale, Hull.ofBBox], by simp [rescale, Hull.ofBBox], ?_, by norm_num [Hull.ofBBox, Geometry.areaBBox]⟩, ?_, ?_⟩
  · intro p
    have h1 : ∀ x : K, (0 ≤ 0 + 1 / 2 * x ↔ 0 ≤ x) := fun x => by constructor <;> intro h <;> linarith
    have h2 : ∀ x : K, (0 + 1 / 2 * x ≤ 1 / 2 ↔ x ≤ 1) := fun x => by constructor <;> intro h <;> linarith
    simp only [Hull.ofBBox, Geometry.containsBBox, rescale, h1, h2]
  · obtain ⟨i, hi⟩ := hp 1 one_pos
    refine (C46_strauss_succeeds _ ?_ u none (.int 2) gamma r hg n_iter max_iter hm 2 1 i hi (by norm_num) (by norm_num)
      3 ?_ (by norm_num) (by norm_num) pos).2 _ rfl zero_le_one zero_le_one hu
    · simp [Hull.ofBBox, Geometry.areaBBox]
    · rw [show (Int.toNat 2 * 3 / 2 : ℕ) = 3 from rfl]
      norm_num [Hull.ofBBox, Geometry.areaBBox, IsTrunc]
  · obtain ⟨i, hi⟩ := hp (1/2) (by norm_num)
    refine (C46_strauss_small_hull _ ?_ ?_ u none (.int 2) gamma _ n_iter max_iter 2 1 i hi (by norm_num)
      0 ?_ (by norm_num) (by norm_num) pos).2 _ rfl (by norm_num) (by norm_num) hu
    · norm_num [Hull.ofBBox, Geometry.areaBBox]
    · norm_num [Hull.ofBBox, Geometry.areaBBox]
    · rw [show (Int.toNat 2 * 3 / 2 : ℕ) = 3 from rfl]
      norm_num [Hull.ofBBox, Geometry.areaBBox, IsTrunc]

end

/-! ### The hypotheses are met -/

/-- A box in centimetres instead of metres, from another origin. -/
private theorem centimetres : RescaledWindow (100 : ℚ) 100 5 (-7) (Hull.ofBBox ⟨0, 0, 4, 2⟩) (Hull.ofBBox ⟨5, -7, 405, 193⟩) where
  lower := by decide +kernel
  upper := by decide +kernel
  inside := by
    intro p
    simp only [Hull.ofBBox, Geometry.containsBBox, rescale]
    rw [Bool.eq_iff_iff]
    simp only [decide_eq_true_eq, Bool.and_eq_true]
    constructor <;> intro h <;> refine ⟨?_, ?_⟩ <;> constructor <;> linarith [h.1.1, h.1.2, h.2.1, h.2.2]
  area := by decide +kernel

/-- The square root has the property asked of `root`. -/
example (r x : ℝ) (hr : 0 < r) : Real.sqrt (r ^ 2 * x) = r * Real.sqrt x := by
  rw [Real.sqrt_mul (sq_nonneg r), Real.sqrt_sq hr.le]

/-- Three points in metres, and the same three in centimetres. -/
example : poisson (Hull.ofBBox ⟨0, 0, 4, 2⟩) (fun i => if i % 3 = 0 then (1/4 : ℚ) else 3/4) none (.int 3) 10 0
      = some (.ok (.rows [(1, 3/2), (3, 1/2), (3, 3/2)], 6)) ∧
    poisson (Hull.ofBBox ⟨5, -7, 405, 193⟩) (fun i => if i % 3 = 0 then (1/4 : ℚ) else 3/4) none (.int 3) 10 0
      = some (.ok (.rows [(105, 143), (305, 43), (305, 143)], 6)) := by
  constructor <;> decide +kernel

end Pointpats.Props
