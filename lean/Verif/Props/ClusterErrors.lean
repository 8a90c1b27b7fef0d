import Verif.Props.RandomCluster

/-!
# C133: when the cluster samplers raise
-/

set_option linter.unusedSectionVars false

namespace Pointpats.Props

open Random Spec

variable {K : Type} [Field K] [LinearOrder K] [IsStrictOrderedRing K] [FloorRing K]

/-- Radii `cluster_poisson` can use: none given, a number, or an array with one radius for every seed. -/
def UsableRadius (n_seeds : ℕ) : RadiusArg K → Prop
  | .none => True
  | .num _ => True
  | .arr l => l.length = n_seeds
  | .otherIterable => False

/-- Covariances for all clusters: none given, a variance, or a matrix. -/
def UsableCov : CovArg K → Prop
  | .none => True
  | .num _ => True
  | .mat _ => True
  | _ => False

/-- No run ends with an exception. -/
def NeverRaises {α : Type} (run : ℕ → Run α) : Prop := ∀ fuel e, run fuel ≠ some (.error e)

/-- Every run that ends, ends with this exception. -/
def EndsWith {α : Type} (run : ℕ → Run α) (e : PyErr) : Prop := ∀ fuel r, run fuel = some r → r = .error e

private theorem replications_no_error {α : Type} (body : ℕ → ℕ → Run α) (hb : ∀ i pos e, body i pos ≠ some (.error e)) (i s pos : ℕ)
    (e : PyErr) : replications body i s pos ≠ some (.error e) := by
  induction s generalizing i pos with
  | zero => simp [replications, Run.ret]
  | succ s ih =>
    intro h
    rw [replications, Run.andThen_error] at h
    rcases h with h | ⟨a, p, _, h⟩
    · exact hb _ _ _ h
    · rw [Run.andThen_error] at h
      rcases h with h | ⟨b, q, _, h⟩
      · exact ih _ _ h
      · cases h

private theorem poisson_no_error (h : Hull K) (u : ℕ → K) (intensity : Option K) (size : SizeArg) (n s : ℤ) (i : XF K)
    (hp : parseSizeAndIntensity h intensity size = .ok (n, s, i)) (hn : 0 ≤ n) (hs : 0 ≤ s) (fuel pos : ℕ) (e : PyErr) :
    poisson h u intensity size fuel pos ≠ some (.error e) := by
  intro hf
  rw [poisson, hp] at hf
  simp only at hf
  rw [if_neg (by omega), Run.andThen_error] at hf
  rcases hf with hf | ⟨_, _, _, hf⟩
  · exact replications_no_error _ (fun i pos e => rejection_no_error _ _ _ _ _ _) _ _ _ _ hf
  · cases hf

private theorem parse_seeds (h : Hull K) (ha : h.area ≠ 0) (k : ℕ) :
    ∃ i, parseSizeAndIntensity h none (.int k) = .ok ((k : ℤ), 1, i) := by
  refine ⟨XF.div (.fin ((k : ℤ) : K)) (.fin h.area), ?_⟩
  unfold parseSizeAndIntensity divArea
  simp [ha]

private theorem seeds_no_error (h : Hull K) (ha : h.area ≠ 0) (v : ℕ → K) (k fuel pos : ℕ) (e : PyErr) :
    poisson h v none (.int k) fuel pos ≠ some (.error e) := by
  obtain ⟨i, hi⟩ := parse_seeds h ha k
  exact poisson_no_error h v none _ _ _ i hi (by omega) (by omega) _ _ _

private theorem seeds_one (h : Hull K) (v : ℕ → K) (fuel pos pos' : ℕ) (seeds : Squeezed K)
    (hr : poisson h v none (.int 1) fuel pos = some (.ok (seeds, pos'))) : ∃ p, seeds = .point p := by
  cases hp : parseSizeAndIntensity h none (.int 1) with
  | error e => rw [poisson, hp] at hr; cases hr
  | ok x =>
    have hx : x.1 = 1 ∧ x.2.1 = 1 := by
      unfold parseSizeAndIntensity divArea at hp
      simp only at hp
      split at hp
      · cases hp
      · cases hp
        exact ⟨rfl, rfl⟩
    obtain ⟨n, s, i⟩ := x
    simp only at hx
    obtain ⟨rfl, rfl⟩ := hx
    obtain ⟨_, _, reps, _, rfl⟩ := (poisson_ok h v none _ _ _ i hp fuel pos seeds pos').1 hr
    exact ⟨_, rfl⟩

/-- The exception of the first replication is the exception of the call. -/
private theorem replications_first {α : Type} (body : ℕ → ℕ → Run α) (e : PyErr) (hb : ∀ i pos r, body i pos = some r → r = .error e)
    (i s pos : ℕ) (r) (h : replications body i (s + 1) pos = some r) : r = .error e := by
  rw [replications] at h
  cases hb1 : body i pos with
  | none => rw [hb1] at h; cases h
  | some r1 =>
    rw [hb _ _ _ hb1] at hb1
    rw [hb1] at h
    simp only [Run.andThen] at h
    cases h
    rfl

private theorem pdist_ne_nil (root : K → K) (l : List (K × K)) (hl : 2 ≤ l.length) : pdist root l ≠ [] := by
  match l, hl with
  | _ :: _ :: _, _ => simp [pdist]

private theorem radii_ok (root : K → K) (radius : RadiusArg K) (n_seeds : ℕ) (hr : UsableRadius n_seeds radius) (l : List (K × K))
    (hl : 2 ≤ l.length) : ∃ radii, clusterRadii root radius n_seeds (.rows l) = .ok radii ∧ radii.length = n_seeds := by
  cases radius with
  | none =>
    simp only [clusterRadii]
    cases h : pdist root l with
    | nil => exact absurd h (pdist_ne_nil root l hl)
    | cons d ds => exact ⟨_, rfl, List.length_replicate⟩
  | arr r => exact ⟨r, rfl, hr⟩
  | num r => exact ⟨_, rfl, List.length_replicate⟩
  | otherIterable => exact absurd hr id

private theorem loop_no_error (h : Hull K) (u : ℕ → K) (fuel : ℕ) (l : List (K × K)) (i : ℕ) (spec : List (K × ℕ))
    (hl : i + spec.length ≤ l.length) (hs : ∀ a ∈ spec, 1 ≤ a.2) (pos : ℕ) (e : PyErr) :
    clusterLoop h u fuel (.rows l) i spec pos ≠ some (.error e) := by
  induction spec generalizing i pos with
  | nil => simp [clusterLoop, Run.ret]
  | cons a spec ih =>
    obtain ⟨ρ, m⟩ := a
    intro hf
    have hm : 1 ≤ m := hs (ρ, m) (by simp)
    rw [List.length_cons] at hl
    rw [clusterLoop, Run.andThen_error] at hf
    rcases hf with hf | ⟨c, q, _, hf⟩
    · have hi : i < l.length := by omega
      simp only [clusterPoints, List.getElem?_eq_getElem hi] at hf
      split at hf
      · cases hf
      · rw [if_neg (by omega), Run.andThen_error] at hf
        rcases hf with hf | ⟨_, _, _, hf⟩
        · exact circleLoop_no_error _ _ _ _ _ _ _ _ _ hf
        · cases hf
    · rw [Run.andThen_error] at hf
      rcases hf with hf | ⟨_, _, _, hf⟩
      · exact ih _ (by omega) (fun a ha => hs a (by simp [ha])) _ hf
      · cases hf

private theorem sizes_pos (n k : ℕ) (hk : 0 < k) (hn : k ≤ n) : ∀ a ∈ arraySplitSizes n k, 1 ≤ a := by
  have h1 : 1 ≤ n / k := (Nat.one_le_div_iff hk).2 hn
  intro a ha
  rcases List.mem_append.1 ha with ha | ha <;> rw [(List.mem_replicate.1 ha).2] <;> omega

private theorem sizes_few (n k : ℕ) (hn : n < k) :
    arraySplitSizes n k = List.replicate n 1 ++ List.replicate (k - n) 0 := by
  rw [arraySplitSizes, Nat.mod_eq_of_lt hn, Nat.div_eq_of_lt hn]

private theorem usable_run (h : Hull K) (root : K → K) (gen : ℕ → ℕ → K) (u : ℕ → K) (intensity : Option K)
    (size : SizeArg) (n s : ℤ) (i : XF K) (hp : parseSizeAndIntensity h intensity size = .ok (n, s, i)) (hs : 0 ≤ s)
    (n_seeds : ℕ) (hn : 0 ≤ n) (radius : RadiusArg K) (hr : UsableRadius n_seeds radius) (fuel pos : ℕ) :
    clusterPoisson h root gen u intensity size n_seeds radius fuel pos
      = (clusterPoissonReps h root gen u n.toNat s.toNat n_seeds radius fuel pos).andThen fun reps pos' =>
        Run.ret (squeeze s.toNat n.toNat (reps.map List.flatten)) pos' := by
  have hneg : ¬ (n < 0 ∨ s < 0) := by omega
  cases radius with
  | none => simp [clusterPoisson, hp, hneg]
  | num r => simp [clusterPoisson, hp, hneg]
  | otherIterable => exact absurd hr id
  | arr l =>
    have : l.length = n_seeds := hr
    simp [clusterPoisson, hp, hneg, this]

/-- **C133, cluster_poisson.** On a hull that has an area, with at least two seeds, at least as many points as seeds and usable
radii, `cluster_poisson` never raises. -/
theorem C133_cluster_poisson_ok (h : Hull K) (ha : h.area ≠ 0) (root : K → K) (gen : ℕ → ℕ → K) (u : ℕ → K) (intensity : Option K)
    (size : SizeArg) (n s : ℤ) (i : XF K) (hp : parseSizeAndIntensity h intensity size = .ok (n, s, i)) (hs : 0 ≤ s)
    (n_seeds : ℕ) (hk : 2 ≤ n_seeds) (hn : (n_seeds : ℤ) ≤ n) (radius : RadiusArg K) (hr : UsableRadius n_seeds radius) (pos : ℕ) :
    NeverRaises fun fuel => clusterPoisson h root gen u intensity size n_seeds radius fuel pos := by
  intro fuel e hf
  simp only at hf
  rw [usable_run h root gen u intensity size n s i hp hs n_seeds (by omega) radius hr, Run.andThen_error] at hf
  rcases hf with hf | ⟨_, _, _, hf⟩
  · refine replications_no_error _ ?_ _ _ _ _ hf
    intro i pos' e hb
    cases hseeds : poisson h (gen (seedDraw (u (pos + i)))) none (.int n_seeds) fuel 0 with
    | none => rw [hseeds] at hb; cases hb
    | some x =>
      cases x with
      | error e => exact seeds_no_error h ha _ _ _ _ _ hseeds
      | ok x =>
        obtain ⟨seeds, p⟩ := x
        obtain ⟨l, rfl, hl, _⟩ := seeds_spec h _ _ _ _ _ (by omega) _ hseeds
        obtain ⟨radii, hradii, hlr⟩ := radii_ok root radius n_seeds hr l (by omega)
        rw [hseeds] at hb
        simp only [hradii] at hb
        rw [if_neg (by omega)] at hb
        refine loop_no_error _ _ _ _ _ _ ?_ ?_ _ _ hb
        · rw [List.length_zip, sizes_length _ _ (by omega)]; omega
        · intro a hm
          exact sizes_pos _ _ (by omega) (by omega) _ (List.of_mem_zip (a := a.1) (b := a.2) hm).2
  · cases hf

private theorem loop_few (h : Hull K) (u : ℕ → K) (fuel : ℕ) (l : List (K × K)) (n : ℕ) (i m : ℕ) (radii : List K)
    (hr : n < radii.length) (hm : 0 < m) (hl : i + n < l.length) (pos : ℕ) :
    clusterLoop h u fuel (.rows l) i (radii.zip (List.replicate n 1 ++ List.replicate m 0)) pos = some (.error .exception) := by
  induction n generalizing i radii pos with
  | zero =>
    match radii, hr, m, hm with
    | ρ :: radii, _, m + 1, _ =>
      rw [List.replicate_succ (n := m)]
      simp only [List.replicate_zero, List.nil_append, List.zip_cons_cons, clusterLoop, clusterPoints]
      rw [List.getElem?_eq_getElem (by omega)]
      rfl
  | succ n ih =>
    match radii, hr with
    | ρ :: radii, hr =>
      rw [List.replicate_succ (n := n), List.cons_append, List.zip_cons_cons, clusterLoop]
      simp only [clusterPoints]
      rw [List.getElem?_eq_getElem (by omega)]
      simp only [if_true, Run.ret, Run.andThen]
      rw [ih (i + 1) radii (by simpa using hr) (by omega)]

/-- **C133, cluster_poisson, too many clusters.** With more seeds than points it raises the exception that says so, as soon as the
seeds are found; on a box they always are. -/
theorem C133_cluster_poisson_too_many (h : Hull K) (ha : h.area ≠ 0) (root : K → K) (gen : ℕ → ℕ → K) (u : ℕ → K)
    (intensity : Option K) (size : SizeArg) (n s : ℤ) (i : XF K) (hp : parseSizeAndIntensity h intensity size = .ok (n, s, i))
    (hs : 1 ≤ s) (n_seeds : ℕ) (hk : 2 ≤ n_seeds) (hn0 : 0 ≤ n) (hn : n < n_seeds) (radius : RadiusArg K)
    (hr : UsableRadius n_seeds radius) (pos : ℕ) :
    EndsWith (fun fuel => clusterPoisson h root gen u intensity size n_seeds radius fuel pos) .exception
    ∧ ∀ b, h = Hull.ofBBox b → b.xmin ≤ b.xmax → b.ymin ≤ b.ymax → (∀ k, IsDraws (gen k)) →
      Returns (fun fuel => clusterPoisson h root gen u intensity size n_seeds radius fuel pos) (.error .exception) := by
  obtain ⟨s', hs'⟩ : ∃ s', s.toNat = s' + 1 := ⟨s.toNat - 1, by omega⟩
  have key : EndsWith (fun fuel => clusterPoisson h root gen u intensity size n_seeds radius fuel pos) .exception := by
    intro fuel r hf
    simp only at hf
    rw [usable_run h root gen u intensity size n s i hp (by omega) n_seeds hn0 radius hr] at hf
    cases hreps : clusterPoissonReps h root gen u n.toNat s.toNat n_seeds radius fuel pos with
    | none => rw [hreps] at hf; cases hf
    | some x =>
      have : x = .error .exception := by
        rw [hs'] at hreps
        refine replications_first _ _ ?_ _ _ _ _ hreps
        intro i pos' r hb
        cases hseeds : poisson h (gen (seedDraw (u (pos + i)))) none (.int n_seeds) fuel 0 with
        | none => rw [hseeds] at hb; cases hb
        | some x =>
          cases x with
          | error e => exact absurd hseeds (seeds_no_error h ha _ _ _ _ _)
          | ok x =>
            obtain ⟨seeds, p⟩ := x
            obtain ⟨l, rfl, hl, _⟩ := seeds_spec h _ _ _ _ _ (by omega) _ hseeds
            obtain ⟨radii, hradii, hlr⟩ := radii_ok root radius n_seeds hr l (by omega)
            rw [hseeds] at hb
            simp only [hradii] at hb
            rw [if_neg (by omega), sizes_few _ _ (by omega), loop_few _ _ _ _ _ _ _ _ (by omega) (by omega) (by omega)] at hb
            cases hb
            rfl
      rw [hreps, this] at hf
      cases hf
      rfl
  refine ⟨key, ?_⟩
  rintro b rfl hx hy hgen
  obtain ⟨j, hj⟩ := parse_seeds (Hull.ofBBox b) ha n_seeds
  obtain ⟨seeds, ⟨fuel, hseeds⟩, _⟩ := C40_poisson_box b hx hy _ (hgen (seedDraw (u (pos + 0)))) none _ _ _ j hj (by omega) (by omega) 0
  refine ⟨fuel, ?_⟩
  simp only at hseeds
  have hne : ∃ r, clusterPoisson (Hull.ofBBox b) root gen u intensity size n_seeds radius fuel pos = some r := by
    obtain ⟨l, rfl, hl, _⟩ := seeds_spec (Hull.ofBBox b) _ _ _ _ _ (by omega) _ hseeds
    obtain ⟨radii, hradii, hlr⟩ := radii_ok root radius n_seeds hr l (by omega)
    rw [usable_run _ root gen u intensity size n s i hp (by omega) n_seeds hn0 radius hr, clusterPoissonReps, hs', replications, hseeds]
    simp only [hradii]
    rw [if_neg (by omega), sizes_few _ _ (by omega), loop_few _ _ _ _ _ _ _ _ (by omega) (by omega) (by omega)]
    exact ⟨_, rfl⟩
  obtain ⟨r, hr'⟩ := hne
  show clusterPoisson _ _ _ _ _ _ _ _ _ _ = _
  rw [hr', key fuel r hr']

/-- **C133, cluster_poisson, other arguments.** The wrong number of radii is an `AssertionError` at once; radii in a container that
is not an array an `UnboundLocalError`; no seeds, or one seed without a radius, a `ValueError`; one seed with a radius and two
or more points a `TypeError`. -/
theorem C133_cluster_poisson_arguments (h : Hull K) (ha : h.area ≠ 0) (root : K → K) (gen : ℕ → ℕ → K) (u : ℕ → K)
    (intensity : Option K) (size : SizeArg) (n s : ℤ) (i : XF K) (hp : parseSizeAndIntensity h intensity size = .ok (n, s, i))
    (hn : 0 ≤ n) (hs : 1 ≤ s) (pos : ℕ) :
    (∀ n_seeds l fuel, l.length ≠ n_seeds →
      clusterPoisson h root gen u intensity size n_seeds (.arr l) fuel pos = some (.error .assertionError))
    ∧ (∀ n_seeds, EndsWith (fun fuel => clusterPoisson h root gen u intensity size n_seeds .otherIterable fuel pos)
        .unboundLocalError)
    ∧ (∀ radius, UsableRadius 0 radius →
        EndsWith (fun fuel => clusterPoisson h root gen u intensity size 0 radius fuel pos) .valueError)
    ∧ EndsWith (fun fuel => clusterPoisson h root gen u intensity size 1 .none fuel pos) .valueError
    ∧ (2 ≤ n → ∀ radius, UsableRadius 1 radius → radius ≠ .none →
        EndsWith (fun fuel => clusterPoisson h root gen u intensity size 1 radius fuel pos) .typeError) := by
  obtain ⟨s', hs'⟩ : ∃ s', s.toNat = s' + 1 := ⟨s.toNat - 1, by omega⟩
  have first : ∀ (n_seeds : ℕ) (radius : RadiusArg K) (err : PyErr) (fuel : ℕ),
      (∀ seeds p q r, (poisson h q none (.int n_seeds) fuel 0 = some (.ok (seeds, p))) → ∀ pos',
        (match clusterRadii root radius n_seeds seeds with
          | .error e => Run.fail e
          | .ok radii =>
            if n_seeds = 0 then Run.fail .valueError
            else clusterLoop h u fuel seeds 0 (radii.zip (arraySplitSizes n.toNat n_seeds)) pos') = some r → r = .error err) →
      ∀ r, ((clusterPoissonReps h root gen u n.toNat s.toNat n_seeds radius fuel pos).andThen fun reps pos' =>
        Run.ret (squeeze s.toNat n.toNat (reps.map List.flatten)) pos') = some r → r = .error err := by
    intro n_seeds radius err fuel hb r hr
    cases hreps : clusterPoissonReps h root gen u n.toNat s.toNat n_seeds radius fuel pos with
    | none => rw [hreps] at hr; cases hr
    | some x =>
      have : x = .error err := by
        rw [hs'] at hreps
        refine replications_first _ _ ?_ _ _ _ _ hreps
        intro i pos' r hb'
        cases hseeds : poisson h (gen (seedDraw (u (pos + i)))) none (.int n_seeds) fuel 0 with
        | none => rw [hseeds] at hb'; cases hb'
        | some x =>
          cases x with
          | error e => exact absurd hseeds (seeds_no_error h ha _ _ _ _ _)
          | ok x =>
            rw [hseeds] at hb'
            exact hb _ _ _ _ hseeds _ hb'
      rw [hreps, this] at hr
      cases hr
      rfl
  refine ⟨?_, ?_, ?_, ?_, ?_⟩
  · intro n_seeds l fuel hl
    simp [clusterPoisson, hl, Run.fail]
  · intro n_seeds fuel r hr
    refine first n_seeds .otherIterable .unboundLocalError fuel ?_ r ?_
    · rintro seeds p q r - pos' hr
      cases hr
      rfl
    · have hneg : ¬ (n < 0 ∨ s < 0) := by omega
      simpa [clusterPoisson, hp, hneg] using hr
  · intro radius hu fuel r hr
    simp only at hr
    rw [usable_run h root gen u intensity size n s i hp (by omega) 0 hn radius hu] at hr
    refine first 0 radius .valueError fuel ?_ r hr
    rintro seeds p q r hseeds pos' hr
    obtain ⟨l, rfl, hl, _⟩ := seeds_spec h _ 0 _ _ _ (by omega) _ hseeds
    rw [List.length_eq_zero_iff] at hl
    subst hl
    cases radius with
    | none => simp [clusterRadii, pdist, Run.fail] at hr; exact hr.symm
    | num r => simp [clusterRadii, Run.fail] at hr; exact hr.symm
    | arr r => simp [clusterRadii, Run.fail] at hr; exact hr.symm
    | otherIterable => exact absurd hu id
  · intro fuel r hr
    simp only at hr
    rw [usable_run h root gen u intensity size n s i hp (by omega) 1 hn .none trivial] at hr
    refine first 1 .none .valueError fuel ?_ r hr
    rintro seeds p q r hseeds pos' hr
    obtain ⟨p, rfl⟩ := seeds_one h _ _ _ _ _ hseeds
    simp [clusterRadii, Run.fail] at hr
    exact hr.symm
  · intro hn2 radius hu hne fuel r hr
    simp only at hr
    rw [usable_run h root gen u intensity size n s i hp (by omega) 1 hn radius hu] at hr
    refine first 1 radius .typeError fuel ?_ r hr
    rintro seeds p q r hseeds pos' hr
    obtain ⟨p, rfl⟩ := seeds_one h _ _ _ _ _ hseeds
    obtain ⟨ρ, hρ⟩ : ∃ ρ, clusterRadii root radius 1 (.point p) = .ok [ρ] := by
      cases radius with
      | none => exact absurd rfl hne
      | num r => exact ⟨r, rfl⟩
      | arr l =>
        obtain ⟨ρ, rfl⟩ := List.length_eq_one_iff.1 (show l.length = 1 from hu)
        exact ⟨ρ, rfl⟩
      | otherIterable => exact absurd hu id
    have h1 : n.toNat ≠ 1 := by omega
    have h2 : ¬ n.toNat = 0 := by omega
    simp [hρ, arraySplitSizes, Nat.mod_one, clusterLoop, clusterPoints, h1, h2, Run.fail, Run.andThen] at hr
    exact hr.symm

/-! ### cluster_normal -/

private theorem normal_no_error (h : Hull K) (ha : h.area ≠ 0) (root : K → K) (mvn : M2 K → K → K → K × K) (center : K × K)
    (cov : CovArg K) (hc : UsableCov cov) (v : ℕ → K) (k : ℕ) (fuel pos : ℕ) (e : PyErr) :
    normal h root mvn center cov v (.int k) fuel pos ≠ some (.error e) := by
  obtain ⟨i, hi⟩ := parse_seeds h ha k
  intro hf
  obtain ⟨m, hm⟩ : ∃ m, resolveCov h cov 1 = .ok m := by
    cases cov <;> first | exact ⟨_, rfl⟩ | exact absurd hc id
  rw [normal, hi] at hf
  simp only [hm] at hf
  rw [if_neg (by omega), Run.andThen_error] at hf
  rcases hf with hf | ⟨_, _, _, hf⟩
  · exact replications_no_error _ (fun i pos e => rejection_no_error _ _ _ _ _ _) _ _ _ _ hf
  · cases hf

private theorem normal_stacks (h : Hull K) (ha : h.area ≠ 0) (root : K → K) (mvn : M2 K → K → K → K × K) (center : K × K)
    (cov : CovArg K) (v : ℕ → K) (k : ℕ) (fuel pos : ℕ) (c : Squeezed K) (q : ℕ)
    (hf : normal h root mvn center cov v (.int k) fuel pos = some (.ok (c, q))) : ∃ l, vstackFirst center c = .ok l := by
  obtain ⟨i, hi⟩ := parse_seeds h ha k
  obtain ⟨_, _, _, _, reps, _, rfl⟩ := normal_ok h root mvn center cov v _ _ _ i hi fuel pos c q hf
  rw [squeeze, if_pos (show Int.toNat 1 = 1 from rfl)]
  split <;> exact ⟨_, rfl⟩

private theorem normalLoop_no_error (h : Hull K) (ha : h.area ≠ 0) (root : K → K) (mvn : M2 K → K → K → K × K) (gen : ℕ → ℕ → K)
    (cov : CovArg K) (hc : UsableCov cov) (fuel : ℕ) (items : List ((K × K) × ℕ × ℕ)) (hi : ∀ a ∈ items, 1 ≤ a.2.1) (e : PyErr) :
    clusterNormalLoop h root mvn gen cov fuel items ≠ some (.error e) := by
  induction items with
  | nil => simp [clusterNormalLoop]
  | cons a items ih =>
    obtain ⟨center, m, seed⟩ := a
    have hm : 1 ≤ m := hi (center, m, seed) (by simp)
    have ih := ih fun a ha => hi a (by simp [ha])
    rw [clusterNormalLoop]
    have tail : ∀ l : List (K × K), (match clusterNormalLoop h root mvn gen cov fuel items with
          | none => none
          | some (.error e) => some (.error e)
          | some (.ok ls) => some (.ok (l :: ls)) : Option (Py (List (List (K × K))))) ≠ some (.error e) := by
      intro l
      cases hr : clusterNormalLoop h root mvn gen cov fuel items with
      | none => simp
      | some x =>
        cases x with
        | error e' =>
          intro hx
          simp only [Option.some.injEq, Except.error.injEq] at hx
          exact ih (by rw [hr, hx])
        | ok _ => simp
    by_cases h1 : m = 1
    · subst h1
      exact tail [center]
    · simp only [h1, if_false, if_neg (show ¬ m < 1 by omega)]
      rw [show ((m : ℤ) - 1) = ((m - 1 : ℕ) : ℤ) by omega]
      cases hn : normal h root mvn center cov (gen seed) (.int ((m - 1 : ℕ) : ℤ)) fuel 0 with
      | none => simp
      | some x =>
        cases x with
        | error e => exact absurd hn (normal_no_error h ha root mvn center cov hc _ _ _ _ _)
        | ok x =>
          obtain ⟨c, q⟩ := x
          obtain ⟨l, hl⟩ := normal_stacks h ha root mvn center cov _ _ _ _ _ _ hn
          simp only [hl]
          exact tail l

private theorem cov_next (root : K → K) (cov : CovArg K) (hc : UsableCov cov) (l : List (K × K)) (hl : 2 ≤ l.length) :
    ∃ c, (match cov with
      | .none => (meanSpacingSq root (.rows l)).map CovArg.num
      | c => .ok c : Py (CovArg K)) = .ok c ∧ UsableCov c := by
  cases cov with
  | none =>
    simp only [meanSpacingSq]
    cases h : pdist root l with
    | nil => exact absurd h (pdist_ne_nil root l hl)
    | cons d ds => exact ⟨_, rfl, trivial⟩
  | num c => exact ⟨_, rfl, trivial⟩
  | mat c => exact ⟨_, rfl, trivial⟩
  | mats l => exact absurd hc id
  | badShape => exact absurd hc id
  | other => exact absurd hc id

/-- **C133, cluster_normal.** On a hull that has an area, with at least two seeds, at least as many points as seeds and a usable
covariance, `cluster_normal` never raises. -/
theorem C133_cluster_normal_ok (h : Hull K) (ha : h.area ≠ 0) (root : K → K) (mvn : M2 K → K → K → K × K) (gen : ℕ → ℕ → K)
    (u : ℕ → K) (cov : CovArg K) (hc : UsableCov cov) (size : SizeArg) (n s : ℤ) (i : XF K)
    (hp : parseSizeAndIntensity h none size = .ok (n, s, i)) (hs : 0 ≤ s) (n_seeds : ℕ) (hk : 2 ≤ n_seeds) (hn : (n_seeds : ℤ) ≤ n)
    (pos : ℕ) : NeverRaises fun fuel => clusterNormal h root mvn gen u cov size n_seeds fuel pos := by
  intro fuel e hf
  simp only [clusterNormal, hp] at hf
  rw [if_neg (by omega), Run.andThen_error] at hf
  rcases hf with hf | ⟨_, _, _, hf⟩
  · revert hf
    generalize pos + s.toNat = q
    generalize s.toNat = m
    generalize 0 = j
    induction m generalizing j q cov with
    | zero => simp [clusterNormalReps, Run.ret]
    | succ m ih =>
      intro hf
      rw [clusterNormalReps] at hf
      cases hseeds : poisson h (gen (seedDraw (u (pos + j)))) none (.int n_seeds) fuel 0 with
      | none => rw [hseeds] at hf; cases hf
      | some x =>
        cases x with
        | error e => exact seeds_no_error h ha _ _ _ _ _ hseeds
        | ok x =>
          obtain ⟨seeds, p⟩ := x
          obtain ⟨l, rfl, hl, _⟩ := seeds_spec h _ _ _ _ _ (by omega) _ hseeds
          obtain ⟨c, hc1, hc2⟩ := cov_next root cov hc l (by omega)
          rw [hseeds] at hf
          simp only at hf
          split at hf
          · next e' he => cases hc1.symm.trans he
          next c' he =>
          cases hc1.symm.trans he
          rw [if_neg (by omega)] at hf
          split at hf
          · cases hf
          · next e' he =>
            refine normalLoop_no_error h ha root mvn gen c hc2 fuel _ ?_ _ he
            intro a hm
            have h1 := (List.of_mem_zip (a := a.1) (b := a.2) hm).2
            exact sizes_pos _ _ (by omega) (by omega) _ (List.of_mem_zip (a := a.2.1) (b := a.2.2) h1).1
          · rw [Run.andThen_error] at hf
            rcases hf with hf | ⟨_, _, _, hf⟩
            · exact ih c hc2 _ _ hf
            · cases hf
  · cases hf

private theorem normalLoop_few (h : Hull K) (root : K → K) (mvn : M2 K → K → K → K × K) (gen : ℕ → ℕ → K)
    (cov : CovArg K) (fuel n m : ℕ) (hm : 0 < m) (l : List (K × K)) (seeds : List ℕ) (hl : n < l.length) (hs : n < seeds.length) :
    clusterNormalLoop h root mvn gen cov fuel (l.zip ((List.replicate n 1 ++ List.replicate m 0).zip seeds))
      = some (.error .exception) := by
  induction n generalizing l seeds with
  | zero =>
    match l, hl, seeds, hs, m, hm with
    | c :: l, _, sd :: seeds, _, m + 1, _ =>
      rw [List.replicate_succ (n := m)]
      rfl
  | succ n ih =>
    match l, hl, seeds, hs with
    | c :: l, hl, sd :: seeds, hs =>
      rw [List.replicate_succ (n := n), List.cons_append, List.zip_cons_cons, List.zip_cons_cons, clusterNormalLoop]
      simp only [if_true]
      rw [ih l seeds (by simpa using hl) (by simpa using hs)]

/-- **C133, cluster_normal, too many clusters.** With more seeds than points it raises the exception that says so, as soon as the
seeds are found; on a box they always are. -/
theorem C133_cluster_normal_too_many (h : Hull K) (ha : h.area ≠ 0) (root : K → K) (mvn : M2 K → K → K → K × K) (gen : ℕ → ℕ → K)
    (u : ℕ → K) (cov : CovArg K) (hc : UsableCov cov) (size : SizeArg) (n s : ℤ) (i : XF K)
    (hp : parseSizeAndIntensity h none size = .ok (n, s, i)) (hs : 1 ≤ s) (n_seeds : ℕ) (hk : 2 ≤ n_seeds) (hn0 : 0 ≤ n)
    (hn : n < n_seeds) (pos : ℕ) :
    EndsWith (fun fuel => clusterNormal h root mvn gen u cov size n_seeds fuel pos) .exception
    ∧ ∀ b, h = Hull.ofBBox b → b.xmin ≤ b.xmax → b.ymin ≤ b.ymax → (∀ k, IsDraws (gen k)) →
      Returns (fun fuel => clusterNormal h root mvn gen u cov size n_seeds fuel pos) (.error .exception) := by
  obtain ⟨s', hs'⟩ : ∃ s', s.toNat = s' + 1 := ⟨s.toNat - 1, by omega⟩
  have once : ∀ fuel seeds p, poisson h (gen (seedDraw (u (pos + 0)))) none (.int n_seeds) fuel 0 = some (.ok (seeds, p)) →
      clusterNormal h root mvn gen u cov size n_seeds fuel pos = some (.error .exception) := by
    intro fuel seeds p hseeds
    obtain ⟨l, rfl, hl, _⟩ := seeds_spec h _ _ _ _ _ (by omega) _ hseeds
    obtain ⟨c, hc1, hc2⟩ := cov_next root cov hc l (by omega)
    simp only [clusterNormal, hp]
    rw [if_neg (by omega), hs', clusterNormalReps, hseeds]
    simp only
    split
    · next e' he => cases hc1.symm.trans he
    next c' he =>
    cases hc1.symm.trans he
    rw [if_neg (by omega), sizes_few _ _ (by omega),
      normalLoop_few _ _ _ _ _ _ _ _ (by omega) _ _ (by omega) (by simp; omega)]
    rfl
  constructor
  · intro fuel r hf
    simp only at hf
    cases hseeds : poisson h (gen (seedDraw (u (pos + 0)))) none (.int n_seeds) fuel 0 with
    | none =>
      simp only [clusterNormal, hp] at hf
      rw [if_neg (by omega), hs', clusterNormalReps, hseeds] at hf
      cases hf
    | some x =>
      cases x with
      | error e => exact absurd hseeds (seeds_no_error h ha _ _ _ _ _)
      | ok x =>
        rw [once fuel x.1 x.2 hseeds] at hf
        cases hf
        rfl
  · rintro b rfl hx hy hgen
    obtain ⟨j, hj⟩ := parse_seeds (Hull.ofBBox b) ha n_seeds
    obtain ⟨seeds, ⟨fuel, hseeds⟩, _⟩ := C40_poisson_box b hx hy _ (hgen (seedDraw (u (pos + 0)))) none _ _ _ j hj (by omega)
      (by omega) 0
    exact ⟨fuel, once fuel _ _ hseeds⟩

/-- **C133, cluster_normal, one seed.** It always fails: without a covariance with a `ValueError`; otherwise with an `IndexError` for
one point and a `ValueError` for more. -/
theorem C133_cluster_normal_one_seed (h : Hull K) (ha : h.area ≠ 0) (root : K → K) (mvn : M2 K → K → K → K × K) (gen : ℕ → ℕ → K)
    (u : ℕ → K) (cov : CovArg K) (size : SizeArg) (n s : ℤ) (i : XF K)
    (hp : parseSizeAndIntensity h none size = .ok (n, s, i)) (hs : 1 ≤ s) (hn : 1 ≤ n) (pos : ℕ) :
    EndsWith (fun fuel => clusterNormal h root mvn gen u cov size 1 fuel pos)
      (if cov ≠ .none ∧ n = 1 then .indexError else .valueError) := by
  obtain ⟨s', hs'⟩ : ∃ s', s.toNat = s' + 1 := ⟨s.toNat - 1, by omega⟩
  intro fuel r hf
  simp only [clusterNormal, hp] at hf
  rw [if_neg (by omega), hs', clusterNormalReps] at hf
  cases hseeds : poisson h (gen (seedDraw (u (pos + 0)))) none (.int 1) fuel 0 with
  | none =>
    rw [show (((1 : ℕ) : ℤ)) = 1 from rfl, hseeds] at hf
    cases hf
  | some x =>
    cases x with
    | error e => exact absurd hseeds (seeds_no_error h ha _ 1 _ _ _)
    | ok x =>
      obtain ⟨seeds, p⟩ := x
      obtain ⟨p, rfl⟩ := seeds_one h _ _ _ _ _ hseeds
      rw [show (((1 : ℕ) : ℤ)) = 1 from rfl, hseeds] at hf
      have hiff : n.toNat = 1 ↔ n = 1 := by omega
      have h0 : ¬ n.toNat < 1 := by omega
      cases cov with
      | none =>
        simp [meanSpacingSq, Except.map, Run.fail, Run.andThen] at hf
        simp [← hf]
      | _ =>
        by_cases h1 : n = 1 <;> simp [hiff, h1, h0, Run.fail, Run.andThen] at hf <;> simp [← hf, h1]

/-! ### Examples -/

/-- Three points in two clusters on the unit square. -/
example : parseSizeAndIntensity (Hull.ofBBox (⟨0, 0, 1, 1⟩ : BBox ℚ)) none (.int 3) = .ok (3, 1, .fin 3)
    ∧ (Hull.ofBBox (⟨0, 0, 1, 1⟩ : BBox ℚ)).area ≠ 0 ∧ UsableRadius 2 (.arr [(1 : ℚ), 2]) ∧ UsableCov (.num (1 : ℚ)) := by
  refine ⟨?_, ?_, rfl, trivial⟩ <;> decide +kernel

/-- Three points in four clusters: too many. -/
example : clusterPoisson (Hull.ofBBox (⟨0, 0, 1, 1⟩ : BBox ℚ)) id (fun _ i => if i % 2 = 0 then 1/4 else 1/2) (fun _ => 1/2) none
    (.int 3) 4 (.num 1) 9 0 = some (.error .exception) := by decide +kernel

end Pointpats.Props
