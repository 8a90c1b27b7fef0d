import Verif.Props.RandomCluster
import Mathlib.MeasureTheory.Measure.Lebesgue.Basic
import Mathlib.MeasureTheory.Measure.Prod

/-!
# Property C113: the law of the centres of simulated clusters

The centres are drawn by a new generator that is made from one of 100000 seeds.
-/

set_option linter.unusedSectionVars false

namespace Pointpats.Props

open Random Spec MeasureTheory

section Field

variable {K : Type} [Field K] [LinearOrder K] [IsStrictOrderedRing K] [FloorRing K]

theorem seedDraw_lt (x : K) (hx : x < 1) : seedDraw x < 100000 := by
  unfold seedDraw
  have h : ⌊x * 100000⌋ < 100000 := by
    rw [Int.floor_lt]
    push_cast
    nlinarith
  omega

theorem poisson_fuel_mono (h : Hull K) (v : ℕ → K) (intensity : Option K) (size : SizeArg) (fuel k pos : ℕ)
    (r : Py (Squeezed K × ℕ)) (hr : poisson h v intensity size fuel pos = some r) :
    poisson h v intensity size (fuel + k) pos = some r := by
  unfold poisson at hr ⊢
  cases hp : parseSizeAndIntensity h intensity size with
  | error e => rw [hp] at hr; exact hr
  | ok x =>
    obtain ⟨n, s, i⟩ := x
    rw [hp] at hr
    simp only at hr ⊢
    by_cases hneg : n < 0 ∨ s < 0
    · rw [if_pos hneg] at hr ⊢; exact hr
    · rw [if_neg hneg] at hr ⊢
      have hmono : ∀ r, poissonReps h v n.toNat s.toNat fuel pos = some r →
          poissonReps h v n.toNat s.toNat (fuel + k) pos = some r := by
        intro r hr
        exact replications_mono _ _ _ _ _ _ (fun j p r hb => rejection_mono _ _ _ _ _ _ _ hb) hr
      match r with
      | .error e =>
        rcases Run.andThen_error.1 hr with hr | ⟨a, p, h1, hr⟩
        · exact Run.andThen_error.2 (Or.inl (hmono _ hr))
        · exact Run.andThen_error.2 (Or.inr ⟨a, p, hmono _ h1, hr⟩)
      | .ok (ls, p') =>
        obtain ⟨a, p, h1, h2⟩ := Run.andThen_ok.1 hr
        exact Run.andThen_ok.2 ⟨a, p, hmono _ h1, h2⟩

/-- The same generator gives the same points, whatever the bounds on the number of rounds. -/
theorem poisson_fuel_det (h : Hull K) (v : ℕ → K) (intensity : Option K) (size : SizeArg) (fuel fuel' pos : ℕ)
    (r r' : Py (Squeezed K × ℕ)) (hr : poisson h v intensity size fuel pos = some r)
    (hr' : poisson h v intensity size fuel' pos = some r') : r = r' := by
  rcases le_total fuel fuel' with hle | hle
  · have := poisson_fuel_mono h v intensity size fuel (fuel' - fuel) pos r hr
    rw [Nat.add_sub_cancel' hle, hr'] at this
    exact (Option.some.inj this).symm
  · have := poisson_fuel_mono h v intensity size fuel' (fuel - fuel') pos r' hr'
    rw [Nat.add_sub_cancel' hle, hr] at this
    exact Option.some.inj this

/-- The first of the points that a generator gives as centres. -/
noncomputable def firstCentre (h : Hull K) (v : ℕ → K) (n_seeds : ℕ) : K × K := by
  classical
  exact if hex : ∃ fuel l q, poisson h v none (.int n_seeds) fuel 0 = some (.ok (.rows l, q))
    then hex.choose_spec.choose.headD (0, 0) else (0, 0)

theorem firstCentre_eq (h : Hull K) (v : ℕ → K) (n_seeds fuel q : ℕ) (l : List (K × K))
    (hr : poisson h v none (.int n_seeds) fuel 0 = some (.ok (.rows l, q))) :
    firstCentre h v n_seeds = l.headD (0, 0) := by
  have hex : ∃ fuel l q, poisson h v none (.int n_seeds) fuel 0 = some (.ok (.rows l, q)) := ⟨fuel, l, q, hr⟩
  unfold firstCentre
  rw [dif_pos hex]
  obtain ⟨q', hq'⟩ := hex.choose_spec.choose_spec
  have := poisson_fuel_det h v none _ _ _ _ _ _ hr hq'
  simp only [Except.ok.injEq, Prod.mk.injEq, Squeezed.rows.injEq] at this
  rw [← this.1]

theorem squeeze_head (s n : ℕ) (reps : List (List (K × K))) (p : K × K) (hp : reps.flatten.head? = some p) :
    (squeeze s n reps).data.head? = some p := by
  unfold squeeze
  split_ifs
  · cases hf : reps.flatten with
    | nil => simp [hf] at hp
    | cons a l => simpa [hf, Squeezed.data] using hp
  · exact hp
  · exact hp
  · exact hp

theorem getElem?_flatten_mul {α : Type} (n : ℕ) (reps : List (List α)) (hlen : ∀ rep ∈ reps, rep.length = n) (hn : 0 < n)
    (j : ℕ) (rep : List α) (hj : reps[j]? = some rep) : reps.flatten[j * n]? = rep.head? := by
  induction reps generalizing j with
  | nil => simp at hj
  | cons a reps ih =>
    have ha : a.length = n := hlen a List.mem_cons_self
    cases j with
    | zero =>
      simp only [List.getElem?_cons_zero, Option.some.injEq] at hj
      subst hj
      rw [Nat.zero_mul, List.flatten_cons, List.getElem?_append_left (by omega), List.head?_eq_getElem?]
    | succ j =>
      rw [List.flatten_cons, List.getElem?_append_right (by rw [ha, Nat.succ_mul]; omega), ha, Nat.succ_mul,
        Nat.add_sub_cancel]
      exact ih (fun rep hrep => hlen rep (List.mem_cons_of_mem _ hrep)) j (by simpa using hj)

/-- **C113, the first points of the replications.** For at least two seeds: whenever `cluster_poisson` returns, the first
point of every replication is a function of one integer below 100000, drawn for this replication. -/
theorem C113_cluster_poisson_first_points (h : Hull K) (root : K → K) (gen : ℕ → ℕ → K) (n_seeds : ℕ) (hk : 2 ≤ n_seeds) :
    ∃ centre : ℕ → K × K, ∀ (u : ℕ → K) (intensity : Option K) (size : SizeArg) (n s : ℤ) (i : XF K)
      (_ : parseSizeAndIntensity h intensity size = .ok (n, s, i)) (radius : RadiusArg K) (pos : ℕ)
      (r : Squeezed K) (pos' : ℕ)
      (_ : Returns (fun fuel => clusterPoisson h root gen u intensity size n_seeds radius fuel pos) (.ok (r, pos')))
      (j : ℕ), (j : ℤ) < s → r.data[j * n.toNat]? = some (centre (seedDraw (u (pos + j)))) := by
  refine ⟨fun k => firstCentre h (gen k) n_seeds, ?_⟩
  intro u intensity size n s i hp radius pos r pos' hr j hj
  obtain ⟨fuel, hf⟩ := hr
  obtain ⟨harr, hn0, hs0, reps, h1, rfl⟩ := clusterPoisson_ok h root gen u intensity size n s i hp n_seeds radius fuel
    pos r pos' hf
  obtain ⟨g1, -⟩ := replications_spec _ _ _ _ _ _ h1
  have hmain : ∀ (k : ℕ) (clusters : List (List (K × K))), reps[k]? = some clusters →
      clusters.flatten.length = n.toNat ∧ 0 < n.toNat ∧
      clusters.flatten.head? = some (firstCentre h (gen (seedDraw (u (pos + k)))) n_seeds) := by
    intro k clusters hcl
    obtain ⟨q, q', hb⟩ := replications_index _ _ _ _ _ _ h1 k clusters hcl
    rw [Nat.zero_add] at hb
    cases hseeds : poisson h (gen (seedDraw (u (pos + k)))) none (.int n_seeds) fuel 0 with
    | none => simp only [hseeds] at hb; cases hb
    | some x =>
      cases x with
      | error e => simp only [hseeds] at hb; cases hb
      | ok y =>
        obtain ⟨seeds, pp⟩ := y
        simp only [hseeds] at hb
        obtain ⟨l, rfl, hl1, hl2⟩ := seeds_spec h _ n_seeds fuel 0 pp (by omega) seeds hseeds
        cases hrad : clusterRadii root radius n_seeds (.rows l) with
        | error e => rw [hrad] at hb; cases hb
        | ok radii =>
          rw [hrad] at hb
          simp only [if_neg (show n_seeds ≠ 0 by omega)] at hb
          have hR : radii.length = n_seeds := by
            cases radius with
            | num r0 =>
              simp only [clusterRadii] at hrad
              injection hrad with hrad
              rw [← hrad]; simp
            | arr l0 =>
              simp only [clusterRadii] at hrad
              injection hrad with hrad
              rw [← hrad]; exact harr l0 rfl
            | otherIterable => simp [clusterRadii] at hrad
            | none =>
              simp only [clusterRadii] at hrad
              cases hpd : pdist root l with
              | nil => rw [hpd] at hrad; cases hrad
              | cons d ds =>
                rw [hpd] at hrad
                injection hrad with hrad
                rw [← hrad]; simp
          have hsl := sizes_length n.toNat n_seeds (by omega)
          obtain ⟨k1, k2, k3⟩ := clusterLoop_spec h u fuel l hl2 0 _ _ _ _ hb
          have hsnd : (radii.zip (arraySplitSizes n.toNat n_seeds)).map Prod.snd = arraySplitSizes n.toNat n_seeds := by
            rw [List.map_snd_zip]; omega
          rw [hsnd] at k1
          have hclen : clusters.length = n_seeds := by
            have := congrArg List.length k1
            simpa [hsl] using this
          obtain ⟨c, cs, rfl⟩ := List.exists_cons_of_ne_nil (show clusters ≠ [] by rintro rfl; simp at hclen; omega)
          have hr1 : radii[0]? = some (radii[0]'(by omega)) := List.getElem?_eq_getElem _
          have hr2 : (arraySplitSizes n.toNat n_seeds)[0]? = some ((arraySplitSizes n.toNat n_seeds)[0]'(by omega)) :=
            List.getElem?_eq_getElem _
          obtain ⟨seed, a1, a2, -⟩ := k3 0 c _ _ (by simp) (List.getElem?_zip_eq_some.2 ⟨hr1, hr2⟩)
          obtain ⟨c0, hc0⟩ : ∃ c0, c = seed :: c0 := by
            cases c with
            | nil => simp at a2
            | cons a c0 => simp only [List.head?_cons, Option.some.injEq] at a2; exact ⟨c0, by rw [a2]⟩
          have hfl : (c :: cs).flatten.length = n.toNat := by
            rw [List.length_flatten, k1]
            exact sizes_sum _ _ (by omega)
          refine ⟨hfl, ?_, ?_⟩
          · rw [← hfl, hc0]
            simp
          · rw [firstCentre_eq h _ n_seeds fuel pp l hseeds]
            obtain ⟨l0, rfl⟩ : ∃ l0, l = seed :: l0 := by
              cases l with
              | nil => simp at a1
              | cons a l0 =>
                simp only [Nat.zero_add, List.getElem?_cons_zero, Option.some.injEq] at a1
                exact ⟨l0, by rw [a1]⟩
            simp [hc0]
  have hlen : (reps.map List.flatten).length = s.toNat := by rw [List.length_map]; exact g1
  have hall : ∀ rep ∈ reps.map List.flatten, rep.length = n.toNat := by
    intro rep hrep
    obtain ⟨c, hc, rfl⟩ := List.mem_map.1 hrep
    obtain ⟨k, hk⟩ := List.mem_iff_getElem?.1 hc
    exact (hmain k c hk).1
  have hjl : j < reps.length := by rw [g1]; omega
  obtain ⟨m1, m2, m3⟩ := hmain j reps[j] (List.getElem?_eq_getElem hjl)
  rw [squeeze_data _ _ _ hlen hall,
    getElem?_flatten_mul n.toNat _ hall m2 j (reps[j]).flatten (by rw [List.getElem?_map, List.getElem?_eq_getElem hjl]; rfl)]
  exact m3

/-- **C113, replications can share their centres.** If the same integer is drawn for two replications, their first
points are equal. (For two independent replications whose centres are uniformly distributed on a hull of positive area,
this has probability zero; the same integer is drawn with probability 1/100000.) -/
theorem C113_shared_centres_refuted (h : Hull K) (root : K → K) (gen : ℕ → ℕ → K) (n_seeds : ℕ) (hk : 2 ≤ n_seeds)
    (u : ℕ → K) (intensity : Option K) (size : SizeArg) (n s : ℤ) (i : XF K)
    (hp : parseSizeAndIntensity h intensity size = .ok (n, s, i)) (radius : RadiusArg K) (pos : ℕ) (r : Squeezed K) (pos' : ℕ)
    (hr : Returns (fun fuel => clusterPoisson h root gen u intensity size n_seeds radius fuel pos) (.ok (r, pos')))
    (j k : ℕ) (hj : (j : ℤ) < s) (hks : (k : ℤ) < s) (he : ⌊u (pos + j) * 100000⌋ = ⌊u (pos + k) * 100000⌋) :
    ∃ p, r.data[j * n.toNat]? = some p ∧ r.data[k * n.toNat]? = some p := by
  obtain ⟨centre, hc⟩ := C113_cluster_poisson_first_points h root gen n_seeds hk
  refine ⟨_, hc u intensity size n s i hp radius pos r pos' hr j hj, ?_⟩
  rw [hc u intensity size n s i hp radius pos r pos' hr k hks]
  simp only [seedDraw, he]

theorem clusterNormal_first (h : Hull K) (root : K → K) (mvn : M2 K → K → K → K × K) (gen : ℕ → ℕ → K) (cov : CovArg K)
    (fuel : ℕ) (center : K × K) (n_in seed : ℕ) (rest : List ((K × K) × ℕ × ℕ)) (ls : List (List (K × K)))
    (hr : clusterNormalLoop h root mvn gen cov fuel ((center, n_in, seed) :: rest) = some (.ok ls)) :
    ls.flatten.head? = some center := by
  rw [clusterNormalLoop] at hr
  have key : ∀ l, (if n_in = 1 then some (.ok [center])
      else if n_in < 1 then some (.error .exception)
      else match normal h root mvn center cov (gen seed) (.int ((n_in : ℤ) - 1)) fuel 0 with
        | none => none
        | some (.error e) => some (.error e)
        | some (.ok (candidates, _)) => some (vstackFirst center candidates) : Option (Py (List (K × K)))) = some (.ok l) →
      l.head? = some center := by
    intro l hl
    split_ifs at hl with h1 h2
    · cases hl; rfl
    · cases hl
    · cases hn : normal h root mvn center cov (gen seed) (.int ((n_in : ℤ) - 1)) fuel 0 with
      | none => rw [hn] at hl; cases hl
      | some x =>
        cases x with
        | error e => rw [hn] at hl; cases hl
        | ok y =>
          obtain ⟨cand, pp⟩ := y
          rw [hn] at hl
          cases cand with
          | point p => simp only [vstackFirst] at hl; cases hl; rfl
          | rows l' => simp only [vstackFirst] at hl; cases hl; rfl
          | cube a b => simp only [vstackFirst] at hl; cases hl
  split at hr
  · cases hr
  · cases hr
  · next l hl =>
    have hh := key l hl
    split at hr
    · cases hr
    · cases hr
    · next ls' hls =>
      cases hr
      cases l with
      | nil => simp at hh
      | cons a l => simpa using hh

/-- **C113, `cluster_normal`.** For at least two seeds: whenever `cluster_normal` returns a pattern, its first point is a
function of one integer below 100000. -/
theorem C113_cluster_normal_first_point (h : Hull K) (root : K → K) (mvn : M2 K → K → K → K × K) (gen : ℕ → ℕ → K)
    (n_seeds : ℕ) (hk : 2 ≤ n_seeds) :
    ∃ centre : ℕ → K × K, ∀ (u : ℕ → K) (cov : CovArg K) (size : SizeArg) (n s : ℤ) (i : XF K)
      (_ : parseSizeAndIntensity h none size = .ok (n, s, i)) (_ : 0 < s) (pos : ℕ) (r : Squeezed K) (pos' : ℕ)
      (_ : Returns (fun fuel => clusterNormal h root mvn gen u cov size n_seeds fuel pos) (.ok (r, pos'))),
      r.data.head? = some (centre (seedDraw (u pos))) := by
  refine ⟨fun k => firstCentre h (gen k) n_seeds, ?_⟩
  intro u cov size n s i hp hs pos r pos' hr
  obtain ⟨fuel, hf⟩ := hr
  simp only [clusterNormal, hp] at hf
  split at hf
  · cases hf
  · obtain ⟨reps, p, h1, h2⟩ := Run.andThen_ok.1 hf
    rw [Run.ret_ok] at h2
    obtain ⟨rfl, rfl⟩ := h2
    apply squeeze_head
    obtain ⟨s', hs'⟩ : ∃ s', s.toNat = s' + 1 := ⟨s.toNat - 1, by omega⟩
    rw [hs', clusterNormalReps, Nat.add_zero] at h1
    cases hc : poisson h (gen (seedDraw (u pos))) none (.int n_seeds) fuel 0 with
    | none => rw [hc] at h1; cases h1
    | some x =>
      cases x with
      | error e => rw [hc] at h1; cases h1
      | ok y =>
        obtain ⟨centers, pp⟩ := y
        rw [hc] at h1
        obtain ⟨l, rfl, hl1, hl2⟩ := seeds_spec h _ n_seeds fuel 0 pp (by omega) centers hc
        simp only [if_neg (show n_seeds ≠ 0 by omega)] at h1
        split at h1
        · cases h1
        · split at h1
          · cases h1
          · cases h1
          · next clusters hcl =>
            obtain ⟨rest, p', h3, h4⟩ := Run.andThen_ok.1 h1
            rw [Run.ret_ok] at h4
            obtain ⟨rfl, rfl⟩ := h4
            show _ = some (firstCentre h (gen (seedDraw (u pos))) n_seeds)
            rw [firstCentre_eq h _ n_seeds fuel pp l hc]
            have hsl := sizes_length n.toNat n_seeds (by omega)
            obtain ⟨a, l0, rfl⟩ := List.exists_cons_of_ne_nil (show l ≠ [] by rintro rfl; simp at hl1; omega)
            obtain ⟨b, bs, hb⟩ := List.exists_cons_of_ne_nil
              (show arraySplitSizes n.toNat n_seeds ≠ [] by intro h0; rw [h0] at hsl; simp at hsl; omega)
            obtain ⟨d, ds, hd⟩ := List.exists_cons_of_ne_nil
              (show ((List.range n_seeds).map fun j => seedDraw (u (pos + s.toNat + j))) ≠ [] by
                intro h0
                have := congrArg List.length h0
                simp at this
                omega)
            rw [hs'] at hd
            rw [hb, hd, List.zip_cons_cons, List.zip_cons_cons] at hcl
            have := clusterNormal_first h root mvn gen _ fuel a b d _ clusters hcl
            cases hfl : clusters.flatten with
            | nil => simp [hfl] at this
            | cons z zs =>
              rw [hfl] at this
              simpa [hfl] using this

end Field

section Real

theorem finset_area_zero (F : Finset (ℝ × ℝ)) : volume (F : Set (ℝ × ℝ)) = 0 := by
  have : NullSingletonClass (volume : Measure (ℝ × ℝ)) := by
    rw [Measure.volume_eq_prod]
    infer_instance
  exact F.finite_toSet.measure_zero _

/-- **C113, refuted.** For every hull, every way in which generators are made from seeds, and every number of seeds from
two on, there is a set of at most 100000 points, of area zero, in which the first point of every pattern of
`cluster_poisson` lies, whatever is drawn. So, whatever the joint distribution of the draws, the first point, which is a
centre, is not uniformly distributed on any set `H`. -/
theorem C113_cluster_poisson_refuted (h : Hull ℝ) (root : ℝ → ℝ) (gen : ℕ → ℕ → ℝ) (n_seeds : ℕ) (hk : 2 ≤ n_seeds) :
    (∃ F : Finset (ℝ × ℝ), F.card ≤ 100000 ∧ volume (F : Set (ℝ × ℝ)) = 0 ∧
      ∀ (u : ℕ → ℝ) (_ : ∀ i, u i < 1) (intensity : Option ℝ) (size : SizeArg) (n s : ℤ) (i : XF ℝ)
        (_ : parseSizeAndIntensity h intensity size = .ok (n, s, i)) (_ : 0 < s) (radius : RadiusArg ℝ) (pos : ℕ)
        (r : Squeezed ℝ) (pos' : ℕ)
        (_ : Returns (fun fuel => clusterPoisson h root gen u intensity size n_seeds radius fuel pos) (.ok (r, pos'))),
        ∃ p ∈ F, r.data.head? = some p) ∧
    ∀ (Ω : Type) [MeasurableSpace Ω] (P : Measure Ω) [IsProbabilityMeasure P] (U : Ω → ℕ → ℝ) (_ : ∀ ω i, U ω i < 1)
      (size : SizeArg) (n s : ℤ) (i : XF ℝ) (_ : parseSizeAndIntensity h none size = .ok (n, s, i)) (_ : 0 < s)
      (radius : RadiusArg ℝ) (X : Ω → ℝ × ℝ)
      (_ : ∀ᵐ ω ∂P, ∃ r pos', Returns (fun fuel => clusterPoisson h root gen (U ω) none size n_seeds radius fuel 0)
        (.ok (r, pos')) ∧ r.data.head? = some (X ω)) (H : Set (ℝ × ℝ)),
      ¬ ∀ A, MeasurableSet A → P (X ⁻¹' A) = volume (A ∩ H) / volume H := by
  classical
  obtain ⟨centre, hc⟩ := C113_cluster_poisson_first_points h root gen n_seeds hk
  let F : Finset (ℝ × ℝ) := (Finset.range 100000).image centre
  have hvol : volume (F : Set (ℝ × ℝ)) = 0 := finset_area_zero F
  have hmem : ∀ (u : ℕ → ℝ) (_ : ∀ i, u i < 1) (intensity : Option ℝ) (size : SizeArg) (n s : ℤ) (i : XF ℝ)
      (_ : parseSizeAndIntensity h intensity size = .ok (n, s, i)) (_ : 0 < s) (radius : RadiusArg ℝ) (pos : ℕ)
      (r : Squeezed ℝ) (pos' : ℕ)
      (_ : Returns (fun fuel => clusterPoisson h root gen u intensity size n_seeds radius fuel pos) (.ok (r, pos'))),
      ∃ p ∈ F, r.data.head? = some p := by
    intro u hu intensity size n s i hp hs radius pos r pos' hr
    have h0 := hc u intensity size n s i hp radius pos r pos' hr 0 hs
    rw [Nat.zero_mul, ← List.head?_eq_getElem?] at h0
    exact ⟨_, Finset.mem_image.2 ⟨_, Finset.mem_range.2 (seedDraw_lt _ (hu _)), rfl⟩, h0⟩
  refine ⟨⟨F, Finset.card_image_le.trans (by simp), hvol, hmem⟩, ?_⟩
  intro Ω _ P _ U hU size n s i hp hs radius X hX H hall
  have h1 := hall F F.measurableSet
  have h2 : volume ((F : Set (ℝ × ℝ)) ∩ H) = 0 := measure_mono_null Set.inter_subset_left hvol
  rw [h2, ENNReal.zero_div] at h1
  have h3 : ∀ᵐ ω ∂P, ω ∈ X ⁻¹' (F : Set (ℝ × ℝ)) := by
    filter_upwards [hX] with ω hω
    obtain ⟨r, pos', hr, hh⟩ := hω
    obtain ⟨p, hp', he⟩ := hmem (U ω) (hU ω) none size n s i hp hs radius 0 r pos' hr
    rw [hh] at he
    show X ω ∈ (F : Set (ℝ × ℝ))
    rw [Option.some.inj he]
    exact hp'
  have h4 : P (X ⁻¹' (F : Set (ℝ × ℝ)))ᶜ = 0 := h3
  have h5 := measure_add_measure_compl₀ (μ := P) (s := X ⁻¹' (F : Set (ℝ × ℝ)))
    ((NullMeasurableSet.of_null h4).of_compl)
  rw [h1, h4] at h5
  simp at h5

/-- **C113, refuted for `cluster_normal`**, in the same sense. -/
theorem C113_cluster_normal_refuted (h : Hull ℝ) (root : ℝ → ℝ) (mvn : M2 ℝ → ℝ → ℝ → ℝ × ℝ) (gen : ℕ → ℕ → ℝ)
    (n_seeds : ℕ) (hk : 2 ≤ n_seeds) :
    ∃ F : Finset (ℝ × ℝ), F.card ≤ 100000 ∧ volume (F : Set (ℝ × ℝ)) = 0 ∧
      ∀ (u : ℕ → ℝ) (_ : ∀ i, u i < 1) (cov : CovArg ℝ) (size : SizeArg) (n s : ℤ) (i : XF ℝ)
        (_ : parseSizeAndIntensity h none size = .ok (n, s, i)) (_ : 0 < s) (pos : ℕ) (r : Squeezed ℝ) (pos' : ℕ)
        (_ : Returns (fun fuel => clusterNormal h root mvn gen u cov size n_seeds fuel pos) (.ok (r, pos'))),
        ∃ p ∈ F, r.data.head? = some p := by
  classical
  obtain ⟨centre, hc⟩ := C113_cluster_normal_first_point h root mvn gen n_seeds hk
  refine ⟨(Finset.range 100000).image centre, Finset.card_image_le.trans (by simp),
    finset_area_zero _, ?_⟩
  intro u hu cov size n s i hp hs pos r pos' hr
  exact ⟨_, Finset.mem_image.2 ⟨_, Finset.mem_range.2 (seedDraw_lt _ (hu _)), rfl⟩,
    hc u cov size n s i hp hs pos r pos' hr⟩

end Real

/-- Non-vacuity of C113: `cluster_poisson` returns two replications of five points around two seeds; the same integer is
drawn for both, and their first points are equal. -/
example : clusterPoisson (Hull.ofBBox (⟨0, 0, 8, 8⟩ : BBox ℚ)) (fun x => x)
    (fun k i => ((i % 3 + 1 : ℕ) : ℚ) / ((4 + k % 2 : ℕ) : ℚ))
    (fun i => if i < 2 then 1/7 else ((i % 3 + 1 : ℕ) : ℚ) / 4) none (.tuple [5, 2]) 2 (.num 2) 9 0
    = some (.ok (.cube 5 [[(8/5, 16/5), (13/5, 11/5), (3/5, 16/5), (24/5, 8/5), (24/5, 3/5)],
        [(8/5, 16/5), (13/5, 11/5), (3/5, 16/5), (24/5, 8/5), (24/5, 3/5)]], 26)) := by
  decide +kernel

end Pointpats.Props
