import Verif.Props.ClusterLaw
import Mathlib.Data.Fintype.CardEmbedding

/-!
# C161: whether the clusters of `cluster_normal` are independent
-/

namespace Pointpats.Props

open Random Spec MeasureTheory

set_option linter.unusedSectionVars false

section Copies

variable {K : Type} [Field K] [LinearOrder K] [IsStrictOrderedRing K] [FloorRing K]

/-- The displacements that the generator of an integer gives, for a covariance matrix. -/
private def displacement (root : K → K) (mvn : M2 K → K → K → K × K) (gen : ℕ → ℕ → K) (M : M2 K) (k i : ℕ) : K × K :=
  normalCandidate root mvn 0 M (gen k) (2 * i)

private theorem normalCandidate_eq (root : K → K) (mvn : M2 K → K → K → K × K) (gen : ℕ → ℕ → K) (M : M2 K) (k : ℕ) (c : K × K)
    (i : ℕ) : normalCandidate root mvn c M (gen k) (0 + 2 * i) = c + displacement root mvn gen M k i := by
  unfold displacement normalCandidate
  ext <;> simp

private theorem loop_points (h : Hull K) (root : K → K) (mvn : M2 K → K → K → K × K) (gen : ℕ → ℕ → K) (M : M2 K) (fuel : ℕ)
    (items : List ((K × K) × ℕ × ℕ)) (ls : List (List (K × K)))
    (hr : clusterNormalLoop h root mvn gen (.mat M) fuel items = some (.ok ls)) :
    List.Forall₂ (fun a cl => ∃ l used, cl = a.1 :: l ∧ cl.length = a.2.1
      ∧ FirstAccepted (fun i => a.1 + displacement root mvn gen M a.2.2 i) (fun p => h.contains p.1 p.2) l.length l used) items ls := by
  induction items generalizing ls with
  | nil =>
    rw [clusterNormalLoop] at hr
    cases hr
    exact .nil
  | cons a items ih =>
    obtain ⟨center, n_in, seed⟩ := a
    rw [clusterNormalLoop] at hr
    have key : ∀ cl, (if n_in = 1 then some (.ok [center])
        else if n_in < 1 then some (.error .exception)
        else match normal h root mvn center (.mat M) (gen seed) (.int ((n_in : ℤ) - 1)) fuel 0 with
          | none => none
          | some (.error e) => some (.error e)
          | some (.ok (candidates, _)) => some (vstackFirst center candidates) : Option (Py (List (K × K)))) = some (.ok cl) →
        ∃ l used, cl = center :: l ∧ cl.length = n_in
          ∧ FirstAccepted (fun i => center + displacement root mvn gen M seed i) (fun p => h.contains p.1 p.2) l.length l used := by
      intro cl hl
      by_cases h1 : n_in = 1
      · rw [if_pos h1] at hl
        cases hl
        exact ⟨[], 0, rfl, h1.symm, by simp [FirstAccepted]⟩
      · rw [if_neg h1] at hl
        by_cases h2 : n_in < 1
        · rw [if_pos h2] at hl; cases hl
        · rw [if_neg h2] at hl
          cases hn : normal h root mvn center (.mat M) (gen seed) (.int ((n_in : ℤ) - 1)) fuel 0 with
          | none => rw [hn] at hl; cases hl
          | some x =>
            cases x with
            | error e => rw [hn] at hl; cases hl
            | ok y =>
              obtain ⟨cand, pp⟩ := y
              rw [hn] at hl
              have hl := Option.some.inj hl
              have hpar : ∃ i, parseSizeAndIntensity h none (.int ((n_in : ℤ) - 1)) = .ok ((n_in : ℤ) - 1, 1, i) := by
                cases hd : divArea h ((n_in : ℤ) - 1) with
                | error e =>
                  exfalso
                  unfold normal at hn
                  simp only [parseSizeAndIntensity, hd, bind, Except.bind] at hn
                  cases hn
                | ok i => exact ⟨i, by simp only [parseSizeAndIntensity, hd, bind, Except.bind]; rfl⟩
              obtain ⟨i, hpar⟩ := hpar
              obtain ⟨cov', hc, -, -, reps, hreps, rfl⟩ := normal_ok _ _ _ _ _ _ _ _ _ _ hpar _ _ _ _ hn
              cases hc
              rw [show (1 : ℤ).toNat = 1 from rfl] at hreps hl
              rw [replications] at hreps
              obtain ⟨l, p1, hrej, hreps⟩ := Run.andThen_ok.1 hreps
              rw [replications] at hreps
              obtain ⟨_, p2, hret, hreps⟩ := Run.andThen_ok.1 hreps
              rw [Run.ret_ok] at hret hreps
              obtain ⟨rfl, -⟩ := hret
              obtain ⟨rfl, -⟩ := hreps
              obtain ⟨used, -, hF⟩ := rejection_spec _ _ _ _ _ _ _ hrej
              have hlen : l.length = ((n_in : ℤ) - 1).toNat := hF.2.1
              have hcl : cl = center :: l := by
                have hd := squeeze_data 1 ((n_in : ℤ) - 1).toNat [l] rfl (by simpa using hlen)
                unfold squeeze at hl hd
                rw [if_pos rfl] at hl hd
                split_ifs at hl hd
                · simp only [vstackFirst, Except.ok.injEq] at hl
                  simp only [Squeezed.data, List.flatten_cons, List.flatten_nil, List.append_nil] at hd
                  rw [← hl]
                  simp only [List.flatten_cons, List.flatten_nil, List.append_nil]
                  rw [hd]
                · simp only [vstackFirst, Except.ok.injEq] at hl
                  rw [← hl]; simp
              refine ⟨l, used, hcl, by rw [hcl, List.length_cons, hlen]; omega, ?_⟩
              rw [hlen]
              simp only [normalCandidate_eq, CovArg.at] at hF
              exact hF
    split at hr
    · cases hr
    · cases hr
    · next l hl =>
      split at hr
      · cases hr
      · cases hr
      · next ls' hls =>
        cases hr
        exact .cons (key l hl) (ih ls' hls)

private theorem firstAccepted_prefix {α : Type} (cand : ℕ → α) (acc : α → Bool) (n used m : ℕ) (l : List α)
    (hF : FirstAccepted cand acc n l used) (hm : ∀ i < m, acc (cand i) = true) (i : ℕ) (hi : i < m) (hl : i < l.length) :
    l[i]? = some (cand i) := by
  obtain ⟨h1, -, -⟩ := hF
  have hle : l.length ≤ used := by
    rw [h1]
    exact (List.length_filter_le _ _).trans (by simp)
  obtain ⟨k, rfl⟩ : ∃ k, used = (i + 1) + k := ⟨used - (i + 1), by omega⟩
  rw [h1, List.range_add, List.map_append, List.filter_append, List.filter_eq_self.2 ?_, List.getElem?_append_left (by simp)]
  · simp
  · intro a ha
    obtain ⟨j, hj, rfl⟩ := List.mem_map.1 ha
    exact hm j (by rw [List.mem_range] at hj; omega)

/-- **C161 (partial).** In a pattern of `cluster_normal` with a given covariance matrix, the rows are cut into `n_seeds` clusters whose
sizes differ by at most one. A cluster is its centre, and then the first of the points `centre + d i` that lie in the hull, where `d i` is
the `i`-th displacement that a new generator gives which is made from an integer below 100000. So the draws of the caller's generator
decide the cluster only through its centre and through this integer. Missing: that the displacements of two clusters are independent.
They are not, see `C161_copies_refuted`. -/
theorem C161_cluster_points_partial (h : Hull K) (root : K → K) (mvn : M2 K → K → K → K × K) (gen : ℕ → ℕ → K) (u : ℕ → K) (M : M2 K)
    (size : SizeArg) (n : ℕ) (i : XF K) (hp : parseSizeAndIntensity h none size = .ok ((n : ℤ), 1, i)) (n_seeds : ℕ) (hk : 2 ≤ n_seeds)
    (pos pos' : ℕ) (r : Squeezed K)
    (hr : Returns (fun fuel => clusterNormal h root mvn gen u (.mat M) size n_seeds fuel pos) (.ok (r, pos'))) :
    ∃ clusters : List (List (K × K)), r.data = clusters.flatten ∧ clusters.length = n_seeds ∧ Balanced (clusters.map List.length)
      ∧ ∀ j < n_seeds, ∃ c l used, clusters[j]? = some (c :: l) ∧ h.contains c.1 c.2 = true
        ∧ FirstAccepted (fun i => c + normalCandidate root mvn 0 M (gen ⌊u (pos + 1 + j) * 100000⌋.toNat) (2 * i))
            (fun p => h.contains p.1 p.2) l.length l used := by
  obtain ⟨fuel, hr⟩ := hr
  simp only [clusterNormal, hp] at hr
  rw [if_neg (by omega)] at hr
  obtain ⟨reps, p1, hreps, hret⟩ := Run.andThen_ok.1 hr
  rw [Run.ret_ok] at hret
  obtain ⟨rfl, -⟩ := hret
  rw [show (1 : ℤ).toNat = 1 from rfl, Int.toNat_natCast] at *
  rw [clusterNormalReps] at hreps
  cases hpo : poisson h (gen (seedDraw (u (pos + 0)))) Option.none (.int n_seeds) fuel 0 with
  | none => rw [hpo] at hreps; cases hreps
  | some x =>
    cases x with
    | error e => rw [hpo] at hreps; cases hreps
    | ok y =>
      obtain ⟨centers, q⟩ := y
      rw [hpo] at hreps
      obtain ⟨l, rfl, hlen, hin⟩ := seeds_spec h _ n_seeds fuel 0 q (by omega) centers hpo
      simp only at hreps
      rw [if_neg (by omega)] at hreps
      cases hloop : clusterNormalLoop h root mvn gen (.mat M) fuel
          (l.zip ((arraySplitSizes n n_seeds).zip ((List.range n_seeds).map fun j => seedDraw (u (pos + 1 + j))))) with
      | none => rw [hloop] at hreps; cases hreps
      | some x =>
        cases x with
        | error e => rw [hloop] at hreps; cases hreps
        | ok ls =>
          rw [hloop] at hreps
          obtain ⟨rest, p2, hrest, hreps⟩ := Run.andThen_ok.1 hreps
          rw [clusterNormalReps, Run.ret_ok] at hrest
          rw [Run.ret_ok] at hreps
          obtain ⟨rfl, -⟩ := hrest
          obtain ⟨rfl, -⟩ := hreps
          have hF := loop_points h root mvn gen M fuel _ _ hloop
          have hsz := sizes_length n n_seeds (by omega)
          have hL : ls.length = n_seeds := by
            rw [← hF.length_eq]
            simp [hlen, hsz]
          have hmap : ls.map List.length = arraySplitSizes n n_seeds := by
            apply List.ext_getElem
            · simp [hL, hsz]
            · intro j h1 h2
              have := (List.forall₂_iff_get.1 hF).2 j (by simp [hlen, hsz]; omega) (by simpa using h1)
              obtain ⟨l', used, -, hl', -⟩ := this
              simpa using hl'
          refine ⟨ls, ?_, hL, ?_, ?_⟩
          · rw [squeeze_data 1 n]
            · simp
            · simp
            · intro a ha
              simp only [List.map_cons, List.map_nil, List.mem_singleton] at ha
              rw [ha, List.length_flatten, hmap, sizes_sum n n_seeds (by omega)]
          · rw [hmap]
            have key : ∀ a ∈ arraySplitSizes n n_seeds, a = n / n_seeds + 1 ∨ a = n / n_seeds := by
              intro a ha
              rcases List.mem_append.1 ha with ha | ha
              · exact Or.inl (List.mem_replicate.1 ha).2
              · exact Or.inr (List.mem_replicate.1 ha).2
            intro a ha b hb
            rcases key a ha with rfl | rfl <;> rcases key b hb with rfl | rfl <;> omega
          · intro j hj
            obtain ⟨l', used, hc, -, hFA⟩ := (List.forall₂_iff_get.1 hF).2 j (by simp [hlen, hsz]; omega) (by omega)
            simp only [List.get_eq_getElem, List.getElem_zip, List.getElem_map, List.getElem_range] at hc hFA
            refine ⟨l[j], l', used, ?_, hin _ (List.getElem_mem _), hFA⟩
            rw [List.getElem?_eq_getElem (by omega), hc]

/-- **C161 (refuted).** Two clusters of a pattern of `cluster_normal` for which the same integer is drawn are copies of each other: as
long as none of their candidates leaves the hull, the points of the one are the points of the other, moved by the difference of the
centres. `C161_birthday` says how often this happens. -/
theorem C161_copies_refuted (h : Hull K) (root : K → K) (mvn : M2 K → K → K → K × K) (gen : ℕ → ℕ → K) (u : ℕ → K) (M : M2 K)
    (size : SizeArg) (n : ℕ) (i : XF K) (hp : parseSizeAndIntensity h none size = .ok ((n : ℤ), 1, i)) (n_seeds : ℕ) (hk : 2 ≤ n_seeds)
    (pos pos' : ℕ) (r : Squeezed K)
    (hr : Returns (fun fuel => clusterNormal h root mvn gen u (.mat M) size n_seeds fuel pos) (.ok (r, pos')))
    (a b : ℕ) (ha : a < n_seeds) (hb : b < n_seeds) (hab : ⌊u (pos + 1 + a) * 100000⌋ = ⌊u (pos + 1 + b) * 100000⌋) :
    ∃ clusters : List (List (K × K)), r.data = clusters.flatten ∧ clusters.length = n_seeds ∧ Balanced (clusters.map List.length)
      ∧ ∃ ca la cb lb, clusters[a]? = some (ca :: la) ∧ clusters[b]? = some (cb :: lb)
        ∧ ∀ m, (∀ i < m, ∀ c ∈ [ca, cb], h.contains
              (c + normalCandidate root mvn 0 M (gen ⌊u (pos + 1 + a) * 100000⌋.toNat) (2 * i)).1
              (c + normalCandidate root mvn 0 M (gen ⌊u (pos + 1 + a) * 100000⌋.toNat) (2 * i)).2 = true) →
            ∀ i p q, i < m → la[i]? = some p → lb[i]? = some q → q - p = cb - ca := by
  obtain ⟨cl, h1, h2, h3, h4⟩ := C161_cluster_points_partial h root mvn gen u M size n i hp n_seeds hk pos pos' r hr
  obtain ⟨ca, la, ua, hca, -, hFa⟩ := h4 a ha
  obtain ⟨cb, lb, ub, hcb, -, hFb⟩ := h4 b hb
  rw [← hab] at hFb
  refine ⟨cl, h1, h2, h3, ca, la, cb, lb, hca, hcb, fun m hm i p q hi hpi hqi => ?_⟩
  rw [firstAccepted_prefix _ _ _ _ m _ hFa (fun i hi => hm i hi ca (by simp)) i hi (List.getElem?_eq_some_iff.1 hpi).1] at hpi
  rw [firstAccepted_prefix _ _ _ _ m _ hFb (fun i hi => hm i hi cb (by simp)) i hi (List.getElem?_eq_some_iff.1 hqi).1] at hqi
  rw [← Option.some.inj hpi, ← Option.some.inj hqi]
  abel

end Copies

/-- **C161.** For independent uniform draws of the caller's generator, the integers of `n` clusters are all different with the
probability of the birthday problem, 100000 · 99999 · … · (100001 - n) / 100000 ^ n. -/
theorem C161_birthday {Ω : Type} [MeasurableSpace Ω] (P : Measure Ω) [IsProbabilityMeasure P] (U : ℕ → Ω → ℝ)
    (hU : IndependentDraws P U ((volume : Measure ℝ).restrict (Set.Ico 0 1))) (n pos : ℕ) :
    P {ω | ∀ a b, a < b → b < n → ⌊U (pos + a) ω * 100000⌋.toNat ≠ ⌊U (pos + b) ω * 100000⌋.toNat}
      = ((Nat.descFactorial 100000 n : ℕ) : ENNReal) / 100000 ^ n := by
  let D : (Fin n → Fin 100000) → Set Ω := fun f => {ω | ∀ j : Fin n, seedDraw (U (pos + j) ω) = f j}
  have hmD : ∀ f, MeasurableSet (D f) := by
    intro f
    rw [show D f = ⋂ j : Fin n, U (pos + j) ⁻¹' (seedDraw ⁻¹' {((f j : Fin 100000) : ℕ)}) by ext ω; simp [D]]
    exact MeasurableSet.iInter fun j => hU.measurable _ (MeasurableRun.measurable_seedDraw (measurableSet_singleton _))
  have hD : ∀ f, P (D f) = (1 / 100000) ^ n := by
    intro f
    have := C148_seeds P U hU (List.ofFn fun j => ((f j : Fin 100000) : ℕ)) (by simp [List.mem_ofFn]) pos
    rw [List.length_ofFn] at this
    rw [← this]
    congr 1
    ext ω
    simp only [D, Set.mem_ofPred_eq]
    constructor
    · intro h j k hjk
      obtain ⟨hj, rfl⟩ := List.getElem?_eq_some_iff.1 hjk
      rw [List.length_ofFn] at hj
      simpa using h ⟨j, hj⟩
    · intro h j
      exact h j _ (by simp)
  have hlt : ∀ᵐ ω ∂P, ∀ i, U i ω ∈ Set.Ico (0 : ℝ) 1 := by
    rw [ae_all_iff]
    intro i
    have : ∀ᵐ x ∂(P.map (U i)), x ∈ Set.Ico (0 : ℝ) 1 := by
      rw [hU.distribution]
      exact ae_restrict_mem measurableSet_Ico
    exact ae_of_ae_map (hU.measurable i).aemeasurable this
  have hdis : Pairwise (Function.onFun Disjoint fun e : Fin n ↪ Fin 100000 => D e) := by
    intro e e' hne
    rw [Function.onFun, Set.disjoint_left]
    intro ω h1 h2
    apply hne
    ext j
    exact (h1 j).symm.trans (h2 j)
  have hset : {ω | ∀ a b, a < b → b < n → ⌊U (pos + a) ω * 100000⌋.toNat ≠ ⌊U (pos + b) ω * 100000⌋.toNat}
      =ᵐ[P] ⋃ e : Fin n ↪ Fin 100000, D e := by
    filter_upwards [hlt] with ω hω
    apply propext
    change (∀ a b, a < b → b < n → seedDraw (U (pos + a) ω) ≠ seedDraw (U (pos + b) ω)) ↔ ω ∈ ⋃ e : Fin n ↪ Fin 100000, D e
    rw [Set.mem_iUnion]
    constructor
    · intro h
      refine ⟨⟨fun j => ⟨seedDraw (U (pos + j) ω), seedDraw_lt _ (hω _).2⟩, ?_⟩, fun j => rfl⟩
      intro a b hab
      have hab : seedDraw (U (pos + a) ω) = seedDraw (U (pos + b) ω) := congrArg Fin.val hab
      rcases lt_trichotomy a b with hl | he | hl
      · exact absurd hab (h a b hl b.2)
      · exact he
      · exact absurd hab.symm (h b a hl a.2)
    · rintro ⟨e, he⟩ a b hab hb hs
      have h1 := he ⟨a, by omega⟩
      have h2 := he ⟨b, hb⟩
      simp only at h1 h2
      rw [hs, h2] at h1
      have := e.injective (Fin.ext h1)
      simp only [Fin.mk.injEq] at this
      omega
  rw [measure_congr hset, measure_iUnion hdis fun e => hmD e, tsum_fintype, Finset.sum_congr rfl (fun (e : Fin n ↪ Fin 100000) _ => hD ⇑e), Finset.sum_const,
    Finset.card_univ, Fintype.card_embedding_eq, Fintype.card_fin, Fintype.card_fin, nsmul_eq_mul, one_div, ENNReal.div_eq_inv_mul,
    ENNReal.inv_pow, mul_comm]

/-- With 400 clusters, two have the same integer with a probability above one half. -/
example {Ω : Type} [MeasurableSpace Ω] (P : Measure Ω) [IsProbabilityMeasure P] (U : ℕ → Ω → ℝ)
    (hU : IndependentDraws P U ((volume : Measure ℝ).restrict (Set.Ico 0 1))) (pos : ℕ) :
    P {ω | ∀ a b, a < b → b < 400 → ⌊U (pos + a) ω * 100000⌋.toNat ≠ ⌊U (pos + b) ω * 100000⌋.toNat} < 1 / 2 := by
  rw [C161_birthday P U hU]
  have h : Nat.descFactorial 100000 400 * 2 < 100000 ^ 400 := by decide +kernel
  generalize Nat.descFactorial 100000 400 = d at h
  have h : (d : ENNReal) * 2 < 100000 ^ 400 := by exact_mod_cast h
  generalize hN : (100000 : ENNReal) ^ 400 = N at h
  have h0 : N ≠ 0 := by rw [← hN]; exact pow_ne_zero _ (by norm_num)
  have ht : N ≠ ⊤ := by rw [← hN]; exact ENNReal.pow_ne_top (by norm_num)
  rw [ENNReal.div_lt_iff (.inl h0) (.inl ht), one_div, mul_comm, ← div_eq_mul_inv, ENNReal.lt_div_iff_mul_lt (by simp) (by simp)]
  exact h

/-- Two clusters of three points with the same integer 4. -/
example : ∃ r pos, clusterNormal (Hull.ofBBox (⟨0, 0, 8, 8⟩ : BBox ℚ)) (fun x => x) (fun _ x y => (x, y))
      (fun k i => if k = 4 then (([1, 2, 0, 1].getD i 0 : ℕ) : ℚ) else ((i + 1 : ℕ) : ℚ) / 8)
      (fun i => (([3, 4, 4].getD i 0 : ℕ) : ℚ) / 100000) (.mat ⟨1, 0, 0, 1⟩) (.int 6) 2 9 0
    = some (.ok (r, pos)) ∧ r.data = [(1, 2), (2, 4), (1, 3), (3, 4), (4, 6), (3, 5)] := by
  refine ⟨.rows [(1, 2), (2, 4), (1, 3), (3, 4), (4, 6), (3, 5)], 3, ?_, rfl⟩
  decide +kernel

end Pointpats.Props
