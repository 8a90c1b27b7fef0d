import Verif.Props.RandomCluster

/-!
# The points of `cluster_normal` for every covariance argument (C45)
-/

set_option linter.unusedSectionVars false

namespace Pointpats.Props

open Random Spec

variable {K : Type} [Field K] [LinearOrder K] [IsStrictOrderedRing K] [FloorRing K]

private theorem parse_int (h : Hull K) (k : ℤ) (x : ℤ × ℤ × XF K)
    (hp : parseSizeAndIntensity h none (.int k) = .ok x) : x.1 = k ∧ x.2.1 = 1 := by
  unfold parseSizeAndIntensity divArea at hp
  simp only at hp
  split at hp
  · cases hp
  · cases hp
    exact ⟨rfl, rfl⟩

private theorem normal_rest (h : Hull K) (root : K → K) (mvn : M2 K → K → K → K × K) (center : K × K) (cov : CovArg K) (v : ℕ → K)
    (k : ℕ) (fuel pos pos' : ℕ) (cand : Squeezed K) (l : List (K × K))
    (hr : normal h root mvn center cov v (.int k) fuel pos = some (.ok (cand, pos'))) (hl : vstackFirst center cand = .ok l) :
    ∃ others, l = center :: others ∧ others.length = k ∧ ∀ p ∈ others, h.contains p.1 p.2 = true := by
  have hl' : l = center :: cand.data := by
    cases cand with
    | point p => injection hl with hl; exact hl.symm
    | rows l => injection hl with hl; exact hl.symm
    | cube a b => cases hl
  cases hp : parseSizeAndIntensity h none (.int k) with
  | error e => rw [normal, hp] at hr; cases hr
  | ok x =>
    obtain ⟨n, s, i⟩ := x
    obtain ⟨e1, e2⟩ := parse_int h _ _ hp
    simp only at e1 e2
    subst e1 e2
    obtain ⟨⟨reps, hd, hlen, hm, -⟩, _⟩ := C43_normal_points h root mvn center _ v _ _ _ i hp pos cand pos' ⟨fuel, hr⟩
    obtain ⟨rep, rfl⟩ := List.length_eq_one_iff.1 (show reps.length = 1 by omega)
    have hd' : cand.data = rep := by simpa using hd
    have hm' := hm rep (by simp)
    refine ⟨cand.data, hl', by rw [hd']; omega, ?_⟩
    rw [hd']; exact hm'.2

private theorem loop_points (h : Hull K) (root : K → K) (mvn : M2 K → K → K → K × K) (gen : ℕ → ℕ → K) (cov : CovArg K) (fuel : ℕ)
    (items : List ((K × K) × ℕ × ℕ)) (hin : ∀ a ∈ items, h.contains a.1.1 a.1.2 = true) (ls : List (List (K × K)))
    (hr : clusterNormalLoop h root mvn gen cov fuel items = some (.ok ls)) :
    ls.map List.length = items.map (fun a => a.2.1) ∧ (∀ cl ∈ ls, ∀ p ∈ cl, h.contains p.1 p.2 = true)
    ∧ ls.map List.head? = items.map fun a => some a.1 := by
  induction items generalizing ls with
  | nil =>
    rw [clusterNormalLoop] at hr
    cases hr
    simp
  | cons a items ih =>
    obtain ⟨center, n_in, seed⟩ := a
    rw [clusterNormalLoop] at hr
    have hc := hin (center, n_in, seed) (by simp)
    simp only at hc
    have key : ∀ l, (if n_in = 1 then some (.ok [center])
        else if n_in < 1 then some (.error .exception)
        else match normal h root mvn center cov (gen seed) (.int ((n_in : ℤ) - 1)) fuel 0 with
          | none => none
          | some (.error e) => some (.error e)
          | some (.ok (candidates, _)) => some (vstackFirst center candidates) : Option (Py (List (K × K)))) = some (.ok l) →
        l.length = n_in ∧ (∀ p ∈ l, h.contains p.1 p.2 = true) ∧ l.head? = some center := by
      intro l hl
      by_cases h1 : n_in = 1
      · rw [if_pos h1] at hl
        cases hl
        refine ⟨by simp [h1], ?_, rfl⟩
        intro p hp; rw [List.mem_singleton.1 hp]; exact hc
      · rw [if_neg h1] at hl
        by_cases h2 : n_in < 1
        · rw [if_pos h2] at hl; cases hl
        · rw [if_neg h2] at hl
          have e : ((n_in : ℤ) - 1) = ((n_in - 1 : ℕ) : ℤ) := by omega
          rw [e] at hl
          cases hn : normal h root mvn center cov (gen seed) (.int ((n_in - 1 : ℕ) : ℤ)) fuel 0 with
          | none => rw [hn] at hl; cases hl
          | some x =>
            cases x with
            | error e => rw [hn] at hl; cases hl
            | ok y =>
              obtain ⟨cand, pp⟩ := y
              rw [hn] at hl
              obtain ⟨others, rfl, k1, k2⟩ := normal_rest h root mvn center cov _ _ _ _ _ _ _ hn (Option.some.inj hl)
              refine ⟨by simp [k1]; omega, ?_, rfl⟩
              intro p hp
              rcases List.mem_cons.1 hp with rfl | hp
              · exact hc
              · exact k2 p hp
    split at hr
    · cases hr
    · cases hr
    · next l hl =>
      obtain ⟨m1, m2, m3⟩ := key l hl
      split at hr
      · cases hr
      · cases hr
      · next ls' hls =>
        cases hr
        obtain ⟨k1, k2, k3⟩ := ih (fun a ha => hin a (by simp [ha])) ls' hls
        refine ⟨by simp [m1, k1], ?_, by simp [m3, k3]⟩
        intro x hx
        rcases List.mem_cons.1 hx with rfl | hx
        · exact m2
        · exact k2 x hx

private theorem reps_points (h : Hull K) (root : K → K) (mvn : M2 K → K → K → K × K) (gen : ℕ → ℕ → K) (u : ℕ → K)
    (n n_seeds fuel seedPos : ℕ) (hk : 2 ≤ n_seeds) (i s : ℕ) (cov : CovArg K) (pos : ℕ)
    (reps : List (List (K × K) × CovArg K × List (List (K × K)))) (pos' : ℕ)
    (hr : clusterNormalReps h root mvn gen u n n_seeds fuel seedPos i s cov pos = some (.ok (reps, pos'))) :
    reps.length = s ∧ ∀ rep ∈ reps, rep.2.2.length = n_seeds ∧ rep.2.2.flatten.length = n ∧ Balanced (rep.2.2.map List.length)
      ∧ (∀ cl ∈ rep.2.2, ∀ p ∈ cl, h.contains p.1 p.2 = true) := by
  induction s generalizing i pos reps cov with
  | zero =>
    rw [clusterNormalReps, Run.ret_ok] at hr
    obtain ⟨rfl, _⟩ := hr
    simp
  | succ s ih =>
    rw [clusterNormalReps] at hr
    cases hc : poisson h (gen (seedDraw (u (seedPos + i)))) none (.int n_seeds) fuel 0 with
    | none => rw [hc] at hr; cases hr
    | some x =>
      cases x with
      | error e => rw [hc] at hr; cases hr
      | ok y =>
        obtain ⟨centers, pp⟩ := y
        rw [hc] at hr
        simp only at hr
        obtain ⟨l, rfl, hl1, hl2⟩ := seeds_spec h _ n_seeds fuel 0 pp (by omega) centers hc
        split at hr
        · cases hr
        · next cov' _ =>
          rw [if_neg (by omega)] at hr
          simp only at hr
          split at hr
          · cases hr
          · cases hr
          · next clusters hcl =>
            obtain ⟨rest, p, h1, h2⟩ := Run.andThen_ok.1 hr
            rw [Run.ret_ok] at h2
            obtain ⟨rfl, rfl⟩ := h2
            obtain ⟨k1, k2⟩ := ih _ _ _ _ h1
            refine ⟨by simp [k1], ?_⟩
            have hsl := sizes_length n n_seeds (by omega)
            have hmap : (l.zip ((arraySplitSizes n n_seeds).zip
                ((List.range n_seeds).map fun j => seedDraw (u (pos + j))))).map (fun a => a.2.1)
                = arraySplitSizes n n_seeds := by
              rw [show (fun a : (K × K) × ℕ × ℕ => a.2.1) = Prod.fst ∘ Prod.snd from rfl, ← List.map_map,
                List.map_snd_zip, List.map_fst_zip]
              · simp [hsl]
              · simp [hsl, hl1]
            obtain ⟨m1, m2, -⟩ := loop_points h root mvn gen cov' fuel _ (by
              intro a ha
              exact hl2 _ (List.of_mem_zip (show (a.1, a.2) ∈ _ from ha)).1) clusters hcl
            rw [hmap] at m1
            intro rep hrep
            rcases List.mem_cons.1 hrep with rfl | hrep
            · refine ⟨?_, ?_, ?_, m2⟩
              · have := congrArg List.length m1
                simpa [hsl] using this
              · rw [List.length_flatten, m1]; exact sizes_sum _ _ (by omega)
              · rw [m1]; exact sizes_balanced _ _
            · exact k2 rep hrep

/-- **C45, points.** For at least two seeds and every argument `cov`, absent or given: whenever `cluster_normal` returns, there are the
requested number of replications, each of `n_seeds` clusters whose sizes differ by at most one and add up to the requested number of
points, all of which are in the hull. -/
theorem C45_cluster_normal_points (h : Hull K) (root : K → K) (mvn : M2 K → K → K → K × K) (gen : ℕ → ℕ → K) (u : ℕ → K) (cov : CovArg K)
    (size : SizeArg) (n s : ℤ) (i : XF K) (hp : parseSizeAndIntensity h none size = .ok (n, s, i)) (n_seeds : ℕ)
    (hk : 2 ≤ n_seeds) (pos : ℕ) (r : Squeezed K) (pos' : ℕ)
    (hr : Returns (fun fuel => clusterNormal h root mvn gen u cov size n_seeds fuel pos) (.ok (r, pos'))) :
    ∃ reps : List (List (List (K × K))), r.data = (reps.map List.flatten).flatten
      ∧ r.shape = [s.toNat, n.toNat].filter (· ≠ 1) ++ [2] ∧ (reps.length : ℤ) = s
      ∧ ∀ clusters ∈ reps, clusters.length = n_seeds ∧ (clusters.flatten.length : ℤ) = n ∧ Balanced (clusters.map List.length)
        ∧ ∀ c ∈ clusters, ∀ p ∈ c, h.contains p.1 p.2 = true := by
  obtain ⟨fuel, hf⟩ := hr
  simp only [clusterNormal, hp] at hf
  split at hf
  · cases hf
  · next hneg =>
    push Not at hneg
    obtain ⟨reps, p, h1, h2⟩ := Run.andThen_ok.1 hf
    rw [Run.ret_ok] at h2
    obtain ⟨rfl, rfl⟩ := h2
    obtain ⟨m1, m2⟩ := reps_points h root mvn gen u n.toNat n_seeds fuel pos hk 0 s.toNat cov _ reps _ h1
    have hlen : ∀ l ∈ reps.map fun r => r.2.2.flatten, l.length = n.toNat := by
      intro l hl
      obtain ⟨rep, hrep, rfl⟩ := List.mem_map.1 hl
      exact (m2 rep hrep).2.1
    refine ⟨reps.map fun r => r.2.2, ?_, ?_, by simp [m1]; omega, ?_⟩
    · rw [squeeze_data _ _ _ (by simp [m1]) hlen, List.map_map]
      rfl
    · exact squeeze_shape _ _ _ (by simp [m1]) hlen
    · intro clusters hc
      obtain ⟨rep, hrep, rfl⟩ := List.mem_map.1 hc
      obtain ⟨g1, g2, g3, g4⟩ := m2 rep hrep
      exact ⟨g1, by omega, g3, g4⟩

/-- Two clusters of two points for a given covariance matrix. -/
example : clusterNormal (Hull.ofBBox (⟨0, 0, 2, 3⟩ : BBox ℚ)) (fun x => x) (fun _ x y => (x, y)) (fun _ _ => 1 / 2)
    (fun _ => 1 / 2) (.mat ⟨1, 0, 0, 1⟩) (.int 4) 2 4 0
      = some (.ok (.rows [(1, 3 / 2), (3 / 2, 2), (1, 3 / 2), (3 / 2, 2)], 3)) := by decide +kernel

end Pointpats.Props
