import Verif.Lemmas.Circle
import Verif.Lemmas.MinMax
import Verif.Props.RandomPoisson
import Verif.Props.RandomNormal
import Mathlib.Algebra.BigOperators.Group.List.Basic

/-!
# C44, C45: cluster patterns
-/

namespace Pointpats.Props

open Random Spec

variable {K : Type} [Field K] [LinearOrder K]

/-- The Euclidean distance, given the square root. -/
def distBy (root : K → K) (p q : K × K) : K := root ((p.1 - q.1) ^ 2 + (p.2 - q.2) ^ 2)

omit [LinearOrder K] in
private theorem pdist_mem (root : K → K) (l : List (K × K)) (d : K) :
    d ∈ pdist root l ↔ ∃ (i j : ℕ) (p q : K × K), i < j ∧ l[i]? = some p ∧ l[j]? = some q ∧ distBy root p q = d := by
  induction l with
  | nil => simp [pdist]
  | cons a l ih =>
    rw [pdist, List.mem_append, ih, List.mem_map]
    constructor
    · rintro (⟨q, hq, rfl⟩ | ⟨i, j, p, q, hij, hi, hj, rfl⟩)
      · obtain ⟨k, hk⟩ := List.mem_iff_getElem?.1 hq
        exact ⟨0, k + 1, a, q, by omega, by simp, by simpa using hk, rfl⟩
      · exact ⟨i + 1, j + 1, p, q, by omega, by simpa using hi, by simpa using hj, rfl⟩
    · rintro ⟨i, j, p, q, hij, hi, hj, rfl⟩
      cases j with
      | zero => omega
      | succ j =>
        cases i with
        | zero =>
          left
          simp at hi hj
          subst hi
          exact ⟨q, List.mem_of_getElem? hj, rfl⟩
        | succ i =>
          right
          exact ⟨i, j, p, q, by omega, by simpa using hi, by simpa using hj, rfl⟩

omit [LinearOrder K] in
private theorem pairwise_of_pdist (root : K → K) (l : List (K × K)) (P : K → Prop) (h : ∀ d ∈ pdist root l, P d) :
    l.Pairwise fun p q => P (distBy root p q) := by
  induction l with
  | nil => exact List.Pairwise.nil
  | cons a l ih =>
    rw [pdist] at h
    refine List.Pairwise.cons ?_ (ih fun d hd => h d (List.mem_append_right _ hd))
    intro q hq
    exact h _ (List.mem_append_left _ (List.mem_map.2 ⟨q, hq, rfl⟩))

private theorem halfMin (root : K → K) [IsStrictOrderedRing K] (l : List (K × K)) (d : K) (ds : List K)
    (h : pdist root l = d :: ds) : IsHalfMinDist (distBy root) l (listMin d ds * (1 / 2)) := by
  have e : 2 * (listMin d ds * (1 / 2)) = listMin d ds := by ring
  refine ⟨?_, ?_⟩
  · rw [e]
    apply pairwise_of_pdist root l (fun x => listMin d ds ≤ x)
    intro x hx
    rw [h] at hx
    exact listMin_le hx
  · rw [e]
    have := listMin_mem d ds
    rw [← h, pdist_mem] at this
    exact this

theorem sizes_sum (n k : ℕ) (hk : 0 < k) : (arraySplitSizes n k).sum = n := by
  have h1 := Nat.mod_lt n hk
  have h2 := Nat.div_add_mod n k
  unfold arraySplitSizes
  rw [List.sum_append, List.sum_replicate, List.sum_replicate, smul_eq_mul, smul_eq_mul, Nat.mul_add, Nat.mul_one]
  have h3 : n % k * (n / k) + (k - n % k) * (n / k) = k * (n / k) := by
    rw [← Nat.add_mul]; congr 1; omega
  omega

theorem sizes_length (n k : ℕ) (hk : 0 < k) : (arraySplitSizes n k).length = k := by
  have h1 := Nat.mod_lt n hk
  unfold arraySplitSizes
  rw [List.length_append, List.length_replicate, List.length_replicate]
  omega

theorem sizes_balanced (n k : ℕ) : Balanced (arraySplitSizes n k) := by
  have key : ∀ a ∈ arraySplitSizes n k, a = n / k + 1 ∨ a = n / k := by
    intro a ha
    rcases List.mem_append.1 ha with ha | ha
    · exact Or.inl (List.mem_replicate.1 ha).2
    · exact Or.inr (List.mem_replicate.1 ha).2
  intro a ha b hb
  have h1 := key a ha
  have h2 := key b hb
  omega

theorem clusterLoop_spec [IsStrictOrderedRing K] (h : Hull K) (u : ℕ → K) (fuel : ℕ) (l : List (K × K))
    (hl : ∀ p ∈ l, h.contains p.1 p.2 = true) (i : ℕ) (spec : List (K × ℕ)) (pos : ℕ) (ls : List (List (K × K)))
    (pos' : ℕ) (hr : clusterLoop h u fuel (.rows l) i spec pos = some (.ok (ls, pos'))) :
    ls.map List.length = spec.map Prod.snd
    ∧ (∀ c ∈ ls, ∀ p ∈ c, h.contains p.1 p.2 = true)
    ∧ ∀ (k : ℕ) (c : List (K × K)) (ρ : K) (m : ℕ), ls[k]? = some c → spec[k]? = some (ρ, m) →
        ∃ seed, l[i + k]? = some seed ∧ c.head? = some seed ∧ ∀ p ∈ c, Within ρ p seed := by
  induction spec generalizing i pos ls with
  | nil =>
    rw [clusterLoop, Run.ret_ok] at hr
    obtain ⟨rfl, _⟩ := hr
    simp
  | cons a spec ih =>
    obtain ⟨radius, n_in⟩ := a
    rw [clusterLoop] at hr
    obtain ⟨c, p, h1, h2⟩ := Run.andThen_ok.1 hr
    obtain ⟨cs, p', h3, h4⟩ := Run.andThen_ok.1 h2
    rw [Run.ret_ok] at h4
    obtain ⟨rfl, rfl⟩ := h4
    obtain ⟨k1, k2, k3⟩ := ih (i + 1) p cs h3
    have key : ∃ seed, l[i]? = some seed ∧ c.head? = some seed ∧ c.length = n_in
        ∧ (∀ p ∈ c, h.contains p.1 p.2 = true) ∧ ∀ p ∈ c, Within radius p seed := by
      rw [clusterPoints] at h1
      cases hs : l[i]? with
      | none => rw [hs] at h1; cases h1
      | some seed =>
        rw [hs] at h1
        have hself : Within radius seed seed := by
          unfold Within; simp; exact sq_nonneg radius
        have hin := hl seed (List.mem_of_getElem? hs)
        simp only at h1
        split at h1
        · next hn =>
          rw [Run.ret_ok] at h1
          obtain ⟨rfl, _⟩ := h1
          refine ⟨seed, rfl, rfl, by simp [hn], ?_, ?_⟩
          · intro p hp; rw [List.mem_singleton.1 hp]; exact hin
          · intro p hp; rw [List.mem_singleton.1 hp]; exact hself
        · split at h1
          · cases h1
          · obtain ⟨q, p1, g1, g2⟩ := Run.andThen_ok.1 h1
            rw [Run.ret_ok] at g2
            obtain ⟨rfl, _⟩ := g2
            obtain ⟨m1, m2⟩ := uniformCircle_spec _ _ _ _ _ _ _ _ _ g1
            refine ⟨seed, rfl, rfl, ?_, ?_, ?_⟩
            · simp [m1]; omega
            · intro p hp
              rcases List.mem_cons.1 hp with rfl | hp
              · exact hin
              · exact (m2 p hp).2
            · intro p hp
              rcases List.mem_cons.1 hp with rfl | hp
              · exact hself
              · exact (m2 p hp).1
    obtain ⟨seed, e1, e2, e3, e4, e5⟩ := key
    refine ⟨by simp [e3, k1], ?_, ?_⟩
    · intro x hx
      rcases List.mem_cons.1 hx with rfl | hx
      · exact e4
      · exact k2 x hx
    · intro k x ρ m hx hm
      cases k with
      | zero =>
        simp at hx hm
        obtain ⟨rfl, rfl⟩ := hm
        subst hx
        exact ⟨seed, e1, e2, e5⟩
      | succ k =>
        obtain ⟨sd, a1, a2, a3⟩ := k3 k x ρ m (by simpa using hx) (by simpa using hm)
        exact ⟨sd, by rw [← a1]; congr 1; omega, a2, a3⟩

variable [IsStrictOrderedRing K] [FloorRing K]

omit [IsStrictOrderedRing K] in
private theorem parse_int (h : Hull K) (k : ℤ) (x : ℤ × ℤ × XF K)
    (hp : parseSizeAndIntensity h none (.int k) = .ok x) : x.1 = k ∧ x.2.1 = 1 := by
  unfold parseSizeAndIntensity divArea at hp
  simp only at hp
  split at hp
  · cases hp
  · cases hp
    exact ⟨rfl, rfl⟩

omit [IsStrictOrderedRing K] in
theorem seeds_spec (h : Hull K) (v : ℕ → K) (n_seeds fuel pos pos' : ℕ) (hk : n_seeds ≠ 1) (seeds : Squeezed K)
    (hr : poisson h v none (.int n_seeds) fuel pos = some (.ok (seeds, pos'))) :
    ∃ l, seeds = .rows l ∧ l.length = n_seeds ∧ ∀ p ∈ l, h.contains p.1 p.2 = true := by
  cases hp : parseSizeAndIntensity h none (.int n_seeds) with
  | error e => rw [poisson, hp] at hr; cases hr
  | ok x =>
    obtain ⟨n, s, i⟩ := x
    obtain ⟨e1, e2⟩ := parse_int h _ _ hp
    simp only at e1 e2
    subst e1 e2
    obtain ⟨⟨reps, hd, _, hm⟩, hsh, _⟩ := C40_poisson h v none _ _ _ i hp pos seeds pos' ⟨fuel, hr⟩
    cases seeds with
    | point p => simp [Squeezed.shape, hk] at hsh
    | cube a b => simp [Squeezed.shape, hk] at hsh
    | rows l =>
      refine ⟨l, rfl, ?_, ?_⟩
      · simp [Squeezed.shape, hk] at hsh; exact hsh
      · intro p hp'
        simp only [Squeezed.data] at hd
        rw [hd, List.mem_flatten] at hp'
        obtain ⟨rep, h1, h2⟩ := hp'
        exact (hm rep h1).2 p h2

omit [IsStrictOrderedRing K] in
theorem clusterPoisson_ok (h : Hull K) (root : K → K) (gen : ℕ → ℕ → K) (u : ℕ → K) (intensity : Option K)
    (size : SizeArg) (n s : ℤ) (i : XF K) (hp : parseSizeAndIntensity h intensity size = .ok (n, s, i))
    (n_seeds : ℕ) (radius : RadiusArg K) (fuel pos : ℕ) (r : Squeezed K) (pos' : ℕ)
    (hf : clusterPoisson h root gen u intensity size n_seeds radius fuel pos = some (.ok (r, pos'))) :
    (∀ l, radius = .arr l → l.length = n_seeds) ∧ 0 ≤ n ∧ 0 ≤ s ∧ ∃ reps,
      clusterPoissonReps h root gen u n.toNat s.toNat n_seeds radius fuel pos = some (.ok (reps, pos'))
      ∧ r = squeeze s.toNat n.toNat (reps.map List.flatten) := by
  have step : ∀ hf' : (if n < 0 ∨ s < 0 then Run.fail .valueError
      else (clusterPoissonReps h root gen u n.toNat s.toNat n_seeds radius fuel pos).andThen fun reps pos' =>
        Run.ret (squeeze s.toNat n.toNat (reps.map List.flatten)) pos') = some (.ok (r, pos')),
      0 ≤ n ∧ 0 ≤ s ∧ ∃ reps,
      clusterPoissonReps h root gen u n.toNat s.toNat n_seeds radius fuel pos = some (.ok (reps, pos'))
      ∧ r = squeeze s.toNat n.toNat (reps.map List.flatten) := by
    intro hf'
    by_cases hneg : n < 0 ∨ s < 0
    · rw [if_pos hneg] at hf'; cases hf'
    · rw [if_neg hneg] at hf'
      push Not at hneg
      obtain ⟨reps, p, h1, h2⟩ := Run.andThen_ok.1 hf'
      rw [Run.ret_ok] at h2
      obtain ⟨rfl, rfl⟩ := h2
      exact ⟨hneg.1, hneg.2, reps, h1, rfl⟩
  unfold clusterPoisson at hf
  rw [hp] at hf
  cases radius with
  | arr l =>
    by_cases hl : l.length = n_seeds
    · simp only [hl, ne_eq, not_true_eq_false, decide_false, Bool.false_eq_true, if_false] at hf
      exact ⟨by rintro l' ⟨⟩; exact hl, step hf⟩
    · simp [hl, Run.fail] at hf
  | none => exact ⟨by simp, step (by simpa using hf)⟩
  | num r0 => exact ⟨by simp, step (by simpa using hf)⟩
  | otherIterable => exact ⟨by simp, step (by simpa using hf)⟩

/-- The radii that the argument `cluster_radius` stands for, given the seeds of the replication: the number for
each of them, the array, or half of the smallest distance between seeds. -/
def RadiiFor (root : K → K) (radius : RadiusArg K) (seeds : List (K × K)) (radii : List K) : Prop :=
  match radius with
  | .num r => radii = List.replicate seeds.length r
  | .arr l => radii = l ∧ l.length = seeds.length
  | .none => ∃ ρ, radii = List.replicate seeds.length ρ ∧ IsHalfMinDist (distBy root) seeds ρ
  | .otherIterable => False

/-- **C44, partial.** For at least two seeds: whenever `cluster_poisson` returns, there are the requested number of
replications, each of which consists of `n_seeds` clusters; the sizes of the clusters add up to the requested number
of points and differ by at most one; all points are in the hull; the first point of every cluster is its seed,
and all its points are at most the radius of that cluster away from the seed. Missing: one seed, and radii given as
another iterable (`C44_cluster_poisson_refuted`, `C44_one_seed_refuted`). -/
theorem C44_cluster_poisson_partial (h : Hull K) (root : K → K) (gen : ℕ → ℕ → K) (u : ℕ → K) (intensity : Option K)
    (size : SizeArg) (n s : ℤ) (i : XF K) (hp : parseSizeAndIntensity h intensity size = .ok (n, s, i))
    (n_seeds : ℕ) (hk : 2 ≤ n_seeds) (radius : RadiusArg K) (pos : ℕ) (r : Squeezed K) (pos' : ℕ)
    (hr : Returns (fun fuel => clusterPoisson h root gen u intensity size n_seeds radius fuel pos) (.ok (r, pos'))) :
    ∃ reps : List (List (List (K × K))), r.data = (reps.map List.flatten).flatten
      ∧ r.shape = [s.toNat, n.toNat].filter (· ≠ 1) ++ [2]
      ∧ (reps.length : ℤ) = s
      ∧ ∀ clusters ∈ reps, clusters.length = n_seeds
        ∧ (clusters.flatten.length : ℤ) = n
        ∧ Balanced (clusters.map List.length)
        ∧ (∀ c ∈ clusters, ∀ p ∈ c, h.contains p.1 p.2 = true)
        ∧ ∃ (seeds : List (K × K)) (radii : List K), seeds.length = n_seeds ∧ RadiiFor root radius seeds radii
          ∧ ∀ (k : ℕ) (c : List (K × K)), clusters[k]? = some c →
            ∃ seed ρ, seeds[k]? = some seed ∧ c.head? = some seed ∧ radii[k]? = some ρ ∧ ∀ p ∈ c, Within ρ p seed := by
  obtain ⟨fuel, hf⟩ := hr
  obtain ⟨harr, hn0, hs0, reps, h1, rfl⟩ := clusterPoisson_ok h root gen u intensity size n s i hp n_seeds radius fuel
    pos r pos' hf
  obtain ⟨g1, g2⟩ := replications_spec _ _ _ _ _ _ h1
  have hmain : ∀ clusters ∈ reps, clusters.length = n_seeds
      ∧ clusters.flatten.length = n.toNat
      ∧ Balanced (clusters.map List.length)
      ∧ (∀ c ∈ clusters, ∀ p ∈ c, h.contains p.1 p.2 = true)
      ∧ ∃ (seeds : List (K × K)) (radii : List K), seeds.length = n_seeds ∧ RadiiFor root radius seeds radii
        ∧ ∀ (k : ℕ) (c : List (K × K)), clusters[k]? = some c →
          ∃ seed ρ, seeds[k]? = some seed ∧ c.head? = some seed ∧ radii[k]? = some ρ
            ∧ ∀ p ∈ c, Within ρ p seed := by
    intro clusters hcl
    obtain ⟨j, q, q', _, hb⟩ := g2 clusters hcl
    cases hseeds : poisson h (gen (seedDraw (u (pos + j)))) none (.int n_seeds) fuel 0 with
    | none => simp only [hseeds] at hb; cases hb
    | some x =>
      cases x with
      | error e => simp only [hseeds] at hb; cases hb
      | ok y =>
        obtain ⟨seeds, pp⟩ := y
        simp only [hseeds] at hb
        obtain ⟨l, rfl, hl1, hl2⟩ := seeds_spec h _ n_seeds fuel 0 pp (by omega) seeds hseeds
        cases hrad : clusterRadii root radius n_seeds (.rows l) with
        | error e => rw [hrad] at hb; cases hb
        | ok radii =>
          rw [hrad] at hb
          simp only [if_neg (show n_seeds ≠ 0 by omega)] at hb
          have hR : RadiiFor root radius l radii ∧ radii.length = n_seeds := by
            cases radius with
            | num r0 =>
              simp only [clusterRadii] at hrad
              injection hrad with hrad
              exact ⟨by rw [← hrad, ← hl1]; rfl, by rw [← hrad]; simp⟩
            | arr l0 =>
              simp only [clusterRadii] at hrad
              injection hrad with hrad
              have := harr l0 rfl
              exact ⟨⟨hrad.symm, by omega⟩, by rw [← hrad]; exact this⟩
            | otherIterable => simp [clusterRadii] at hrad
            | none =>
              simp only [clusterRadii] at hrad
              cases hpd : pdist root l with
              | nil => rw [hpd] at hrad; cases hrad
              | cons d ds =>
                rw [hpd] at hrad
                injection hrad with hrad
                exact ⟨⟨_, by rw [← hrad, ← hl1], halfMin root l d ds hpd⟩, by rw [← hrad]; simp⟩
          have hsl := sizes_length n.toNat n_seeds (by omega)
          obtain ⟨k1, k2, k3⟩ := clusterLoop_spec h u fuel l hl2 0 _ _ _ _ hb
          have hsnd : (radii.zip (arraySplitSizes n.toNat n_seeds)).map Prod.snd = arraySplitSizes n.toNat n_seeds := by
            rw [List.map_snd_zip]; omega
          rw [hsnd] at k1
          have hcl : clusters.length = n_seeds := by
            have := congrArg List.length k1
            simpa [hsl] using this
          refine ⟨hcl, ?_, ?_, k2, l, radii, hl1, hR.1, ?_⟩
          · rw [List.length_flatten, k1]
            exact sizes_sum _ _ (by omega)
          · rw [k1]; exact sizes_balanced _ _
          · intro k c hc
            have hlt : k < n_seeds := by
              rw [← hcl]; exact (List.getElem?_eq_some_iff.1 hc).1
            have hr1 : radii[k]? = some (radii[k]'(by omega)) := List.getElem?_eq_getElem _
            have hr2 : (arraySplitSizes n.toNat n_seeds)[k]? = some ((arraySplitSizes n.toNat n_seeds)[k]'(by omega)) :=
              List.getElem?_eq_getElem _
            obtain ⟨seed, a1, a2, a3⟩ := k3 k c _ _ hc (List.getElem?_zip_eq_some.2 ⟨hr1, hr2⟩)
            rw [Nat.zero_add] at a1
            exact ⟨seed, _, a1, a2, hr1, a3⟩
  have hlen : (reps.map List.flatten).length = s.toNat := by rw [List.length_map]; exact g1
  have hall : ∀ rep ∈ reps.map List.flatten, rep.length = n.toNat := by
    intro rep hrep
    obtain ⟨c, hc, rfl⟩ := List.mem_map.1 hrep
    exact (hmain c hc).2.1
  refine ⟨reps, squeeze_data _ _ _ hlen hall, squeeze_shape _ _ _ hlen hall, by omega, ?_⟩
  intro c hc
  obtain ⟨a1, a2, a3⟩ := hmain c hc
  exact ⟨a1, by omega, a3⟩

/-- Non-vacuity: five points around two seeds. -/
example : clusterPoisson (Hull.ofBBox (⟨0, 0, 8, 8⟩ : BBox ℚ)) (fun x => x) (fun _ i => ((i % 3 + 1 : ℕ) : ℚ) / 4)
    (fun i => ((i % 3 + 1 : ℕ) : ℚ) / 4) none (.int 5) 2 (.num 2) 4 0
    = some (.ok (.rows [(2, 4), (2, 5), (3, 3), (6, 2), (5, 3)], 13)) := by decide +kernel

omit [IsStrictOrderedRing K] in
/-- **C44, refuted.** With one seed and at least two points, and with radii given as an iterable that is not an array,
`cluster_poisson` never returns a pattern. -/
theorem C44_cluster_poisson_refuted (h : Hull K) (root : K → K) (gen : ℕ → ℕ → K) (u : ℕ → K) (intensity : Option K)
    (size : SizeArg) (n s : ℤ) (i : XF K) (hp : parseSizeAndIntensity h intensity size = .ok (n, s, i)) (hs : 1 ≤ s)
    (n_seeds : ℕ) (radius : RadiusArg K)
    (hbad : (n_seeds = 1 ∧ 2 ≤ n) ∨ radius = .otherIterable) (pos : ℕ) (r : Squeezed K) (pos' : ℕ) :
    ¬ Returns (fun fuel => clusterPoisson h root gen u intensity size n_seeds radius fuel pos) (.ok (r, pos')) := by
  rintro ⟨fuel, hf⟩
  obtain ⟨harr, hn0, hs0, reps, h1, _⟩ := clusterPoisson_ok h root gen u intensity size n s i hp n_seeds radius fuel
    pos r pos' hf
  obtain ⟨g1, g2⟩ := replications_spec _ _ _ _ _ _ h1
  have : 0 < reps.length := by omega
  obtain ⟨rep, rest, rfl⟩ := List.exists_cons_of_ne_nil (List.ne_nil_of_length_pos this)
  obtain ⟨j, q, q', _, hb⟩ := g2 rep (by simp)
  cases hseeds : poisson h (gen (seedDraw (u (pos + j)))) none (.int n_seeds) fuel 0 with
  | none => simp only [hseeds] at hb; cases hb
  | some x =>
    cases x with
    | error e => simp only [hseeds] at hb; cases hb
    | ok y =>
      obtain ⟨seeds, pp⟩ := y
      simp only [hseeds] at hb
      rcases hbad with ⟨rfl, hn⟩ | rfl
      · -- the seeds are a single point
        have hpt : ∃ pt, seeds = .point pt := by
          cases hp1 : parseSizeAndIntensity h none (.int ((1 : ℕ) : ℤ)) with
          | error e => rw [poisson, hp1] at hseeds; cases hseeds
          | ok x =>
            obtain ⟨n1, s1, i1⟩ := x
            obtain ⟨e1, e2⟩ := parse_int h _ _ hp1
            simp only at e1 e2
            subst e1 e2
            obtain ⟨_, hsh, _⟩ := C40_poisson h _ none _ _ _ i1 hp1 0 seeds pp ⟨fuel, hseeds⟩
            cases seeds with
            | point p => exact ⟨p, rfl⟩
            | rows l => simp [Squeezed.shape] at hsh
            | cube a b => simp [Squeezed.shape] at hsh
        obtain ⟨pt, rfl⟩ := hpt
        cases hrad : clusterRadii root radius 1 (.point pt) with
        | error e => rw [hrad] at hb; cases hb
        | ok radii =>
          rw [hrad] at hb
          simp only [if_neg (show (1 : ℕ) ≠ 0 by omega)] at hb
          have hlen : radii.length = 1 := by
            cases radius with
            | num r0 => simp only [clusterRadii] at hrad; injection hrad with hrad; rw [← hrad]; simp
            | arr l0 => simp only [clusterRadii] at hrad; injection hrad with hrad; rw [← hrad]; exact harr l0 rfl
            | otherIterable => simp [clusterRadii] at hrad
            | none => simp [clusterRadii] at hrad
          obtain ⟨ρ, rfl⟩ := List.length_eq_one_iff.1 hlen
          have hsz : arraySplitSizes n.toNat 1 = [n.toNat] := by
            simp [arraySplitSizes, Nat.mod_one]
          rw [hsz] at hb
          simp only [List.zip_cons_cons, List.zip_nil_right] at hb
          rw [clusterLoop] at hb
          have : clusterPoints h u fuel (.point pt) 0 ρ n.toNat q = Run.fail .typeError := by
            have e1 : n.toNat ≠ 1 := by omega
            have e2 : ¬ n.toNat < 1 := by omega
            simp only [clusterPoints, if_neg e1, if_neg e2]
          rw [this] at hb
          cases hb
      · simp only [clusterRadii] at hb
        cases hb

/-- **C44, refuted for one seed and one point.** The returned point has the first coordinate of the seed twice, and
need not be in the hull: on the box from (0, 5) to (2, 6), for every stream of draws, it is outside. -/
theorem C44_one_seed_refuted (root : K → K) (gen : ℕ → ℕ → K) (hgen : ∀ a, IsDraws (gen a)) (u : ℕ → K) (ρ : K)
    (pos : ℕ) (r : Squeezed K) (pos' : ℕ)
    (hr : Returns (fun fuel => clusterPoisson (Hull.ofBBox (⟨0, 5, 2, 6⟩ : BBox K)) root gen u none (.int 1) 1 (.num ρ)
      fuel pos) (.ok (r, pos'))) :
    ∃ p, r.data = [p] ∧ (Hull.ofBBox (⟨0, 5, 2, 6⟩ : BBox K)).contains p.1 p.2 = false := by
  obtain ⟨fuel, hf⟩ := hr
  have harea : (Hull.ofBBox (⟨0, 5, 2, 6⟩ : BBox K)).area ≠ 0 := by
    simp [Hull.ofBBox, Geometry.areaBBox]
    norm_num
  have hpp : parseSizeAndIntensity (Hull.ofBBox (⟨0, 5, 2, 6⟩ : BBox K)) none (.int 1)
      = .ok (1, 1, .fin ((1 : ℤ) / (Hull.ofBBox (⟨0, 5, 2, 6⟩ : BBox K)).area)) := by
    unfold parseSizeAndIntensity divArea
    simp [harea, XF.div]
  obtain ⟨_, _, _, reps, h1, rfl⟩ := clusterPoisson_ok _ root gen u none (.int 1) 1 1 _ hpp 1 (.num ρ) fuel pos r pos' hf
  obtain ⟨g1, g2⟩ := replications_spec _ _ _ _ _ _ h1
  obtain ⟨rep, rfl⟩ := List.length_eq_one_iff.1 (show reps.length = 1 from g1)
  obtain ⟨j, q, q', _, hb⟩ := g2 rep (by simp)
  obtain ⟨r0, hr0, hd0⟩ := C40_poisson_box (⟨0, 5, 2, 6⟩ : BBox K) (by norm_num) (by norm_num)
    (gen (seedDraw (u (pos + j)))) (hgen _) none (.int 1) 1 1 _ hpp (by norm_num) (by norm_num) 0
  cases hseeds : poisson (Hull.ofBBox (⟨0, 5, 2, 6⟩ : BBox K)) (gen (seedDraw (u (pos + j)))) none (.int ((1 : ℕ) : ℤ)) fuel 0 with
  | none => simp only [hseeds] at hb; cases hb
  | some x =>
    cases x with
    | error e => simp only [hseeds] at hb; cases hb
    | ok y =>
      obtain ⟨seeds, pp⟩ := y
      simp only [hseeds] at hb
      obtain ⟨⟨reps', hdat, hl', hm'⟩, hsh, _⟩ := C40_poisson _ _ none _ _ _ _ hpp 0 seeds pp ⟨fuel, hseeds⟩
      cases seeds with
      | rows l => simp [Squeezed.shape] at hsh
      | cube a b => simp [Squeezed.shape] at hsh
      | point pt =>
        have hin : (Hull.ofBBox (⟨0, 5, 2, 6⟩ : BBox K)).contains pt.1 pt.2 = true := by
          have : pt ∈ reps'.flatten := by rw [← hdat]; simp [Squeezed.data]
          obtain ⟨rr, a1, a2⟩ := List.mem_flatten.1 this
          exact (hm' rr a1).2 pt a2
        have e1 : clusterRadii root (.num ρ) 1 (.point pt) = .ok [ρ] := rfl
        have e2 : arraySplitSizes (1 : ℤ).toNat 1 = [1] := rfl
        simp only [e1, e2, if_neg (show (1 : ℕ) ≠ 0 by omega)] at hb
        have e3 : clusterLoop (Hull.ofBBox (⟨0, 5, 2, 6⟩ : BBox K)) u fuel (.point pt) 0 ([ρ].zip [1]) q
            = some (.ok ([[(pt.1, pt.1)]], q)) := rfl
        rw [e3] at hb
        injection hb with hb
        injection hb with hb
        injection hb with hb _
        subst hb
        refine ⟨(pt.1, pt.1), by simp [squeeze, Squeezed.data], ?_⟩
        simp only [Hull.ofBBox, Geometry.containsBBox] at hin ⊢
        simp at hin ⊢
        intro _ _ h5
        have := hin.1.2
        have h52 : (2 : K) < 5 := by norm_num
        linarith

/-- Non-vacuity: it does return. -/
example : clusterPoisson (Hull.ofBBox (⟨0, 5, 2, 6⟩ : BBox ℚ)) (fun x => x) (fun _ _ => 1 / 2) (fun _ => 1 / 2) none
    (.int 1) 1 (.num 1) 2 0 = some (.ok (.point (1, 1), 1)) := by decide +kernel
example : clusterPoisson (Hull.ofBBox (⟨0, 5, 2, 6⟩ : BBox ℚ)) (fun x => x) (fun _ _ => 1 / 2) (fun _ => 1 / 2) none
    (.int 3) 1 (.num 1) 2 0 = some (.error .typeError) := by decide +kernel

/-! ### C45 -/

/-- A cluster of `cluster_normal`: the centre, followed by draws around it with variance `c` in both directions and no
covariance. -/
def IsNormalCluster (root : K → K) (mvn : M2 K → K → K → K × K) (c : K) (center : K × K) (cluster : List (K × K)) : Prop :=
  ∃ others, cluster = center :: others ∧ ∀ p ∈ others, IsScaledDraw root mvn center ⟨c, 0, 0, c⟩ p

omit [IsStrictOrderedRing K] in
private theorem normal_one (h : Hull K) (root : K → K) (mvn : M2 K → K → K → K × K) (center : K × K) (c : K) (v : ℕ → K)
    (k : ℕ) (fuel pos pos' : ℕ) (cand : Squeezed K) (l : List (K × K))
    (hr : normal h root mvn center (.num c) v (.int k) fuel pos = some (.ok (cand, pos')))
    (hl : vstackFirst center cand = .ok l) :
    ∃ others, l = center :: others ∧ others.length = k ∧ (∀ p ∈ others, h.contains p.1 p.2 = true)
      ∧ ∀ p ∈ others, IsScaledDraw root mvn center ⟨c, 0, 0, c⟩ p := by
  rw [(C43_normal_argument h root mvn center v (.int k) fuel pos).1 c] at hr
  have hl' : l = center :: cand.data := by
    cases cand with
    | point p => injection hl with hl; exact hl.symm
    | rows l => injection hl with hl; exact hl.symm
    | cube a b => cases hl
  cases hp : parseSizeAndIntensity h none (.int k) with
  | error e => rw [normal, hp] at hr; cases hr
  | ok x =>
    obtain ⟨n, s, i⟩ := x
    obtain ⟨e1, e2⟩ := parse_int h _ _ hp
    simp only at e1 e2
    subst e1 e2
    obtain ⟨⟨reps, hd, hlen, hm, hmat, _⟩, _⟩ := C43_normal_points h root mvn center _ v _ _ _ i hp pos cand pos' ⟨fuel, hr⟩
    obtain ⟨rep, rfl⟩ := List.length_eq_one_iff.1 (show reps.length = 1 by omega)
    have hd' : cand.data = rep := by simpa using hd
    have hm' := hm rep (by simp)
    refine ⟨cand.data, hl', by rw [hd']; omega, ?_, ?_⟩
    · rw [hd']; exact hm'.2
    · rw [hd']; exact hmat _ rfl rep (by simp)

omit [IsStrictOrderedRing K] in
private theorem clusterNormalLoop_spec (h : Hull K) (root : K → K) (mvn : M2 K → K → K → K × K) (gen : ℕ → ℕ → K)
    (c : K) (fuel : ℕ) (items : List ((K × K) × ℕ × ℕ)) (hin : ∀ a ∈ items, h.contains a.1.1 a.1.2 = true)
    (ls : List (List (K × K))) (hr : clusterNormalLoop h root mvn gen (.num c) fuel items = some (.ok ls)) :
    ls.map List.length = items.map (fun a => a.2.1)
    ∧ (∀ cl ∈ ls, ∀ p ∈ cl, h.contains p.1 p.2 = true)
    ∧ ∀ (k : ℕ) (cl : List (K × K)) (a : (K × K) × ℕ × ℕ), ls[k]? = some cl → items[k]? = some a →
        IsNormalCluster root mvn c a.1 cl := by
  induction items generalizing ls with
  | nil =>
    rw [clusterNormalLoop] at hr
    cases hr
    simp
  | cons a items ih =>
    obtain ⟨center, n_in, seed⟩ := a
    rw [clusterNormalLoop] at hr
    have hc := hin (center, n_in, seed) (by simp)
    simp only at hc
    -- the cluster of this centre
    have key : ∀ l, (if n_in = 1 then some (.ok [center])
        else if n_in < 1 then some (.error .exception)
        else match normal h root mvn center (.num c) (gen seed) (.int ((n_in : ℤ) - 1)) fuel 0 with
          | none => none
          | some (.error e) => some (.error e)
          | some (.ok (candidates, _)) => some (vstackFirst center candidates) : Option (Py (List (K × K)))) = some (.ok l) →
        l.length = n_in ∧ (∀ p ∈ l, h.contains p.1 p.2 = true) ∧ IsNormalCluster root mvn c center l := by
      intro l hl
      by_cases h1 : n_in = 1
      · rw [if_pos h1] at hl
        cases hl
        refine ⟨by simp [h1], ?_, [], rfl, by simp⟩
        intro p hp; rw [List.mem_singleton.1 hp]; exact hc
      · rw [if_neg h1] at hl
        by_cases h2 : n_in < 1
        · rw [if_pos h2] at hl; cases hl
        · rw [if_neg h2] at hl
          have e : ((n_in : ℤ) - 1) = ((n_in - 1 : ℕ) : ℤ) := by omega
          rw [e] at hl
          cases hn : normal h root mvn center (.num c) (gen seed) (.int ((n_in - 1 : ℕ) : ℤ)) fuel 0 with
          | none => rw [hn] at hl; cases hl
          | some x =>
            cases x with
            | error e => rw [hn] at hl; cases hl
            | ok y =>
              obtain ⟨cand, pp⟩ := y
              rw [hn] at hl
              obtain ⟨others, rfl, k1, k2, k3⟩ := normal_one h root mvn center c _ _ _ _ _ _ _ hn (Option.some.inj hl)
              refine ⟨by simp [k1]; omega, ?_, others, rfl, k3⟩
              intro p hp
              rcases List.mem_cons.1 hp with rfl | hp
              · exact hc
              · exact k2 p hp
    split at hr
    · cases hr
    · cases hr
    · next l hl =>
      obtain ⟨m1, m2, m3⟩ := key l hl
      split at hr
      · cases hr
      · cases hr
      · next ls' hls =>
        cases hr
        obtain ⟨k1, k2, k3⟩ := ih (fun a ha => hin a (by simp [ha])) ls' hls
        refine ⟨by simp [m1, k1], ?_, ?_⟩
        · intro x hx
          rcases List.mem_cons.1 hx with rfl | hx
          · exact m2
          · exact k2 x hx
        · intro k cl a hcl ha
          cases k with
          | zero =>
            simp at hcl ha
            subst hcl ha
            exact m3
          | succ k => exact k3 k cl a (by simpa using hcl) (by simpa using ha)

/-- What a replication of `cluster_normal` looks like: its centres, and clusters around them with variance `c`. -/
structure IsClusterNormal (h : Hull K) (root : K → K) (mvn : M2 K → K → K → K × K) (n n_seeds : ℕ) (c : K)
    (centers : List (K × K)) (clusters : List (List (K × K))) : Prop where
  seeds : centers.length = n_seeds
  clusters_len : clusters.length = n_seeds
  points : clusters.flatten.length = n
  balanced : Balanced (clusters.map List.length)
  inside : ∀ cl ∈ clusters, ∀ p ∈ cl, h.contains p.1 p.2 = true
  cluster : ∀ (k : ℕ) (cl : List (K × K)) (center : K × K), clusters[k]? = some cl → centers[k]? = some center →
    IsNormalCluster root mvn c center cl

/-- The square of the mean distance between the points. -/
def meanDistSq (root : K → K) (l : List (K × K)) : K := ((pdist root l).sum / ((pdist root l).length : K)) ^ 2

omit [IsStrictOrderedRing K] in
private theorem clusterNormalReps_num (h : Hull K) (root : K → K) (mvn : M2 K → K → K → K × K) (gen : ℕ → ℕ → K) (u : ℕ → K)
    (n n_seeds fuel seedPos : ℕ) (hk : 2 ≤ n_seeds) (c : K) (i s pos : ℕ)
    (reps : List (List (K × K) × CovArg K × List (List (K × K)))) (pos' : ℕ)
    (hr : clusterNormalReps h root mvn gen u n n_seeds fuel seedPos i s (.num c) pos = some (.ok (reps, pos'))) :
    reps.length = s ∧ ∀ rep ∈ reps, IsClusterNormal h root mvn n n_seeds c rep.1 rep.2.2 := by
  induction s generalizing i pos reps with
  | zero =>
    rw [clusterNormalReps, Run.ret_ok] at hr
    obtain ⟨rfl, _⟩ := hr
    simp
  | succ s ih =>
    rw [clusterNormalReps] at hr
    cases hc : poisson h (gen (seedDraw (u (seedPos + i)))) none (.int n_seeds) fuel 0 with
    | none => rw [hc] at hr; cases hr
    | some x =>
      cases x with
      | error e => rw [hc] at hr; cases hr
      | ok y =>
        obtain ⟨centers, pp⟩ := y
        rw [hc] at hr
        simp only at hr
        rw [if_neg (by omega)] at hr
        obtain ⟨l, rfl, hl1, hl2⟩ := seeds_spec h _ n_seeds fuel 0 pp (by omega) centers hc
        simp only at hr
        split at hr
        · cases hr
        · cases hr
        · next clusters hcl =>
          obtain ⟨rest, p, h1, h2⟩ := Run.andThen_ok.1 hr
          rw [Run.ret_ok] at h2
          obtain ⟨rfl, rfl⟩ := h2
          obtain ⟨k1, k2⟩ := ih _ _ _ h1
          refine ⟨by simp [k1], ?_⟩
          have hsl := sizes_length n n_seeds (by omega)
          have hmap : (l.zip ((arraySplitSizes n n_seeds).zip
              ((List.range n_seeds).map fun j => seedDraw (u (pos + j))))).map (fun a => a.2.1)
              = arraySplitSizes n n_seeds := by
            rw [show (fun a : (K × K) × ℕ × ℕ => a.2.1) = Prod.fst ∘ Prod.snd from rfl, ← List.map_map,
              List.map_snd_zip, List.map_fst_zip]
            · simp [hsl]
            · simp [hsl, hl1]
          obtain ⟨m1, m2, m3⟩ := clusterNormalLoop_spec h root mvn gen c fuel _ (by
            intro a ha
            exact hl2 _ (List.of_mem_zip (show (a.1, a.2) ∈ _ from ha)).1) clusters hcl
          rw [hmap] at m1
          have hcl' : clusters.length = n_seeds := by
            have := congrArg List.length m1
            simpa [hsl] using this
          intro rep hrep
          rcases List.mem_cons.1 hrep with rfl | hrep
          · refine ⟨hl1, hcl', ?_, ?_, m2, ?_⟩
            · rw [List.length_flatten, m1]; exact sizes_sum _ _ (by omega)
            · rw [m1]; exact sizes_balanced _ _
            · intro k cl center hkc hkl
              have hlt : k < n_seeds := by rw [← hcl']; exact (List.getElem?_eq_some_iff.1 hkc).1
              have hr2 : (arraySplitSizes n n_seeds)[k]? = some ((arraySplitSizes n n_seeds)[k]'(by omega)) :=
                List.getElem?_eq_getElem _
              have hr3 : ((List.range n_seeds).map fun j => seedDraw (u (pos + j)))[k]?
                  = some (seedDraw (u (pos + k))) := by simp [hlt]
              exact m3 k cl (center, _, seedDraw (u (pos + k))) hkc (List.getElem?_zip_eq_some.2 ⟨hkl, List.getElem?_zip_eq_some.2 ⟨hr2, hr3⟩⟩)
          · exact k2 rep hrep

omit [IsStrictOrderedRing K] in
/-- **C45, what happens.** Let `cov` be absent. For at least two seeds and whenever `cluster_normal` returns, it returns
the requested number of replications, which consist of the requested number of points in the hull, in balanced clusters
around the centres; and in all of them the variance of the clusters is the square of the mean distance between the
centres of the first replication. With one replication this is the documented default. -/
theorem C45_cluster_normal_partial (h : Hull K) (root : K → K) (mvn : M2 K → K → K → K × K) (gen : ℕ → ℕ → K) (u : ℕ → K)
    (size : SizeArg) (n s : ℤ) (i : XF K) (hp : parseSizeAndIntensity h none size = .ok (n, s, i)) (n_seeds : ℕ)
    (hk : 2 ≤ n_seeds) (pos : ℕ) (r : Squeezed K) (pos' : ℕ)
    (hr : Returns (fun fuel => clusterNormal h root mvn gen u .none size n_seeds fuel pos) (.ok (r, pos'))) :
    ∃ (reps : List (List (K × K) × List (List (K × K)))) (c : K),
      r.data = (reps.map fun rep => rep.2.flatten).flatten
      ∧ r.shape = [s.toNat, n.toNat].filter (· ≠ 1) ++ [2]
      ∧ (reps.length : ℤ) = s
      ∧ (∀ rep ∈ reps, IsClusterNormal h root mvn n.toNat n_seeds c rep.1 rep.2)
      ∧ ∀ first rest, reps = first :: rest → c = meanDistSq root first.1 := by
  obtain ⟨fuel, hf⟩ := hr
  simp only [clusterNormal, hp] at hf
  split at hf
  · cases hf
  · next hneg =>
    push Not at hneg
    obtain ⟨reps, p, h1, h2⟩ := Run.andThen_ok.1 hf
    rw [Run.ret_ok] at h2
    obtain ⟨rfl, rfl⟩ := h2
    have main : ∃ c, reps.length = s.toNat
        ∧ (∀ rep ∈ reps, IsClusterNormal h root mvn n.toNat n_seeds c rep.1 rep.2.2)
        ∧ ∀ first rest, reps = first :: rest → c = meanDistSq root first.1 := by
      cases hs : s.toNat with
      | zero =>
        rw [hs, clusterNormalReps, Run.ret_ok] at h1
        obtain ⟨rfl, _⟩ := h1
        exact ⟨0, rfl, by simp, by simp⟩
      | succ s' =>
        have h0 := h1
        rw [hs, clusterNormalReps] at h1
        cases hc : poisson h (gen (seedDraw (u (pos + 0)))) none (.int n_seeds) fuel 0 with
        | none => rw [hc] at h1; cases h1
        | some x =>
          cases x with
          | error e => rw [hc] at h1; cases h1
          | ok y =>
            obtain ⟨centers, pp⟩ := y
            rw [hc] at h1
            obtain ⟨l, rfl, hl1, hl2⟩ := seeds_spec h _ n_seeds fuel 0 pp (by omega) centers hc
            -- the covariance of the first replication is a number
            have hms : ∀ d, meanSpacingSq root (.rows l) = .ok d → d = meanDistSq root l := by
              intro d hd
              simp only [meanSpacingSq] at hd
              unfold meanDistSq
              split at hd
              · cases hd
              · injection hd with hd; exact hd.symm
            cases hm : meanSpacingSq root (.rows l) with
            | error e => simp only [hm, Except.map] at h1; cases h1
            | ok c =>
              have hnum : clusterNormalReps h root mvn gen u n.toNat n_seeds fuel pos 0 (s' + 1) (.num c) (pos + s.toNat)
                  = some (.ok (reps, p)) := by
                rw [clusterNormalReps, hc]
                simp only [hm, Except.map] at h1
                rw [← h1, hs]
              obtain ⟨k1, k2⟩ := clusterNormalReps_num h root mvn gen u n.toNat n_seeds fuel pos hk c 0 (s' + 1) _ reps p hnum
              refine ⟨c, k1, k2, ?_⟩
              rintro first rest rfl
              rw [hms c hm]
              -- the first replication has these centres
              simp only [hm, Except.map, if_neg (show n_seeds ≠ 0 by omega)] at h1
              split at h1
              · cases h1
              · cases h1
              · obtain ⟨rest', p', _, g2⟩ := Run.andThen_ok.1 h1
                rw [Run.ret_ok] at g2
                obtain ⟨g2, _⟩ := g2
                injection g2 with g2 _
                rw [← g2]
    obtain ⟨c, m1, m2, m3⟩ := main
    have hlen : (reps.map fun rep => rep.2.2.flatten).length = s.toNat := by rw [List.length_map]; exact m1
    have hall : ∀ rep ∈ reps.map (fun rep => rep.2.2.flatten), rep.length = n.toNat := by
      intro rep hrep
      obtain ⟨a, ha, rfl⟩ := List.mem_map.1 hrep
      exact (m2 a ha).points
    refine ⟨reps.map fun rep => (rep.1, rep.2.2), c, ?_, squeeze_shape _ _ _ hlen hall, by simp; omega, ?_, ?_⟩
    · rw [squeeze_data _ _ _ hlen hall, List.map_map]; rfl
    · intro rep hrep
      obtain ⟨a, ha, rfl⟩ := List.mem_map.1 hrep
      exact m2 a ha
    · intro first rest hfr
      cases reps with
      | nil => cases hfr
      | cons a reps =>
        rw [List.map_cons] at hfr
        injection hfr with hfr _
        rw [← hfr]
        exact m3 a reps rfl

/-- The square root on the numbers that occur in the next example. -/
private def smallRoot (x : ℚ) : ℚ := if x = 1 then 1 else if x = 4 then 2 else if x = 16 then 4 else 0

/-- The draws of the generators in the next example, by seed. -/
private def exampleGen (seed i : ℕ) : ℚ :=
  (match seed with
   | 1 => [1, 1, 2, 1]
   | 2 => [1, 1, 5, 1]
   | 3 => [1, 1, 3, 1]
   | _ => [4, 4, 4, 4]).getD i 0 / 8

private def exampleDraws (first i : ℕ) : ℚ := (([first, 3, 4, 4, 4, 4].getD i 0 : ℕ) : ℚ) / 100000

/-- **C45, refuted.** Two runs of `cluster_normal` with two replications whose draws agree except for the seed of the
first replication, so that the second replications have the same centres and the same draws: the second replications
differ. -/
theorem C45_replications_refuted :
    (∀ i, i ≠ 0 → exampleDraws 1 i = exampleDraws 2 i)
    ∧ ∃ (first second first' second' : List (ℚ × ℚ)),
      clusterNormal (Hull.ofBBox (⟨0, 0, 8, 8⟩ : BBox ℚ)) smallRoot (fun _ x y => (x, y)) exampleGen (exampleDraws 1) .none
        (.tuple [4, 2]) 2 4 0 = some (.ok (.cube 4 [first, second], 6))
      ∧ clusterNormal (Hull.ofBBox (⟨0, 0, 8, 8⟩ : BBox ℚ)) smallRoot (fun _ x y => (x, y)) exampleGen (exampleDraws 2) .none
        (.tuple [4, 2]) 2 4 0 = some (.ok (.cube 4 [first', second'], 6))
      ∧ second ≠ second' := by
  refine ⟨?_, [(1, 1), (3 / 2, 3 / 2), (2, 1), (5 / 2, 3 / 2)], [(1, 1), (3 / 2, 3 / 2), (3, 1), (7 / 2, 3 / 2)],
    [(1, 1), (3, 3), (5, 1), (7, 3)], [(1, 1), (3, 3), (3, 1), (5, 3)], ?_, ?_, ?_⟩
  · intro i hi
    cases i with
    | zero => exact absurd rfl hi
    | succ i => rfl
  · decide +kernel
  · decide +kernel
  · decide +kernel

end Pointpats.Props
