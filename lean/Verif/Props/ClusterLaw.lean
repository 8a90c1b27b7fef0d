import Verif.Props.Sequence
import Verif.Props.RandomCluster

/-!
# C148: the points round the centres of `cluster_poisson`
-/

namespace Pointpats.Props

open Random MeasureTheory ProbabilityTheory Spec MeasurableRun FuelMono StrongMarkov

set_option linter.unusedSectionVars false

/-! ### Calls that end at a given place -/

private def SeqTo {α : Type} (u : ℕ → ℝ) : List (ℕ → (ℕ → ℝ) → ℕ → Run α) → List (Set α) → ℕ → ℕ → Prop
  | [], [], p, q => p = q
  | f :: fs, A :: As, p, q => ∃ m, u ∈ endsAt f A p m ∧ SeqTo u fs As m q
  | _, _, _, _ => False

private theorem seqTo_append {α : Type} (u : ℕ → ℝ) (gs : List (ℕ → (ℕ → ℝ) → ℕ → Run α)) (Bs : List (Set α)) (q : ℕ)
    (fs : List (ℕ → (ℕ → ℝ) → ℕ → Run α)) : ∀ (As : List (Set α)) (p : ℕ), As.length = fs.length →
    (SeqTo u (fs ++ gs) (As ++ Bs) p q ↔ ∃ m, SeqTo u fs As p m ∧ SeqTo u gs Bs m q) := by
  induction fs with
  | nil =>
    intro As p hlen
    rw [List.length_nil, List.length_eq_zero_iff] at hlen
    subst hlen
    simp [SeqTo]
  | cons f fs ih =>
    intro As p hlen
    cases As with
    | nil => simp at hlen
    | cons A As =>
      simp only [List.cons_append, SeqTo, ih As _ (by simpa using hlen)]
      constructor
      · rintro ⟨m, h1, m', h2, h3⟩; exact ⟨m', ⟨m, h1, h2⟩, h3⟩
      · rintro ⟨m', ⟨m, h1, h2⟩, h3⟩; exact ⟨m, h1, m', h2, h3⟩

private theorem mem_sequence_iff {α : Type} [MeasurableSpace α] (u : ℕ → ℝ) (fs : List (ℕ → (ℕ → ℝ) → ℕ → Run α)) :
    ∀ (As : List (Set α)) (p : ℕ), u ∈ callsIn fs As p ↔ ∃ q, SeqTo u fs As p q := by
  induction fs with
  | nil => intro As p; cases As <;> simp [callsIn, SeqTo]
  | cons f fs ih =>
    intro As p
    cases As with
    | nil => simp [callsIn, SeqTo]
    | cons A As =>
      simp only [callsIn, SeqTo, Set.mem_iUnion, Set.mem_inter_iff, ih]
      constructor
      · rintro ⟨m, h1, q, h2⟩; exact ⟨q, m, h1, h2⟩
      · rintro ⟨q, m, h1, h2⟩; exact ⟨m, h1, q, h2⟩

/-! ### The clusters of a replication -/

/-- The sampling of the points of a cluster. -/
private noncomputable def circleCall (h : Hull ℝ) (x : ClusterEvent) (fuel : ℕ) (u : ℕ → ℝ) (pos : ℕ) : Run (List (ℝ × ℝ)) :=
  uniformCircle x.sets.length x.radius x.centre h.contains u fuel pos

/-- The points of a cluster lie in their sets. -/
private def inSets (x : ClusterEvent) : Set (List (ℝ × ℝ)) := {l | List.Forall₂ (fun p a => p ∈ a) l x.sets}

private theorem circleCall_below (h : Hull ℝ) (x : ClusterEvent) (u : ℕ → ℝ) (pos fuel k : ℕ) :
    Below (circleCall h x fuel u pos) (circleCall h x (fuel + k) u pos) := fun _ hr =>
  circleLoop_mono _ _ _ _ _ _ _ _ _ _ hr

private theorem clusterPoints_call (h : Hull ℝ) (u : ℕ → ℝ) (fuel : ℕ) (c : List (ℝ × ℝ)) (i : ℕ) (x : ClusterEvent) (pos : ℕ)
    (hc : c[i]? = some x.centre) : clusterPoints h u fuel (.rows c) i x.radius (x.sets.length + 1) pos
      = (circleCall h x fuel u pos).andThen fun l p => Run.ret (x.centre :: l) p := by
  simp only [clusterPoints, hc, circleCall, uniformCircle]
  by_cases h0 : x.sets.length = 0
  · rw [if_pos (by omega), h0]
    cases fuel <;> simp [circleLoop, Run.andThen, Run.ret]
  · rw [if_neg (by omega), if_neg (by omega), Nat.add_sub_cancel]

/-- The sets for the rows of a cluster: first the centre. -/
private def rowSets (x : ClusterEvent) : List (Set (ℝ × ℝ)) := {x.centre} :: x.sets

private theorem rowSets_iff (x : ClusterEvent) (l : List (ℝ × ℝ)) :
    List.Forall₂ (fun p a => p ∈ a) (x.centre :: l) (rowSets x) ↔ l ∈ inSets x := by
  simp [rowSets, inSets]

private theorem loop_length (h : Hull ℝ) (u : ℕ → ℝ) (fuel : ℕ) (cl : List ClusterEvent) : ∀ (pre : List (ℝ × ℝ)) (pos : ℕ)
    (ls : List (List (ℝ × ℝ))) (q : ℕ), clusterLoop h u fuel (.rows (pre ++ cl.map ClusterEvent.centre)) pre.length
        (cl.map fun x => (x.radius, x.sets.length + 1)) pos = some (.ok (ls, q)) →
      ls.flatten.length = (cl.flatMap rowSets).length := by
  induction cl with
  | nil =>
    intro pre pos ls q h
    rw [List.map_nil, List.map_nil, clusterLoop, Run.ret_ok] at h
    rw [← h.1]
    rfl
  | cons x cl ih =>
    intro pre pos ls q h1
    have hx : (pre ++ (x :: cl).map ClusterEvent.centre)[pre.length]? = some x.centre := by simp
    have ih := ih (pre ++ [x.centre])
    simp only [List.length_append, List.length_singleton, List.append_assoc, List.singleton_append] at ih
    simp only [List.map_cons] at hx h1
    rw [clusterLoop, clusterPoints_call h u _ _ _ x _ hx] at h1
    obtain ⟨l1, p1, h3, h4⟩ := Run.andThen_ok.1 h1
    obtain ⟨l2, p2, h5, h6⟩ := Run.andThen_ok.1 h3
    obtain ⟨l3, p3, h7, h8⟩ := Run.andThen_ok.1 h4
    rw [Run.ret_ok] at h6 h8
    obtain ⟨rfl, rfl⟩ := h6
    obtain ⟨rfl, rfl⟩ := h8
    have hl := (circleLoop_spec _ _ _ _ _ _ _ _ (by simp) (by simp) _ _ h5).1
    have := ih _ _ _ h7
    simp only [List.flatten_cons, List.length_append, List.length_cons, List.flatMap_cons, rowSets, hl] at this ⊢
    omega

private theorem loop_iff (h : Hull ℝ) (u : ℕ → ℝ) (q : ℕ) (cl : List ClusterEvent) : ∀ (pre : List (ℝ × ℝ)) (pos : ℕ),
    (∃ fuel ls, clusterLoop h u fuel (.rows (pre ++ cl.map ClusterEvent.centre)) pre.length
        (cl.map fun x => (x.radius, x.sets.length + 1)) pos = some (.ok (ls, q))
      ∧ List.Forall₂ (fun p a => p ∈ a) ls.flatten (cl.flatMap rowSets))
    ↔ SeqTo u (cl.map (circleCall h)) (cl.map inSets) pos q := by
  induction cl with
  | nil =>
    intro pre pos
    simp only [List.map_nil, clusterLoop, SeqTo, List.flatMap_nil, List.forall₂_nil_right_iff, Run.ret_ok]
    constructor
    · rintro ⟨_, _, ⟨-, h⟩, -⟩; exact h
    · rintro rfl
      exact ⟨0, [], ⟨rfl, rfl⟩, rfl⟩
  | cons x cl ih =>
    intro pre pos
    have hx : (pre ++ (x :: cl).map ClusterEvent.centre)[pre.length]? = some x.centre := by simp
    have ih := ih (pre ++ [x.centre])
    simp only [List.length_append, List.length_singleton, List.append_assoc, List.singleton_append] at ih
    simp only [List.map_cons] at hx ⊢
    simp only [clusterLoop, clusterPoints_call h u _ _ _ x _ hx, SeqTo, ← ih, List.flatMap_cons]
    constructor
    · rintro ⟨fuel, ls, h1, h2⟩
      obtain ⟨l1, p1, h3, h4⟩ := Run.andThen_ok.1 h1
      obtain ⟨l2, p2, h5, h6⟩ := Run.andThen_ok.1 h3
      obtain ⟨l3, p3, h7, h8⟩ := Run.andThen_ok.1 h4
      rw [Run.ret_ok] at h6 h8
      obtain ⟨rfl, rfl⟩ := h6
      obtain ⟨rfl, rfl⟩ := h8
      have hl := (circleLoop_spec _ _ _ _ _ _ _ _ (by simp) (by simp) _ _ h5).1
      rw [List.flatten_cons, forall₂_append_iff _ _ _ _ (by simp [rowSets, hl]), rowSets_iff] at h2
      exact ⟨_, ⟨fuel, l2, h5, h2.1⟩, fuel, l3, h7, h2.2⟩
    · rintro ⟨m, ⟨fuel, l, h1, h2⟩, fuel', ls, h3, h4⟩
      have hl := (circleLoop_spec _ _ _ _ _ _ _ _ (by simp) (by simp) _ _ h1).1
      refine ⟨fuel + fuel', (x.centre :: l) :: ls, Run.andThen_ok.2 ⟨x.centre :: l, m, Run.andThen_ok.2
        ⟨l, m, circleCall_below h x u pos _ _ _ h1, rfl⟩, Run.andThen_ok.2 ⟨_, q, ?_, rfl⟩⟩, ?_⟩
      · have := clusterLoop_below h u _ fuel' fuel _ _ _ _ h3
        rwa [Nat.add_comm] at this
      · rw [List.flatten_cons, forall₂_append_iff _ _ _ _ (by simp [rowSets, hl]), rowSets_iff]
        exact ⟨h2, h4⟩

/-! ### The replications -/

private noncomputable def repBody (h : Hull ℝ) (root : ℝ → ℝ) (gen : ℕ → ℕ → ℝ) (u : ℕ → ℝ) (n n_seeds : ℕ) (radius : RadiusArg ℝ)
    (pos0 fuel i pos' : ℕ) : Run (List (List (ℝ × ℝ))) :=
  match poisson h (gen (seedDraw (u (pos0 + i)))) Option.none (.int n_seeds) fuel 0 with
  | none => none
  | some (.error e) => Run.fail e
  | some (.ok (seeds, _)) =>
      match clusterRadii root radius n_seeds seeds with
      | .error e => Run.fail e
      | .ok radii =>
          if n_seeds = 0 then Run.fail .valueError
          else clusterLoop h u fuel seeds 0 (radii.zip (arraySplitSizes n n_seeds)) pos'

private theorem repBody_iff {h : Hull ℝ} {root : ℝ → ℝ} {gen : ℕ → ℕ → ℝ} {u : ℕ → ℝ} {n n_seeds : ℕ} (hk : 2 ≤ n_seeds)
    {radius : RadiusArg ℝ} {pos0 i k : ℕ} {cl : List ClusterEvent} (hcl : ClustersOf h root gen radius n n_seeds k cl)
    (hs : seedDraw (u (pos0 + i)) = k) (pos : ℕ) (r : List (List (ℝ × ℝ)) × ℕ) :
    (∃ fuel, repBody h root gen u n n_seeds radius pos0 fuel i pos = some (.ok r))
      ↔ ∃ fuel, clusterLoop h u fuel (.rows (cl.map ClusterEvent.centre)) 0 (cl.map fun x => (x.radius, x.sets.length + 1)) pos
          = some (.ok r) := by
  obtain ⟨⟨q, m, hm⟩, h2, h3⟩ := hcl
  have hwork : (cl.map ClusterEvent.radius).zip (arraySplitSizes n n_seeds) = cl.map fun x => (x.radius, x.sets.length + 1) := by
    rw [h3, List.zip_map']
  have hval : ∀ fuel, repBody h root gen u n n_seeds radius pos0 (m + fuel) i pos
      = clusterLoop h u (m + fuel) (.rows (cl.map ClusterEvent.centre)) 0 (cl.map fun x => (x.radius, x.sets.length + 1)) pos := by
    intro fuel
    unfold repBody
    rw [hs, poisson_below _ _ _ _ _ m fuel _ hm]
    simp only
    rw [h2]
    simp only
    rw [if_neg (by omega), hwork]
  constructor
  · rintro ⟨fuel, hr⟩
    refine ⟨fuel, ?_⟩
    unfold repBody at hr
    rw [hs] at hr
    cases hp : poisson h (gen k) Option.none (.int n_seeds) fuel 0 with
    | none => rw [hp] at hr; cases hr
    | some v =>
      have := unique (poisson_below h (gen k) Option.none (.int n_seeds) 0) ⟨fuel, hp⟩ ⟨m, hm⟩
      subst this
      rw [hp] at hr
      simp only at hr
      rw [h2] at hr
      simp only at hr
      rwa [if_neg (by omega), hwork] at hr
  · rintro ⟨fuel, hr⟩
    refine ⟨m + fuel, ?_⟩
    rw [hval]
    have := clusterLoop_below h u _ fuel m _ _ _ _ hr
    rwa [Nat.add_comm] at this

private theorem repBody_below (h : Hull ℝ) (root : ℝ → ℝ) (gen : ℕ → ℕ → ℝ) (u : ℕ → ℝ) (n n_seeds : ℕ) (radius : RadiusArg ℝ)
    (pos0 i pos fuel k : ℕ) : Below (repBody h root gen u n n_seeds radius pos0 fuel i pos)
      (repBody h root gen u n n_seeds radius pos0 (fuel + k) i pos) := by
  intro r hr
  unfold repBody at hr ⊢
  cases hp : poisson h (gen (seedDraw (u (pos0 + i)))) Option.none (.int n_seeds) fuel 0 with
  | none => rw [hp] at hr; cases hr
  | some v =>
    rw [hp] at hr
    rw [poisson_below _ _ _ _ _ _ k _ hp]
    match v with
    | .error e => exact hr
    | .ok (seeds, _) =>
      simp only at hr ⊢
      cases hc : clusterRadii root radius n_seeds seeds with
      | error e => rw [hc] at hr; exact hr
      | ok radii =>
        rw [hc] at hr
        simp only at hr ⊢
        split at hr
        · next h0 => rw [if_pos h0]; exact hr
        · next h0 => rw [if_neg h0]; exact clusterLoop_below _ _ _ _ _ _ _ _ _ hr

private theorem reps_iff {h : Hull ℝ} {root : ℝ → ℝ} {gen : ℕ → ℕ → ℝ} {u : ℕ → ℝ} {n n_seeds : ℕ} (hk : 2 ≤ n_seeds)
    {radius : RadiusArg ℝ} {pos0 : ℕ} (q : ℕ) {ks : List ℕ} {cls : List (List ClusterEvent)}
    (hcl : List.Forall₂ (ClustersOf h root gen radius n n_seeds) ks cls) : ∀ (i pos : ℕ),
    (∀ (j k : ℕ), ks[j]? = some k → seedDraw (u (pos0 + (i + j))) = k) →
    ((∃ fuel reps, replications (repBody h root gen u n n_seeds radius pos0 fuel) i ks.length pos = some (.ok (reps, q))
        ∧ List.Forall₂ (fun p a => p ∈ a) reps.flatten.flatten (cls.flatten.flatMap rowSets))
      ↔ SeqTo u (cls.flatten.map (circleCall h)) (cls.flatten.map inSets) pos q) := by
  induction hcl with
  | nil =>
    intro i pos _
    simp only [List.length_nil, replications, List.flatten_nil, List.map_nil, SeqTo, List.flatMap_nil, List.forall₂_nil_right_iff,
      Run.ret_ok]
    constructor
    · rintro ⟨_, _, ⟨-, h⟩, -⟩; exact h
    · rintro rfl
      exact ⟨0, [], ⟨rfl, rfl⟩, rfl⟩
  | @cons k cl ks cls hkc _ ih =>
    intro i pos hs
    have hs0 : seedDraw (u (pos0 + i)) = k := by have := hs 0 k (by simp); simpa using this
    have ih := fun pos => ih (i + 1) pos fun j k' hj => by
      have := hs (j + 1) k' (by simpa using hj)
      rwa [show i + (j + 1) = i + 1 + j by omega] at this
    have hbody := fun pos m => loop_iff h u m cl [] pos
    have hblen := fun fuel pos ls m => loop_length h u fuel cl [] pos ls m
    simp only [List.nil_append, List.length_nil] at hbody hblen
    rw [List.flatten_cons, List.map_append, List.map_append, seqTo_append u _ _ q _ _ pos (by simp), List.flatMap_append]
    simp only [← ih, ← hbody, List.length_cons, replications]
    constructor
    · rintro ⟨fuel, reps, h1, h2⟩
      obtain ⟨l1, p1, h3, h4⟩ := Run.andThen_ok.1 h1
      obtain ⟨l3, p3, h5, h6⟩ := Run.andThen_ok.1 h4
      rw [Run.ret_ok] at h6
      obtain ⟨rfl, rfl⟩ := h6
      obtain ⟨fuel', h7⟩ := (repBody_iff hk hkc hs0 pos _).1 ⟨fuel, h3⟩
      rw [List.flatten_cons, List.flatten_append, forall₂_append_iff _ _ _ _ (hblen _ _ _ _ h7)] at h2
      exact ⟨p1, ⟨fuel', l1, h7, h2.1⟩, fuel, l3, h5, h2.2⟩
    · rintro ⟨m, ⟨fuel, ls, h1, h2⟩, fuel', lss, h3, h4⟩
      have hlen := hblen _ _ _ _ h1
      obtain ⟨fuel, h1⟩ := (repBody_iff hk hkc hs0 pos _).2 ⟨fuel, h1⟩
      refine ⟨fuel + fuel', ls :: lss, Run.andThen_ok.2 ⟨_, m, repBody_below _ _ _ _ _ _ _ _ _ _ _ _ _ h1,
        Run.andThen_ok.2 ⟨_, q, ?_, rfl⟩⟩, ?_⟩
      · rw [Nat.add_comm]
        exact replications_below (fun j p => repBody_below _ _ _ _ _ _ _ _ _ _ _ _) _ _ _ _ h3
      · rw [List.flatten_cons, List.flatten_append, forall₂_append_iff _ _ _ _ hlen]
        exact ⟨h2, h4⟩

private theorem clusterPoissonReps_eq (h : Hull ℝ) (root : ℝ → ℝ) (gen : ℕ → ℕ → ℝ) (u : ℕ → ℝ) (n s n_seeds : ℕ)
    (radius : RadiusArg ℝ) (fuel pos : ℕ) : clusterPoissonReps h root gen u n s n_seeds radius fuel pos
      = replications (repBody h root gen u n n_seeds radius pos fuel) 0 s (pos + s) := by
  unfold clusterPoissonReps
  congr 1
  funext i pos'
  unfold repBody
  rcases poisson h (gen (seedDraw (u (pos + i)))) Option.none (.int n_seeds) fuel 0 with _ | _ | ⟨seeds, _⟩
  · rfl
  · rfl
  · simp only
    cases clusterRadii root radius n_seeds seeds <;> rfl

private theorem data_squeeze (s n : ℕ) (hn : n ≠ 1) (reps : List (List (ℝ × ℝ))) : (squeeze s n reps).data = reps.flatten := by
  unfold squeeze
  split
  · rfl
  · rfl

private theorem returns_iff {h : Hull ℝ} {root : ℝ → ℝ} {gen : ℕ → ℕ → ℝ} {u : ℕ → ℝ} {intensity : Option ℝ} {size : SizeArg}
    {n n_seeds : ℕ} {i : XF ℝ} (hk : 2 ≤ n_seeds) {radius : RadiusArg ℝ} {ks : List ℕ} {cls : List (List ClusterEvent)}
    (hks : ks ≠ []) (hp : parseSizeAndIntensity h intensity size = .ok (n, ks.length, i))
    (hcl : List.Forall₂ (ClustersOf h root gen radius n n_seeds) ks cls) (pos : ℕ)
    (hs : ∀ (j k : ℕ), ks[j]? = some k → seedDraw (u (pos + j)) = k) :
    (∃ r pos', Returns (fun fuel => clusterPoisson h root gen u intensity size n_seeds radius fuel pos) (.ok (r, pos'))
        ∧ List.Forall₂ (fun p a => p ∈ a) r.data (cls.flatten.flatMap rowSets))
      ↔ u ∈ callsIn (cls.flatten.map (circleCall h)) (cls.flatten.map inSets) (pos + ks.length) := by
  rw [mem_sequence_iff]
  simp only [← reps_iff hk _ hcl 0 (pos + ks.length) (by simpa using hs)]
  obtain ⟨k, ks', rfl⟩ := List.exists_cons_of_ne_nil hks
  obtain ⟨cl, cls', hkc, -, rfl⟩ := List.forall₂_cons_left_iff.1 hcl
  have hlen : cl.length = n_seeds := by
    have := congrArg List.length hkc.2.2
    rw [sizes_length _ _ (by omega), List.length_map] at this
    exact this.symm
  have hn : n ≠ 1 := by
    have h1 := congrArg List.sum hkc.2.2
    rw [sizes_sum _ _ (by omega)] at h1
    match cl, hlen with
    | [], h2 => simp at h2; omega
    | [x], h2 => simp at h2; omega
    | x :: y :: cl, h2 => simp at h1; omega
  have hbad : ∀ l, radius = .arr l → l.length = n_seeds := by
    rintro l rfl
    have h2 := hkc.2.1
    simp only [clusterRadii, Except.ok.injEq] at h2
    simp [h2, hlen]
  have hval : ∀ fuel, clusterPoisson h root gen u intensity size n_seeds radius fuel pos
      = (replications (repBody h root gen u n n_seeds radius pos fuel) 0 (k :: ks').length (pos + (k :: ks').length)).andThen
          fun reps pos' => Run.ret (squeeze (k :: ks').length n (reps.map List.flatten)) pos' := by
    intro fuel
    have hneg : ¬ ((n : ℤ) < 0 ∨ (((k :: ks').length : ℕ) : ℤ) < 0) := by omega
    clear hcl hkc
    unfold clusterPoisson
    cases radius with
    | arr l => simp only [hp, hbad l rfl, ne_eq, not_true_eq_false, decide_false, Bool.false_eq_true, if_false, hneg,
        clusterPoissonReps_eq, Int.toNat_natCast]
    | _ => simp only [hp, Bool.false_eq_true, if_false, hneg, clusterPoissonReps_eq, Int.toNat_natCast]
  simp only [Returns, hval]
  constructor
  · rintro ⟨r, q, ⟨fuel, h1⟩, h2⟩
    obtain ⟨reps, q', h3, h4⟩ := Run.andThen_ok.1 h1
    rw [Run.ret_ok] at h4
    obtain ⟨rfl, rfl⟩ := h4
    rw [data_squeeze _ _ hn, ← List.flatten_flatten] at h2
    exact ⟨_, fuel, reps, h3, h2⟩
  · rintro ⟨q, fuel, reps, h1, h2⟩
    refine ⟨_, q, ⟨fuel, Run.andThen_ok.2 ⟨reps, q, h1, rfl⟩⟩, ?_⟩
    rw [data_squeeze _ _ hn, ← List.flatten_flatten]
    exact h2

/-- **C148.** Let the draws of the generator be independent and uniform on `[0, 1)`. A call of `cluster_poisson` that makes
replications of `n` points round at least two centres first draws an integer for every replication, which determines its
centres. The probability that these integers are `ks` and that the call returns an array in which the points of every cluster,
after its centre, lie in given sets, is the probability that the integers are `ks`, multiplied, for all clusters and all these
sets, by the share of the set in the part of the hull within the radius of the centre. So, given the centres, the other points
of all clusters and replications are independent, and each is uniformly distributed on the part of the hull in its disc. -/
theorem C148_cluster_poisson {Ω : Type} [MeasurableSpace Ω] (P : Measure Ω) [IsProbabilityMeasure P] (U : ℕ → Ω → ℝ)
    (hU : IndependentDraws P U ((volume : Measure ℝ).restrict (Set.Ico 0 1)))
    (h : Hull ℝ) (hull : Set (ℝ × ℝ)) (hhull : ∀ x y, h.contains x y = true ↔ (x, y) ∈ hull) (hmeas : MeasurableSet hull)
    (root : ℝ → ℝ) (gen : ℕ → ℕ → ℝ) (intensity : Option ℝ) (size : SizeArg) (n n_seeds : ℕ) (i : XF ℝ) (hk : 2 ≤ n_seeds)
    (radius : RadiusArg ℝ) (ks : List ℕ) (cls : List (List ClusterEvent)) (hks : ks ≠ [])
    (hp : parseSizeAndIntensity h intensity size = .ok (n, ks.length, i))
    (hcl : List.Forall₂ (ClustersOf h root gen radius n n_seeds) ks cls)
    (hx : ∀ cl ∈ cls, ∀ x ∈ cl, 0 ≤ x.radius ∧ volume (discIn x.radius x.centre hull) ≠ 0 ∧ ∀ a ∈ x.sets, MeasurableSet a)
    (pos : ℕ) :
    P {ω | (∀ j k, ks[j]? = some k → seedDraw (U (pos + j) ω) = k)
        ∧ ∃ r pos', Returns (fun fuel => clusterPoisson h root gen (fun i => U i ω) intensity size n_seeds radius fuel pos)
            (.ok (r, pos'))
          ∧ List.Forall₂ (fun p a => p ∈ a) r.data (cls.flatten.flatMap fun x => {x.centre} :: x.sets)}
      = P {ω | ∀ j k, ks[j]? = some k → seedDraw (U (pos + j) ω) = k}
        * (cls.flatten.map fun x =>
            (x.sets.map fun a => volume (a ∩ discIn x.radius x.centre hull) / volume (discIn x.radius x.centre hull)).prod).prod := by
  have hh : MeasurableHull h := by
    have : {p : ℝ × ℝ | h.contains p.1 p.2 = true} = hull := by
      ext p; exact hhull p.1 p.2
    unfold MeasurableHull
    rw [this]; exact hmeas
  set fs := cls.flatten.map (circleCall h) with hfs
  set As := cls.flatten.map inSets with hAs
  have hreg : ∀ f ∈ fs, Regular f := by
    intro f hf
    obtain ⟨x, -, rfl⟩ := List.mem_map.1 hf
    exact ⟨fun _ => Draws.uniformCircle_inOrder _ _ _ _ _, fun _ _ => uniformCircle_mrun _ _ _ hh _ _,
      fun u pos fuel k => circleCall_below h x u pos fuel k⟩
  have hAm : ∀ A ∈ As, MeasurableSet A := by
    intro A hA
    obtain ⟨x, hx', rfl⟩ := List.mem_map.1 hA
    obtain ⟨cl, hcl', hxc⟩ := List.mem_flatten.1 hx'
    exact measurableSet_forall₂ _ (hx cl hcl' x hxc).2.2
  set E : Set (ℕ → ℝ) := {u | ∀ j k, ks[j]? = some k → seedDraw (u (pos + j)) = k} with hE
  have hEm : MeasurableSet E := by
    have : E = ⋂ j, ⋂ k, {u : ℕ → ℝ | ks[j]? = some k → seedDraw (u (pos + j)) = k} := by
      ext u; simp [hE]
    rw [this]
    refine .iInter fun j => .iInter fun k => ?_
    by_cases hjk : ks[j]? = some k
    · simp only [hjk, true_imp_iff]
      exact (measurable_seedDraw.comp (measurable_stream (pos + j))) (measurableSet_singleton k)
    · simp only [hjk, false_imp_iff]
      exact MeasurableSet.univ
  have hloc : ∀ u u' : ℕ → ℝ, (∀ i < pos + ks.length, u i = u' i) → u ∈ E → u' ∈ E := by
    intro u u' huu hu j k hjk
    have hj : j < ks.length := (List.getElem?_eq_some_iff.1 hjk).1
    rw [← huu (pos + j) (by omega)]
    exact hu j k hjk
  have hset : {ω | (∀ j k, ks[j]? = some k → seedDraw (U (pos + j) ω) = k)
        ∧ ∃ r pos', Returns (fun fuel => clusterPoisson h root gen (fun i => U i ω) intensity size n_seeds radius fuel pos)
            (.ok (r, pos'))
          ∧ List.Forall₂ (fun p a => p ∈ a) r.data (cls.flatten.flatMap fun x => {x.centre} :: x.sets)}
      = {ω | (fun i => U i ω) ∈ E ∧ (fun i => U (pos + ks.length + i) ω) ∈ callsIn fs As 0} := by
    ext ω
    refine and_congr_right fun hω => ?_
    exact (returns_iff hk hks hp hcl pos hω).trans (sequence_shift hreg (pos + ks.length) (fun i => U i ω) As 0)
  rw [hset, before_after hU _ hEm hloc (sequence_measurable hreg hAm 0)]
  congr 1
  have hshift : P {ω | (fun i => U (pos + ks.length + i) ω) ∈ callsIn fs As 0}
      = P {ω | (fun i => U i ω) ∈ callsIn fs As (pos + ks.length)} := by
    congr 1
    ext ω
    exact (sequence_shift hreg (pos + ks.length) (fun i => U i ω) As 0).symm
  rw [hshift, sequence_law hU hreg (by rw [hfs, hAs, List.length_map, List.length_map]) hAm, hfs, hAs, List.zipWith_map, List.zipWith_self]
  congr 1
  refine List.map_congr_left fun x hx' => ?_
  obtain ⟨cl, hcl', hxc⟩ := List.mem_flatten.1 hx'
  obtain ⟨x1, x2, x3⟩ := hx cl hcl' x hxc
  rw [← C110_circle_uniform P U hU x.radius x1 x.centre h.contains hull hhull hmeas x2 x.sets.length 0 x.sets rfl x3]
  congr 1
  ext ω
  simp only [Set.mem_ofPred_eq, endsAt, Returns, inSets, circleCall]
  constructor
  · rintro ⟨q, fuel, l, h1, h2⟩; exact ⟨l, q, ⟨fuel, h1⟩, h2⟩
  · rintro ⟨l, q, ⟨fuel, h1⟩, h2⟩; exact ⟨q, fuel, l, h1, h2⟩

/-- **C148.** Each integer below 100000 is drawn for each replication with the same probability, and independently. -/
theorem C148_seeds {Ω : Type} [MeasurableSpace Ω] (P : Measure Ω) [IsProbabilityMeasure P] (U : ℕ → Ω → ℝ)
    (hU : IndependentDraws P U ((volume : Measure ℝ).restrict (Set.Ico 0 1))) (ks : List ℕ) (hks : ∀ k ∈ ks, k < 100000) (pos : ℕ) :
    P {ω | ∀ j k, ks[j]? = some k → seedDraw (U (pos + j) ω) = k} = (1 / 100000) ^ ks.length := by
  have hset : {ω | ∀ j k, ks[j]? = some k → seedDraw (U (pos + j) ω) = k}
      = ⋂ j ∈ Finset.range ks.length, U (pos + j) ⁻¹' {x | seedDraw x = ks.getD j 0} := by
    ext ω
    simp only [Set.mem_ofPred_eq, Finset.mem_range, Set.mem_iInter, Set.mem_preimage]
    constructor
    · intro h j hj
      rw [List.getD_eq_getElem _ _ hj]
      exact h j _ (List.getElem?_eq_getElem hj)
    · intro h j k hjk
      obtain ⟨hj, rfl⟩ := List.getElem?_eq_some_iff.1 hjk
      rw [h j hj, List.getD_eq_getElem _ _ hj]
  have hm : ∀ k, MeasurableSet {x : ℝ | seedDraw x = k} := fun k => measurable_seedDraw (measurableSet_singleton k)
  rw [hset, (hU.independent.precomp (add_right_injective pos)).measure_inter_preimage_eq_mul (Finset.range ks.length)
    (sets := fun j => {x | seedDraw x = ks.getD j 0}) (fun j _ => hm _), Finset.prod_congr rfl (g := fun _ => 1 / 100000),
    Finset.prod_const, Finset.card_range]
  intro j hj
  have hk : ks.getD j 0 < 100000 := by
    rw [List.getD_eq_getElem _ _ (Finset.mem_range.1 hj)]
    exact hks _ (List.getElem_mem _)
  generalize ks.getD j 0 = k at hk
  rw [← Measure.map_apply (hU.measurable (pos + j)) (hm k), hU.distribution, Measure.restrict_apply (hm k)]
  have hk1 : (k : ℝ) + 1 ≤ 100000 := by exact_mod_cast hk
  have : {x : ℝ | seedDraw x = k} ∩ Set.Ico 0 1 = Set.Ico ((k : ℝ) / 100000) (((k : ℝ) + 1) / 100000) := by
    ext x
    simp only [Set.mem_inter_iff, Set.mem_ofPred_eq, Set.mem_Ico, seedDraw]
    rw [div_le_iff₀ (by norm_num), lt_div_iff₀ (by norm_num)]
    constructor
    · rintro ⟨h1, h2, h3⟩
      have h0 : 0 ≤ ⌊x * 100000⌋ := Int.floor_nonneg.2 (by positivity)
      have h4 : ⌊x * 100000⌋ = (k : ℤ) := by omega
      have := Int.floor_eq_iff.1 h4
      exact ⟨by exact_mod_cast this.1, by exact_mod_cast this.2⟩
    · rintro ⟨h1, h2⟩
      have h4 : ⌊x * 100000⌋ = (k : ℤ) := Int.floor_eq_iff.2 ⟨by exact_mod_cast h1, by exact_mod_cast h2⟩
      refine ⟨by rw [h4]; rfl, ?_, by linarith⟩
      have : (0 : ℝ) ≤ k := Nat.cast_nonneg k
      linarith
  rw [this, Real.volume_Ico, ← sub_div, add_sub_cancel_left, ENNReal.ofReal_div_of_pos (by norm_num), ENNReal.ofReal_one]
  norm_num

/-- Non-vacuity: five points round two centres of the triangle with corners `(0, 0)`, `(1, 0)` and `(0, 1)`. -/
example : ∃ (P : Measure (ℕ → ℝ)) (_ : IsProbabilityMeasure P) (cl : List ClusterEvent),
    P {ω | (∀ j k, [7][j]? = some k → seedDraw (ω (0 + j)) = k)
        ∧ ∃ r pos', Returns (fun fuel => clusterPoisson triangleHull Real.sqrt (fun _ _ => 1 / 4) ω none (.int 5) 2 (.num (1 / 8))
            fuel 0) (.ok (r, pos'))
          ∧ List.Forall₂ (fun p a => p ∈ a) r.data ([cl].flatten.flatMap fun x => {x.centre} :: x.sets)}
      = (1 / 100000) ^ 1 * (cl.map fun x => (x.sets.map fun a =>
          volume (a ∩ discIn x.radius x.centre {p : ℝ × ℝ | 0 ≤ p.1 ∧ 0 ≤ p.2 ∧ p.1 + p.2 ≤ 1})
            / volume (discIn x.radius x.centre {p : ℝ × ℝ | 0 ≤ p.1 ∧ 0 ≤ p.2 ∧ p.1 + p.2 ≤ 1})).prod).prod
    ∧ cl.map (fun x => (x.centre, x.sets.length)) = [((1 / 4, 1 / 4), 2), ((1 / 4, 1 / 4), 1)] := by
  obtain ⟨P, hP, hU⟩ := uniformDraws_exist
  refine ⟨P, hP, [⟨(1 / 4, 1 / 4), 1 / 8, [{p | p.1 ≤ 1 / 4}, {p | p.2 ≤ 1 / 4}]⟩, ⟨(1 / 4, 1 / 4), 1 / 8, [{p | p.1 ≤ 1 / 4}]⟩], ?_, rfl⟩
  have hdisc : volume (discIn (1 / 8) (1 / 4, 1 / 4) {p : ℝ × ℝ | 0 ≤ p.1 ∧ 0 ≤ p.2 ∧ p.1 + p.2 ≤ 1}) ≠ 0 := by
    have := discIn_univ_pos (1 / 8) (by norm_num) (1 / 4, 1 / 4)
    refine fun h0 => this (measure_mono_null ?_ h0)
    rintro p ⟨hp, -⟩
    refine ⟨hp, ?_⟩
    have h2 : (p.1 - 1 / 4) ^ 2 + (p.2 - 1 / 4) ^ 2 ≤ (1 / 8 : ℝ) ^ 2 := hp
    refine ⟨?_, ?_, ?_⟩ <;> nlinarith [sq_nonneg (p.1 - 1 / 4), sq_nonneg (p.2 - 1 / 4), sq_nonneg (p.1 - p.2)]
  rw [C148_cluster_poisson P _ hU triangleHull {p : ℝ × ℝ | 0 ≤ p.1 ∧ 0 ≤ p.2 ∧ p.1 + p.2 ≤ 1} ?_ ?_ Real.sqrt _ none (.int 5) 5 2
    (.fin 10) le_rfl (.num (1 / 8)) [7] [_] (by simp) ?_ (.cons ⟨?_, ?_, ?_⟩ .nil) ?_ 0, C148_seeds P _ hU [7] (by simp) 0]
  · simp
  · intro x y
    simp [triangleHull]
  · exact MeasurableSet.inter (measurableSet_le measurable_const measurable_fst)
      (MeasurableSet.inter (measurableSet_le measurable_const measurable_snd) (measurableSet_le (measurable_fst.add measurable_snd) measurable_const))
  · simp [parseSizeAndIntensity, divArea, triangleHull, XF.div]
    norm_num
  · refine ⟨4, 3, ?_⟩
    have h2 : Int.toNat 2 = 2 := rfl
    norm_num [poisson, parseSizeAndIntensity, divArea, triangleHull, XF.div, poissonReps, replications, rejection, boxCandidate,
      uniform, Run.andThen, Run.ret, squeeze, h2]
  · simp [clusterRadii]
  · decide +kernel
  · intro cl' hcl' x hx
    simp only [List.mem_cons, List.not_mem_nil, or_false] at hcl'
    subst hcl'
    simp only [List.mem_cons, List.not_mem_nil, or_false] at hx
    rcases hx with rfl | rfl
    · refine ⟨by norm_num, hdisc, fun a ha => ?_⟩
      simp only [List.mem_cons, List.not_mem_nil, or_false] at ha
      rcases ha with rfl | rfl
      · exact measurableSet_le measurable_fst measurable_const
      · exact measurableSet_le measurable_snd measurable_const
    · refine ⟨by norm_num, hdisc, fun a ha => ?_⟩
      simp only [List.mem_cons, List.not_mem_nil, or_false] at ha
      subst ha
      exact measurableSet_le measurable_fst measurable_const

end Pointpats.Props
