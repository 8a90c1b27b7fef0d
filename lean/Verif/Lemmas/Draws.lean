import Verif.Spec.Draws
import Mathlib.Data.List.GetD
import Verif.Model.Process
import Verif.Model.QStatistic

/-!
# Computations that use a stream in order
-/

namespace Pointpats.Draws

open Random Spec

set_option linter.unusedSectionVars false

variable {K : Type} {α β : Type}

theorem ret (a : α) : UsesInOrder (K := K) fun _ pos => Run.ret a pos := by
  intro u pos b pos' h
  simp only [Run.ret, Option.some.injEq, Except.ok.injEq, Prod.mk.injEq] at h
  obtain ⟨rfl, rfl⟩ := h
  exact ⟨le_rfl, fun u' start _ => by simp [Run.ret]⟩

theorem fail (e : PyErr) : UsesInOrder (K := K) (α := α) fun _ _ => Run.fail e := by
  intro u pos b pos' h
  simp [Run.fail] at h

theorem never : UsesInOrder (K := K) (α := α) fun _ _ => none := by
  intro u pos b pos' h
  simp at h

theorem andThen {f : (ℕ → K) → ℕ → Run α} {g : α → (ℕ → K) → ℕ → Run β} (hf : UsesInOrder f) (hg : ∀ a, UsesInOrder (g a)) :
    UsesInOrder fun u pos => (f u pos).andThen fun a pos' => g a u pos' := by
  intro u pos b pos'' h
  cases hfu : f u pos with
  | none => simp [hfu, Run.andThen] at h
  | some r =>
    cases r with
    | error e => simp [hfu, Run.andThen] at h
    | ok x =>
      obtain ⟨a, pos'⟩ := x
      simp only [hfu, Run.andThen] at h
      obtain ⟨h1, h2⟩ := hf u pos a pos' hfu
      obtain ⟨h3, h4⟩ := hg a u pos' b pos'' h
      refine ⟨h1.trans h3, fun u' start hs => ?_⟩
      have e1 := h2 u' start fun i hi => hs i (by omega)
      have e2 := h4 u' (start + (pos' - pos)) fun i hi => by
        have := hs (pos' - pos + i) (by omega)
        rw [add_assoc, this]
        congr 1
        omega
      have e3 : start + (pos' - pos) + (pos'' - pos') = start + (pos'' - pos) := by omega
      simp only [e1, Run.andThen, e2, e3]

/-- Reading one number. -/
theorem read {g : K → (ℕ → K) → ℕ → Run α} (hg : ∀ x, UsesInOrder (g x)) : UsesInOrder fun u pos => g (u pos) u (pos + 1) := by
  intro u pos b pos' h
  obtain ⟨h3, h4⟩ := hg (u pos) u (pos + 1) b pos' h
  refine ⟨by omega, fun u' start hs => ?_⟩
  have e0 := hs 0 (by omega)
  simp only [add_zero] at e0
  have e2 := h4 u' (start + 1) fun i hi => by
    have := hs (1 + i) (by omega)
    rw [add_assoc, this]
    congr 1
    omega
  have e3 : start + 1 + (pos' - (pos + 1)) = start + (pos' - pos) := by omega
  simp only [e0, e2, e3]

/-- Reading a block of numbers. -/
theorem readBlock {g : List K → (ℕ → K) → ℕ → Run α} (n : ℕ) (hg : ∀ l, l.length = n → UsesInOrder (g l)) :
    UsesInOrder fun u pos => g ((List.range n).map fun i => u (pos + i)) u (pos + n) := by
  intro u pos b pos' h
  obtain ⟨h3, h4⟩ := hg _ (by simp) u (pos + n) b pos' h
  refine ⟨by omega, fun u' start hs => ?_⟩
  have e0 : ((List.range n).map fun i => u' (start + i)) = (List.range n).map fun i => u (pos + i) := by
    refine List.map_congr_left fun i hi => hs i ?_
    have := List.mem_range.1 hi
    omega
  have e2 := h4 u' (start + n) fun i hi => by
    have := hs (n + i) (by omega)
    rw [add_assoc, this]
    congr 1
    omega
  have e3 : start + n + (pos' - (pos + n)) = start + (pos' - pos) := by omega
  simp only [e0, e2, e3]

theorem congr {f g : (ℕ → K) → ℕ → Run α} (h : ∀ u pos, f u pos = g u pos) (hg : UsesInOrder g) : UsesInOrder f := by
  have : f = g := funext fun u => funext fun pos => h u pos
  rw [this]
  exact hg

theorem ite {p : Prop} [Decidable p] {f g : (ℕ → K) → ℕ → Run α} (hf : p → UsesInOrder f) (hg : ¬ p → UsesInOrder g) :
    UsesInOrder fun u pos => if p then f u pos else g u pos := by
  by_cases hp : p
  · simp only [hp, if_true]; exact hf hp
  · simp only [hp, if_false]; exact hg hp

/-! ### The loops of `random.py` -/

theorem rejection_inOrder {cand : K → K → K × K} {accept : K × K → Bool} (fuel : ℕ) : ∀ n,
    UsesInOrder fun u pos => rejection (fun pos => cand (u pos) (u (pos + 1))) accept fuel pos n := by
  induction fuel with
  | zero =>
    intro n
    cases n with
    | zero => exact congr (fun u pos => by simp [rejection]) (ret [])
    | succ n => exact congr (fun u pos => by simp [rejection]) never
  | succ fuel ih =>
    intro n
    cases n with
    | zero => exact congr (fun u pos => by simp [rejection]) (ret [])
    | succ n =>
      refine congr (fun u pos => by rw [rejection]) ?_
      refine read (g := fun x u pos => if accept (cand x (u pos)) then
        (rejection (fun pos => cand (u pos) (u (pos + 1))) accept fuel (pos + 1) n).andThen fun l pos' =>
          Run.ret (cand x (u pos) :: l) pos'
        else rejection (fun pos => cand (u pos) (u (pos + 1))) accept fuel (pos + 1) (n + 1)) fun x => ?_
      refine read (g := fun y u pos => if accept (cand x y) then
        (rejection (fun pos => cand (u pos) (u (pos + 1))) accept fuel pos n).andThen fun l pos' => Run.ret (cand x y :: l) pos'
        else rejection (fun pos => cand (u pos) (u (pos + 1))) accept fuel pos (n + 1)) fun y => ?_
      exact ite (fun _ => andThen (ih n) fun l => ret _) fun _ => ih _

theorem replications_inOrder {body : ℕ → (ℕ → K) → ℕ → Run α} (s : ℕ) : ∀ i, (∀ j, i ≤ j → j < i + s → UsesInOrder (body j)) →
    UsesInOrder fun u pos => replications (fun i pos => body i u pos) i s pos := by
  induction s with
  | zero => intro i _; exact congr (fun u pos => by simp [replications]) (ret [])
  | succ s ih =>
    intro i hb
    refine congr (fun u pos => by rw [replications]) (andThen (hb i le_rfl (by omega)) fun l => ?_)
    exact andThen (ih (i + 1) fun j h1 h2 => hb j (by omega) (by omega)) fun ls => ret _

variable [Field K] [LinearOrder K]

theorem circleLoop_inOrder (r : K) (center : K × K) (inHull : K → K → Bool) (n fuel : ℕ) : ∀ good,
    UsesInOrder fun u pos => circleLoop r center inHull u n fuel pos good := by
  induction fuel with
  | zero =>
    intro good
    refine congr (fun u pos => by rw [circleLoop]) (ite (fun _ => ret _) fun _ => never)
  | succ fuel ih =>
    intro good
    refine congr (g := fun u pos => if n ≤ good.length then Run.ret (good.map fun p => (p.1 + center.1, p.2 + center.2)) pos
      else (fun l u pos => circleLoop r center inHull u n fuel pos (good ++ ((((List.range (2 * n)).map fun i =>
          (uniform (-r) r (l.getD i 0), uniform (-r) r (l.getD (2 * n + i) 0))).filter
          fun p => decide (p.1 * p.1 + p.2 * p.2 ≤ r * r) && inHull (p.1 + center.1) (p.2 + center.2)).take
            (n - good.length)))) ((List.range (4 * n)).map fun i => u (pos + i)) u (pos + 4 * n)) (fun u pos => ?_)
      (ite (fun _ => ret _) fun _ => readBlock (g := fun l u pos => circleLoop r center inHull u n fuel pos
        (good ++ ((((List.range (2 * n)).map fun i => (uniform (-r) r (l.getD i 0), uniform (-r) r (l.getD (2 * n + i) 0))).filter
          fun p => decide (p.1 * p.1 + p.2 * p.2 ≤ r * r) && inHull (p.1 + center.1) (p.2 + center.2)).take
            (n - good.length)))) (4 * n) fun l _ => ih _)
    rw [circleLoop]
    congr 4
    unfold circleChunk
    congr 1
    refine List.map_congr_left fun i hi => ?_
    have hi := List.mem_range.1 hi
    rw [List.getD_eq_getElem _ _ (by simp; omega), List.getD_eq_getElem _ _ (by simp; omega)]
    simp [add_assoc]

theorem uniformCircle_inOrder (n : ℕ) (r : K) (center : K × K) (inHull : K → K → Bool) (fuel : ℕ) :
    UsesInOrder fun u pos => uniformCircle n r center inHull u fuel pos := circleLoop_inOrder _ _ _ _ _ _

theorem clusterPoints_inOrder (h : Hull K) (fuel : ℕ) (seeds : Squeezed K) (i : ℕ) (radius : K) (n_in : ℕ) :
    UsesInOrder fun u pos => clusterPoints h u fuel seeds i radius n_in pos := by
  unfold clusterPoints
  cases seeds with
  | point p => exact ite (fun _ => ret _) fun _ => ite (fun _ => fail _) fun _ => fail _
  | cube _ _ => exact fail _
  | rows l =>
    simp only
    cases l[i]? with
    | none => exact fail _
    | some seed =>
      exact ite (fun _ => ret _) fun _ => ite (fun _ => fail _) fun _ =>
        andThen (uniformCircle_inOrder _ _ _ _ _) fun l => ret _

theorem clusterLoop_inOrder (h : Hull K) (fuel : ℕ) (seeds : Squeezed K) (rest : List (K × ℕ)) : ∀ i,
    UsesInOrder fun u pos => clusterLoop h u fuel seeds i rest pos := by
  induction rest with
  | nil => intro i; exact congr (fun u pos => by rw [clusterLoop]) (ret [])
  | cons x rest ih =>
    intro i
    refine congr (fun u pos => by rw [clusterLoop]) (andThen (clusterPoints_inOrder _ _ _ _ _ _) fun l => ?_)
    exact andThen (ih _) fun ls => ret _

section Floor

variable [IsStrictOrderedRing K] [FloorRing K]

theorem poissonReps_inOrder (h : Hull K) (n s fuel : ℕ) : UsesInOrder fun u pos => poissonReps h u n s fuel pos :=
  replications_inOrder (body := fun _ u pos => rejection (boxCandidate h u) (fun p => h.contains p.1 p.2) fuel pos n) s 0
    fun _ _ _ => rejection_inOrder (cand := fun x y => (uniform h.bbox.xmin h.bbox.xmax x, uniform h.bbox.ymin h.bbox.ymax y))
      fuel n

theorem poisson_inOrder (h : Hull K) (intensity : Option K) (size : SizeArg) (fuel : ℕ) :
    UsesInOrder fun u pos => poisson h u intensity size fuel pos := by
  unfold poisson
  cases parseSizeAndIntensity h intensity size with
  | error e => exact fail e
  | ok x =>
    obtain ⟨n, s, i⟩ := x
    exact ite (fun _ => fail _) fun _ => andThen (poissonReps_inOrder _ _ _ _) fun reps => ret _

theorem normal_inOrder (h : Hull K) (root : K → K) (mvn : M2 K → K → K → K × K) (center : K × K) (cov : CovArg K)
    (size : SizeArg) (fuel : ℕ) : UsesInOrder fun u pos => normal h root mvn center cov u size fuel pos := by
  unfold normal
  cases parseSizeAndIntensity h none size with
  | error e => exact fail e
  | ok x =>
    obtain ⟨n, s, i⟩ := x
    simp only
    cases resolveCov h cov s with
    | error e => exact fail e
    | ok cov =>
      refine ite (fun _ => fail _) fun _ => andThen ?_ fun reps => ret _
      exact replications_inOrder (body := fun i u pos => rejection (normalCandidate root mvn center (cov.at i) u)
        (fun p => h.contains p.1 p.2) fuel pos n.toNat) _ 0 fun j _ _ =>
        rejection_inOrder (cand := fun x y => (center.1 + (mvn (replicationCor root (cov.at j)) x y).1 * root (cov.at j).a,
          center.2 + (mvn (replicationCor root (cov.at j)) x y).2 * root (cov.at j).d)) fuel n.toNat

theorem replications_congr {body body' : ℕ → ℕ → Run α} (s : ℕ) : ∀ i pos, (∀ j, i ≤ j → j < i + s → body j = body' j) →
    replications body i s pos = replications body' i s pos := by
  induction s with
  | zero => intro i pos _; rfl
  | succ s ih =>
    intro i pos hb
    rw [replications, replications, hb i le_rfl (by omega)]
    congr 1
    funext l pos'
    rw [ih (i + 1) pos' fun j h1 h2 => hb j (by omega) (by omega)]

/-- One replication of `cluster_poisson`, for the number `x` that seeds its generator of centres. -/
private def clusterBody (h : Hull K) (root : K → K) (gen : ℕ → ℕ → K) (n n_seeds : ℕ) (radius : RadiusArg K) (fuel : ℕ) (x : K)
    (u : ℕ → K) (pos' : ℕ) : Run (List (List (K × K))) :=
  match poisson h (gen (seedDraw x)) Option.none (.int n_seeds) fuel 0 with
  | none => none
  | some (.error e) => Run.fail e
  | some (.ok (seeds, _)) =>
      match clusterRadii root radius n_seeds seeds with
      | .error e => Run.fail e
      | .ok radii =>
          if n_seeds = 0 then Run.fail .valueError
          else clusterLoop h u fuel seeds 0 (radii.zip (arraySplitSizes n n_seeds)) pos'

private theorem clusterBody_inOrder (h : Hull K) (root : K → K) (gen : ℕ → ℕ → K) (n n_seeds : ℕ) (radius : RadiusArg K)
    (fuel : ℕ) (x : K) : UsesInOrder (clusterBody h root gen n n_seeds radius fuel x) := by
  unfold clusterBody
  cases poisson h (gen (seedDraw x)) Option.none (.int n_seeds) fuel 0 with
  | none => exact never
  | some r =>
    cases r with
    | error e => exact fail e
    | ok y =>
      simp only
      cases clusterRadii root radius n_seeds y.1 with
      | error e => exact fail e
      | ok radii => exact ite (fun _ => fail _) fun _ => clusterLoop_inOrder _ _ _ _ _

theorem clusterPoissonReps_inOrder (h : Hull K) (root : K → K) (gen : ℕ → ℕ → K) (n s n_seeds : ℕ) (radius : RadiusArg K)
    (fuel : ℕ) : UsesInOrder fun u pos => clusterPoissonReps h root gen u n s n_seeds radius fuel pos := by
  refine congr (g := fun u pos => replications (fun i pos' => clusterBody h root gen n n_seeds radius fuel
    (((List.range s).map fun i => u (pos + i)).getD i 0) u pos') 0 s (pos + s)) (fun u pos => ?_)
    (readBlock (g := fun l u pos => replications (fun i pos' => clusterBody h root gen n n_seeds radius fuel
      (l.getD i 0) u pos') 0 s pos) s fun l _ => ?_)
  · unfold clusterPoissonReps
    refine replications_congr s 0 _ fun j _ hj => ?_
    funext pos'
    rw [List.getD_eq_getElem _ _ (by simp; omega)]
    simp only [List.getElem_map, List.getElem_range]
    rfl
  · exact replications_inOrder (body := fun i u pos' => clusterBody h root gen n n_seeds radius fuel (l.getD i 0) u pos') s 0
      fun j _ _ => clusterBody_inOrder _ _ _ _ _ _ _ _

theorem clusterPoisson_inOrder (h : Hull K) (root : K → K) (gen : ℕ → ℕ → K) (intensity : Option K) (size : SizeArg)
    (n_seeds : ℕ) (radius : RadiusArg K) (fuel : ℕ) :
    UsesInOrder fun u pos => clusterPoisson h root gen u intensity size n_seeds radius fuel pos := by
  unfold clusterPoisson
  refine ite (fun _ => fail _) fun _ => ?_
  cases parseSizeAndIntensity h intensity size with
  | error e => exact fail e
  | ok x =>
    obtain ⟨n, s, i⟩ := x
    exact ite (fun _ => fail _) fun _ => andThen (clusterPoissonReps_inOrder _ _ _ _ _ _ _ _) fun reps => ret _

/-- One replication of `cluster_normal` after the other, for the list of the numbers that seed the centres. -/
private def normalReps (h : Hull K) (root : K → K) (mvn : M2 K → K → K → K × K) (gen : ℕ → ℕ → K)
    (n n_seeds fuel : ℕ) (xs : List K) (u : ℕ → K) : (i s : ℕ) → CovArg K → ℕ →
      Run (List (List (K × K) × CovArg K × List (List (K × K))))
  | _, 0, _, pos => Run.ret [] pos
  | i, s + 1, cov, pos =>
      match poisson h (gen (seedDraw (xs.getD i 0))) Option.none (.int n_seeds) fuel 0 with
      | none => none
      | some (.error e) => Run.fail e
      | some (.ok (centers, _)) =>
          let cov' : Py (CovArg K) := match cov with
            | .none => (meanSpacingSq root centers).map CovArg.num
            | c => .ok c
          match cov' with
          | .error e => Run.fail e
          | .ok cov =>
              if n_seeds = 0 then Run.fail .valueError
              else match centers with
              | .rows l =>
                  match clusterNormalLoop h root mvn gen cov fuel
                      (l.zip ((arraySplitSizes n n_seeds).zip (((List.range n_seeds).map fun j => u (pos + j)).map seedDraw))) with
                  | none => none
                  | some (.error e) => Run.fail e
                  | some (.ok clusters) =>
                      (normalReps h root mvn gen n n_seeds fuel xs u (i + 1) s cov
                          (pos + n_seeds)).andThen fun rest pos' =>
                        Run.ret ((l, cov, clusters) :: rest) pos'
              | .point _ =>
                  if n = 1 then Run.fail .indexError
                  else if n < 1 then Run.fail .exception
                  else Run.fail .valueError
              | .cube _ _ => Run.fail .valueError

private theorem normalReps_eq (h : Hull K) (root : K → K) (mvn : M2 K → K → K → K × K) (gen : ℕ → ℕ → K) (u : ℕ → K)
    (n n_seeds fuel seedPos total : ℕ) (s : ℕ) : ∀ i cov pos, i + s ≤ total →
    clusterNormalReps h root mvn gen u n n_seeds fuel seedPos i s cov pos
      = normalReps h root mvn gen n n_seeds fuel ((List.range total).map fun i => u (seedPos + i)) u i s cov pos := by
  induction s with
  | zero => intro i cov pos _; rfl
  | succ s ih =>
    intro i cov pos hi
    rw [clusterNormalReps, normalReps, List.getD_eq_getElem _ _ (by simp; omega)]
    simp only [List.getElem_map, List.getElem_range, List.map_map, ih _ _ _ (show i + 1 + s ≤ total by omega)]
    rfl

private theorem normalReps_inOrder (h : Hull K) (root : K → K) (mvn : M2 K → K → K → K × K) (gen : ℕ → ℕ → K)
    (n n_seeds fuel : ℕ) (xs : List K) (s : ℕ) : ∀ i cov,
    UsesInOrder fun u pos => normalReps h root mvn gen n n_seeds fuel xs u i s cov pos := by
  induction s with
  | zero => intro i cov; exact congr (fun u pos => by rw [normalReps]) (ret [])
  | succ s ih =>
    intro i cov
    refine congr (fun u pos => by rw [normalReps]) ?_
    cases poisson h (gen (seedDraw (xs.getD i 0))) Option.none (.int n_seeds) fuel 0 with
    | none => exact never
    | some r =>
      cases r with
      | error e => exact fail e
      | ok y =>
        obtain ⟨centers, _⟩ := y
        simp only
        split
        · exact fail _
        · rename_i cov' _
          refine ite (fun _ => fail _) fun _ => ?_
          cases centers with
          | point _ => exact ite (fun _ => fail _) fun _ => ite (fun _ => fail _) fun _ => fail _
          | cube _ _ => exact fail _
          | rows l =>
            refine readBlock (g := fun x u pos => match clusterNormalLoop h root mvn gen cov' fuel
                      (l.zip ((arraySplitSizes n n_seeds).zip (x.map seedDraw))) with
                  | none => none
                  | some (.error e) => Run.fail e
                  | some (.ok clusters) =>
                      (normalReps h root mvn gen n n_seeds fuel xs u (i + 1) s cov' pos).andThen fun rest pos' =>
                        Run.ret ((l, cov', clusters) :: rest) pos') n_seeds fun x _ => ?_
            cases clusterNormalLoop h root mvn gen cov' fuel (l.zip ((arraySplitSizes n n_seeds).zip (x.map seedDraw))) with
            | none => exact never
            | some r =>
              cases r with
              | error e => exact fail e
              | ok clusters => exact andThen (ih _ _) fun rest => ret _

theorem clusterNormal_inOrder (h : Hull K) (root : K → K) (mvn : M2 K → K → K → K × K) (gen : ℕ → ℕ → K) (cov : CovArg K)
    (size : SizeArg) (n_seeds fuel : ℕ) :
    UsesInOrder fun u pos => clusterNormal h root mvn gen u cov size n_seeds fuel pos := by
  unfold clusterNormal
  cases parseSizeAndIntensity h none size with
  | error e => exact fail e
  | ok x =>
    obtain ⟨n, s, i⟩ := x
    refine ite (fun _ => fail _) fun _ => andThen ?_ fun reps => ret _
    refine congr (fun u pos => normalReps_eq h root mvn gen u n.toNat n_seeds fuel pos s.toNat s.toNat 0 cov _ (by omega)) ?_
    exact readBlock (g := fun l u pos => normalReps h root mvn gen n.toNat n_seeds fuel l u 0 s.toNat cov pos) s.toNat
      fun l _ => normalReps_inOrder _ _ _ _ _ _ _ _ _ _ _

private theorem step_bad (h : Hull K) (n len fuel : ℕ) (points : Squeezed K) :
    UsesInOrder fun u pos =>
      if (decide (len < n) || decide (u pos < 1 / 2)) = true then
        (poisson h u (some 1) .none fuel (if len < n then pos else pos + 1)).andThen fun _ _ => Run.fail PyErr.valueError
      else if n < len then Run.fail PyErr.valueError else Run.ret points (if len < n then pos else pos + 1) := by
  by_cases hl : len < n
  · simp only [hl, decide_true, Bool.true_or, if_true]
    exact andThen (poisson_inOrder _ _ _ _) fun _ => fail _
  · simp only [hl, decide_false, Bool.false_or, if_false, decide_eq_true_eq]
    exact read (g := fun x u pos => if x < 1 / 2 then (poisson h u (some 1) .none fuel pos).andThen
      fun _ _ => Run.fail PyErr.valueError else if n < len then Run.fail PyErr.valueError else Run.ret points pos) fun x =>
      ite (fun _ => andThen (poisson_inOrder _ _ _ _) fun _ => fail _) fun _ => ite (fun _ => fail _) fun _ => ret _

theorem straussStep_inOrder (h : Hull K) (gamma r : K) (n fuel : ℕ) (points : Squeezed K) :
    UsesInOrder fun u pos => straussStep h u gamma r n fuel points pos := by
  cases points with
  | point p => exact step_bad h n 2 fuel (.point p)
  | cube k l => exact step_bad h n l.length fuel (.cube k l)
  | rows l =>
    have hbirth : UsesInOrder fun u pos => (poisson h u (some 1) .none fuel pos).andThen fun new_point pos =>
        match vstackRows l new_point with
          | .error e => Run.fail e
          | .ok trial_points =>
              if u pos < min 1 ((n : K) * gamma ^ (pairCount r trial_points - pairCount r l) / ((l.length : K) + 1)) then
                Run.ret (Squeezed.rows trial_points) (pos + 1)
              else Run.ret (Squeezed.rows l) (pos + 1) := by
      refine andThen (g := fun new_point u pos => match vstackRows l new_point with
          | .error e => Run.fail e
          | .ok trial_points =>
              if u pos < min 1 ((n : K) * gamma ^ (pairCount r trial_points - pairCount r l) / ((l.length : K) + 1)) then
                Run.ret (Squeezed.rows trial_points) (pos + 1)
              else Run.ret (Squeezed.rows l) (pos + 1)) (poisson_inOrder _ _ _ _) fun new_point => ?_
      cases vstackRows l new_point with
      | error e => exact fail e
      | ok trial =>
        exact read (g := fun x u pos => if x < min 1 ((n : K) * gamma ^ (pairCount r trial - pairCount r l) / ((l.length : K) + 1))
          then Run.ret (Squeezed.rows trial) pos else Run.ret (Squeezed.rows l) pos) fun x => ite (fun _ => ret _) fun _ => ret _
    have hdeath : UsesInOrder fun u pos =>
          if (n : K) * gamma ^ (pairCount r l - pairCount r (l.eraseIdx ⌊u pos * (l.length : K)⌋.toNat)) = 0 then
            Run.fail .runtimeError
          else if u (pos + 1) < min 1 ((l.length : K) /
              ((n : K) * gamma ^ (pairCount r l - pairCount r (l.eraseIdx ⌊u pos * (l.length : K)⌋.toNat)))) then
            Run.ret (Squeezed.rows (l.eraseIdx ⌊u pos * (l.length : K)⌋.toNat)) (pos + 2)
          else Run.ret (Squeezed.rows l) (pos + 2) := by
      refine read (g := fun x u pos =>
          if (n : K) * gamma ^ (pairCount r l - pairCount r (l.eraseIdx ⌊x * (l.length : K)⌋.toNat)) = 0 then
            Run.fail .runtimeError
          else if u pos < min 1 ((l.length : K) /
              ((n : K) * gamma ^ (pairCount r l - pairCount r (l.eraseIdx ⌊x * (l.length : K)⌋.toNat)))) then
            Run.ret (Squeezed.rows (l.eraseIdx ⌊x * (l.length : K)⌋.toNat)) (pos + 1)
          else Run.ret (Squeezed.rows l) (pos + 1)) fun x => ite (fun _ => fail _) fun _ => ?_
      exact read (g := fun y u pos => if y < min 1 ((l.length : K) /
              ((n : K) * gamma ^ (pairCount r l - pairCount r (l.eraseIdx ⌊x * (l.length : K)⌋.toNat)))) then
            Run.ret (Squeezed.rows (l.eraseIdx ⌊x * (l.length : K)⌋.toNat)) pos
          else Run.ret (Squeezed.rows l) pos) fun y => ite (fun _ => ret _) fun _ => ret _
    unfold straussStep
    simp only
    by_cases hl : l.length < n
    · simp only [hl, decide_true, Bool.true_or, if_true]
      exact hbirth
    · simp only [hl, decide_false, Bool.false_or, if_false, decide_eq_true_eq]
      refine read (g := fun x u pos => if x < 1 / 2 then (poisson h u (some 1) .none fuel pos).andThen fun new_point pos =>
        match vstackRows l new_point with
          | .error e => Run.fail e
          | .ok trial_points =>
              if u pos < min 1 ((n : K) * gamma ^ (pairCount r trial_points - pairCount r l) / ((l.length : K) + 1)) then
                Run.ret (Squeezed.rows trial_points) (pos + 1)
              else Run.ret (Squeezed.rows l) (pos + 1)
        else if n < l.length then
          if (n : K) * gamma ^ (pairCount r l - pairCount r (l.eraseIdx ⌊u pos * (l.length : K)⌋.toNat)) = 0 then
            Run.fail .runtimeError
          else if u (pos + 1) < min 1 ((l.length : K) /
              ((n : K) * gamma ^ (pairCount r l - pairCount r (l.eraseIdx ⌊u pos * (l.length : K)⌋.toNat)))) then
            Run.ret (Squeezed.rows (l.eraseIdx ⌊u pos * (l.length : K)⌋.toNat)) (pos + 2)
          else Run.ret (Squeezed.rows l) (pos + 2)
        else Run.ret (.rows l) pos) fun x => ite (fun _ => hbirth) fun _ => ite (fun _ => hdeath) fun _ => ret _

theorem straussIter_inOrder (h : Hull K) (gamma r : K) (n fuel : ℕ) (k : ℕ) : ∀ points,
    UsesInOrder fun u pos => straussIter h u gamma r n fuel k points pos := by
  induction k with
  | zero => intro points; exact congr (fun u pos => by rw [straussIter]) (ret _)
  | succ k ih =>
    intro points
    exact congr (fun u pos => by rw [straussIter]) (andThen (straussStep_inOrder _ _ _ _ _ _) fun p => ih p)

theorem straussAttempts_inOrder (h : Hull K) (gamma r : K) (n n_iter fuel : ℕ) (k : ℕ) :
    UsesInOrder fun u pos => straussAttempts h u gamma r n n_iter fuel k pos := by
  induction k with
  | zero => exact congr (fun u pos => by rw [straussAttempts]) (fail _)
  | succ k ih =>
    refine congr (fun u pos => by rw [straussAttempts]) (andThen (poisson_inOrder _ _ _ _) fun p =>
      andThen (straussIter_inOrder _ _ _ _ _ _ _) fun p' => ?_)
    cases straussTake n p' with
    | none => exact ih
    | some l => exact ret _

theorem strauss_inOrder (h : Hull K) (intensity : Option K) (size : SizeArg) (gamma r : K) (n_iter max_iter fuel : ℕ) :
    UsesInOrder fun u pos => strauss h u intensity size gamma r n_iter max_iter fuel pos := by
  unfold strauss
  cases parseSizeAndIntensity h intensity size with
  | error e => exact fail e
  | ok x =>
    obtain ⟨n, s, i⟩ := x
    refine ite (fun _ => fail _) fun _ => andThen ?_ fun reps => ret _
    exact replications_inOrder (body := fun _ u pos => straussAttempts h u gamma r n.toNat n_iter fuel max_iter pos) _ 0
      fun _ _ _ => straussAttempts_inOrder _ _ _ _ _ _ _

/-! ### The quadrat test -/

theorem qStatistic_inOrder (cos30 : K) (window : Hull K) (points : List (K × K)) (grid : Quadrat.GridArg K)
    (realizations : ℤ) (fuel : ℕ) :
    UsesInOrder fun u pos => Quadrat.qStatistic cos30 window u points grid realizations fuel pos := by
  unfold Quadrat.qStatistic
  cases Quadrat.asPointsArray points with
  | error e => exact fail e
  | ok points =>
    simp only
    cases Quadrat.gridCounts cos30 points grid with
    | error e => exact fail e
    | ok x =>
      obtain ⟨d, g⟩ := x
      refine ite (fun _ => ite (fun _ => fail _) fun _ => andThen (poisson_inOrder _ _ _ _) fun reals => ?_) fun _ => ret _
      cases (List.range realizations.toNat).mapM (Quadrat.simChi2 cos30 g reals) with
      | error e => exact fail e
      | ok sims => exact ret _

end Floor

/-! ### The processes -/

theorem draw_inOrder {contains : K × K → Bool} {realize : (ℕ → K) → ℕ → ℕ → Run (List (Process.Coord K × Process.Coord K))}
    (hr : ∀ n, UsesInOrder fun u pos => realize u n pos) (n fuel : ℕ) : ∀ sample,
    UsesInOrder fun u pos => Process.draw contains (realize u) n fuel pos sample := by
  induction fuel with
  | zero => intro sample; exact congr (fun u pos => by rw [Process.draw]) (ite (fun _ => ret _) fun _ => never)
  | succ fuel ih =>
    intro sample
    refine congr (fun u pos => by rw [Process.draw]) (ite (fun _ => ret _) fun _ => andThen (hr n) fun pnts => ?_)
    cases Process.toPoints pnts with
    | error e => exact fail e
    | ok l => exact ih _

theorem realizations_inOrder {contains : K × K → Bool}
    {realize : (ℕ → K) → ℕ → ℕ → Run (List (Process.Coord K × Process.Coord K))}
    (hr : ∀ n, UsesInOrder fun u pos => realize u n pos) (fuel : ℕ) (ns : List ℕ) :
    UsesInOrder fun u pos => Process.realizations contains (realize u) fuel ns pos := by
  induction ns with
  | nil => exact congr (fun u pos => by rw [Process.realizations]) (ret [])
  | cons n ns ih =>
    exact congr (fun u pos => by rw [Process.realizations]) (andThen (draw_inOrder hr n fuel []) fun l =>
      andThen ih fun ls => ret _)

theorem poissonRealize_inOrder (bbox : BBox K) (n : ℕ) : UsesInOrder fun u pos => Process.poissonRealize bbox u n pos := by
  refine congr (g := fun u pos => (fun (l : List K) (_ : ℕ → K) pos => Run.ret ((List.range n).map fun i =>
    (Process.Coord.arr1 (uniform bbox.xmin bbox.xmax (l.getD i 0)), Process.Coord.arr1 (uniform bbox.ymin bbox.ymax
      (l.getD (n + i) 0)))) pos) ((List.range (2 * n)).map fun i => u (pos + i)) u (pos + 2 * n)) (fun u pos => ?_)
    (readBlock (g := fun l _ pos => Run.ret ((List.range n).map fun i =>
    (Process.Coord.arr1 (uniform bbox.xmin bbox.xmax (l.getD i 0)), Process.Coord.arr1 (uniform bbox.ymin bbox.ymax
      (l.getD (n + i) 0)))) pos) (2 * n) fun l _ => ret _)
  unfold Process.poissonRealize
  congr 1
  refine List.map_congr_left fun i hi => ?_
  have hi := List.mem_range.1 hi
  rw [List.getD_eq_getElem _ _ (by simp; omega), List.getD_eq_getElem _ _ (by simp; omega)]
  simp [add_assoc]

theorem childrenOf_inOrder (children : ℕ) (d : K) (fuel : ℕ) (cs : List (K × K)) :
    UsesInOrder fun u pos => Process.childrenOf children d u fuel cs pos := by
  induction cs with
  | nil => exact congr (fun u pos => by rw [Process.childrenOf]) (ret [])
  | cons c cs ih =>
    exact congr (fun u pos => by rw [Process.childrenOf, Process.runifInCircle])
      (andThen (uniformCircle_inOrder _ _ _ _ _) fun l => andThen ih fun ls => ret _)

theorem clusterRealize_inOrder (bbox : BBox K) (children : ℕ) (d : K) (keep : Bool) (shuffle : List (K × K) → List (K × K))
    (fuel n : ℕ) : UsesInOrder fun u pos => Process.clusterRealize bbox u children d keep shuffle fuel n pos := by
  unfold Process.clusterRealize
  refine ite (fun _ => fail _) fun _ => ite (fun _ => fail _) fun _ => ?_
  set m := n / children
  refine congr (g := fun u pos => (fun (l : List K) (u : ℕ → K) pos =>
      (fun (cents : List (K × K)) => (Process.childrenOf children d u fuel cents pos).andThen fun pnts pos' =>
        Run.ret ((shuffle (if keep then cents ++ pnts else pnts)).map fun p => (Process.Coord.scalar p.1, Process.Coord.scalar p.2)) pos')
        ((List.range m).map fun i => (uniform bbox.xmin bbox.xmax (l.getD i 0), uniform bbox.ymin bbox.ymax (l.getD (m + i) 0))))
      ((List.range (2 * m)).map fun i => u (pos + i)) u (pos + 2 * m)) (fun u pos => ?_)
    (readBlock (g := fun l u pos => (fun (cents : List (K × K)) => (Process.childrenOf children d u fuel cents pos).andThen
        fun pnts pos' => Run.ret ((shuffle (if keep then cents ++ pnts else pnts)).map fun p =>
          (Process.Coord.scalar p.1, Process.Coord.scalar p.2)) pos')
        ((List.range m).map fun i => (uniform bbox.xmin bbox.xmax (l.getD i 0), uniform bbox.ymin bbox.ymax (l.getD (m + i) 0))))
      (2 * m) fun l _ => andThen (childrenOf_inOrder _ _ _ _) fun pnts => ret _)
  have : ((List.range m).map fun i => (uniform bbox.xmin bbox.xmax (u (pos + i)), uniform bbox.ymin bbox.ymax (u (pos + m + i))))
      = (List.range m).map fun i => (uniform bbox.xmin bbox.xmax (((List.range (2 * m)).map fun i => u (pos + i)).getD i 0),
        uniform bbox.ymin bbox.ymax (((List.range (2 * m)).map fun i => u (pos + i)).getD (m + i) 0)) := by
    refine List.map_congr_left fun i hi => ?_
    have hi := List.mem_range.1 hi
    rw [List.getD_eq_getElem _ _ (by simp; omega), List.getD_eq_getElem _ _ (by simp; omega)]
    simp [add_assoc]
  simp only [this]

end Pointpats.Draws
