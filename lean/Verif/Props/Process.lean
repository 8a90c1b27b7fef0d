import Verif.Model.Process
import Verif.Lemmas.Circle
import Mathlib.Data.Rat.Floor

/-!
# C36, C37, C38: point processes
-/

namespace Pointpats.Props

open Random Process Spec

variable {K : Type} [Field K] [LinearOrder K]

/-! ### C37 -/

/-- **C37.** Whenever `runif_in_circle(n, radius, center)` returns, and for every outcome of the draws, there
are exactly `n` points, all at distance at most `radius` from the centre; it raises no exception. -/
theorem C37_runif_in_circle (n : ℕ) (radius : K) (center : K × K) (u : ℕ → K) (pos : ℕ) :
    (∀ l pos', Returns (fun fuel => runifInCircle n radius center u fuel pos) (.ok (l, pos')) →
      l.length = n ∧ ∀ p ∈ l, Within radius p center)
    ∧ ∀ e, ¬ Returns (fun fuel => runifInCircle n radius center u fuel pos) (.error e) := by
  refine ⟨?_, ?_⟩
  · rintro l pos' ⟨fuel, h⟩
    obtain ⟨h1, h2⟩ := uniformCircle_spec n radius center _ u fuel pos l pos' h
    exact ⟨h1, fun p hp => (h2 p hp).1⟩
  · rintro e ⟨fuel, h⟩
    exact circleLoop_no_error radius center _ u n fuel pos [] e h

/-- **C37, termination.** If the draws from some position on hit the circle (here: if all draws are such that
both coordinates are between a quarter and three quarters) then it returns after one round, using `4 n` draws. -/
theorem C37_runif_in_circle_ends [IsStrictOrderedRing K] (n : ℕ) (hn : 0 < n) (radius : K) (center : K × K)
    (u : ℕ → K) (hu : ∀ i, 1 / 4 ≤ u i ∧ u i ≤ 3 / 4) (pos : ℕ) :
    ∃ l, Returns (fun fuel => runifInCircle n radius center u fuel pos) (.ok (l, pos + 4 * n)) := by
  refine ⟨((circleChunk radius center (fun _ _ => true) u n pos).take n).map
    (fun p => (p.1 + center.1, p.2 + center.2)), 1, ?_⟩
  show circleLoop radius center (fun _ _ => true) u n 1 pos [] = _
  rw [circleLoop, if_neg (by simp; omega)]
  have hall : (circleChunk radius center (fun _ _ => true) u n pos).length = 2 * n := by
    unfold circleChunk
    rw [List.filter_eq_self.2 ?_]
    · simp
    · intro p hp
      obtain ⟨i, _, rfl⟩ := List.mem_map.1 hp
      have key : ∀ x : K, 1 / 4 ≤ x → x ≤ 3 / 4 →
          uniform (-radius) radius x * uniform (-radius) radius x ≤ radius * radius / 4 := by
        intro x h1 h2
        have e : uniform (-radius) radius x = (2 * x - 1) * radius := by unfold uniform; ring
        rw [e]
        have h3 : (2 * x - 1) * (2 * x - 1) ≤ 1 / 4 := by nlinarith
        have h4 := mul_le_mul_of_nonneg_right h3 (mul_self_nonneg radius)
        linarith
      have a := key _ (hu (pos + i)).1 (hu (pos + i)).2
      have b := key _ (hu (pos + 2 * n + i)).1 (hu (pos + 2 * n + i)).2
      have c := mul_self_nonneg radius
      simp only [Bool.and_true, decide_eq_true_eq]
      linarith
  rw [circleLoop, if_pos]
  · rfl
  · simp [hall]; omega

/-- Non-vacuity. -/
example : runifInCircle 2 (3 : ℚ) (1, 1) (fun i => if i % 2 = 0 then 1 / 4 else 1 / 2) 1 0
    = some (.ok ([(-1 / 2, -1 / 2), (1, 1)], 8)) := by decide +kernel

/-! ### C36 -/

omit [Field K] [LinearOrder K] in
private theorem draw_spec (contains : K × K → Bool) (realize : ℕ → ℕ → Run (List (Coord K × Coord K)))
    (n fuel pos : ℕ) (sample : List (K × K)) (hs : ∀ p ∈ sample, contains p = true) (l : List (K × K)) (pos' : ℕ)
    (h : draw contains realize n fuel pos sample = some (.ok (l, pos'))) :
    l.length = n ∧ ∀ p ∈ l, contains p = true := by
  have fin : ∀ sample : List (K × K), (∀ p ∈ sample, contains p = true) → n ≤ sample.length →
      (sample.take n).length = n ∧ ∀ p ∈ sample.take n, contains p = true := by
    intro sample h1 h2
    exact ⟨by rw [List.length_take]; omega, fun p hp => h1 p (List.mem_of_mem_take hp)⟩
  induction fuel generalizing pos sample with
  | zero =>
    rw [draw] at h
    split at h
    · next hc =>
      rw [Run.ret_ok] at h
      obtain ⟨rfl, _⟩ := h
      exact fin _ hs hc
    · cases h
  | succ f ih =>
    rw [draw] at h
    split at h
    · next hc =>
      rw [Run.ret_ok] at h
      obtain ⟨rfl, _⟩ := h
      exact fin _ hs hc
    · obtain ⟨pnts, p, _, h2⟩ := Run.andThen_ok.1 h
      cases hp : toPoints pnts with
      | error e => rw [hp] at h2; cases h2
      | ok q =>
        rw [hp] at h2
        refine ih _ _ ?_ h2
        intro x hx
        rcases List.mem_append.1 hx with hx | hx
        · exact hs x hx
        · exact (List.mem_filter.1 hx).2

omit [Field K] [LinearOrder K] in
private theorem realizations_spec (contains : K × K → Bool) (realize : ℕ → ℕ → Run (List (Coord K × Coord K)))
    (fuel : ℕ) (sizes : List ℕ) (pos : ℕ) (ls : List (List (K × K))) (pos' : ℕ)
    (h : realizations contains realize fuel sizes pos = some (.ok (ls, pos'))) :
    ls.map List.length = sizes ∧ ∀ l ∈ ls, ∀ p ∈ l, contains p = true := by
  induction sizes generalizing pos ls with
  | nil =>
    rw [realizations, Run.ret_ok] at h
    obtain ⟨rfl, _⟩ := h
    simp
  | cons n ns ih =>
    rw [realizations] at h
    obtain ⟨l, p, h1, h⟩ := Run.andThen_ok.1 h
    obtain ⟨ls', p', h2, h⟩ := Run.andThen_ok.1 h
    rw [Run.ret_ok] at h
    obtain ⟨rfl, rfl⟩ := h
    obtain ⟨g1, g2⟩ := draw_spec contains realize n fuel pos [] (by simp) l p h1
    obtain ⟨k1, k2⟩ := ih _ _ h2
    refine ⟨by simp [g1, k1], ?_⟩
    intro m hm
    rcases List.mem_cons.1 hm with rfl | hm
    · exact g2
    · exact k2 m hm

omit [LinearOrder K] in
/-- **C36.** Whenever the construction of a `PoissonPointProcess` ends, its realisations (the values for the
keys `0, 1, …`) lie in the window; without conditioning there are `samples` of them with `n` points each, with
conditioning their sizes are the drawn Poisson counts. -/
theorem C36_poisson_process (bbox : BBox K) (contains : K × K → Bool) (u : ℕ → K) (n samples : ℕ)
    (lambdas : List ℕ) (pos : ℕ) (conditioning : Bool) (ls : List (List (K × K))) (pos' : ℕ)
    (h : Returns (fun fuel => poissonProcess bbox contains u n samples conditioning lambdas fuel pos)
      (.ok (ls, pos'))) :
    (∀ l ∈ ls, ∀ p ∈ l, contains p = true)
    ∧ (conditioning = false → ls.length = samples ∧ ∀ l ∈ ls, l.length = n)
    ∧ (conditioning = true → ls.map List.length = lambdas) := by
  obtain ⟨fuel, h⟩ := h
  obtain ⟨h1, h2⟩ := realizations_spec _ _ _ _ _ _ _ h
  refine ⟨h2, ?_, ?_⟩
  · rintro rfl
    have h3 : ls.map List.length = List.replicate samples n := h1
    refine ⟨?_, ?_⟩
    · have := congrArg List.length h3
      simpa using this
    · intro l hl
      have : l.length ∈ ls.map List.length := List.mem_map.2 ⟨l, hl, rfl⟩
      rw [h3] at this
      exact (List.mem_replicate.1 this).2
  · rintro rfl
    exact h1

omit [Field K] [LinearOrder K] in
private theorem toPoints_arr1 (l : List (K × K)) :
    toPoints (l.map fun p => (Coord.arr1 p.1, Coord.arr1 p.2)) = .ok l := by
  induction l with
  | nil => rfl
  | cons p l ih =>
    rw [List.map_cons, toPoints, ih]
    rfl

omit [LinearOrder K] in
/-- The `j`-th point of a round for `n` points that starts at position `pos`. -/
def roundPoint (bbox : BBox K) (u : ℕ → K) (n pos j : ℕ) : K × K :=
  (bbox.xmin + (bbox.xmax - bbox.xmin) * u (pos + j), bbox.ymin + (bbox.ymax - bbox.ymin) * u (pos + n + j))

omit [LinearOrder K] in
/-- **C36, exactly.** If the window accepts all the drawn points (as a rectangular window does) then the
construction ends, and realisation `k` consists of the points of one round: `n` numbers for the `x` and `n`
for the `y` coordinates. -/
theorem C36_poisson_process_box (bbox : BBox K) (contains : K × K → Bool) (u : ℕ → K) (n samples : ℕ)
    (hn : 0 < n) (pos : ℕ)
    (hc : ∀ (pos j : ℕ), contains (roundPoint bbox u n pos j) = true) :
    Returns (fun fuel => poissonProcess bbox contains u n samples false [] fuel pos)
      (.ok ((List.range samples).map fun (k : ℕ) => (List.range n).map (roundPoint bbox u n (pos + 2 * n * k)),
        pos + 2 * n * samples)) := by
  refine ⟨1, ?_⟩
  show realizations contains (poissonRealize bbox u) 1 (List.replicate samples n) pos = _
  have one : ∀ pos, draw contains (poissonRealize bbox u) n 1 pos []
      = some (.ok ((List.range n).map (roundPoint bbox u n pos), pos + 2 * n)) := by
    intro pos
    rw [draw, if_neg (by simp; omega)]
    have e : poissonRealize bbox u n pos
        = some (.ok (((List.range n).map (roundPoint bbox u n pos)).map fun p => (Coord.arr1 p.1, Coord.arr1 p.2),
            pos + 2 * n)) := by
      unfold poissonRealize
      rw [List.map_map]
      rfl
    simp only [e, Run.andThen, toPoints_arr1, List.nil_append]
    have f : Window.filterContained contains ((List.range n).map (roundPoint bbox u n pos))
        = (List.range n).map (roundPoint bbox u n pos) := by
      unfold Window.filterContained
      rw [List.filter_eq_self]
      intro p hp
      obtain ⟨j, _, rfl⟩ := List.mem_map.1 hp
      exact hc pos j
    rw [f, draw, if_pos (by simp), List.take_of_length_le (by simp)]
    rfl
  induction samples generalizing pos with
  | zero => rfl
  | succ s ih =>
    rw [List.replicate_succ, realizations, one]
    have := ih (pos + 2 * n)
    simp only [Run.andThen, this, Run.ret]
    have e : pos + 2 * n + 2 * n * s = pos + 2 * n * (s + 1) := by ring
    rw [e, List.range_succ_eq_map, List.map_cons, List.map_map]
    simp only [Nat.mul_zero, Nat.add_zero]
    congr 5
    funext k
    simp only [Function.comp]
    congr 1
    congr 1
    simp only [Nat.succ_eq_add_one]; ring

/-- Non-vacuity: two realisations of two points, in a window that rejects some candidates. -/
example : (poissonProcess (⟨0, 0, 4, 4⟩ : BBox ℚ) (fun p => decide (p.1 < 3)) (fun i => ((i % 4 : ℕ) : ℚ) / 4)
    2 2 false [] 5 0).isSome = true := by decide +kernel
example : poissonProcess (⟨0, 0, 4, 4⟩ : BBox ℚ) (fun _ => true) (fun i => ((i % 4 : ℕ) : ℚ) / 4) 2 2 false [] 1 0
    = some (.ok ([[(0, 2), (1, 3)], [(0, 2), (1, 3)]], 8)) := by decide +kernel

/-! ### C38 -/

private theorem childrenOf_spec (children : ℕ) (d : K) (u : ℕ → K) (fuel : ℕ) (cs : List (K × K)) (pos : ℕ)
    (l : List (K × K)) (pos' : ℕ) (h : childrenOf children d u fuel cs pos = some (.ok (l, pos'))) :
    ∃ groups : List (List (K × K)), l = groups.flatten ∧ groups.length = cs.length
      ∧ ∀ c g, (c, g) ∈ cs.zip groups → g.length = children ∧ ∀ p ∈ g, Within d p c := by
  induction cs generalizing pos l with
  | nil =>
    rw [childrenOf, Run.ret_ok] at h
    obtain ⟨rfl, _⟩ := h
    exact ⟨[], rfl, rfl, by simp⟩
  | cons c cs ih =>
    rw [childrenOf] at h
    obtain ⟨a, p, h1, h⟩ := Run.andThen_ok.1 h
    obtain ⟨as, p', h2, h⟩ := Run.andThen_ok.1 h
    rw [Run.ret_ok] at h
    obtain ⟨rfl, rfl⟩ := h
    obtain ⟨groups, rfl, hl, hg⟩ := ih _ _ h2
    refine ⟨a :: groups, rfl, by simp [hl], ?_⟩
    intro c' g hcg
    rw [List.zip_cons_cons, List.mem_cons] at hcg
    rcases hcg with hcg | hcg
    · obtain ⟨rfl, rfl⟩ := Prod.mk.inj hcg
      obtain ⟨k1, k2⟩ := (C37_runif_in_circle children d c' u pos).1 g p ⟨fuel, h1⟩
      exact ⟨k1, k2⟩
    · exact hg c' g hcg

/-- The number of children is at least one and at most `n`. -/
private theorem numChildren_bounds {n parents children : ℕ} (hn : 0 < n) (h : numChildren n parents = .ok children) :
    0 < children ∧ children ≤ n ∧ 0 < parents := by
  unfold numChildren at h
  split at h
  · cases h
  · next hp =>
    have hp' : 0 < parents := Nat.pos_of_ne_zero hp
    injection h with h
    subst h
    refine ⟨Nat.div_pos (by omega) hp', ?_, hp'⟩
    have h1 : n + parents - 1 < (n + 1) * parents := by
      have h2 : (n + 1) * parents = n * parents + parents := by ring
      have h3 : n ≤ n * parents := Nat.le_mul_of_pos_right n hp'
      omega
    have := Nat.div_lt_of_lt_mul (m := n + parents - 1) (n := parents) (k := n + 1) (by rw [Nat.mul_comm]; exact h1)
    omega

/-- A realisation with at least one event never succeeds. -/
private theorem cluster_draw (bbox : BBox K) (contains : K × K → Bool) (u : ℕ → K) (n children : ℕ) (hch : 0 < children)
    (hle : children ≤ n) (radius : K) (keep : Bool) (shuffle : List (K × K) → List (K × K))
    (hshuffle : ∀ l, (shuffle l).Perm l) (fuel' fuel pos : ℕ) (res : Py (List (K × K) × ℕ))
    (h : draw contains (fun n pos => clusterRealize bbox u children radius keep shuffle fuel' n pos) n fuel pos []
      = some res) : res = .error .indexError := by
  cases fuel with
  | zero =>
    rw [draw, if_neg (by simp; omega)] at h
    cases h
  | succ fuel =>
    rw [draw, if_neg (by simp; omega)] at h
    unfold clusterRealize at h
    rw [if_neg hch.ne'] at h
    have hm : n / children ≠ 0 := by
      have := Nat.div_pos hle hch
      omega
    simp only [if_neg hm] at h
    generalize hcent : ((List.range (n / children)).map fun (i : ℕ) =>
      (uniform bbox.xmin bbox.xmax (u (pos + i)), uniform bbox.ymin bbox.ymax (u (pos + n / children + i))))
      = cents at h
    have hcl : cents.length = n / children := by rw [← hcent]; simp
    cases hco : childrenOf children radius u fuel' cents (pos + 2 * (n / children)) with
    | none => rw [hco] at h; simp [Run.andThen] at h
    | some x =>
      cases x with
      | error e =>
        exfalso
        have : ∀ (cs : List (K × K)) (pos : ℕ), childrenOf children radius u fuel' cs pos ≠ some (.error e) := by
          intro cs
          induction cs with
          | nil => intro pos; simp [childrenOf, Run.ret]
          | cons c cs ih =>
            intro pos hh
            rw [childrenOf] at hh
            rcases Run.andThen_error.1 hh with hh | ⟨a, p, _, hh⟩
            · exact (C37_runif_in_circle children radius c u pos).2 e ⟨_, hh⟩
            · rcases Run.andThen_error.1 hh with hh | ⟨a, p, _, hh⟩
              · exact ih _ hh
              · cases hh
        exact this _ _ hco
      | ok y =>
        obtain ⟨pnts, pos1⟩ := y
        rw [hco] at h
        obtain ⟨groups, e1, e2, e3⟩ := childrenOf_spec _ _ _ _ _ _ _ _ hco
        have hne : pnts ≠ [] := by
          rw [e1]
          intro h0
          rw [List.flatten_eq_nil_iff] at h0
          match cents, groups, e2 with
          | [], _, _ => simp at hcl; exact hm hcl.symm
          | c :: cs, g :: gs, _ =>
            have a := (e3 c g (by simp)).1
            have b := h0 g (by simp)
            rw [b] at a; simp at a; omega
        have hne' : shuffle (if keep = true then cents ++ pnts else pnts) ≠ [] := by
          intro h0
          have := hshuffle (if keep = true then cents ++ pnts else pnts)
          rw [h0, List.nil_perm] at this
          split at this
          · rw [List.append_eq_nil_iff] at this; exact hne this.2
          · exact hne this
        simp only [Run.andThen, Run.ret] at h
        generalize shuffle (if keep = true then cents ++ pnts else pnts) = sh at h hne'
        obtain ⟨p, ps, rfl⟩ := List.exists_cons_of_ne_nil hne'
        have et : toPoints (((p :: ps).map fun p => (Coord.scalar p.1, Coord.scalar p.2)) : List (Coord K × Coord K))
            = .error .indexError := rfl
        simp only [et] at h
        exact (Option.some.inj h).symm

/-- **C38, refuted.** For every window, every `n ≥ 1`, every number of parents, radius and `samples ≥ 1`, and all
draws, the construction never succeeds: whenever it ends, it ends with an exception, which is the
`IndexError` from indexing a number (or the division by zero for no parents). -/
theorem C38_cluster_process_refuted (bbox : BBox K) (contains : K × K → Bool) (u : ℕ → K) (n parents : ℕ)
    (hn : 0 < n) (radius : K) (samples : ℕ) (hs : 0 < samples) (keep : Bool) (lambdas : List ℕ)
    (shuffle : List (K × K) → List (K × K)) (hshuffle : ∀ l, (shuffle l).Perm l) (pos : ℕ)
    (res : Py (List (List (K × K)) × ℕ))
    (h : Returns (fun fuel => clusterProcess bbox contains u n parents radius samples keep false lambdas shuffle
      fuel pos) res) :
    res = .error (if parents = 0 then .zeroDivisionError else .indexError) := by
  obtain ⟨fuel, h⟩ := h
  simp only [clusterProcess] at h
  by_cases hp : parents = 0
  · subst hp
    rw [if_pos rfl]
    simp [numChildren, Run.fail] at h
    exact h.symm
  rw [if_neg hp]
  cases hc : numChildren n parents with
  | error e => rw [numChildren, if_neg hp] at hc; cases hc
  | ok children =>
    obtain ⟨c1, c2, _⟩ := numChildren_bounds hn hc
    rw [hc] at h
    obtain ⟨s, rfl⟩ := Nat.exists_eq_succ_of_ne_zero hs.ne'
    simp only [clusterSizes, Bool.false_eq_true, if_false, List.replicate_succ] at h
    rw [realizations] at h
    cases hd : draw contains (fun n pos => clusterRealize bbox u children radius keep shuffle fuel n pos) n fuel pos [] with
    | none => rw [hd] at h; simp [Run.andThen] at h
    | some r =>
      rw [cluster_draw bbox contains u n children c1 c2 radius keep shuffle hshuffle fuel fuel pos r hd] at hd
      rw [hd] at h
      exact (Option.some.inj h).symm

omit [Field K] [LinearOrder K] in
/-- No event is drawn for a realisation of size zero. -/
private theorem draw_zero (contains : K × K → Bool) (realize : ℕ → ℕ → Run (List (Coord K × Coord K))) (fuel pos : ℕ) :
    draw contains realize 0 fuel pos [] = Run.ret [] pos := by
  cases fuel <;> simp [draw]

/-- **C38, refuted, with conditioning.** With drawn numbers of parents `lambdas`, the construction yields one empty realisation for each
if all of them are zero, and otherwise, whenever it ends, it ends with the `IndexError`. -/
theorem C38_conditioned_refuted (bbox : BBox K) (contains : K × K → Bool) (u : ℕ → K) (n parents : ℕ)
    (hn : 0 < n) (hp : 0 < parents) (radius : K) (samples : ℕ) (keep : Bool) (lambdas : List ℕ)
    (shuffle : List (K × K) → List (K × K)) (hshuffle : ∀ l, (shuffle l).Perm l) (pos : ℕ) :
    ((∀ m ∈ lambdas, m = 0) → Returns (fun fuel => clusterProcess bbox contains u n parents radius samples keep true lambdas
        shuffle fuel pos) (.ok (List.replicate lambdas.length [], pos)))
    ∧ ((∃ m ∈ lambdas, 0 < m) → ∀ res, Returns (fun fuel => clusterProcess bbox contains u n parents radius samples keep true
        lambdas shuffle fuel pos) res → res = .error .indexError) := by
  obtain ⟨children, hc⟩ : ∃ c, numChildren n parents = .ok c := ⟨_, by rw [numChildren, if_neg hp.ne']⟩
  obtain ⟨c1, -, -⟩ := numChildren_bounds hn hc
  constructor
  · intro h0
    refine ⟨0, ?_⟩
    simp only [clusterProcess, hc, clusterSizes, if_true]
    induction lambdas with
    | nil => rfl
    | cons m ms ih =>
      obtain rfl := h0 m (by simp)
      rw [List.map_cons, realizations, Nat.zero_mul, draw_zero]
      simp only [Run.ret, Run.andThen, ih fun m hm => h0 m (by simp [hm])]
      rfl
  · rintro hpos res ⟨fuel, h⟩
    simp only [clusterProcess, hc, clusterSizes, if_true] at h
    clear hc
    induction lambdas generalizing res with
    | nil => simp at hpos
    | cons m ms ih =>
      rw [List.map_cons, realizations] at h
      rcases Nat.eq_zero_or_pos m with rfl | hm
      · rw [Nat.zero_mul, draw_zero] at h
        simp only [Run.ret, Run.andThen] at h
        cases hr : realizations contains (fun n pos => clusterRealize bbox u children radius keep shuffle fuel n pos) fuel
            (ms.map (· * children)) pos with
        | none => rw [hr] at h; simp at h
        | some r =>
          have hpos' : ∃ m ∈ ms, 0 < m := by
            obtain ⟨m, hm, h0⟩ := hpos
            rcases List.mem_cons.1 hm with rfl | hm
            · omega
            · exact ⟨m, hm, h0⟩
          rw [ih hpos' r hr] at hr
          rw [hr] at h
          exact (Option.some.inj h).symm
      · cases hd : draw contains (fun n pos => clusterRealize bbox u children radius keep shuffle fuel n pos) (m * children) fuel
            pos [] with
        | none => rw [hd] at h; simp [Run.andThen] at h
        | some r =>
          rw [cluster_draw bbox contains u _ children c1 (Nat.le_mul_of_pos_left _ hm) radius keep shuffle hshuffle fuel fuel
            pos r hd] at hd
          rw [hd] at h
          exact (Option.some.inj h).symm

/-- Non-vacuity: the construction does end. -/
example : clusterProcess (⟨0, 0, 4, 4⟩ : BBox ℚ) (fun _ => true) (fun _ => 1 / 2) 4 2 1 3 false false [] id 2 0
    = some (.error .indexError) := by decide +kernel

/-- **C38, partial.** The points of one round (`realize`) are as documented: up to a rearrangement they are, if
`keep`, the parents, and for each of the `⌊n / children⌋` parents, which are uniform in the bounding box of the
window, exactly `children` points at distance at most the radius. Missing: the realisations
(`C38_cluster_process_refuted`). -/
theorem C38_cluster_round_partial (bbox : BBox K) (u : ℕ → K) (children : ℕ) (d : K) (keep : Bool)
    (shuffle : List (K × K) → List (K × K)) (hshuffle : ∀ l, (shuffle l).Perm l) (n pos : ℕ)
    (rows : List (Coord K × Coord K)) (pos' : ℕ)
    (h : Returns (fun fuel => clusterRealize bbox u children d keep shuffle fuel n pos) (.ok (rows, pos'))) :
    ∃ (pts : List (K × K)) (groups : List (List (K × K))) (parents : List (K × K)),
      rows = pts.map (fun p => (Coord.scalar p.1, Coord.scalar p.2))
      ∧ parents = (List.range (n / children)).map (roundPoint bbox u (n / children) pos)
      ∧ pts.Perm ((if keep then parents else []) ++ groups.flatten)
      ∧ groups.length = parents.length
      ∧ ∀ c g, (c, g) ∈ parents.zip groups → g.length = children ∧ ∀ p ∈ g, Within d p c := by
  obtain ⟨fuel, h⟩ := h
  simp only [clusterRealize] at h
  split at h
  · cases h
  · split at h
    · cases h
    · obtain ⟨pnts, p, h1, h2⟩ := Run.andThen_ok.1 h
      rw [Run.ret_ok] at h2
      obtain ⟨rfl, _⟩ := h2
      obtain ⟨groups, rfl, e2, e3⟩ := childrenOf_spec _ _ _ _ _ _ _ _ h1
      refine ⟨_, groups, _, rfl, rfl, ?_, e2, e3⟩
      refine (hshuffle _).trans ?_
      cases keep
      · exact List.Perm.refl _
      · exact List.Perm.refl _

end Pointpats.Props
