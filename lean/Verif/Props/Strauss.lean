import Verif.Props.RandomPoisson

/-!
# C46, C47: Strauss patterns
-/

namespace Pointpats.Props

open Random Spec

variable {K : Type} [Field K] [LinearOrder K]

/-! ### Close pairs -/

private theorem pairCount_sublist (r : K) {l l' : List (K × K)} (h : l'.Sublist l) : pairCount r l' ≤ pairCount r l := by
  induction h with
  | slnil => exact le_rfl
  | cons a h ih => rw [pairCount]; omega
  | cons_cons a h ih =>
    rw [pairCount, pairCount]
    exact Nat.add_le_add (h.filter _).length_le ih

private theorem pairCount_zero (r : K) (l : List (K × K)) : pairCount r l = 0 ↔ NoClosePairs r l := by
  induction l with
  | nil => simp [pairCount, NoClosePairs]
  | cons a l ih =>
    unfold NoClosePairs at *
    rw [pairCount, List.pairwise_cons, ← ih, Nat.add_eq_zero_iff, List.length_eq_zero_iff, List.filter_eq_nil_iff]
    simp [Within]

variable [IsStrictOrderedRing K] [FloorRing K]

/-! ### The embedded calls of `poisson` -/

omit [IsStrictOrderedRing K] in
private theorem parse_some_none (h : Hull K) (i : K) :
    parseSizeAndIntensity h (some i) .none
      = .ok ((if 0 ≤ h.area * i then ⌊h.area * i⌋ else ⌈h.area * i⌉), 1, .fin i) := rfl

/-- The number of points of the embedded calls. -/
def straussCount (h : Hull K) (i : K) : ℤ := if 0 ≤ h.area * i then ⌊h.area * i⌋ else ⌈h.area * i⌉

private theorem count_trunc (h : Hull K) (i : K) : IsTrunc (h.area * i) (straussCount h i) := by
  unfold straussCount
  by_cases hx : 0 ≤ h.area * i
  · rw [if_pos hx]
    refine ⟨fun _ => ⟨Int.floor_le _, Int.lt_floor_add_one _⟩, fun h' => ?_⟩
    have : h.area * i = 0 := le_antisymm h' hx
    rw [this]; simp
  · rw [if_neg hx]
    refine ⟨fun h' => absurd h' hx, fun _ => ⟨?_, Int.le_ceil _⟩⟩
    have := Int.ceil_lt_add_one (h.area * i)
    linarith

private theorem trunc_unique {x : K} {a b : ℤ} (ha : IsTrunc x a) (hb : IsTrunc x b) : a = b := by
  rcases le_total 0 x with hx | hx
  · obtain ⟨a1, a2⟩ := ha.1 hx
    obtain ⟨b1, b2⟩ := hb.1 hx
    have h1 : (a : K) < ((b + 1 : ℤ) : K) := by push_cast; linarith
    have h2 : (b : K) < ((a + 1 : ℤ) : K) := by push_cast; linarith
    have h1' := Int.cast_lt.1 h1
    have h2' := Int.cast_lt.1 h2
    omega
  · obtain ⟨a1, a2⟩ := ha.2 hx
    obtain ⟨b1, b2⟩ := hb.2 hx
    have h1 : ((a - 1 : ℤ) : K) < (b : K) := by push_cast; linarith
    have h2 : ((b - 1 : ℤ) : K) < (a : K) := by push_cast; linarith
    have h1' := Int.cast_lt.1 h1
    have h2' := Int.cast_lt.1 h2
    omega

/-- What an embedded call returns: a single point or rows, in the hull. -/
def StraussState (h : Hull K) (x : Squeezed K) : Prop :=
  (∃ p, x = .point p ∧ h.contains p.1 p.2 = true) ∨ ∃ l, x = .rows l ∧ ∀ p ∈ l, h.contains p.1 p.2 = true

omit [IsStrictOrderedRing K] in
theorem strauss_embedded (h : Hull K) (u : ℕ → K) (i : K) (fuel pos : ℕ) (r : Squeezed K) (pos' : ℕ)
    (hr : poisson h u (some i) .none fuel pos = some (.ok (r, pos'))) :
    StraussState h r ∧ ((∃ p, r = .point p) ↔ straussCount h i = 1) := by
  obtain ⟨⟨reps, hd, hl, hm⟩, hsh, _⟩ := C40_poisson h u (some i) .none _ _ _ (parse_some_none h i) pos r pos' ⟨fuel, hr⟩
  have hdata : ∀ p ∈ r.data, h.contains p.1 p.2 = true := by
    intro p hp
    rw [hd] at hp
    obtain ⟨rep, h1, h2⟩ := List.mem_flatten.1 hp
    exact (hm rep h1).2 p h2
  have hlen : reps.length = 1 := by omega
  obtain ⟨rep, rfl⟩ := List.length_eq_one_iff.1 hlen
  have hr1 : (rep.length : ℤ) = straussCount h i := (hm rep (by simp)).1
  have hd' : r.data = rep := by simpa using hd
  have hsh' : r.shape = [(straussCount h i).toNat].filter (· ≠ 1) ++ [2] := by
    rw [hsh]; simp [straussCount]
  cases r with
  | point p =>
    refine ⟨Or.inl ⟨p, rfl, hdata p (by simp [Squeezed.data])⟩, ⟨fun _ => ?_, fun _ => ⟨p, rfl⟩⟩⟩
    simp only [Squeezed.data] at hd'
    rw [← hd'] at hr1
    simpa using hr1.symm
  | rows l =>
    refine ⟨Or.inr ⟨l, rfl, fun p hp => hdata p hp⟩, ⟨by simp, fun hc => ?_⟩⟩
    rw [hc] at hsh'
    simp [Squeezed.shape] at hsh'
  | cube a b =>
    exfalso
    simp only [Squeezed.shape] at hsh'
    have := congrArg List.length hsh'
    by_cases hc : (straussCount h i).toNat = 1
    · simp [hc] at this
    · simp [hc] at this

private theorem embedded_no_error (h : Hull K) (ha : 0 ≤ h.area) (u : ℕ → K) (i : K) (hi : 0 ≤ i) (fuel pos : ℕ) (e : PyErr) :
    poisson h u (some i) .none fuel pos ≠ some (.error e) := by
  intro hr
  unfold poisson at hr
  rw [parse_some_none] at hr
  simp only [if_pos (mul_nonneg ha hi)] at hr
  have hn : ¬ (⌊h.area * i⌋ < 0 ∨ (1 : ℤ) < 0) := by
    have := Int.floor_nonneg.2 (mul_nonneg ha hi)
    omega
  rw [if_neg hn] at hr
  rcases Run.andThen_error.1 hr with hr | ⟨a, p, _, hr⟩
  · obtain ⟨j, p, hj⟩ := replications_error _ _ _ _ _ hr
    exact rejection_no_error _ _ _ _ _ _ hj
  · cases hr

/-! ### C46 -/

omit [IsStrictOrderedRing K] in
/-- The result of a step, for an outcome that is not an exception. -/
private theorem step_ok (h : Hull K) (u : ℕ → K) (gamma r : K) (n fuel pos : ℕ) (x x' : Squeezed K) (pos' : ℕ)
    (hx : StraussState h x) (hr : straussStep h u gamma r n fuel x pos = some (.ok (x', pos'))) :
    StraussState h x' ∧ (n = 1 → ∃ l, x' = .rows l) ∧ ((∃ l, x = .rows l) → ∃ l, x' = .rows l) := by
  rcases hx with ⟨p, rfl, hp⟩ | ⟨l, rfl, hl⟩
  · unfold straussStep at hr
    simp only at hr
    split at hr
    · obtain ⟨np, q, _, h2⟩ := Run.andThen_ok.1 hr
      cases h2
    · split at hr
      · cases hr
      · rw [Run.ret_ok] at hr
        obtain ⟨rfl, _⟩ := hr
        refine ⟨Or.inl ⟨p, rfl, hp⟩, fun hn => by omega, by simp⟩
  · have rowsOk : ∀ l' : List (K × K), (∀ p ∈ l', h.contains p.1 p.2 = true) →
        StraussState h (.rows l') ∧ (n = 1 → ∃ l, (Squeezed.rows l' : Squeezed K) = .rows l)
          ∧ ((∃ l0, (Squeezed.rows l : Squeezed K) = .rows l0) → ∃ l, (Squeezed.rows l' : Squeezed K) = .rows l) :=
      fun l' hl' => ⟨Or.inr ⟨l', rfl, hl'⟩, fun _ => ⟨l', rfl⟩, fun _ => ⟨l', rfl⟩⟩
    unfold straussStep at hr
    simp only at hr
    generalize (if l.length < n then pos else pos + 1) = q0 at hr
    split at hr
    · obtain ⟨np, q, h1, h2⟩ := Run.andThen_ok.1 hr
      obtain ⟨hg, _⟩ := strauss_embedded h u 1 _ _ _ _ h1
      have hv : ∀ l', vstackRows l np = .ok l' → ∀ p ∈ l', h.contains p.1 p.2 = true := by
        intro l' hv p hp
        rcases hg with ⟨p0, rfl, hp0⟩ | ⟨l0, rfl, hl0⟩
        · injection hv with hv
          rw [← hv] at hp
          rcases List.mem_append.1 hp with hp | hp
          · exact hl p hp
          · rw [List.mem_singleton.1 hp]; exact hp0
        · injection hv with hv
          rw [← hv] at hp
          rcases List.mem_append.1 hp with hp | hp
          · exact hl p hp
          · exact hl0 p hp
      cases hvs : vstackRows l np with
      | error e => rw [hvs] at h2; cases h2
      | ok l' =>
        rw [hvs] at h2
        simp only at h2
        split at h2
        · rw [Run.ret_ok] at h2
          obtain ⟨rfl, _⟩ := h2
          exact rowsOk _ (hv l' hvs)
        · rw [Run.ret_ok] at h2
          obtain ⟨rfl, _⟩ := h2
          exact rowsOk _ hl
    · split at hr
      · split at hr
        · cases hr
        · split at hr
          · rw [Run.ret_ok] at hr
            obtain ⟨rfl, _⟩ := hr
            exact rowsOk _ fun p hp => hl p (List.mem_of_mem_eraseIdx hp)
          · rw [Run.ret_ok] at hr
            obtain ⟨rfl, _⟩ := hr
            exact rowsOk _ hl
      · rw [Run.ret_ok] at hr
        obtain ⟨rfl, _⟩ := hr
        exact rowsOk _ hl

omit [IsStrictOrderedRing K] in
theorem strauss_iter (h : Hull K) (u : ℕ → K) (gamma r : K) (n fuel k pos : ℕ) (x x' : Squeezed K) (pos' : ℕ)
    (hx : StraussState h x) (hr : straussIter h u gamma r n fuel k x pos = some (.ok (x', pos'))) :
    StraussState h x' ∧ (n = 1 → 1 ≤ k → ∃ l, x' = .rows l) := by
  have gen : ∀ (k pos : ℕ) (x : Squeezed K), StraussState h x → straussIter h u gamma r n fuel k x pos = some (.ok (x', pos')) →
      StraussState h x' ∧ ((∃ l, x = .rows l) → ∃ l, x' = .rows l) := by
    intro k
    induction k with
    | zero =>
      intro pos x hx hr
      rw [straussIter, Run.ret_ok] at hr
      obtain ⟨rfl, _⟩ := hr
      exact ⟨hx, id⟩
    | succ k ih =>
      intro pos x hx hr
      rw [straussIter] at hr
      obtain ⟨y, p, h1, h2⟩ := Run.andThen_ok.1 hr
      obtain ⟨a1, _, a3⟩ := step_ok h u gamma r n fuel pos x y p hx h1
      obtain ⟨b1, b2⟩ := ih p y a1 h2
      exact ⟨b1, fun hxr => b2 (a3 hxr)⟩
  refine ⟨(gen k pos x hx hr).1, ?_⟩
  intro hn hk
  obtain ⟨k, rfl⟩ := Nat.exists_eq_succ_of_ne_zero (by omega : k ≠ 0)
  rw [straussIter] at hr
  obtain ⟨y, p, h1, h2⟩ := Run.andThen_ok.1 hr
  obtain ⟨a1, a2, _⟩ := step_ok h u gamma r n fuel pos x y p hx h1
  exact (gen k p y a1 h2).2 (a2 hn)

omit [Field K] [LinearOrder K] [IsStrictOrderedRing K] [FloorRing K] in
private theorem take_ok (h : Hull K) (n : ℕ) (x : Squeezed K) (hx : StraussState h x) (hn : n = 1 → ∃ l, x = .rows l)
    (l : List (K × K)) (hl : straussTake n x = some l) : l.length = n ∧ ∀ p ∈ l, h.contains p.1 p.2 = true := by
  rcases hx with ⟨p, rfl, hp⟩ | ⟨l0, rfl, hl0⟩
  · have hn1 : n ≠ 1 := by
      intro h1
      obtain ⟨l, hl⟩ := hn h1
      cases hl
    simp only [straussTake, if_neg hn1] at hl
    split at hl
    · injection hl with hl
      subst hl
      exact ⟨by simp, fun q hq => by rw [(List.mem_replicate.1 hq).2]; exact hp⟩
    · cases hl
  · simp only [straussTake] at hl
    split at hl
    · injection hl with hl
      subst hl
      exact ⟨by rw [List.length_take]; omega, fun q hq => hl0 q (List.mem_of_mem_take hq)⟩
    · cases hl

omit [IsStrictOrderedRing K] in
private theorem attempts_ok (h : Hull K) (u : ℕ → K) (gamma r : K) (n n_iter fuel m pos : ℕ) (hn : n ≠ 1 ∨ 1 ≤ n_iter)
    (l : List (K × K)) (pos' : ℕ)
    (hr : straussAttempts h u gamma r n n_iter fuel m pos = some (.ok (l, pos'))) :
    l.length = n ∧ ∀ p ∈ l, h.contains p.1 p.2 = true := by
  induction m generalizing pos with
  | zero => rw [straussAttempts] at hr; cases hr
  | succ m ih =>
    rw [straussAttempts] at hr
    obtain ⟨x, p, h1, h2⟩ := Run.andThen_ok.1 hr
    obtain ⟨y, q, h3, h4⟩ := Run.andThen_ok.1 h2
    obtain ⟨hg, _⟩ := strauss_embedded h u _ _ _ _ _ h1
    obtain ⟨hg', hk⟩ := strauss_iter h u gamma r n fuel n_iter p x y q hg h3
    cases ht : straussTake n y with
    | none => rw [ht] at h4; exact ih _ h4
    | some l' =>
      rw [ht] at h4
      simp only [Run.ret_ok] at h4
      obtain ⟨rfl, _⟩ := h4
      refine take_ok h n y hg' ?_ l' ht
      intro h1
      rcases hn with hn | hn
      · exact absurd h1 hn
      · exact hk h1 hn

omit [IsStrictOrderedRing K] in
private theorem strauss_ok (h : Hull K) (u : ℕ → K) (intensity : Option K) (size : SizeArg) (gamma r : K)
    (n_iter max_iter : ℕ) (n s : ℤ) (i : XF K) (hp : parseSizeAndIntensity h intensity size = .ok (n, s, i))
    (fuel pos : ℕ) (x : Squeezed K) (pos' : ℕ)
    (hr : strauss h u intensity size gamma r n_iter max_iter fuel pos = some (.ok (x, pos'))) :
    0 ≤ n ∧ 0 ≤ s ∧ ∃ reps, replications (fun _ pos => straussAttempts h u gamma r n.toNat n_iter fuel max_iter pos)
      0 s.toNat pos = some (.ok (reps, pos')) ∧ x = squeeze s.toNat n.toNat reps := by
  unfold strauss at hr
  rw [hp] at hr
  simp only at hr
  by_cases hneg : n < 0 ∨ s < 0
  · rw [if_pos hneg] at hr; cases hr
  · rw [if_neg hneg] at hr
    push Not at hneg
    obtain ⟨reps, p, h1, h2⟩ := Run.andThen_ok.1 hr
    rw [Run.ret_ok] at h2
    obtain ⟨rfl, rfl⟩ := h2
    exact ⟨hneg.1, hneg.2, reps, h1, rfl⟩

omit [IsStrictOrderedRing K] in
/-- **C46, partial.** Whenever `strauss` returns (with at least one iteration, or for a size other than one): there are
the requested number of replications, each with exactly the requested number of points, all in the hull. Missing: the
claim about the exceptions, which fails for initial patterns of one point (`C46_strauss_refuted`); see
`C46_strauss_errors` for the other cases. -/
theorem C46_strauss_partial (h : Hull K) (u : ℕ → K) (intensity : Option K) (size : SizeArg) (gamma r : K)
    (n_iter max_iter : ℕ) (n s : ℤ) (i : XF K) (hp : parseSizeAndIntensity h intensity size = .ok (n, s, i))
    (hn : n ≠ 1 ∨ 1 ≤ n_iter) (pos : ℕ) (x : Squeezed K) (pos' : ℕ)
    (hr : Returns (fun fuel => strauss h u intensity size gamma r n_iter max_iter fuel pos) (.ok (x, pos'))) :
    (∃ reps : List (List (K × K)), x.data = reps.flatten ∧ (reps.length : ℤ) = s
      ∧ ∀ rep ∈ reps, (rep.length : ℤ) = n ∧ ∀ p ∈ rep, h.contains p.1 p.2 = true)
    ∧ x.shape = [s.toNat, n.toNat].filter (· ≠ 1) ++ [2] := by
  obtain ⟨fuel, hf⟩ := hr
  obtain ⟨hn0, hs0, reps, h1, rfl⟩ := strauss_ok h u intensity size gamma r n_iter max_iter n s i hp fuel pos x pos' hf
  obtain ⟨g1, g2⟩ := replications_spec _ _ _ _ _ _ h1
  have hm : ∀ rep ∈ reps, rep.length = n.toNat ∧ ∀ p ∈ rep, h.contains p.1 p.2 = true := by
    intro rep hrep
    obtain ⟨j, p, p', _, hb⟩ := g2 rep hrep
    refine attempts_ok h u gamma r n.toNat n_iter fuel max_iter p ?_ rep p' hb
    rcases hn with hn | hn
    · left; omega
    · exact Or.inr hn
  refine ⟨⟨reps, squeeze_data _ _ _ g1 (fun rep hrep => (hm rep hrep).1), by omega, ?_⟩,
    squeeze_shape _ _ _ g1 (fun rep hrep => (hm rep hrep).1)⟩
  intro rep hrep
  have := hm rep hrep
  exact ⟨by omega, this.2⟩

/-- Exceptions of a step on rows. -/
private theorem step_error (h : Hull K) (ha : 0 ≤ h.area) (u : ℕ → K) (gamma r : K) (n fuel pos : ℕ) (l : List (K × K))
    (e : PyErr) (hr : straussStep h u gamma r n fuel (.rows l) pos = some (.error e)) : e = .runtimeError := by
  unfold straussStep at hr
  simp only at hr
  generalize (if l.length < n then pos else pos + 1) = q0 at hr
  split at hr
  · rcases Run.andThen_error.1 hr with hr | ⟨np, q, h1, h2⟩
    · exact absurd hr (embedded_no_error h ha u 1 zero_le_one _ _ _)
    · obtain ⟨hg, _⟩ := strauss_embedded h u 1 _ _ _ _ h1
      cases hvs : vstackRows l np with
      | error e' =>
        rcases hg with ⟨p0, rfl, hp0⟩ | ⟨l0, rfl, hl0⟩
        · cases hvs
        · cases hvs
      | ok l' =>
        rw [hvs] at h2
        simp only at h2
        split at h2
        · cases h2
        · cases h2
  · split at hr
    · split at hr
      · cases hr; rfl
      · split at hr
        · cases hr
        · cases hr
    · cases hr

private theorem iter_error (h : Hull K) (ha : 0 ≤ h.area) (u : ℕ → K) (gamma r : K) (n fuel k pos : ℕ) (l : List (K × K))
    (hl : ∀ p ∈ l, h.contains p.1 p.2 = true) (e : PyErr)
    (hr : straussIter h u gamma r n fuel k (.rows l) pos = some (.error e)) : e = .runtimeError := by
  induction k generalizing pos l with
  | zero => rw [straussIter] at hr; cases hr
  | succ k ih =>
    rw [straussIter] at hr
    rcases Run.andThen_error.1 hr with hr | ⟨y, q, h1, h2⟩
    · exact step_error h ha u gamma r n fuel pos l e hr
    · obtain ⟨a1, _, a3⟩ := step_ok h u gamma r n fuel pos _ y q (Or.inr ⟨l, rfl, hl⟩) h1
      obtain ⟨l', rfl⟩ := a3 ⟨l, rfl⟩
      rcases a1 with ⟨p, hp, _⟩ | ⟨l2, hl2, hin⟩
      · cases hp
      · cases hl2
        exact ih _ _ hin h2

/-- **C46, exceptions.** For a hull of non-negative area and sizes that are not negative: if the area times
`⌊3 n / 2⌋`, truncated, is not one (so that the initial patterns do not consist of one point) then `RuntimeError` is
the only exception of `strauss`. -/
theorem C46_strauss_errors (h : Hull K) (ha : 0 ≤ h.area) (u : ℕ → K) (intensity : Option K) (size : SizeArg) (gamma r : K)
    (n_iter max_iter : ℕ) (n s : ℤ) (i : XF K) (hp : parseSizeAndIntensity h intensity size = .ok (n, s, i))
    (hn : 0 ≤ n) (hs : 0 ≤ s) (hinit : ¬ IsTrunc (h.area * ((n.toNat * 3 / 2 : ℕ) : K)) 1) (pos : ℕ) (e : PyErr)
    (hr : Returns (fun fuel => strauss h u intensity size gamma r n_iter max_iter fuel pos) (.error e)) :
    e = .runtimeError := by
  obtain ⟨fuel, hr⟩ := hr
  simp only [strauss, hp] at hr
  rw [if_neg (by omega)] at hr
  have attempts : ∀ m pos, straussAttempts h u gamma r n.toNat n_iter fuel m pos = some (.error e) → e = .runtimeError := by
    intro m
    induction m with
    | zero => intro pos hr; rw [straussAttempts] at hr; cases hr; rfl
    | succ m ih =>
      intro pos hr
      rw [straussAttempts] at hr
      rcases Run.andThen_error.1 hr with hr | ⟨x, p, h1, h2⟩
      · exact absurd hr (embedded_no_error h ha u _ (Nat.cast_nonneg _) _ _ _)
      · obtain ⟨hg, hpt⟩ := strauss_embedded h u _ _ _ _ _ h1
        rcases hg with ⟨p0, rfl, _⟩ | ⟨l, rfl, hl⟩
        · exfalso
          apply hinit
          have := hpt.1 ⟨p0, rfl⟩
          rw [← this]
          exact count_trunc h _
        · rcases Run.andThen_error.1 h2 with h2 | ⟨y, q, h3, h4⟩
          · exact iter_error h ha u gamma r _ fuel n_iter p l hl e h2
          · cases ht : straussTake n.toNat y with
            | none => rw [ht] at h4; exact ih _ h4
            | some l' => rw [ht] at h4; cases h4
  rcases Run.andThen_error.1 hr with hr | ⟨x, p, _, h2⟩
  · obtain ⟨j, p, hj⟩ := replications_error _ _ _ _ _ hr
    exact attempts _ _ hj
  · cases h2

/-- Non-vacuity: three points on a box of area four, gamma 1/2. -/
example : (strauss (Hull.ofBBox (⟨0, 0, 2, 2⟩ : BBox ℚ)) (fun i => ((i * i % 7 : ℕ) : ℚ) / 8) none (.int 2) (1 / 2) (1 / 2)
    3 2 20 0).map (fun r => r.toOption.map fun x => x.1.data.length) = some (some 2) := by decide +kernel
example : ¬ IsTrunc ((4 : ℚ) * ((2 * 3 / 2 : ℕ) : ℚ)) 1 := by
  intro h
  have := h.1 (by norm_num)
  norm_num at this

/-- **C46, refuted.** A pattern of one point on the unit square with at least one iteration: for every stream of draws
`strauss` raises a `ValueError`. -/
theorem C46_strauss_refuted (u : ℕ → K) (hu : IsDraws u) (gamma r : K) (n_iter max_iter : ℕ) (hi : 1 ≤ n_iter)
    (hm : 1 ≤ max_iter) (pos : ℕ) :
    Returns (fun fuel => strauss (Hull.ofBBox (⟨0, 0, 1, 1⟩ : BBox K)) u none (.int 1) gamma r n_iter max_iter fuel pos)
      (.error .valueError) := by
  have hone : ∀ pos, ∃ p pos', poisson (Hull.ofBBox (⟨0, 0, 1, 1⟩ : BBox K)) u (some 1) .none 1 pos
      = some (.ok (.point p, pos')) := by
    intro pos
    have hin : (Hull.ofBBox (⟨0, 0, 1, 1⟩ : BBox K)).contains
        (boxCandidate (Hull.ofBBox (⟨0, 0, 1, 1⟩ : BBox K)) u pos).1
        (boxCandidate (Hull.ofBBox (⟨0, 0, 1, 1⟩ : BBox K)) u pos).2 = true := by
      have a := hu pos
      have b := hu (pos + 1)
      simp [Hull.ofBBox, Geometry.containsBBox, boxCandidate, uniform, a.1, b.1, a.2.le, b.2.le]
    have hc : (if 0 ≤ (Hull.ofBBox (⟨0, 0, 1, 1⟩ : BBox K)).area * 1 then
        ⌊(Hull.ofBBox (⟨0, 0, 1, 1⟩ : BBox K)).area * 1⌋ else ⌈(Hull.ofBBox (⟨0, 0, 1, 1⟩ : BBox K)).area * 1⌉) = 1 := by
      simp [Hull.ofBBox, Geometry.areaBBox]
    refine ⟨boxCandidate (Hull.ofBBox (⟨0, 0, 1, 1⟩ : BBox K)) u pos, pos + 2, ?_⟩
    unfold poisson
    rw [parse_some_none, hc]
    simp [poissonReps, replications, rejection, hin, Run.andThen, Run.ret, squeeze]
  refine ⟨1, ?_⟩
  have hparse : ∃ i, parseSizeAndIntensity (Hull.ofBBox (⟨0, 0, 1, 1⟩ : BBox K)) none (.int 1) = .ok (1, 1, i) := by
    have : (Hull.ofBBox (⟨0, 0, 1, 1⟩ : BBox K)).area ≠ 0 := by simp [Hull.ofBBox, Geometry.areaBBox]
    refine ⟨.fin (((1 : ℤ) : K) / (Hull.ofBBox (⟨0, 0, 1, 1⟩ : BBox K)).area), ?_⟩
    unfold parseSizeAndIntensity divArea
    simp [this, XF.div]
  obtain ⟨i, hparse⟩ := hparse
  simp only [strauss, hparse]
  rw [if_neg (by omega)]
  obtain ⟨k, rfl⟩ := Nat.exists_eq_succ_of_ne_zero (by omega : n_iter ≠ 0)
  obtain ⟨m, rfl⟩ := Nat.exists_eq_succ_of_ne_zero (by omega : max_iter ≠ 0)
  obtain ⟨p, pos1, hp⟩ := hone pos
  have hstep : ∀ pos, straussStep (Hull.ofBBox (⟨0, 0, 1, 1⟩ : BBox K)) u gamma r 1 1 (.point p) pos
      = some (.error .valueError) := by
    intro pos
    unfold straussStep
    simp only
    rw [if_neg (show ¬ (2 : ℕ) < 1 by omega), if_pos (show (1 : ℕ) < 2 by omega)]
    split
    · obtain ⟨np, q, hq⟩ := hone (pos + 1)
      rw [hq]
      rfl
    · rfl
  have hatt : straussAttempts (Hull.ofBBox (⟨0, 0, 1, 1⟩ : BBox K)) u gamma r 1 (k + 1) 1 (m + 1) pos
      = some (.error .valueError) := by
    rw [straussAttempts]
    have e : ((1 * 3 / 2 : ℕ) : K) = 1 := by norm_num
    rw [e, hp]
    simp only [Run.andThen, straussIter, hstep]
  show Run.andThen (replications _ 0 1 pos) _ = _
  rw [replications]
  simp only [Int.toNat_one, hatt, Nat.succ_eq_add_one]
  rfl

private theorem poisson_some (b : BBox K) (hx : b.xmin ≤ b.xmax) (hy : b.ymin ≤ b.ymax) (u : ℕ → K) (hu : IsDraws u)
    (i : K) (fuel pos : ℕ) (hfuel : (straussCount (Hull.ofBBox b) i).toNat ≤ fuel) :
    poisson (Hull.ofBBox b) u (some i) .none fuel pos ≠ none := by
  unfold poisson
  rw [parse_some_none]
  simp only
  show (if straussCount (Hull.ofBBox b) i < 0 ∨ (1 : ℤ) < 0 then _ else _) ≠ none
  by_cases hneg : straussCount (Hull.ofBBox b) i < 0 ∨ (1 : ℤ) < 0
  · rw [if_pos hneg]; simp [Run.fail]
  · rw [if_neg hneg]
    push Not at hneg
    obtain ⟨r, hr, _⟩ := C40_poisson_box b hx hy u hu (some i) .none _ _ _ (parse_some_none _ i) hneg.1 (by norm_num) pos
    -- the rejection loop needs one round per point
    have hin : ∀ (lo hi x : K), lo ≤ hi → 0 ≤ x → x < 1 → lo ≤ uniform lo hi x ∧ uniform lo hi x ≤ hi := by
      intro lo hi x h1 h2 h3
      unfold uniform
      have a := mul_nonneg (sub_nonneg.2 h1) h2
      have b := mul_le_mul_of_nonneg_left h3.le (sub_nonneg.2 h1)
      constructor
      · linarith
      · rw [mul_one] at b; linarith
    have hacc : ∀ pos, (Hull.ofBBox b).contains (boxCandidate (Hull.ofBBox b) u pos).1
        (boxCandidate (Hull.ofBBox b) u pos).2 = true := by
      intro pos
      have a := hin b.xmin b.xmax _ hx (hu pos).1 (hu pos).2
      have c := hin b.ymin b.ymax _ hy (hu (pos + 1)).1 (hu (pos + 1)).2
      simp [Hull.ofBBox, Geometry.containsBBox, boxCandidate, a, c]
    have hrej : ∀ (n fuel pos : ℕ), n ≤ fuel → ∃ l p,
        rejection (boxCandidate (Hull.ofBBox b) u) (fun p => (Hull.ofBBox b).contains p.1 p.2) fuel pos n
          = some (.ok (l, p)) := by
      intro n
      induction n with
      | zero => intro fuel pos _; exact ⟨[], pos, by cases fuel <;> rfl⟩
      | succ n ih =>
        intro fuel pos hf
        obtain ⟨f, rfl⟩ := Nat.exists_eq_succ_of_ne_zero (by omega : fuel ≠ 0)
        obtain ⟨l, p, hlp⟩ := ih f (pos + 2) (by omega)
        refine ⟨boxCandidate (Hull.ofBBox b) u pos :: l, p, ?_⟩
        rw [rejection]
        simp only [hacc, if_true, hlp]
        rfl
    obtain ⟨l, p, hlp⟩ := hrej _ fuel pos hfuel
    unfold poissonReps
    have : replications (fun _ pos => rejection (boxCandidate (Hull.ofBBox b) u)
        (fun p => (Hull.ofBBox b).contains p.1 p.2) fuel pos (straussCount (Hull.ofBBox b) i).toNat) 0 (1 : ℤ).toNat pos
        = some (.ok ([l], p)) := by
      show replications _ 0 1 pos = _
      rw [replications, hlp]
      rfl
    simp only [straussCount] at this
    rw [this]
    simp [Run.andThen, Run.ret]

/-- **C46, termination.** On a box, `strauss` always ends: with a result or with an exception. -/
theorem C46_strauss_ends (b : BBox K) (hx : b.xmin ≤ b.xmax) (hy : b.ymin ≤ b.ymax) (u : ℕ → K) (hu : IsDraws u)
    (intensity : Option K) (size : SizeArg) (gamma r : K) (n_iter max_iter pos : ℕ) :
    ∃ res, Returns (fun fuel => strauss (Hull.ofBBox b) u intensity size gamma r n_iter max_iter fuel pos) res := by
  cases hp : parseSizeAndIntensity (Hull.ofBBox b) intensity size with
  | error e => exact ⟨.error e, 0, by simp only [strauss, hp, Run.fail]⟩
  | ok x =>
    obtain ⟨n, s, i⟩ := x
    set F := max (straussCount (Hull.ofBBox b) 1).toNat (straussCount (Hull.ofBBox b) ((n.toNat * 3 / 2 : ℕ) : K)).toNat with hF
    have hstep : ∀ (x : Squeezed K) (pos : ℕ), straussStep (Hull.ofBBox b) u gamma r n.toNat F x pos ≠ none := by
      intro x pos hnone
      have h1 : ∀ pos, poisson (Hull.ofBBox b) u (some 1) .none F pos ≠ none := fun pos =>
        poisson_some b hx hy u hu 1 F pos (le_max_left _ _)
      have h2 : ∀ (f : Squeezed K → ℕ → Run (Squeezed K)) (pos : ℕ), (∀ a p, f a p ≠ none) →
          (poisson (Hull.ofBBox b) u (some 1) .none F pos).andThen f ≠ none := by
        intro f pos hf
        cases hq : poisson (Hull.ofBBox b) u (some 1) .none F pos with
        | none => exact absurd hq (h1 pos)
        | some y =>
          cases y with
          | error e => simp [Run.andThen]
          | ok z => exact hf _ _
      unfold straussStep at hnone
      cases x with
      | point p =>
        simp only at hnone
        split at hnone
        · exact h2 _ _ (by intro a p; simp [Run.fail]) hnone
        · split at hnone <;> cases hnone
      | cube a c =>
        simp only at hnone
        split at hnone
        · exact h2 _ _ (by intro a p; simp [Run.fail]) hnone
        · split at hnone <;> cases hnone
      | rows l =>
        simp only at hnone
        generalize (if l.length < n.toNat then pos else pos + 1) = q0 at hnone
        split at hnone
        · refine h2 _ _ ?_ hnone
          intro a p
          cases vstackRows l a with
          | error e => simp [Run.fail]
          | ok l' =>
            simp only
            split <;> simp [Run.ret]
        · split at hnone
          · split at hnone
            · cases hnone
            · split at hnone <;> cases hnone
          · cases hnone
    have hiter : ∀ (k : ℕ) (x : Squeezed K) (pos : ℕ), straussIter (Hull.ofBBox b) u gamma r n.toNat F k x pos ≠ none := by
      intro k
      induction k with
      | zero => intro x pos; simp [straussIter, Run.ret]
      | succ k ih =>
        intro x pos
        rw [straussIter]
        cases hq : straussStep (Hull.ofBBox b) u gamma r n.toNat F x pos with
        | none => exact absurd hq (hstep x pos)
        | some y =>
          cases y with
          | error e => simp [Run.andThen]
          | ok z => exact ih _ _
    have hatt : ∀ (m pos : ℕ), straussAttempts (Hull.ofBBox b) u gamma r n.toNat n_iter F m pos ≠ none := by
      intro m
      induction m with
      | zero => intro pos; simp [straussAttempts, Run.fail]
      | succ m ih =>
        intro pos
        rw [straussAttempts]
        cases hq : poisson (Hull.ofBBox b) u (some ((n.toNat * 3 / 2 : ℕ) : K)) .none F pos with
        | none => exact absurd hq (poisson_some b hx hy u hu _ F pos (le_max_right _ _))
        | some y =>
          cases y with
          | error e => simp [Run.andThen]
          | ok z =>
            simp only [Run.andThen]
            cases hq2 : straussIter (Hull.ofBBox b) u gamma r n.toNat F n_iter z.1 z.2 with
            | none => exact absurd hq2 (hiter _ _ _)
            | some w =>
              cases w with
              | error e => simp
              | ok w =>
                simp only
                split
                · simp [Run.ret]
                · exact ih _
    have hrep : ∀ (s i pos : ℕ), replications (fun _ pos =>
        straussAttempts (Hull.ofBBox b) u gamma r n.toNat n_iter F max_iter pos) i s pos ≠ none := by
      intro s
      induction s with
      | zero => intro i pos; simp [replications, Run.ret]
      | succ s ih =>
        intro i pos
        rw [replications]
        cases hq : straussAttempts (Hull.ofBBox b) u gamma r n.toNat n_iter F max_iter pos with
        | none => exact absurd hq (hatt _ _)
        | some y =>
          cases y with
          | error e => simp [Run.andThen]
          | ok z =>
            simp only [Run.andThen]
            cases hq2 : replications (fun _ pos =>
              straussAttempts (Hull.ofBBox b) u gamma r n.toNat n_iter F max_iter pos) (i + 1) s z.2 with
            | none => exact absurd hq2 (ih _ _)
            | some w =>
              cases w with
              | error e => simp
              | ok w => simp [Run.ret]
    cases hq : strauss (Hull.ofBBox b) u intensity size gamma r n_iter max_iter F pos with
    | some res => exact ⟨res, F, hq⟩
    | none =>
      exfalso
      simp only [strauss, hp] at hq
      split at hq
      · cases hq
      · cases hq2 : replications (fun _ pos =>
            straussAttempts (Hull.ofBBox b) u gamma r n.toNat n_iter F max_iter pos) 0 s.toNat pos with
        | none => exact absurd hq2 (hrep _ _ _)
        | some w =>
          rw [hq2] at hq
          cases w with
          | error e => cases hq
          | ok w => cases hq

/-! ### When `strauss` succeeds -/

omit [IsStrictOrderedRing K] in
/-- The number of points of an embedded call. -/
private theorem embedded_length (h : Hull K) (u : ℕ → K) (i : K) (fuel pos : ℕ) (r : Squeezed K) (pos' : ℕ)
    (hr : poisson h u (some i) .none fuel pos = some (.ok (r, pos'))) : (r.data.length : ℤ) = straussCount h i := by
  obtain ⟨⟨reps, hd, hl, hm⟩, _, _⟩ := C40_poisson h u (some i) .none _ _ _ (parse_some_none h i) pos r pos' ⟨fuel, hr⟩
  have hlen : reps.length = 1 := by omega
  obtain ⟨rep, rfl⟩ := List.length_eq_one_iff.1 hlen
  have hr1 : (rep.length : ℤ) = straussCount h i := (hm rep (by simp)).1
  rw [hd]
  simpa using hr1

/-- A step from enough points leads to enough points. -/
private theorem step_enough (h : Hull K) (ha : 0 ≤ h.area) (u : ℕ → K) (gamma r : K) (hg : 0 < gamma) (n : ℕ) (hn : 1 ≤ n)
    (fuel pos : ℕ) (l : List (K × K)) (hl : n ≤ l.length) (res : Py (Squeezed K × ℕ))
    (hr : straussStep h u gamma r n fuel (.rows l) pos = some res) :
    ∃ l' pos', res = .ok (.rows l', pos') ∧ n ≤ l'.length := by
  unfold straussStep at hr
  simp only at hr
  rw [if_neg (not_lt.2 hl)] at hr
  split at hr
  · cases hp : poisson h u (some 1) .none fuel (pos + 1) with
    | none => rw [hp] at hr; cases hr
    | some y =>
      cases y with
      | error e => exact absurd hp (embedded_no_error h ha u 1 zero_le_one _ _ _)
      | ok z =>
        obtain ⟨np, q⟩ := z
        rw [hp] at hr
        simp only [Run.andThen] at hr
        obtain ⟨hgood, _⟩ := strauss_embedded h u 1 _ _ _ _ hp
        have hv : ∃ l', vstackRows l np = .ok l' ∧ n ≤ l'.length := by
          rcases hgood with ⟨p, rfl, _⟩ | ⟨l0, rfl, _⟩
          · exact ⟨l ++ [p], rfl, by simp; omega⟩
          · exact ⟨l ++ l0, rfl, by simp; omega⟩
        obtain ⟨l', hv, hl'⟩ := hv
        rw [hv] at hr
        simp only at hr
        split at hr
        · injection hr with hr; exact ⟨l', _, hr.symm, hl'⟩
        · injection hr with hr; exact ⟨l, _, hr.symm, hl⟩
  · split at hr
    · next hlt =>
      split at hr
      · next h0 =>
        exfalso
        have : (0 : K) < (n : K) * gamma ^ (pairCount r l - pairCount r (l.eraseIdx ⌊u (pos + 1) * (l.length : K)⌋.toNat)) :=
          mul_pos (by exact_mod_cast hn) (pow_pos hg _)
        exact this.ne' h0
      · split at hr
        · injection hr with hr
          refine ⟨_, _, hr.symm, ?_⟩
          rw [List.length_eraseIdx]
          split <;> omega
        · injection hr with hr; exact ⟨l, _, hr.symm, hl⟩
    · injection hr with hr; exact ⟨l, _, hr.symm, hl⟩

private theorem iter_enough (h : Hull K) (ha : 0 ≤ h.area) (u : ℕ → K) (gamma r : K) (hg : 0 < gamma) (n : ℕ) (hn : 1 ≤ n)
    (fuel k pos : ℕ) (l : List (K × K)) (hl : n ≤ l.length) (res : Py (Squeezed K × ℕ))
    (hr : straussIter h u gamma r n fuel k (.rows l) pos = some res) :
    ∃ l' pos', res = .ok (.rows l', pos') ∧ n ≤ l'.length := by
  induction k generalizing pos l with
  | zero =>
    rw [straussIter] at hr
    injection hr with hr
    exact ⟨l, pos, hr.symm, hl⟩
  | succ k ih =>
    rw [straussIter] at hr
    cases hs : straussStep h u gamma r n fuel (.rows l) pos with
    | none => rw [hs] at hr; cases hr
    | some y =>
      obtain ⟨l', pos', rfl, hl'⟩ := step_enough h ha u gamma r hg n hn fuel pos l hl y hs
      rw [hs] at hr
      exact ih _ _ hl' hr

/-- **C46, success.** If `gamma` is positive and the initial patterns, which have the area times `⌊3 n / 2⌋` points, truncated,
are not too small (`n` points or more, and at least two) then `strauss` does not raise an exception, for any stream of draws and
any radius: the number of points never falls below `n`, so that the first attempt succeeds. On a box, where it always ends, it
returns. -/
theorem C46_strauss_succeeds (h : Hull K) (ha : 0 ≤ h.area) (u : ℕ → K) (intensity : Option K) (size : SizeArg) (gamma r : K)
    (hg : 0 < gamma) (n_iter max_iter : ℕ) (hm : 1 ≤ max_iter) (n s : ℤ) (i : XF K)
    (hp : parseSizeAndIntensity h intensity size = .ok (n, s, i)) (hn : 1 ≤ n) (hs : 0 ≤ s)
    (k : ℤ) (hk : IsTrunc (h.area * ((n.toNat * 3 / 2 : ℕ) : K)) k) (h2 : 2 ≤ k) (hnk : n ≤ k) (pos : ℕ) :
    (∀ e, ¬ Returns (fun fuel => strauss h u intensity size gamma r n_iter max_iter fuel pos) (.error e)) ∧
    (∀ b : BBox K, h = Hull.ofBBox b → b.xmin ≤ b.xmax → b.ymin ≤ b.ymax → IsDraws u →
      ∃ x pos', Returns (fun fuel => strauss h u intensity size gamma r n_iter max_iter fuel pos) (.ok (x, pos'))) := by
  have noerr : ∀ e, ¬ Returns (fun fuel => strauss h u intensity size gamma r n_iter max_iter fuel pos) (.error e) := by
    rintro e ⟨fuel, hr⟩
    simp only [strauss, hp] at hr
    rw [if_neg (by omega)] at hr
    rcases Run.andThen_error.1 hr with hr | ⟨x, p, _, hx⟩
    · obtain ⟨j, p, hj⟩ := replications_error _ _ _ _ _ hr
      obtain ⟨m, rfl⟩ := Nat.exists_eq_succ_of_ne_zero (by omega : max_iter ≠ 0)
      simp only [Nat.succ_eq_add_one] at hj
      rw [straussAttempts] at hj
      rcases Run.andThen_error.1 hj with hj | ⟨x, q, h1, hj⟩
      · exact absurd hj (embedded_no_error h ha u _ (Nat.cast_nonneg _) _ _ _)
      · obtain ⟨hgood, hpt⟩ := strauss_embedded h u _ _ _ _ _ h1
        have hc : straussCount h ((n.toNat * 3 / 2 : ℕ) : K) = k := trunc_unique (count_trunc h _) hk
        have hlen := embedded_length h u _ _ _ _ _ h1
        rw [hc] at hlen hpt
        rcases hgood with ⟨p0, rfl, _⟩ | ⟨l, rfl, hl⟩
        · have := hpt.1 ⟨p0, rfl⟩
          omega
        · simp only [Squeezed.data] at hlen
          rcases Run.andThen_error.1 hj with hj | ⟨y, q', h3, h4⟩
          · obtain ⟨l', pos', he, _⟩ := iter_enough h ha u gamma r hg n.toNat (by omega) fuel n_iter q l (by omega) _ hj
            cases he
          · obtain ⟨l', pos', he, hl'⟩ := iter_enough h ha u gamma r hg n.toNat (by omega) fuel n_iter q l (by omega) _ h3
            simp only [Except.ok.injEq, Prod.mk.injEq] at he
            obtain ⟨rfl, rfl⟩ := he
            simp only [straussTake, if_pos hl'] at h4
            cases h4
    · cases hx
  refine ⟨noerr, ?_⟩
  rintro b rfl hx hy hu
  obtain ⟨res, hres⟩ := C46_strauss_ends b hx hy u hu intensity size gamma r n_iter max_iter pos
  cases res with
  | error e => exact absurd hres (noerr e)
  | ok x => exact ⟨x.1, x.2, hres⟩

/-- **C46, small regions.** In a hull of area below 1 in which the initial patterns have fewer points than asked for (and not
one), births add no points: `strauss` never returns a pattern, whatever the parameters and the stream of draws. So it depends on the
unit of length whether it returns. -/
theorem C46_strauss_small_hull (h : Hull K) (ha : 0 ≤ h.area) (ha1 : h.area < 1) (u : ℕ → K) (intensity : Option K)
    (size : SizeArg) (gamma r : K) (n_iter max_iter : ℕ) (n s : ℤ) (i : XF K)
    (hp : parseSizeAndIntensity h intensity size = .ok (n, s, i)) (hs : 1 ≤ s)
    (k : ℤ) (hk : IsTrunc (h.area * ((n.toNat * 3 / 2 : ℕ) : K)) k) (h1 : k ≠ 1) (hnk : k < n) (pos : ℕ) :
    (∀ x pos', ¬ Returns (fun fuel => strauss h u intensity size gamma r n_iter max_iter fuel pos) (.ok (x, pos'))) ∧
    ∀ b : BBox K, h = Hull.ofBBox b → b.xmin ≤ b.xmax → b.ymin ≤ b.ymax → IsDraws u →
      Returns (fun fuel => strauss h u intensity size gamma r n_iter max_iter fuel pos) (.error .runtimeError) := by
  have hk0 : 0 ≤ k := by
    have hx : 0 ≤ h.area * ((n.toNat * 3 / 2 : ℕ) : K) := mul_nonneg ha (Nat.cast_nonneg _)
    have := hk.1 hx
    have : ((-1 : ℤ) : K) < k := by push_cast; linarith [this.2]
    have := Int.cast_lt.1 this
    omega
  have hno : ∀ x pos', ¬ Returns (fun fuel => strauss h u intensity size gamma r n_iter max_iter fuel pos) (.ok (x, pos')) := by
    rintro x pos' ⟨fuel, hr⟩
    obtain ⟨hn0, hs0, reps, hreps, _⟩ := strauss_ok h u intensity size gamma r n_iter max_iter n s i hp fuel pos x pos' hr
    obtain ⟨g1, g2⟩ := replications_spec _ _ _ _ _ _ hreps
    cases reps with
    | nil => simp at g1; omega
    | cons rep rest =>
      obtain ⟨j, p, p', _, hb⟩ := g2 rep (by simp)
      have hone : straussCount h 1 = 0 := by
        unfold straussCount
        rw [mul_one, if_pos ha]
        exact Int.floor_eq_iff.2 ⟨by simpa using ha, by simpa using ha1⟩
      have step : ∀ (pos : ℕ) (l : List (K × K)) (x' : Squeezed K) (pos' : ℕ), l.length < n.toNat →
          straussStep h u gamma r n.toNat fuel (.rows l) pos = some (.ok (x', pos')) →
          ∃ l', x' = .rows l' ∧ l'.length < n.toNat := by
        intro pos l x' pos' hl hr
        unfold straussStep at hr
        simp only at hr
        rw [if_pos hl, if_pos (by simp [hl])] at hr
        obtain ⟨np, q, h1, h2⟩ := Run.andThen_ok.1 hr
        obtain ⟨hgood, hpt⟩ := strauss_embedded h u 1 _ _ _ _ h1
        have hlen := embedded_length h u 1 _ _ _ _ h1
        rw [hone] at hlen hpt
        rcases hgood with ⟨p0, rfl, _⟩ | ⟨l0, rfl, _⟩
        · have := hpt.1 ⟨p0, rfl⟩
          omega
        · simp only [Squeezed.data] at hlen
          have hl0 : l0 = [] := List.length_eq_zero_iff.1 (by omega)
          subst hl0
          simp only [vstackRows, List.append_nil] at h2
          split at h2
          · rw [Run.ret_ok] at h2
            exact ⟨l, h2.1.symm, hl⟩
          · rw [Run.ret_ok] at h2
            exact ⟨l, h2.1.symm, hl⟩
      have iter : ∀ (m pos : ℕ) (l : List (K × K)) (x' : Squeezed K) (pos' : ℕ), l.length < n.toNat →
          straussIter h u gamma r n.toNat fuel m (.rows l) pos = some (.ok (x', pos')) →
          ∃ l', x' = .rows l' ∧ l'.length < n.toNat := by
        intro m
        induction m with
        | zero =>
          intro pos l x' pos' hl hr
          rw [straussIter, Run.ret_ok] at hr
          exact ⟨l, hr.1.symm, hl⟩
        | succ m ih =>
          intro pos l x' pos' hl hr
          rw [straussIter] at hr
          obtain ⟨y, q, h1, h2⟩ := Run.andThen_ok.1 hr
          obtain ⟨l1, rfl, hl1⟩ := step pos l y q hl h1
          exact ih q l1 x' pos' hl1 h2
      have attempts : ∀ (m pos : ℕ), straussAttempts h u gamma r n.toNat n_iter fuel m pos ≠ some (.ok (rep, p')) := by
        intro m
        induction m with
        | zero => intro pos hr; rw [straussAttempts] at hr; cases hr
        | succ m ih =>
          intro pos hr
          rw [straussAttempts] at hr
          obtain ⟨y, q, h1', h2⟩ := Run.andThen_ok.1 hr
          obtain ⟨z, q', h3, h4⟩ := Run.andThen_ok.1 h2
          obtain ⟨hgood, hpt⟩ := strauss_embedded h u _ _ _ _ _ h1'
          have hlen := embedded_length h u _ _ _ _ _ h1'
          have hc : straussCount h ((n.toNat * 3 / 2 : ℕ) : K) = k := trunc_unique (count_trunc h _) hk
          rw [hc] at hlen hpt
          rcases hgood with ⟨p0, rfl, _⟩ | ⟨l, rfl, hl⟩
          · exact h1 (hpt.1 ⟨p0, rfl⟩)
          · simp only [Squeezed.data] at hlen
            obtain ⟨l', rfl, hl'⟩ := iter n_iter q l z q' (by omega) h3
            simp only [straussTake, if_neg (not_le.2 hl')] at h4
            exact ih _ h4
      exact attempts _ _ hb
  refine ⟨hno, ?_⟩
  rintro b rfl hx hy hu
  obtain ⟨res, hres⟩ := C46_strauss_ends b hx hy u hu intensity size gamma r n_iter max_iter pos
  cases res with
  | ok x => exact absurd hres (hno x.1 x.2)
  | error e =>
    have : e = .runtimeError := by
      refine C46_strauss_errors _ ha u intensity size gamma r n_iter max_iter n s i hp (by omega) (by omega) ?_ pos e hres
      intro h'
      exact h1 (trunc_unique hk h')
    rw [← this]
    exact hres

/-- Non-vacuity: five points on the unit square, where the initial patterns have seven points, and on a square of side 1/2, where
they have none. -/
example : parseSizeAndIntensity (Hull.ofBBox (⟨0, 0, 1, 1⟩ : BBox ℚ)) none (.int 5) = .ok (5, 1, .fin 5) ∧
    IsTrunc ((Hull.ofBBox (⟨0, 0, 1, 1⟩ : BBox ℚ)).area * ((5 * 3 / 2 : ℕ) : ℚ)) 7 := by
  refine ⟨by decide +kernel, ?_⟩
  norm_num [Hull.ofBBox, Geometry.areaBBox, IsTrunc]
example : parseSizeAndIntensity (Hull.ofBBox (⟨0, 0, 1/2, 1/2⟩ : BBox ℚ)) none (.int 2) = .ok (2, 1, .fin 8) ∧
    IsTrunc ((Hull.ofBBox (⟨0, 0, 1/2, 1/2⟩ : BBox ℚ)).area * ((2 * 3 / 2 : ℕ) : ℚ)) 0 := by
  refine ⟨by decide +kernel, ?_⟩
  norm_num [Hull.ofBBox, Geometry.areaBBox, IsTrunc]

/-! ### C47 -/

omit [IsStrictOrderedRing K] in
private theorem step_pairs (h : Hull K) (u : ℕ → K) (hu : IsDraws u) (r : K) (n fuel pos : ℕ) (l : List (K × K))
    (x' : Squeezed K) (pos' : ℕ) (hr : straussStep h u 0 r n fuel (.rows l) pos = some (.ok (x', pos'))) :
    ∃ l', x' = .rows l' ∧ pairCount r l' ≤ pairCount r l := by
  unfold straussStep at hr
  simp only at hr
  generalize (if l.length < n then pos else pos + 1) = q0 at hr
  split at hr
  · obtain ⟨np, q, h1, h2⟩ := Run.andThen_ok.1 hr
    cases hvs : vstackRows l np with
    | error e => rw [hvs] at h2; cases h2
    | ok l' =>
      rw [hvs] at h2
      simp only at h2
      split at h2
      · next hlt =>
        rw [Run.ret_ok] at h2
        obtain ⟨rfl, _⟩ := h2
        refine ⟨l', rfl, ?_⟩
        by_contra hgt
        push Not at hgt
        have hz : (0 : K) ^ (pairCount r l' - pairCount r l) = 0 := zero_pow (by omega)
        rw [hz] at hlt
        simp at hlt
        exact absurd (hu q).1 (not_le.2 hlt)
      · rw [Run.ret_ok] at h2
        obtain ⟨rfl, _⟩ := h2
        exact ⟨l, rfl, le_rfl⟩
  · split at hr
    · split at hr
      · cases hr
      · split at hr
        · rw [Run.ret_ok] at hr
          obtain ⟨rfl, _⟩ := hr
          exact ⟨_, rfl, pairCount_sublist r (List.eraseIdx_sublist ..)⟩
        · rw [Run.ret_ok] at hr
          obtain ⟨rfl, _⟩ := hr
          exact ⟨l, rfl, le_rfl⟩
    · rw [Run.ret_ok] at hr
      obtain ⟨rfl, _⟩ := hr
      exact ⟨l, rfl, le_rfl⟩

omit [IsStrictOrderedRing K] in
/-- **C47, partial.** With `gamma = 0`, whenever `strauss` returns: every replication comes from an initial uniform pattern,
and if that has no two points within the radius then neither has the replication. Missing: close pairs of the initial
pattern may remain (`C47_hard_core_refuted`). -/
theorem C47_hard_core_partial (h : Hull K) (u : ℕ → K) (hu : IsDraws u) (intensity : Option K) (size : SizeArg) (r : K)
    (n_iter max_iter : ℕ) (n s : ℤ) (i : XF K) (hp : parseSizeAndIntensity h intensity size = .ok (n, s, i))
    (pos : ℕ) (x : Squeezed K) (pos' : ℕ)
    (hr : Returns (fun fuel => strauss h u intensity size 0 r n_iter max_iter fuel pos) (.ok (x, pos'))) :
    ∃ reps : List (List (K × K)), x = squeeze s.toNat n.toNat reps ∧ reps.length = s.toNat
      ∧ ∀ rep ∈ reps, ∃ (initial : Squeezed K) (p p' : ℕ),
        Returns (fun fuel => poisson h u (some ((n.toNat * 3 / 2 : ℕ) : K)) .none fuel p) (.ok (initial, p'))
        ∧ ∀ l, initial = .rows l → NoClosePairs r l → NoClosePairs r rep := by
  obtain ⟨fuel, hf⟩ := hr
  obtain ⟨hn0, hs0, reps, h1, rfl⟩ := strauss_ok h u intensity size 0 r n_iter max_iter n s i hp fuel pos x pos' hf
  obtain ⟨g1, g2⟩ := replications_spec _ _ _ _ _ _ h1
  refine ⟨reps, rfl, g1, ?_⟩
  intro rep hrep
  obtain ⟨j, p, p', _, hb⟩ := g2 rep hrep
  have iter : ∀ (k pos : ℕ) (l : List (K × K)) (x' : Squeezed K) (pos' : ℕ),
      straussIter h u 0 r n.toNat fuel k (.rows l) pos = some (.ok (x', pos')) →
      ∃ l', x' = .rows l' ∧ pairCount r l' ≤ pairCount r l := by
    intro k
    induction k with
    | zero =>
      intro pos l x' pos' hr
      rw [straussIter, Run.ret_ok] at hr
      obtain ⟨rfl, _⟩ := hr
      exact ⟨l, rfl, le_rfl⟩
    | succ k ih =>
      intro pos l x' pos' hr
      rw [straussIter] at hr
      obtain ⟨y, q, h1, h2⟩ := Run.andThen_ok.1 hr
      obtain ⟨l1, rfl, k1⟩ := step_pairs h u hu r n.toNat fuel pos l y q h1
      obtain ⟨l2, rfl, k2⟩ := ih q l1 x' pos' h2
      exact ⟨l2, rfl, le_trans k2 k1⟩
  have attempts : ∀ (m pos : ℕ), straussAttempts h u 0 r n.toNat n_iter fuel m pos = some (.ok (rep, p')) →
      ∃ (initial : Squeezed K) (p p' : ℕ),
        Returns (fun fuel => poisson h u (some ((n.toNat * 3 / 2 : ℕ) : K)) .none fuel p) (.ok (initial, p'))
        ∧ ∀ l, initial = .rows l → NoClosePairs r l → NoClosePairs r rep := by
    intro m
    induction m with
    | zero => intro pos hr; rw [straussAttempts] at hr; cases hr
    | succ m ih =>
      intro pos hr
      rw [straussAttempts] at hr
      obtain ⟨y, q, h1, h2⟩ := Run.andThen_ok.1 hr
      obtain ⟨z, q', h3, h4⟩ := Run.andThen_ok.1 h2
      cases ht : straussTake n.toNat z with
      | none => rw [ht] at h4; exact ih _ h4
      | some l' =>
        rw [ht] at h4
        simp only [Run.ret_ok] at h4
        obtain ⟨rfl, _⟩ := h4
        refine ⟨y, pos, q, ⟨fuel, h1⟩, ?_⟩
        rintro l rfl hl
        obtain ⟨l1, rfl, k1⟩ := iter n_iter q l z q' h3
        simp only [straussTake] at ht
        split at ht
        · injection ht with ht
          subst ht
          rw [← pairCount_zero] at hl ⊢
          have := pairCount_sublist r (List.take_sublist n.toNat l1)
          omega
        · cases ht
  exact attempts _ _ hb

/-- Non-vacuity: a run with `gamma = 0` that returns two points which are not close. -/
example : strauss (Hull.ofBBox (⟨0, 0, 1, 1⟩ : BBox ℚ)) (fun i => ((i * i % 7 : ℕ) : ℚ) / 8) none (.int 2) 0 (1 / 4)
    3 2 20 0 = some (.ok (.rows [(0, 1 / 8), (1 / 2, 1 / 4)], 18)) := by decide +kernel

/-- **C47, refuted.** On the unit square with `gamma = 0`, for every number of iterations and every radius there is a stream
of draws for which the two returned points coincide. -/
theorem C47_hard_core_refuted (r : ℚ) (n_iter max_iter : ℕ) (hm : 1 ≤ max_iter) :
    ∃ u : ℕ → ℚ, IsDraws u ∧ ∃ pos',
      Returns (fun fuel => strauss (Hull.ofBBox (⟨0, 0, 1, 1⟩ : BBox ℚ)) u none (.int 2) 0 r n_iter max_iter fuel 0)
        (.ok (.rows [(0, 0), (0, 0)], pos')) := by
  refine ⟨fun _ => 0, fun _ => ⟨le_rfl, by norm_num⟩, ?_⟩
  have hsq : (0 : ℚ) ≤ r ^ 2 := sq_nonneg r
  have hstep : ∀ pos, straussStep (Hull.ofBBox (⟨0, 0, 1, 1⟩ : BBox ℚ)) (fun _ => 0) 0 r 2 3
      (.rows [(0, 0), (0, 0), (0, 0)]) pos = some (.ok (.rows [(0, 0), (0, 0), (0, 0)], pos + 4)) := by
    intro pos
    have hp : poisson (Hull.ofBBox (⟨0, 0, 1, 1⟩ : BBox ℚ)) (fun _ => 0) (some 1) .none 3 (pos + 1)
        = some (.ok (.point (0, 0), pos + 1 + 2)) := by
      unfold poisson
      have e : parseSizeAndIntensity (Hull.ofBBox (⟨0, 0, 1, 1⟩ : BBox ℚ)) (some 1) .none = .ok (1, 1, .fin 1) := by
        decide +kernel
      have c : boxCandidate (Hull.ofBBox (⟨0, 0, 1, 1⟩ : BBox ℚ)) (fun _ => 0) (pos + 1) = (0, 0) := by
        simp [boxCandidate, uniform, Hull.ofBBox]
      have d : (Hull.ofBBox (⟨0, 0, 1, 1⟩ : BBox ℚ)).contains 0 0 = true := by decide +kernel
      rw [e]
      simp [poissonReps, replications, rejection, c, d, Run.andThen, Run.ret, squeeze]
    unfold straussStep
    simp [hp, Run.andThen, vstackRows, pairCount, hsq, Run.ret]
  have hiter : ∀ (k pos : ℕ), straussIter (Hull.ofBBox (⟨0, 0, 1, 1⟩ : BBox ℚ)) (fun _ => 0) 0 r 2 3 k
      (.rows [(0, 0), (0, 0), (0, 0)]) pos = some (.ok (.rows [(0, 0), (0, 0), (0, 0)], pos + 4 * k)) := by
    intro k
    induction k with
    | zero => intro pos; rfl
    | succ k ih =>
      intro pos
      rw [straussIter, hstep]
      simp only [Run.andThen, ih]
      congr 3
      ring
  obtain ⟨m, rfl⟩ := Nat.exists_eq_succ_of_ne_zero (by omega : max_iter ≠ 0)
  refine ⟨6 + 4 * n_iter, 3, ?_⟩
  have e : parseSizeAndIntensity (Hull.ofBBox (⟨0, 0, 1, 1⟩ : BBox ℚ)) none (.int 2) = .ok (2, 1, .fin 2) := by
    decide +kernel
  have hp : poisson (Hull.ofBBox (⟨0, 0, 1, 1⟩ : BBox ℚ)) (fun _ => 0) (some ((2 * 3 / 2 : ℕ) : ℚ)) .none 3 0
      = some (.ok (.rows [(0, 0), (0, 0), (0, 0)], 6)) := by decide +kernel
  have hatt : straussAttempts (Hull.ofBBox (⟨0, 0, 1, 1⟩ : BBox ℚ)) (fun _ => 0) 0 r 2 n_iter 3 (m + 1) 0
      = some (.ok ([(0, 0), (0, 0)], 6 + 4 * n_iter)) := by
    rw [straussAttempts, hp]
    simp only [Run.andThen, hiter]
    rfl
  simp only [strauss, e]
  rw [if_neg (by omega)]
  show Run.andThen (replications _ 0 1 0) _ = _
  rw [replications]
  show Run.andThen (Run.andThen (straussAttempts (Hull.ofBBox (⟨0, 0, 1, 1⟩ : BBox ℚ)) (fun _ => 0) 0 r 2 n_iter 3 (m + 1) 0)
    _) _ = _
  rw [hatt]
  rfl

end Pointpats.Props
