import Verif.Props.Strauss
import Verif.Props.PoissonLaw
import Verif.Lemmas.BlindLaw
import Mathlib.MeasureTheory.Function.Floor

/-!
# Without interaction `strauss` is a blind program

With `gamma = 1` the Metropolis-Hastings loop does not look at where the points are.
-/

set_option linter.unusedSectionVars false

namespace Pointpats

open Random Spec Props MeasureTheory

/-- What follows a computation that succeeds. -/
def onOk {α β : Type} (r : Run α) (f : α → ℕ → Option β) : Option β :=
  match r with
  | some (.ok (a, pos)) => f a pos
  | _ => none

theorem onOk_andThen {α β γ : Type} (r : Run α) (f : α → ℕ → Run β) (g : β → ℕ → Option γ) :
    onOk (r.andThen f) g = onOk r fun a pos => onOk (f a pos) g := by
  cases r with
  | none => rfl
  | some r => cases r <;> rfl

theorem onOk_ret {α β : Type} (a : α) (pos : ℕ) (f : α → ℕ → Option β) : onOk (Run.ret a pos) f = f a pos := rfl

theorem onOk_fail {α β : Type} (e : PyErr) (f : α → ℕ → Option β) : onOk (Run.fail e : Run α) f = none := rfl

theorem onOk_congr {α β : Type} {r : Run α} {f g : α → ℕ → Option β} (h : ∀ a pos, r = some (.ok (a, pos)) → f a pos = g a pos) :
    onOk r f = onOk r g := by
  cases r with
  | none => rfl
  | some r =>
    cases r with
    | error => rfl
    | ok x => exact h x.1 x.2 rfl

theorem onOk_isSome {α β : Type} {r : Run α} {f : α → ℕ → Option β} {b : β} (h : onOk r f = some b) :
    ∃ a pos, r = some (.ok (a, pos)) ∧ f a pos = some b := by
  cases r with
  | none => cases h
  | some r =>
    cases r with
    | error => cases h
    | ok x => exact ⟨x.1, x.2, rfl, h⟩

/-- The points with these numbers. -/
def named (past : List (ℝ × ℝ)) (names : List ℕ) : List (ℝ × ℝ) := names.map fun c => past.getD c (0, 0)

theorem named_prefix {past past' : List (ℝ × ℝ)} (hp : past <+: past') {names : List ℕ} (hn : ∀ c ∈ names, c < past.length) :
    named past' names = named past names := by
  obtain ⟨l, rfl⟩ := hp
  refine List.map_congr_left fun c hc => ?_
  rw [List.getD_eq_getElem?_getD, List.getD_eq_getElem?_getD, List.getElem?_append_left (hn c hc)]

theorem named_range (past l : List (ℝ × ℝ)) : named (past ++ l) (List.range' past.length l.length) = l := by
  refine List.ext_getElem (by simp [named]) fun k hk hk' => ?_
  simp [named, hk']

theorem named_append (past : List (ℝ × ℝ)) (a b : List ℕ) : named past (a ++ b) = named past a ++ named past b := List.map_append

/-! ### The blind programs -/

/-- Rejection sampling. -/
def blindRej : ℕ → ℕ → ℕ → (ℕ → Blind ℝ) → Blind ℝ
  | _, pos, 0, k => k pos
  | 0, _, _ + 1, _ => .dead
  | fuel + 1, pos, n + 1, k => .candidate pos (blindRej fuel (pos + 2) n k) (blindRej fuel (pos + 2) (n + 1) k)

/-- A decision with a threshold. -/
noncomputable def below (a x : ℝ) : ℕ := if x < a then 1 else 0

theorem below_measurable (a : ℝ) : Measurable (below a) := Measurable.ite measurableSet_Iio measurable_const measurable_const

/-- A birth. -/
noncomputable def blindBirth (n m fuel : ℕ) (names : List ℕ) (N pos : ℕ) (k : List ℕ → ℕ → ℕ → Blind ℝ) : Blind ℝ :=
  blindRej fuel pos m fun pos => .decision pos (below (min 1 ((n : ℝ) / ((names.length : ℝ) + 1)))) fun j =>
    if j = 1 then k (names ++ List.range' N m) (N + m) (pos + 1) else k names (N + m) (pos + 1)

/-- A death. -/
noncomputable def blindDeath (n : ℕ) (names : List ℕ) (N pos : ℕ) (k : List ℕ → ℕ → ℕ → Blind ℝ) : Blind ℝ :=
  .decision pos (fun x => ⌊x * (names.length : ℝ)⌋.toNat) fun idx =>
    if n = 0 then .dead else .decision (pos + 1) (below (min 1 ((names.length : ℝ) / (n : ℝ)))) fun j =>
      if j = 1 then k (names.eraseIdx idx) N (pos + 2) else k names N (pos + 2)

/-- One iteration. -/
noncomputable def blindStep (n m fuel : ℕ) (names : List ℕ) (N pos : ℕ) (k : List ℕ → ℕ → ℕ → Blind ℝ) : Blind ℝ :=
  if names.length < n then blindBirth n m fuel names N pos k
  else .decision pos (below (1 / 2)) fun j =>
    if j = 1 then blindBirth n m fuel names N (pos + 1) k
    else if n < names.length then blindDeath n names N (pos + 1) k
    else k names N (pos + 1)

/-- The iterations. -/
noncomputable def blindIter (n m fuel : ℕ) : ℕ → List ℕ → ℕ → ℕ → (List ℕ → ℕ → ℕ → Blind ℝ) → Blind ℝ
  | 0, names, N, pos, k => k names N pos
  | i + 1, names, N, pos, k => blindStep n m fuel names N pos fun names N pos => blindIter n m fuel i names N pos k

/-- The attempts. -/
noncomputable def blindAttempts (n m m0 fuel n_iter : ℕ) : ℕ → ℕ → ℕ → (List ℕ → ℕ → ℕ → Blind ℝ) → Blind ℝ
  | 0, _, _, _ => .dead
  | a + 1, N, pos, k => blindRej fuel pos m0 fun pos =>
      blindIter n m fuel n_iter (List.range' N m0) (N + m0) pos fun names N pos =>
        if n ≤ names.length then k (names.take n) N pos else blindAttempts n m m0 fuel n_iter a N pos k

/-- The replications. -/
noncomputable def blindReps (n m m0 fuel n_iter max_iter : ℕ) : ℕ → List ℕ → ℕ → ℕ → Blind ℝ
  | 0, names, _, _ => .done names
  | s + 1, names, N, pos => blindAttempts n m m0 fuel n_iter max_iter N pos fun new N pos =>
      blindReps n m m0 fuel n_iter max_iter s (names ++ new) N pos

/-! ### They use each draw once, and return different points -/

theorem blindRej_ok {L : ℕ} (fuel : ℕ) : ∀ (pos n N : ℕ) (k : ℕ → Blind ℝ), (∀ pos', (k pos').Ok L pos' (N + n)) →
    (blindRej fuel pos n k).Ok L pos N := by
  induction fuel with
  | zero =>
    intro pos n N k hk
    cases n with
    | zero => rw [blindRej]; exact hk pos
    | succ n => rw [blindRej]; trivial
  | succ fuel ih =>
    intro pos n N k hk
    cases n with
    | zero => rw [blindRej]; exact hk pos
    | succ n =>
      rw [blindRej]
      refine ⟨le_rfl, ih _ _ _ _ fun pos' => ?_, ih _ _ _ _ hk⟩
      rw [show N + 1 + n = N + (n + 1) by omega]
      exact hk pos'

/-- What is known of a list of names after some steps. -/
structure Later (names : List ℕ) (N : ℕ) (names' : List ℕ) (N' : ℕ) : Prop where
  nodup : names'.Nodup
  lt : ∀ c ∈ names', c < N'
  le : N ≤ N'
  new : ∀ c ∈ names', c ∈ names ∨ N ≤ c

theorem Later.trans {a b c : List ℕ} {A B C : ℕ} (h1 : Later a A b B) (h2 : Later b B c C) : Later a A c C := by
  refine ⟨h2.nodup, h2.lt, h1.le.trans h2.le, fun x hx => ?_⟩
  rcases h2.new x hx with h | h
  · exact h1.new x h
  · exact Or.inr (h1.le.trans h)

theorem Later.same {a : List ℕ} {A B : ℕ} (h1 : a.Nodup) (h2 : ∀ c ∈ a, c < A) (hB : A ≤ B) : Later a A a B :=
  ⟨h1, fun c hc => (h2 c hc).trans_le hB, hB, fun _ hc => Or.inl hc⟩

theorem Later.grow {a : List ℕ} {A m : ℕ} (h1 : a.Nodup) (h2 : ∀ c ∈ a, c < A) : Later a A (a ++ List.range' A m) (A + m) := by
  refine ⟨?_, ?_, by omega, ?_⟩
  · refine List.nodup_append.2 ⟨h1, List.nodup_range', ?_⟩
    intro c hc d hd
    have := h2 c hc
    have := List.left_le_of_mem_range' hd
    omega
  · intro c hc
    rcases List.mem_append.1 hc with h | h
    · have := h2 c h; omega
    · obtain ⟨i, hi, rfl⟩ := List.mem_range'.1 h
      omega
  · intro c hc
    rcases List.mem_append.1 hc with h | h
    · exact Or.inl h
    · exact Or.inr (List.left_le_of_mem_range' h)

theorem blindBirth_ok {L : ℕ} (n m fuel : ℕ) (names : List ℕ) (N pos : ℕ) (k : List ℕ → ℕ → ℕ → Blind ℝ) (h1 : names.Nodup)
    (h2 : ∀ c ∈ names, c < N) (hk : ∀ names' N' pos', Later names N names' N' → (k names' N' pos').Ok L pos' N') :
    (blindBirth n m fuel names N pos k).Ok L pos N := by
  refine blindRej_ok fuel pos m N _ fun pos' => ⟨le_rfl, below_measurable _, fun j => ?_⟩
  beta_reduce
  split
  · exact hk _ _ _ (Later.grow h1 h2)
  · exact hk _ _ _ (Later.same h1 h2 (by omega))

theorem blindDeath_ok {L : ℕ} (n : ℕ) (names : List ℕ) (N pos : ℕ) (k : List ℕ → ℕ → ℕ → Blind ℝ) (h1 : names.Nodup)
    (h2 : ∀ c ∈ names, c < N) (hk : ∀ names' N' pos', Later names N names' N' → (k names' N' pos').Ok L pos' N') :
    (blindDeath n names N pos k).Ok L pos N := by
  refine ⟨le_rfl, ?_, fun idx => ?_⟩
  · exact (measurable_from_top (f := Int.toNat)).comp (Int.measurable_floor.comp (measurable_id.mul_const _))
  · split
    · trivial
    · refine ⟨le_rfl, below_measurable _, fun j => ?_⟩
      beta_reduce
      split
      · refine hk _ _ _ ⟨h1.sublist (List.eraseIdx_sublist ..), fun c hc => h2 c ((List.eraseIdx_sublist ..).subset hc), le_rfl,
          fun c hc => Or.inl ((List.eraseIdx_sublist ..).subset hc)⟩
      · exact hk _ _ _ (Later.same h1 h2 le_rfl)

theorem blindStep_ok {L : ℕ} (n m fuel : ℕ) (names : List ℕ) (N pos : ℕ) (k : List ℕ → ℕ → ℕ → Blind ℝ) (h1 : names.Nodup)
    (h2 : ∀ c ∈ names, c < N) (hk : ∀ names' N' pos', Later names N names' N' → (k names' N' pos').Ok L pos' N') :
    (blindStep n m fuel names N pos k).Ok L pos N := by
  unfold blindStep
  split
  · exact blindBirth_ok n m fuel names N pos k h1 h2 hk
  · refine ⟨le_rfl, below_measurable _, fun j => ?_⟩
    beta_reduce
    split
    · exact blindBirth_ok n m fuel names N _ k h1 h2 hk
    · split
      · exact blindDeath_ok n names N _ k h1 h2 hk
      · exact hk _ _ _ (Later.same h1 h2 le_rfl)

theorem blindIter_ok {L : ℕ} (n m fuel i : ℕ) : ∀ (names : List ℕ) (N pos : ℕ) (k : List ℕ → ℕ → ℕ → Blind ℝ), names.Nodup →
    (∀ c ∈ names, c < N) → (∀ names' N' pos', Later names N names' N' → (k names' N' pos').Ok L pos' N') →
    (blindIter n m fuel i names N pos k).Ok L pos N := by
  induction i with
  | zero => intro names N pos k h1 h2 hk; exact hk _ _ _ (Later.same h1 h2 le_rfl)
  | succ i ih =>
    intro names N pos k h1 h2 hk
    rw [blindIter]
    exact blindStep_ok n m fuel names N pos _ h1 h2 fun names' N' pos' hl =>
      ih names' N' pos' k hl.nodup hl.lt fun _ _ _ hl' => hk _ _ _ (hl.trans hl')

theorem blindAttempts_ok {L : ℕ} (n m m0 fuel n_iter a : ℕ) : ∀ (N pos : ℕ) (k : List ℕ → ℕ → ℕ → Blind ℝ),
    (∀ names' N' pos', Later [] N names' N' → names'.length = n → (k names' N' pos').Ok L pos' N') →
    (blindAttempts n m m0 fuel n_iter a N pos k).Ok L pos N := by
  induction a with
  | zero => intro N pos k _; trivial
  | succ a ih =>
    intro N pos k hk
    rw [blindAttempts]
    refine blindRej_ok fuel pos m0 N _ fun pos' => ?_
    have h0 : Later [] N (List.range' N m0) (N + m0) := by simpa using Later.grow (a := []) (A := N) (m := m0) (by simp) (by simp)
    refine blindIter_ok n m fuel n_iter _ _ _ _ h0.nodup h0.lt fun names' N' pos'' hl => ?_
    have hl := h0.trans hl
    split
    · next hn =>
      refine hk _ _ _ ⟨hl.nodup.sublist (List.take_sublist ..), fun c hc => hl.lt c (List.mem_of_mem_take hc), hl.le,
        fun c hc => hl.new c (List.mem_of_mem_take hc)⟩ (by simp [hn])
    · refine ih _ _ _ fun names N'' pos h hlen => hk _ _ _ ⟨h.nodup, h.lt, hl.le.trans h.le, fun c hc => ?_⟩ hlen
      rcases h.new c hc with h' | h'
      · exact absurd h' (List.not_mem_nil)
      · exact Or.inr (hl.le.trans h')

theorem blindReps_ok (n m m0 fuel n_iter max_iter s : ℕ) : ∀ (names : List ℕ) (N pos : ℕ), names.Nodup → (∀ c ∈ names, c < N) →
    (blindReps n m m0 fuel n_iter max_iter s names N pos).Ok (names.length + n * s) pos N := by
  induction s with
  | zero => intro names N pos h1 h2; exact ⟨h1, h2, by simp⟩
  | succ s ih =>
    intro names N pos h1 h2
    rw [blindReps]
    refine blindAttempts_ok n m m0 fuel n_iter max_iter N pos _ fun new N' pos' hl hlen => ?_
    have := ih (names ++ new) N' pos' ?_ ?_
    · rw [List.length_append, hlen] at this
      rw [show names.length + n * (s + 1) = names.length + n + n * s by ring]
      exact this
    · refine List.nodup_append.2 ⟨h1, hl.nodup, fun c hc d hd => ?_⟩
      have := h2 c hc
      rcases hl.new d hd with h | h
      · exact absurd h List.not_mem_nil
      · omega
    · intro c hc
      rcases List.mem_append.1 hc with h | h
      · exact (h2 c h).trans_le hl.le
      · exact hl.lt c h

/-! ### They return what the model returns -/

section Out

variable (h : Hull ℝ) (u : ℕ → ℝ)

theorem blindRej_out (fuel : ℕ) : ∀ (pos n : ℕ) (k : ℕ → Blind ℝ) (past : List (ℝ × ℝ)),
    (blindRej fuel pos n k).out (boxPoint h.bbox) (fun p => h.contains p.1 p.2) u past
      = onOk (rejection (boxCandidate h u) (fun p => h.contains p.1 p.2) fuel pos n) fun l pos' =>
          (k pos').out (boxPoint h.bbox) (fun p => h.contains p.1 p.2) u (past ++ l) := by
  induction fuel with
  | zero =>
    intro pos n k past
    cases n with
    | zero => simp [blindRej, rejection, onOk_ret]
    | succ n => rfl
  | succ fuel ih =>
    intro pos n k past
    cases n with
    | zero => simp [blindRej, rejection, onOk_ret]
    | succ n =>
      have e : boxCandidate h u pos = boxPoint h.bbox (u pos, u (pos + 1)) := rfl
      rw [blindRej, Blind.out, rejection]
      simp only [e]
      split
      · rw [ih, onOk_andThen]
        simp [onOk_ret]
      · rw [ih]

/-- The embedded calls of `poisson`. -/
theorem poisson_intensity (ha : 0 ≤ h.area) (i : ℝ) (hi : 0 ≤ i) (fuel pos : ℕ) :
    poisson h u (some i) .none fuel pos
      = (rejection (boxCandidate h u) (fun p => h.contains p.1 p.2) fuel pos ⌊h.area * i⌋.toNat).andThen fun l pos' =>
          Run.ret (squeeze 1 ⌊h.area * i⌋.toNat [l]) pos' := by
  have hpos : 0 ≤ h.area * i := mul_nonneg ha hi
  have hp : parseSizeAndIntensity h (some i) .none = .ok (⌊h.area * i⌋, 1, .fin i) := by
    have : parseSizeAndIntensity h (some i) .none
      = .ok ((if 0 ≤ h.area * i then ⌊h.area * i⌋ else ⌈h.area * i⌉), 1, .fin i) := rfl
    rw [this, if_pos hpos]
  unfold poisson
  rw [hp]
  have hn : ¬ (⌊h.area * i⌋ < 0 ∨ (1 : ℤ) < 0) := by
    have := Int.floor_nonneg.2 hpos
    omega
  simp only [if_neg hn, poissonReps, replications, Int.toNat_one]
  cases rejection (boxCandidate h u) (fun p => h.contains p.1 p.2) fuel pos ⌊h.area * i⌋.toNat with
  | none => rfl
  | some r => cases r <;> rfl

theorem vstack_squeeze (l new : List (ℝ × ℝ)) (m : ℕ) (hm : new.length = m) :
    vstackRows l (squeeze 1 m [new]) = .ok (l ++ new) := by
  by_cases h1 : m = 1
  · obtain ⟨p, rfl⟩ := List.length_eq_one_iff.1 (hm.trans h1)
    simp [squeeze, h1, vstackRows]
  · simp [squeeze, h1, vstackRows]

/-- What a continuation does. -/
def Continues (k : List ℕ → ℕ → ℕ → Blind ℝ) (past : List (ℝ × ℝ)) (G : List (ℝ × ℝ) → ℕ → Option (List (ℝ × ℝ))) : Prop :=
  ∀ names' past' pos', past <+: past' → (∀ c ∈ names', c < past'.length) →
    (k names' past'.length pos').out (boxPoint h.bbox) (fun p => h.contains p.1 p.2) u past' = G (named past' names') pos'

/-- What follows a state of the chain. -/
def rowsThen (G : List (ℝ × ℝ) → ℕ → Option (List (ℝ × ℝ))) (x : Squeezed ℝ) (pos : ℕ) : Option (List (ℝ × ℝ)) :=
  match x with
  | .rows l => G l pos
  | _ => none

theorem blindBirth_out (ha : 0 ≤ h.area) (n fuel : ℕ) (names : List ℕ) (pos : ℕ) (k : List ℕ → ℕ → ℕ → Blind ℝ)
    (past : List (ℝ × ℝ)) (hn : ∀ c ∈ names, c < past.length) (G : List (ℝ × ℝ) → ℕ → Option (List (ℝ × ℝ)))
    (hk : Continues h u k past G) (r : ℝ) :
    (blindBirth n ⌊h.area * 1⌋.toNat fuel names past.length pos k).out (boxPoint h.bbox) (fun p => h.contains p.1 p.2) u past
      = onOk ((poisson h u (some 1) .none fuel pos).andThen fun new_point pos =>
          match vstackRows (named past names) new_point with
          | .error e => Run.fail e
          | .ok trial_points =>
              if u pos < min 1 ((n : ℝ) * 1 ^ (pairCount r trial_points - pairCount r (named past names))
                  / (((named past names).length : ℝ) + 1)) then Run.ret (.rows trial_points) (pos + 1)
              else Run.ret (.rows (named past names)) (pos + 1)) (rowsThen G) := by
  rw [blindBirth, blindRej_out, poisson_intensity h u ha 1 zero_le_one, onOk_andThen, onOk_andThen]
  refine onOk_congr fun l pos' hl => ?_
  have hlen : l.length = ⌊h.area * 1⌋.toNat := (rejection_mem _ _ _ _ _ _ _ hl).1
  rw [onOk_ret, vstack_squeeze _ _ _ hlen]
  have hnl : (named past names).length = names.length := by simp [named]
  simp only [one_pow, mul_one, Blind.out, hnl]
  rw [mul_one] at hlen
  have hp : past <+: past ++ l := List.prefix_append past l
  by_cases hlt : u pos' < min 1 ((n : ℝ) / ((names.length : ℝ) + 1))
  · have hb : below (min 1 ((n : ℝ) / ((names.length : ℝ) + 1))) (u pos') = 1 := if_pos hlt
    rw [if_pos hb, if_pos hlt, onOk_ret]
    have := hk (names ++ List.range' past.length l.length) (past ++ l) (pos' + 1) hp (by
      intro c hc
      rw [List.length_append]
      rcases List.mem_append.1 hc with h' | h'
      · have := hn c h'; omega
      · obtain ⟨i, hi, rfl⟩ := List.mem_range'.1 h'
        omega)
    rw [List.length_append, named_append, named_range, named_prefix hp hn] at this
    rw [← hlen]
    exact this
  · have hb : ¬ below (min 1 ((n : ℝ) / ((names.length : ℝ) + 1))) (u pos') = 1 := by simp [below, hlt]
    rw [if_neg hb, if_neg hlt, onOk_ret]
    have := hk names (past ++ l) (pos' + 1) hp (by
      intro c hc
      rw [List.length_append]
      have := hn c hc
      omega)
    rw [List.length_append, named_prefix hp hn] at this
    rw [← hlen]
    exact this

theorem named_erase (past : List (ℝ × ℝ)) (names : List ℕ) (i : ℕ) : named past (names.eraseIdx i) = (named past names).eraseIdx i := by
  rw [named, named, List.eraseIdx_map]

theorem blindStep_out (ha : 0 ≤ h.area) (n fuel : ℕ) (names : List ℕ) (pos : ℕ) (k : List ℕ → ℕ → ℕ → Blind ℝ)
    (past : List (ℝ × ℝ)) (hn : ∀ c ∈ names, c < past.length) (G : List (ℝ × ℝ) → ℕ → Option (List (ℝ × ℝ)))
    (hk : Continues h u k past G) (r : ℝ) :
    (blindStep n ⌊h.area * 1⌋.toNat fuel names past.length pos k).out (boxPoint h.bbox) (fun p => h.contains p.1 p.2) u past
      = onOk (straussStep h u 1 r n fuel (.rows (named past names)) pos) (rowsThen G) := by
  have hnl : (named past names).length = names.length := by simp [named]
  unfold blindStep straussStep
  simp only [hnl]
  by_cases h1 : names.length < n
  · rw [if_pos h1]
    simp only [h1, decide_true, Bool.true_or, if_true]
    rw [blindBirth_out h u ha n fuel names pos k past hn G hk r]
    simp only [hnl]
    rw [onOk_andThen, onOk_andThen]
    refine onOk_congr fun a p _ => ?_
    cases vstackRows (named past names) a <;> rfl
  · rw [if_neg h1]
    simp only [h1, decide_false, Bool.false_or, if_false, decide_eq_true_eq, Blind.out]
    by_cases h2 : u pos < 1 / 2
    · have hb : below (1 / 2) (u pos) = 1 := if_pos h2
      rw [if_pos hb, if_pos h2, blindBirth_out h u ha n fuel names (pos + 1) k past hn G hk r]
      simp only [hnl]
      rw [onOk_andThen, onOk_andThen]
      refine onOk_congr fun a p _ => ?_
      cases vstackRows (named past names) a <;> rfl
    · have hb : ¬ below (1 / 2) (u pos) = 1 := by unfold below; rw [if_neg h2]; omega
      rw [if_neg hb, if_neg h2]
      by_cases h3 : n < names.length
      · rw [if_pos h3, if_pos h3, blindDeath]
        simp only [Blind.out, one_pow, mul_one]
        by_cases h4 : n = 0
        · simp [h4, Blind.out, onOk_fail]
        · rw [if_neg h4, if_neg (by exact_mod_cast h4)]
          simp only [Blind.out]
          by_cases h5 : u (pos + 1 + 1) < min 1 ((names.length : ℝ) / (n : ℝ))
          · have hb : below (min 1 ((names.length : ℝ) / (n : ℝ))) (u (pos + 1 + 1)) = 1 := if_pos h5
            rw [if_pos hb, if_pos h5, onOk_ret]
            have := hk (names.eraseIdx ⌊u (pos + 1) * (names.length : ℝ)⌋.toNat) past (pos + 1 + 2) (List.prefix_refl _)
              fun c hc => hn c ((List.eraseIdx_sublist ..).subset hc)
            rw [this, named_erase]
            rfl
          · have hb : ¬ below (min 1 ((names.length : ℝ) / (n : ℝ))) (u (pos + 1 + 1)) = 1 := by simp [below, h5]
            rw [if_neg hb, if_neg h5, onOk_ret]
            exact hk names past _ (List.prefix_refl _) hn
      · rw [if_neg h3, if_neg h3, onOk_ret]
        exact hk names past _ (List.prefix_refl _) hn

theorem step_keeps_rows (r : ℝ) (n fuel : ℕ) (l : List (ℝ × ℝ)) (pos : ℕ) (x : Squeezed ℝ) (pos' : ℕ)
    (hx : straussStep h u 1 r n fuel (.rows l) pos = some (.ok (x, pos'))) : ∃ l', x = .rows l' := by
  unfold straussStep at hx
  simp only at hx
  split at hx
  · obtain ⟨np, q, _, h2⟩ := Run.andThen_ok.1 hx
    split at h2
    · cases h2
    · split at h2 <;> (rw [Run.ret_ok] at h2; exact ⟨_, h2.1.symm⟩)
  · split at hx
    · split at hx
      all_goals
        split at hx
        · cases hx
        · split at hx <;> (rw [Run.ret_ok] at hx; exact ⟨_, hx.1.symm⟩)
    · rw [Run.ret_ok] at hx
      exact ⟨_, hx.1.symm⟩

theorem blindIter_out (ha : 0 ≤ h.area) (n fuel : ℕ) (r : ℝ) (i : ℕ) : ∀ (names : List ℕ) (pos : ℕ)
    (k : List ℕ → ℕ → ℕ → Blind ℝ) (past : List (ℝ × ℝ)) (_ : ∀ c ∈ names, c < past.length)
    (G : List (ℝ × ℝ) → ℕ → Option (List (ℝ × ℝ))) (_ : Continues h u k past G),
    (blindIter n ⌊h.area * 1⌋.toNat fuel i names past.length pos k).out (boxPoint h.bbox) (fun p => h.contains p.1 p.2) u past
      = onOk (straussIter h u 1 r n fuel i (.rows (named past names)) pos) (rowsThen G) := by
  induction i with
  | zero =>
    intro names pos k past hn G hk
    rw [blindIter, straussIter, onOk_ret]
    exact hk names past pos (List.prefix_refl _) hn
  | succ i ih =>
    intro names pos k past hn G hk
    rw [blindIter, straussIter, onOk_andThen, blindStep_out h u ha n fuel names pos _ past hn
      (fun l pos => onOk (straussIter h u 1 r n fuel i (.rows l) pos) (rowsThen G)) ?_ r]
    · refine onOk_congr fun x pos' hx => ?_
      obtain ⟨l', rfl⟩ := step_keeps_rows h u r n fuel _ pos x pos' hx
      rfl
    · intro names' past' pos' hp hn'
      exact ih names' pos' k past' hn' G fun names'' past'' pos'' hp' hn'' => hk names'' past'' pos'' (hp.trans hp') hn''

theorem iter_keeps_rows (r : ℝ) (n fuel i : ℕ) : ∀ (l : List (ℝ × ℝ)) (pos : ℕ) (x : Squeezed ℝ) (pos' : ℕ)
    (_ : straussIter h u 1 r n fuel i (.rows l) pos = some (.ok (x, pos'))), ∃ l', x = .rows l' := by
  induction i with
  | zero =>
    intro l pos x pos' hx
    rw [straussIter, Run.ret_ok] at hx
    exact ⟨_, hx.1.symm⟩
  | succ i ih =>
    intro l pos x pos' hx
    rw [straussIter] at hx
    obtain ⟨y, q, h1, h2⟩ := Run.andThen_ok.1 hx
    obtain ⟨l', rfl⟩ := step_keeps_rows h u r n fuel _ pos y q h1
    exact ih _ _ _ _ h2

theorem blindAttempts_out (ha : 0 ≤ h.area) (n n_iter fuel : ℕ) (r : ℝ) (hm : ⌊h.area * ((n * 3 / 2 : ℕ) : ℝ)⌋.toNat ≠ 1) (a : ℕ) :
    ∀ (pos : ℕ) (k : List ℕ → ℕ → ℕ → Blind ℝ) (past : List (ℝ × ℝ)) (G : List (ℝ × ℝ) → ℕ → Option (List (ℝ × ℝ)))
    (_ : Continues h u k past G),
    (blindAttempts n ⌊h.area * 1⌋.toNat ⌊h.area * ((n * 3 / 2 : ℕ) : ℝ)⌋.toNat fuel n_iter a past.length pos k).out
        (boxPoint h.bbox) (fun p => h.contains p.1 p.2) u past
      = onOk (straussAttempts h u 1 r n n_iter fuel a pos) G := by
  induction a with
  | zero => intro pos k past G _; rfl
  | succ a ih =>
    intro pos k past G hk
    rw [blindAttempts, straussAttempts, blindRej_out, poisson_intensity h u ha _ (Nat.cast_nonneg _), onOk_andThen, onOk_andThen]
    refine onOk_congr fun l pos' hl => ?_
    have hlen : l.length = ⌊h.area * ((n * 3 / 2 : ℕ) : ℝ)⌋.toNat := (rejection_mem _ _ _ _ _ _ _ hl).1
    have hp : past <+: past ++ l := List.prefix_append past l
    rw [onOk_ret, onOk_andThen]
    have hsq : squeeze 1 ⌊h.area * ((n * 3 / 2 : ℕ) : ℝ)⌋.toNat [l] = .rows l := by simp [squeeze, hm]
    rw [hsq]
    have hnew : ∀ c ∈ List.range' past.length l.length, c < (past ++ l).length := by
      intro c hc
      obtain ⟨i, hi, rfl⟩ := List.mem_range'.1 hc
      rw [List.length_append]
      omega
    have key := blindIter_out h u ha n fuel r n_iter (List.range' past.length l.length) pos'
      (fun names N pos => if n ≤ names.length then k (names.take n) N pos
        else blindAttempts n ⌊h.area * 1⌋.toNat ⌊h.area * ((n * 3 / 2 : ℕ) : ℝ)⌋.toNat fuel n_iter a N pos k) (past ++ l) hnew
      (fun l pos => if n ≤ l.length then G (l.take n) pos else onOk (straussAttempts h u 1 r n n_iter fuel a pos) G) ?_
    · rw [List.length_append, named_range] at key
      rw [← hlen] at key ⊢
      rw [key]
      refine onOk_congr fun x pos'' hx => ?_
      obtain ⟨l', rfl⟩ := iter_keeps_rows h u r n fuel n_iter _ _ _ _ hx
      simp only [rowsThen, straussTake]
      split
      · rfl
      · rfl
    · intro names' past' pos'' hp' hn'
      have hnl : (named past' names').length = names'.length := by simp [named]
      simp only [hnl]
      split
      · have := hk (names'.take n) past' pos'' (hp.trans hp') fun c hc => hn' c (List.mem_of_mem_take hc)
        rw [this]
        simp [named, List.map_take]
      · exact ih pos'' k past' G fun a b c d e => hk a b c ((hp.trans hp').trans d) e

theorem blindReps_out (ha : 0 ≤ h.area) (n n_iter max_iter fuel : ℕ) (r : ℝ)
    (hm : ⌊h.area * ((n * 3 / 2 : ℕ) : ℝ)⌋.toNat ≠ 1) (s : ℕ) : ∀ (i : ℕ) (names : List ℕ) (pos : ℕ) (past : List (ℝ × ℝ))
    (_ : ∀ c ∈ names, c < past.length),
    (blindReps n ⌊h.area * 1⌋.toNat ⌊h.area * ((n * 3 / 2 : ℕ) : ℝ)⌋.toNat fuel n_iter max_iter s names past.length pos).out
        (boxPoint h.bbox) (fun p => h.contains p.1 p.2) u past
      = onOk (replications (fun _ pos => straussAttempts h u 1 r n n_iter fuel max_iter pos) i s pos) fun reps _ =>
          some (named past names ++ reps.flatten) := by
  induction s with
  | zero => intro i names pos past hn; simp [blindReps, replications, onOk_ret, Blind.out, named]
  | succ s ih =>
    intro i names pos past hn
    rw [blindReps, replications, onOk_andThen]
    rw [blindAttempts_out h u ha n n_iter fuel r hm max_iter pos _ past (fun l pos =>
      onOk (replications (fun _ pos => straussAttempts h u 1 r n n_iter fuel max_iter pos) (i + 1) s pos) fun reps _ =>
          some (named past names ++ l ++ reps.flatten)) ?_]
    · refine onOk_congr fun l pos' _ => ?_
      rw [onOk_andThen]
      refine onOk_congr fun ls pos'' _ => ?_
      rw [onOk_ret]
      simp
    · intro names' past' pos' hp hn'
      have := ih (i + 1) (names ++ names') pos' past' (by
        intro c hc
        rcases List.mem_append.1 hc with h' | h'
        · exact (hn c h').trans_le hp.length_le
        · exact hn' c h')
      rw [named_append, named_prefix hp hn] at this
      exact this

end Out

end Pointpats
