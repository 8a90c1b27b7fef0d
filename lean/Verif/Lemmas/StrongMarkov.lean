import Verif.Spec.Sequence
import Verif.Spec.Draws
import Verif.Spec.Chance
import Verif.Lemmas.MeasurableRun
import Verif.Lemmas.FuelMono
import Mathlib.Probability.Independence.InfinitePi

/-!
# What follows a call is independent of it
-/

set_option linter.unusedSectionVars false

namespace Pointpats.StrongMarkov

open Random MeasureTheory ProbabilityTheory Spec MeasurableRun FuelMono

variable {α : Type} [MeasurableSpace α]

/-- A call that uses the numbers of the generator in order and depends on them measurably. -/
structure Regular (f : ℕ → (ℕ → ℝ) → ℕ → Run α) : Prop where
  inOrder : ∀ fuel, UsesInOrder (f fuel)
  mrun : ∀ fuel pos, MRun fun u => f fuel u pos
  below : ∀ u pos fuel k, Below (f fuel u pos) (f (fuel + k) u pos)

variable {f : ℕ → (ℕ → ℝ) → ℕ → Run α}

/-- The call from `pos` on ends at `q` with a result in `A`. -/
def endsAt (f : ℕ → (ℕ → ℝ) → ℕ → Run α) (A : Set α) (pos q : ℕ) : Set (ℕ → ℝ) :=
  {u | ∃ fuel a, f fuel u pos = some (.ok (a, q)) ∧ a ∈ A}

theorem endsAt_measurable (hf : Regular f) {A : Set α} (hA : MeasurableSet A) (pos q : ℕ) : MeasurableSet (endsAt f A pos q) := by
  have : endsAt f A pos q = ⋃ fuel, {u | ∃ a ∈ A, f fuel u pos = some (.ok (a, q))} := by
    ext u; simp [endsAt, and_comm]
  rw [this]
  exact .iUnion fun fuel => (hf.mrun fuel pos).event q hA

theorem endsAt_le (hf : Regular f) {A : Set α} {pos q : ℕ} {u : ℕ → ℝ} (h : u ∈ endsAt f A pos q) : pos ≤ q := by
  obtain ⟨fuel, a, h, -⟩ := h
  exact (hf.inOrder fuel u pos a q h).1

theorem endsAt_local (hf : Regular f) {A : Set α} {pos q : ℕ} {u u' : ℕ → ℝ} (hu : ∀ i < q, u i = u' i)
    (h : u ∈ endsAt f A pos q) : u' ∈ endsAt f A pos q := by
  obtain ⟨fuel, a, h, ha⟩ := h
  obtain ⟨hle, hr⟩ := hf.inOrder fuel u pos a q h
  refine ⟨fuel, a, ?_, ha⟩
  have := hr u' pos fun i hi => (hu _ (by omega)).symm
  rwa [show pos + (q - pos) = q by omega] at this

theorem endsAt_shift (hf : Regular f) {A : Set α} (p pos q : ℕ) (u : ℕ → ℝ) :
    u ∈ endsAt f A (p + pos) (p + q) ↔ (fun i => u (p + i)) ∈ endsAt f A pos q := by
  constructor
  · rintro ⟨fuel, a, h, ha⟩
    obtain ⟨hle, hr⟩ := hf.inOrder fuel u (p + pos) a (p + q) h
    refine ⟨fuel, a, ?_, ha⟩
    have := hr (fun i => u (p + i)) pos fun i hi => by simp only [Nat.add_assoc]
    rwa [show pos + (p + q - (p + pos)) = q by omega] at this
  · rintro ⟨fuel, a, h, ha⟩
    obtain ⟨hle, hr⟩ := hf.inOrder fuel _ pos a q h
    refine ⟨fuel, a, ?_, ha⟩
    have := hr u (p + pos) fun i hi => by simp only [Nat.add_assoc]
    rwa [show p + pos + (q - pos) = p + q by omega] at this

theorem endsAt_disjoint (hf : Regular f) (A : Set α) (pos : ℕ) : Pairwise fun q q' =>
    Disjoint (endsAt f A pos q) (endsAt f A pos q') := by
  intro q q' hne
  rw [Set.disjoint_left]
  rintro u ⟨fuel, a, h, -⟩ ⟨fuel', a', h', -⟩
  have := unique (f := fun fuel => f fuel u pos) (hf.below u pos) ⟨fuel, h⟩ ⟨fuel', h'⟩
  simp only [Except.ok.injEq, Prod.mk.injEq] at this
  exact hne this.2

/-- The calls from `pos` on end with results in given sets. -/
def callsIn : List (ℕ → (ℕ → ℝ) → ℕ → Run α) → List (Set α) → ℕ → Set (ℕ → ℝ)
  | [], [], _ => Set.univ
  | f :: fs, A :: As, pos => ⋃ q, endsAt f A pos q ∩ callsIn fs As q
  | _, _, _ => ∅

theorem mem_sequence (u : ℕ → ℝ) (fs : List (ℕ → (ℕ → ℝ) → ℕ → Run α)) : ∀ (As : List (Set α)) (pos : ℕ),
    u ∈ callsIn fs As pos ↔ ∃ as, OneAfterAnother u fs pos as ∧ List.Forall₂ (fun a A => a ∈ A) as As := by
  induction fs with
  | nil =>
    intro As pos
    cases As with
    | nil => simp [callsIn, OneAfterAnother]
    | cons A As => simp [callsIn, OneAfterAnother]
  | cons f fs ih =>
    intro As pos
    cases As with
    | nil => simp [callsIn, OneAfterAnother]
    | cons A As =>
      simp only [callsIn, Set.mem_iUnion, Set.mem_inter_iff, ih]
      constructor
      · rintro ⟨q, ⟨fuel, a, h, ha⟩, as, h1, h2⟩
        exact ⟨a :: as, ⟨a, as, q, rfl, ⟨fuel, h⟩, h1⟩, .cons ha h2⟩
      · rintro ⟨_, ⟨a, as, q, rfl, ⟨fuel, h⟩, h1⟩, h2⟩
        cases h2 with
        | cons ha h2 => exact ⟨q, ⟨fuel, a, h, ha⟩, as, h1, h2⟩

theorem sequence_measurable {fs : List (ℕ → (ℕ → ℝ) → ℕ → Run α)} (hfs : ∀ f ∈ fs, Regular f) :
    ∀ {As : List (Set α)}, (∀ A ∈ As, MeasurableSet A) → ∀ pos, MeasurableSet (callsIn fs As pos) := by
  induction fs with
  | nil => intro As hA pos; cases As <;> simp [callsIn]
  | cons f fs ih =>
    intro As hA pos
    cases As with
    | nil => simp [callsIn]
    | cons A As =>
      exact .iUnion fun q => (endsAt_measurable (hfs f (by simp)) (hA A (by simp)) pos q).inter
        (ih (fun f hf => hfs f (by simp [hf])) (fun A hA' => hA A (by simp [hA'])) q)

theorem sequence_shift {fs : List (ℕ → (ℕ → ℝ) → ℕ → Run α)} (hfs : ∀ f ∈ fs, Regular f) (p : ℕ) (u : ℕ → ℝ) :
    ∀ (As : List (Set α)) pos, u ∈ callsIn fs As (p + pos) ↔ (fun i => u (p + i)) ∈ callsIn fs As pos := by
  induction fs with
  | nil => intro As pos; cases As <;> simp [callsIn]
  | cons f fs ih =>
    intro As pos
    cases As with
    | nil => simp [callsIn]
    | cons A As =>
      have hf := hfs f (by simp)
      have ih := ih fun f hf => hfs f (by simp [hf])
      simp only [callsIn, Set.mem_iUnion, Set.mem_inter_iff]
      constructor
      · rintro ⟨q, h1, h2⟩
        obtain ⟨d, rfl⟩ : ∃ d, q = p + d := ⟨q - p, by have := endsAt_le hf h1; omega⟩
        exact ⟨d, (endsAt_shift hf p pos d u).1 h1, (ih As d).1 h2⟩
      · rintro ⟨d, h1, h2⟩
        exact ⟨p + d, (endsAt_shift hf p pos d u).2 h1, (ih As d).2 h2⟩

/-! ### Probabilities -/

variable {Ω : Type} [mΩ : MeasurableSpace Ω] {P : Measure Ω} [IsProbabilityMeasure P] {U : ℕ → Ω → ℝ} {law : Measure ℝ}

theorem stream_measurable (hU : IndependentDraws P U law) (p : ℕ) : Measurable fun ω => fun i => U (p + i) ω :=
  measurable_pi_lambda _ fun i => hU.measurable (p + i)

/-- The numbers from `p` on have the law of all the numbers. -/
theorem stream_law (hU : IndependentDraws P U law) (p : ℕ) :
    P.map (fun ω => fun i => U (p + i) ω) = P.map fun ω => fun i => U i ω := by
  rw [iIndepFun.map_fun_eq_infinitePi_map (fun i => hU.measurable i) hU.independent,
    iIndepFun.map_fun_eq_infinitePi_map (X := fun i => U (p + i)) (fun i => hU.measurable (p + i))
      (hU.independent.precomp (add_right_injective p))]
  congr 1
  funext i
  rw [hU.distribution, hU.distribution]

/-- The events that depend on some of the draws. -/
private abbrev knownS (U : ℕ → Ω → ℝ) (I : Set ℕ) : MeasurableSpace Ω := ⨆ i ∈ I, MeasurableSpace.comap (U i) inferInstance

private theorem draw_known (I : Set ℕ) {i : ℕ} (hi : i ∈ I) : @Measurable _ _ (knownS U I) _ (U i) := by
  rw [measurable_iff_comap_le]
  exact le_iSup₂_of_le (f := fun i (_ : i ∈ I) => MeasurableSpace.comap (U i) inferInstance) _ hi (le_refl _)

/-- An event of the numbers before `q` and an event of those from `q` on are independent. -/
theorem before_after (hU : IndependentDraws P U law) (q : ℕ) {E G : Set (ℕ → ℝ)} (hE : MeasurableSet E)
    (hloc : ∀ u u', (∀ i < q, u i = u' i) → u ∈ E → u' ∈ E) (hG : MeasurableSet G) :
    P {ω | (fun i => U i ω) ∈ E ∧ (fun i => U (q + i) ω) ∈ G}
      = P {ω | (fun i => U i ω) ∈ E} * P {ω | (fun i => U (q + i) ω) ∈ G} := by
  have h1 := indep_iSup_of_disjoint (fun i => (hU.measurable i).comap_le) hU.independent.iIndep
      (S := {i | i < q}) (T := {i | q ≤ i}) (by
        rw [Set.disjoint_left]
        intro i hi hi'
        exact absurd (show i < q from hi) (not_lt.2 hi'))
  refine (Indep_iff _ _ P).1 h1 {ω | (fun i => U i ω) ∈ E} {ω | (fun i => U (q + i) ω) ∈ G} ?_ ?_
  · have : {ω | (fun i => U i ω) ∈ E} = (fun ω => fun i => if i < q then U i ω else 0) ⁻¹' E := by
      ext ω
      constructor
      · exact hloc _ _ fun i hi => by simp [hi]
      · exact hloc _ _ fun i hi => by simp [hi]
    rw [this]
    have hm : @Measurable _ _ (knownS U {i | i < q}) _ (fun ω => fun i => if i < q then U i ω else (0 : ℝ)) := by
      refine @measurable_pi_lambda _ _ _ (knownS U {i | i < q}) _ _ fun i => ?_
      by_cases hi : i < q
      · simp only [hi, if_true]; exact draw_known _ hi
      · simp only [hi, if_false]; exact @measurable_const _ _ _ (knownS U {i | i < q}) _
    exact hm hE
  · have hm : @Measurable _ _ (knownS U {i | q ≤ i}) _ (fun ω => fun i => U (q + i) ω) :=
      @measurable_pi_lambda _ _ _ (knownS U {i | q ≤ i}) _ _ fun i => draw_known _ (Nat.le_add_right q i)
    exact hm hG

/-- The probability of calls that follow one another is the product of their probabilities. -/
theorem sequence_law (hU : IndependentDraws P U law) {fs : List (ℕ → (ℕ → ℝ) → ℕ → Run α)} (hfs : ∀ f ∈ fs, Regular f) :
    ∀ {As : List (Set α)}, As.length = fs.length → (∀ A ∈ As, MeasurableSet A) → ∀ pos,
      P {ω | (fun i => U i ω) ∈ callsIn fs As pos}
        = (List.zipWith (fun f A => P {ω | ∃ q, (fun i => U i ω) ∈ endsAt f A 0 q}) fs As).prod := by
  have hstart : ∀ (E : Set (ℕ → ℝ)), MeasurableSet E → ∀ p, P {ω | (fun i => U (p + i) ω) ∈ E} = P {ω | (fun i => U i ω) ∈ E} := by
    intro E hE p
    have e1 := Measure.map_apply (μ := P) (stream_measurable hU p) hE
    have e2 := Measure.map_apply (μ := P) (measurable_pi_lambda (fun ω => fun i => U i ω) hU.measurable) hE
    rw [stream_law hU p, e2] at e1
    exact e1.symm
  induction fs with
  | nil =>
    intro As hlen hA pos
    rw [List.length_nil, List.length_eq_zero_iff] at hlen
    subst hlen
    simp [callsIn]
  | cons f fs ih =>
    intro As hlen hA pos
    cases As with
    | nil => simp at hlen
    | cons A As =>
      have hf := hfs f (by simp)
      have hfs' : ∀ f ∈ fs, Regular f := fun f hf => hfs f (by simp [hf])
      have hA' : ∀ A ∈ As, MeasurableSet A := fun B hB => hA B (by simp [hB])
      have hAm := hA A (by simp)
      have hseq := sequence_measurable hfs' hA'
      have hE := fun pos q => endsAt_measurable hf hAm pos q
      have hstream : Measurable fun ω => fun i => U i ω := measurable_pi_lambda _ hU.measurable
      -- the place where the first call ends
      have h1 : {ω | (fun i => U i ω) ∈ callsIn (f :: fs) (A :: As) pos}
          = ⋃ q, {ω | (fun i => U i ω) ∈ endsAt f A pos q ∧ (fun i => U (q + i) ω) ∈ callsIn fs As 0} := by
        ext ω
        simp only [callsIn, Set.mem_ofPred_eq, Set.mem_iUnion, Set.mem_inter_iff]
        refine exists_congr fun q => and_congr_right fun _ => ?_
        exact sequence_shift hfs' q _ As 0
      have hdis := endsAt_disjoint hf A pos
      have h2 : P (⋃ q, {ω | (fun i => U i ω) ∈ endsAt f A pos q ∧ (fun i => U (q + i) ω) ∈ callsIn fs As 0})
          = ∑' q, P {ω | (fun i => U i ω) ∈ endsAt f A pos q ∧ (fun i => U (q + i) ω) ∈ callsIn fs As 0} := by
        refine measure_iUnion ?_ fun q => ?_
        · intro q q' hne
          rw [Function.onFun, Set.disjoint_left]
          rintro ω ⟨h, -⟩ ⟨h', -⟩
          exact Set.disjoint_left.1 (hdis hne) h h'
        · exact (hstream (hE pos q)).inter ((stream_measurable hU q) (hseq 0))
      have h3 : ∀ p, P {ω | ∃ q, (fun i => U i ω) ∈ endsAt f A p q} = ∑' q, P {ω | (fun i => U i ω) ∈ endsAt f A p q} := by
        intro p
        have : {ω | ∃ q, (fun i => U i ω) ∈ endsAt f A p q} = ⋃ q, {ω | (fun i => U i ω) ∈ endsAt f A p q} := by
          ext ω; simp
        rw [this]
        refine measure_iUnion ?_ fun q => hstream (hE p q)
        intro q q' hne
        rw [Function.onFun, Set.disjoint_left]
        intro ω h h'
        exact Set.disjoint_left.1 (endsAt_disjoint hf A p hne) h h'
      have h4 : P {ω | ∃ q, (fun i => U i ω) ∈ endsAt f A pos q} = P {ω | ∃ q, (fun i => U i ω) ∈ endsAt f A 0 q} := by
        have : {ω | ∃ q, (fun i => U i ω) ∈ endsAt f A pos q} = {ω | (fun i => U (pos + i) ω) ∈ ⋃ q, endsAt f A 0 q} := by
          ext ω
          simp only [Set.mem_ofPred_eq, Set.mem_iUnion]
          constructor
          · rintro ⟨q, h⟩
            obtain ⟨d, rfl⟩ : ∃ d, q = pos + d := ⟨q - pos, by have := endsAt_le hf h; omega⟩
            exact ⟨d, (endsAt_shift hf pos 0 d _).1 h⟩
          · rintro ⟨d, h⟩
            exact ⟨pos + d, (endsAt_shift hf pos 0 d (fun i => U i ω)).2 h⟩
        rw [this, hstart _ (.iUnion fun q => hE 0 q)]
        congr 1
        ext ω
        simp
      rw [h1, h2]
      simp only [List.zipWith_cons_cons, List.prod_cons]
      rw [← ih hfs' (by simpa using hlen) hA' 0, ← h4, h3, ← ENNReal.tsum_mul_right]
      refine tsum_congr fun q => ?_
      rw [before_after hU q (hE pos q) (fun u u' hu => endsAt_local hf hu) (hseq 0), hstart _ (hseq 0)]

/-- Two lists of the same length, each followed by another list. -/
theorem forall₂_append_iff {α β : Type} {R : α → β → Prop} : ∀ (l : List α) (A : List β) (l' : List α) (A' : List β),
    l.length = A.length → (List.Forall₂ R (l ++ l') (A ++ A') ↔ List.Forall₂ R l A ∧ List.Forall₂ R l' A') := by
  intro l
  induction l with
  | nil =>
    intro A l' A' h
    rw [List.length_nil, eq_comm, List.length_eq_zero_iff] at h
    subst h
    simp
  | cons a l ih =>
    intro A l' A' h
    cases A with
    | nil => simp at h
    | cons b A => simp [ih A l' A' (by simpa using h), and_assoc]

end Pointpats.StrongMarkov
