import Verif.Spec.Chance
import Verif.Lemmas.Random
import Mathlib.Probability.Independence.Basic
import Mathlib.MeasureTheory.Measure.Prod

/-!
# The distribution of the result of rejection sampling
-/

set_option linter.unusedSectionVars false

namespace Pointpats

open Spec Random MeasureTheory ProbabilityTheory

variable {Ω K : Type} [mΩ : MeasurableSpace Ω] [MeasurableSpace K] {P : Measure Ω} [IsProbabilityMeasure P]

/-- Candidates of which each is independent of the later ones, all with the same distribution. -/
structure IndepCandidates (P : Measure Ω) (Z : ℕ → Ω → K × K) (ν : Measure (K × K)) : Prop where
  measurable : ∀ k, Measurable (Z k)
  later : ∀ p, Indep (MeasurableSpace.comap (Z p) inferInstance)
    (⨆ k ∈ {k | p < k}, MeasurableSpace.comap (Z k) inferInstance) P
  law : ∀ k, P.map (Z k) = ν

variable {Z : ℕ → Ω → K × K} {ν : Measure (K × K)} {accept : K × K → Bool}

/-- Within `f` rounds from candidate `p` on, the accepted candidates are in the given sets. -/
private def hits (Z : ℕ → Ω → K × K) (accept : K × K → Bool) (f p : ℕ) (As : List (Set (K × K))) : Set Ω :=
  {ω | ∃ l pos', rejection (fun q => Z (q / 2) ω) accept f (2 * p) As.length = some (.ok (l, pos'))
    ∧ List.Forall₂ (fun x A => x ∈ A) l As}

private theorem hits_nil (f p : ℕ) : hits Z accept f p [] = Set.univ := by
  refine Set.eq_univ_of_forall fun ω => ?_
  refine ⟨[], 2 * p, ?_, List.Forall₂.nil⟩
  cases f <;> rfl

private theorem hits_zero (p : ℕ) (A : Set (K × K)) (As : List (Set (K × K))) : hits Z accept 0 p (A :: As) = ∅ := by
  refine Set.eq_empty_of_forall_notMem fun ω => ?_
  rintro ⟨l, pos', h, -⟩
  simp [rejection] at h

private theorem hits_succ (f p : ℕ) (A : Set (K × K)) (As : List (Set (K × K))) :
    hits Z accept (f + 1) p (A :: As)
      = (Z p ⁻¹' (A ∩ {x | accept x = true}) ∩ hits Z accept f (p + 1) As)
        ∪ (Z p ⁻¹' {x | accept x = true}ᶜ ∩ hits Z accept f (p + 1) (A :: As)) := by
  ext ω
  have e2 : 2 * p / 2 = p := by omega
  simp only [hits, Set.mem_ofPred_eq, Set.mem_union, Set.mem_inter_iff, Set.mem_preimage, Set.mem_compl_iff,
    List.length_cons, rejection, e2]
  by_cases hc : accept (Z p ω) = true
  · simp only [hc, if_true, and_true, not_true_eq_false, false_and, or_false]
    constructor
    · rintro ⟨l, pos', h, hl⟩
      obtain ⟨l', p', h1, h2⟩ := Run.andThen_ok.1 h
      rw [Run.ret_ok] at h2
      obtain ⟨rfl, rfl⟩ := h2
      obtain ⟨ha, hl⟩ := List.forall₂_cons.1 hl
      exact ⟨ha, l', _, h1, hl⟩
    · rintro ⟨ha, l', pos', h1, hl⟩
      exact ⟨Z p ω :: l', pos', Run.andThen_ok.2 ⟨l', pos', h1, rfl⟩, List.Forall₂.cons ha hl⟩
  · simp only [hc, Bool.false_eq_true, if_false, and_false, false_and, not_false_eq_true, true_and, false_or]
    rfl

private theorem hits_mono (p : ℕ) (As : List (Set (K × K))) : Monotone fun f => hits Z accept f p As := by
  intro f g hfg ω
  rintro ⟨l, pos', h, hl⟩
  obtain ⟨k, rfl⟩ := Nat.exists_eq_add_of_le hfg
  exact ⟨l, pos', rejection_mono _ _ f k _ _ _ h, hl⟩

/-- The events that depend on the candidates from number `p` on. -/
private abbrev tail (Z : ℕ → Ω → K × K) (p : ℕ) : MeasurableSpace Ω :=
  ⨆ k ∈ {k | p ≤ k}, MeasurableSpace.comap (Z k) inferInstance

private theorem tail_anti (Z : ℕ → Ω → K × K) (p : ℕ) : tail Z (p + 1) ≤ tail Z p :=
  iSup₂_le fun k hk => le_iSup₂_of_le k (le_trans (Nat.le_succ p) hk) (le_refl _)

private theorem tail_le (h : IndepCandidates P Z ν) (p : ℕ) : tail Z p ≤ mΩ :=
  iSup₂_le fun k _ => (h.measurable k).comap_le

private theorem preimage_tail (p : ℕ) {B : Set (K × K)} (hB : MeasurableSet B) : MeasurableSet[tail Z p] (Z p ⁻¹' B) := by
  have h1 : MeasurableSpace.comap (Z p) inferInstance ≤ tail Z p :=
    le_iSup₂_of_le (f := fun k (_ : k ∈ {k | p ≤ k}) => MeasurableSpace.comap (Z k) inferInstance) p (le_refl p) (le_refl _)
  exact h1 _ ⟨B, hB, rfl⟩

private theorem hits_tail (hH : MeasurableSet {x | accept x = true}) (f : ℕ) : ∀ (p : ℕ) (As : List (Set (K × K))),
    (∀ A ∈ As, MeasurableSet A) → MeasurableSet[tail Z p] (hits Z accept f p As) := by
  induction f with
  | zero =>
    intro p As _
    cases As with
    | nil => rw [hits_nil]; exact @MeasurableSet.univ Ω (tail Z p)
    | cons A As => rw [hits_zero]; exact @MeasurableSet.empty Ω (tail Z p)
  | succ f ih =>
    intro p As hA
    cases As with
    | nil => rw [hits_nil]; exact @MeasurableSet.univ Ω (tail Z p)
    | cons A As =>
      rw [hits_succ]
      refine @MeasurableSet.union Ω (tail Z p) _ _ (@MeasurableSet.inter Ω (tail Z p) _ _ ?_ ?_)
        (@MeasurableSet.inter Ω (tail Z p) _ _ ?_ ?_)
      · exact preimage_tail p ((hA A (by simp)).inter hH)
      · exact tail_anti Z p _ (ih (p + 1) As fun B hB => hA B (by simp [hB]))
      · exact preimage_tail p hH.compl
      · exact tail_anti Z p _ (ih (p + 1) (A :: As) hA)

private theorem step_indep (h : IndepCandidates P Z ν) (p : ℕ) {B : Set (K × K)} (hB : MeasurableSet B) {S : Set Ω}
    (hS : MeasurableSet[tail Z (p + 1)] S) : P (Z p ⁻¹' B ∩ S) = ν B * P S := by
  have h1 := (Indep_iff _ _ P).1 (h.later p) (Z p ⁻¹' B) S ⟨B, hB, rfl⟩ hS
  rw [h1, ← h.law p, Measure.map_apply (h.measurable p) hB]

/-- The probabilities, as a recursion. -/
private noncomputable def chance (ν : Measure (K × K)) (H : Set (K × K)) : ℕ → List (Set (K × K)) → ENNReal
  | _, [] => 1
  | 0, _ :: _ => 0
  | f + 1, A :: As => ν (A ∩ H) * chance ν H f As + ν Hᶜ * chance ν H f (A :: As)

private theorem hits_chance (h : IndepCandidates P Z ν) (hH : MeasurableSet {x | accept x = true}) (f : ℕ) :
    ∀ (p : ℕ) (As : List (Set (K × K))), (∀ A ∈ As, MeasurableSet A) →
      P (hits Z accept f p As) = chance ν {x | accept x = true} f As := by
  induction f with
  | zero =>
    intro p As _
    cases As with
    | nil => rw [hits_nil, measure_univ, chance]
    | cons A As => rw [hits_zero, measure_empty, chance]
  | succ f ih =>
    intro p As hA
    cases As with
    | nil => rw [hits_nil, measure_univ, chance]
    | cons A As =>
      have hA0 := (hA A (by simp)).inter hH
      have hAs : ∀ B ∈ As, MeasurableSet B := fun B hB => hA B (by simp [hB])
      have t1 := hits_tail (Z := Z) hH f (p + 1) As hAs
      have t2 := hits_tail (Z := Z) hH f (p + 1) (A :: As) hA
      rw [hits_succ, measure_union, step_indep h p hA0 t1, step_indep h p hH.compl t2, ih _ _ hAs, ih _ _ hA, chance]
      · refine Set.disjoint_left.2 ?_
        rintro ω ⟨⟨-, h1⟩, -⟩ ⟨h2, -⟩
        exact h2 h1
      · exact MeasurableSet.inter (h.measurable p hH.compl) (tail_le h (p + 1) _ t2)

private theorem firstAccepted_hits (Z : ℕ → Ω → K × K) (accept : K × K → Bool) (As : List (Set (K × K))) :
    {ω | ∃ l m, FirstAccepted (fun k => Z k ω) accept As.length l m ∧ List.Forall₂ (fun x A => x ∈ A) l As}
      = ⋃ f, hits Z accept f 0 As := by
  ext ω
  simp only [Set.mem_ofPred_eq, Set.mem_iUnion, hits]
  have e : ∀ i, (2 * 0 + 2 * i) / 2 = i := fun i => by omega
  constructor
  · rintro ⟨l, m, hm, hl⟩
    obtain ⟨f, hf⟩ := (rejection_iff (fun q => Z (q / 2) ω) accept (2 * 0) As.length l (2 * 0 + 2 * m)).2
      ⟨m, rfl, by simpa only [e] using hm⟩
    exact ⟨f, l, _, hf, hl⟩
  · rintro ⟨f, l, pos', hf, hl⟩
    obtain ⟨m, -, hm⟩ := (rejection_iff (fun q => Z (q / 2) ω) accept (2 * 0) As.length l pos').1 ⟨f, hf⟩
    exact ⟨l, m, by simpa only [e] using hm, hl⟩

/-- The event that the first accepted candidates are in given sets is measurable. -/
theorem IndepCandidates.firstAccepted_measurable (h : IndepCandidates P Z ν) (hH : MeasurableSet {x | accept x = true})
    (As : List (Set (K × K))) (hA : ∀ A ∈ As, MeasurableSet A) :
    MeasurableSet {ω | ∃ l m, FirstAccepted (fun k => Z k ω) accept As.length l m ∧ List.Forall₂ (fun x A => x ∈ A) l As} := by
  rw [firstAccepted_hits]
  exact MeasurableSet.iUnion fun f => tail_le h 0 _ (hits_tail hH f 0 As hA)

/-- **Rejection sampling.** The first accepted candidates are independent, each with the distribution of the candidates given
that they are accepted. -/
theorem IndepCandidates.firstAccepted (h : IndepCandidates P Z ν) (hH : MeasurableSet {x | accept x = true})
    (hpos : ν {x | accept x = true} ≠ 0) (As : List (Set (K × K))) (hA : ∀ A ∈ As, MeasurableSet A) :
    P {ω | ∃ l m, FirstAccepted (fun k => Z k ω) accept As.length l m ∧ List.Forall₂ (fun x A => x ∈ A) l As}
      = (As.map fun A => ν (A ∩ {x | accept x = true}) / ν {x | accept x = true}).prod := by
  have hν : IsProbabilityMeasure ν := by
    rw [← h.law 0]
    exact Measure.isProbabilityMeasure_map (h.measurable 0).aemeasurable
  set H := {x | accept x = true} with hHdef
  have hset := firstAccepted_hits Z accept As
  have hmono : ∀ As, (∀ A ∈ As, MeasurableSet A) → Monotone fun f => chance ν H f As := by
    intro As hA f g hfg
    simp only
    rw [hHdef, ← hits_chance h hH f 0 As hA, ← hits_chance h hH g 0 As hA]
    exact measure_mono (hits_mono 0 As hfg)
  rw [hset, (hits_mono 0 As).measure_iUnion]
  simp only [hits_chance h hH _ 0 As hA]
  rw [← hHdef]
  clear hset
  induction As with
  | nil =>
    simp only [List.map_nil, List.prod_nil]
    have : ∀ f, chance ν H f [] = 1 := fun f => by cases f <;> rfl
    simp [this]
  | cons A As ih =>
    have hAs : ∀ B ∈ As, MeasurableSet B := fun B hB => hA B (by simp [hB])
    have ih := ih hAs
    set Q := ⨆ f, chance ν H f As with hQ
    set Q' := ⨆ f, chance ν H f (A :: As) with hQ'
    have hrec : Q' = ν (A ∩ H) * Q + ν Hᶜ * Q' := by
      have h1 : Q' = ⨆ f, chance ν H (f + 1) (A :: As) := ((hmono _ hA).iSup_nat_add 1).symm
      refine h1.trans ?_
      simp only [chance]
      rw [← ENNReal.iSup_add_iSup_of_monotone, ← ENNReal.mul_iSup, ← ENNReal.mul_iSup]
      · intro f g hfg; exact mul_le_mul_right (hmono _ hAs hfg) _
      · intro f g hfg; exact mul_le_mul_right (hmono _ hA hfg) _
    have hle : Q' ≤ 1 := by
      refine iSup_le fun f => ?_
      rw [hHdef, ← hits_chance h hH f 0 _ hA]
      exact prob_le_one
    have hfin : ν Hᶜ * Q' ≠ ⊤ := ENNReal.mul_ne_top (measure_ne_top _ _) (ne_top_of_le_ne_top ENNReal.one_ne_top hle)
    have htot : ν H * Q' + ν Hᶜ * Q' = Q' := by
      rw [← add_mul, prob_add_prob_compl hH, one_mul]
    have heq : ν H * Q' = ν (A ∩ H) * Q := by
      have : ν H * Q' + ν Hᶜ * Q' = ν (A ∩ H) * Q + ν Hᶜ * Q' := by rw [htot, ← hrec]
      exact (ENNReal.add_left_inj hfin).1 this
    rw [List.map_cons, List.prod_cons, ← ih, ENNReal.div_eq_inv_mul, mul_assoc, ← heq, ← mul_assoc,
      ENNReal.inv_mul_cancel hpos (measure_ne_top _ _), one_mul]

/-- Candidates made of two draws each. -/
theorem indepCandidates_of_pairs {U : ℕ → Ω → K} {law : Measure K} (hU : IndependentDraws P U law)
    (a b : ℕ → ℕ) (hab : ∀ k, a k ≠ b k) (hdis : ∀ k l, k ≠ l → a k ≠ a l ∧ a k ≠ b l ∧ b k ≠ b l)
    (F : K × K → K × K) (hF : Measurable F) :
    IndepCandidates P (fun k ω => F (U (a k) ω, U (b k) ω)) ((law.prod law).map F) := by
  refine ⟨fun k => hF.comp ((hU.measurable _).prodMk (hU.measurable _)), ?_, ?_⟩
  · intro p
    have h1 := indep_iSup_of_disjoint (fun i => (hU.measurable i).comap_le) hU.independent.iIndep
      (S := {i | i = a p ∨ i = b p}) (T := {i | ∃ k, p < k ∧ (i = a k ∨ i = b k)}) (by
        rw [Set.disjoint_left]
        rintro i hi ⟨k, hk, hi'⟩
        have := hdis p k hk.ne
        have h' := hdis k p hk.ne'
        rcases hi with hi | hi <;> rcases hi' with hi' | hi'
        · exact this.1 (hi.symm.trans hi')
        · exact this.2.1 (hi.symm.trans hi')
        · exact h'.2.1 (hi'.symm.trans hi)
        · exact this.2.2 (hi.symm.trans hi'))
    have key : ∀ (k : ℕ) (S : Set ℕ), a k ∈ S → b k ∈ S →
        MeasurableSpace.comap (fun ω => F (U (a k) ω, U (b k) ω)) inferInstance
          ≤ ⨆ i ∈ S, MeasurableSpace.comap (U i) inferInstance := by
      intro k S ha hb
      rw [← measurable_iff_comap_le]
      refine hF.comp (Measurable.prodMk ?_ ?_)
      · rw [measurable_iff_comap_le]
        exact le_iSup₂_of_le (f := fun i (_ : i ∈ S) => MeasurableSpace.comap (U i) inferInstance) (a k) ha (le_refl _)
      · rw [measurable_iff_comap_le]
        exact le_iSup₂_of_le (f := fun i (_ : i ∈ S) => MeasurableSpace.comap (U i) inferInstance) (b k) hb (le_refl _)
    refine indep_of_indep_of_le_left (indep_of_indep_of_le_right h1 ?_) ?_
    · refine iSup₂_le fun k hk => key k _ ⟨k, hk, Or.inl rfl⟩ ⟨k, hk, Or.inr rfl⟩
    · exact key p _ (Or.inl rfl) (Or.inr rfl)
  · intro k
    have hmap : P.map (fun ω => (U (a k) ω, U (b k) ω)) = law.prod law := by
      rw [(hU.independent.indepFun (hab k)).map_prod_eq_prod_map_map (hU.measurable _).aemeasurable (hU.measurable _).aemeasurable,
        hU.distribution, hU.distribution]
    rw [← hmap, Measure.map_map hF ((hU.measurable _).prodMk (hU.measurable _))]
    rfl

end Pointpats
