import Verif.Spec.Chance
import Mathlib.Probability.Independence.Basic
import Mathlib.MeasureTheory.Measure.Prod

/-!
# The distribution of the result of sampling with surplus candidates

A sampler looks at one candidate at a time, each made from two draws. Which draws it uses next depends on whether the candidate
was accepted, so that it can skip the rest of a round; but no draw is used twice.
-/

set_option linter.unusedSectionVars false

namespace Pointpats

open Spec MeasureTheory ProbabilityTheory

/-- In state `s` the candidate is made from the draws `a s` and `b s`; then the sampler goes on in state `acc s` if it is
accepted and in state `rej s` otherwise. `reads s` contains all draws used from `s` on. -/
structure Sampler (S : Type) where
  a : S → ℕ
  b : S → ℕ
  acc : S → S
  rej : S → S
  good : S → Prop
  reads : S → Set ℕ
  good_acc : ∀ s, good s → good (acc s)
  good_rej : ∀ s, good s → good (rej s)
  ne : ∀ s, good s → a s ≠ b s
  a_mem : ∀ s, good s → a s ∈ reads s
  b_mem : ∀ s, good s → b s ∈ reads s
  reads_acc : ∀ s, good s → ∀ i ∈ reads (acc s), i ∈ reads s ∧ i ≠ a s ∧ i ≠ b s
  reads_rej : ∀ s, good s → ∀ i ∈ reads (rej s), i ∈ reads s ∧ i ≠ a s ∧ i ≠ b s

variable {S K : Type}

/-- From state `s` the sampler accepts the points `l` within `f` steps. -/
inductive Sampled (M : Sampler S) (F : K × K → K × K) (accept : K × K → Bool) (u : ℕ → K) : ℕ → S → List (K × K) → Prop
  | nil (f : ℕ) (s : S) : Sampled M F accept u f s []
  | acc {f : ℕ} {s : S} {l : List (K × K)} (h : accept (F (u (M.a s), u (M.b s))) = true)
      (hl : Sampled M F accept u f (M.acc s) l) : Sampled M F accept u (f + 1) s (F (u (M.a s), u (M.b s)) :: l)
  | rej {f : ℕ} {s : S} {x : K × K} {l : List (K × K)} (h : ¬ accept (F (u (M.a s), u (M.b s))) = true)
      (hl : Sampled M F accept u f (M.rej s) (x :: l)) : Sampled M F accept u (f + 1) s (x :: l)

theorem Sampled.mono {M : Sampler S} {F : K × K → K × K} {accept : K × K → Bool} {u : ℕ → K} {f : ℕ} {s : S}
    {l : List (K × K)} (h : Sampled M F accept u f s l) : ∀ {g : ℕ}, f ≤ g → Sampled M F accept u g s l := by
  induction h with
  | nil f s => intro g _; exact .nil g s
  | acc h _ ih =>
    intro g hg
    obtain ⟨g, rfl⟩ := Nat.exists_eq_succ_of_ne_zero (show g ≠ 0 by omega)
    exact .acc h (ih (by omega))
  | rej h _ ih =>
    intro g hg
    obtain ⟨g, rfl⟩ := Nat.exists_eq_succ_of_ne_zero (show g ≠ 0 by omega)
    exact .rej h (ih (by omega))

variable {Ω : Type} [mΩ : MeasurableSpace Ω] [MeasurableSpace K] {P : Measure Ω} [IsProbabilityMeasure P]
variable {M : Sampler S} {F : K × K → K × K} {accept : K × K → Bool} {U : ℕ → Ω → K} {law : Measure K}

private def hits (M : Sampler S) (F : K × K → K × K) (accept : K × K → Bool) (U : ℕ → Ω → K) (f : ℕ) (s : S)
    (As : List (Set (K × K))) : Set Ω :=
  {ω | ∃ l, Sampled M F accept (fun i => U i ω) f s l ∧ List.Forall₂ (fun x A => x ∈ A) l As}

private theorem hits_nil (f : ℕ) (s : S) : hits M F accept U f s [] = Set.univ :=
  Set.eq_univ_of_forall fun _ => ⟨[], .nil f s, .nil⟩

private theorem hits_zero (s : S) (A : Set (K × K)) (As : List (Set (K × K))) : hits M F accept U 0 s (A :: As) = ∅ := by
  refine Set.eq_empty_of_forall_notMem fun ω => ?_
  rintro ⟨l, h, hl⟩
  cases h
  cases hl

/-- The candidate of a state. -/
private def cand (M : Sampler S) (F : K × K → K × K) (U : ℕ → Ω → K) (s : S) (ω : Ω) : K × K :=
  F (U (M.a s) ω, U (M.b s) ω)

private theorem hits_succ (f : ℕ) (s : S) (A : Set (K × K)) (As : List (Set (K × K))) :
    hits M F accept U (f + 1) s (A :: As)
      = (cand M F U s ⁻¹' (A ∩ {x | accept x = true}) ∩ hits M F accept U f (M.acc s) As)
        ∪ (cand M F U s ⁻¹' {x | accept x = true}ᶜ ∩ hits M F accept U f (M.rej s) (A :: As)) := by
  ext ω
  constructor
  · rintro ⟨l, h, hl⟩
    cases h with
    | nil => cases hl
    | acc h hs =>
      obtain ⟨ha, hl⟩ := List.forall₂_cons.1 hl
      exact Or.inl ⟨⟨ha, h⟩, _, hs, hl⟩
    | rej h hs => exact Or.inr ⟨h, _, hs, hl⟩
  · rintro (⟨⟨ha, h⟩, l, hs, hl⟩ | ⟨h, l, hs, hl⟩)
    · exact ⟨_, .acc h hs, .cons ha hl⟩
    · cases hl with
      | cons h1 h2 => exact ⟨_, .rej h hs, .cons h1 h2⟩

private theorem hits_mono (s : S) (As : List (Set (K × K))) : Monotone fun f => hits M F accept U f s As := by
  rintro f g hfg ω ⟨l, h, hl⟩
  exact ⟨l, h.mono hfg, hl⟩

/-- The events that depend on some of the draws. -/
private abbrev known (U : ℕ → Ω → K) (I : Set ℕ) : MeasurableSpace Ω := ⨆ i ∈ I, MeasurableSpace.comap (U i) inferInstance

private theorem known_mono (U : ℕ → Ω → K) {I J : Set ℕ} (h : ∀ i ∈ I, i ∈ J) : known U I ≤ known U J :=
  iSup₂_le fun k hk => le_iSup₂_of_le (f := fun i (_ : i ∈ J) => MeasurableSpace.comap (U i) inferInstance) k (h k hk) (le_refl _)

private theorem known_le (hU : IndependentDraws P U law) (I : Set ℕ) : known U I ≤ mΩ :=
  iSup₂_le fun k _ => (hU.measurable k).comap_le

private theorem cand_known (hF : Measurable F) (s : S) (I : Set ℕ) (ha : M.a s ∈ I) (hb : M.b s ∈ I) {B : Set (K × K)}
    (hB : MeasurableSet B) : MeasurableSet[known U I] (cand M F U s ⁻¹' B) := by
  have : @Measurable _ _ (known U I) _ (cand M F U s) := by
    refine hF.comp (Measurable.prodMk ?_ ?_)
    · rw [measurable_iff_comap_le]
      exact le_iSup₂_of_le (f := fun i (_ : i ∈ I) => MeasurableSpace.comap (U i) inferInstance) _ ha (le_refl _)
    · rw [measurable_iff_comap_le]
      exact le_iSup₂_of_le (f := fun i (_ : i ∈ I) => MeasurableSpace.comap (U i) inferInstance) _ hb (le_refl _)
  exact this hB

private theorem hits_known (hF : Measurable F) (hH : MeasurableSet {x | accept x = true}) (f : ℕ) : ∀ (s : S), M.good s →
    ∀ (As : List (Set (K × K))), (∀ A ∈ As, MeasurableSet A) → MeasurableSet[known U (M.reads s)] (hits M F accept U f s As) := by
  induction f with
  | zero =>
    intro s _ As _
    cases As with
    | nil => rw [hits_nil]; exact @MeasurableSet.univ Ω (known U (M.reads s))
    | cons A As => rw [hits_zero]; exact @MeasurableSet.empty Ω (known U (M.reads s))
  | succ f ih =>
    intro s hs As hA
    cases As with
    | nil => rw [hits_nil]; exact @MeasurableSet.univ Ω (known U (M.reads s))
    | cons A As =>
      rw [hits_succ]
      refine @MeasurableSet.union Ω (known U (M.reads s)) _ _ (@MeasurableSet.inter Ω (known U (M.reads s)) _ _ ?_ ?_)
        (@MeasurableSet.inter Ω (known U (M.reads s)) _ _ ?_ ?_)
      · exact cand_known hF s _ (M.a_mem s hs) (M.b_mem s hs) ((hA A (by simp)).inter hH)
      · exact known_mono U (fun i hi => (M.reads_acc s hs i hi).1) _ (ih _ (M.good_acc s hs) As fun B hB => hA B (by simp [hB]))
      · exact cand_known hF s _ (M.a_mem s hs) (M.b_mem s hs) hH.compl
      · exact known_mono U (fun i hi => (M.reads_rej s hs i hi).1) _ (ih _ (M.good_rej s hs) (A :: As) hA)

private theorem step_indep (hU : IndependentDraws P U law) (hF : Measurable F) (s : S) (hs : M.good s) (I : Set ℕ)
    (hI : ∀ i ∈ I, i ≠ M.a s ∧ i ≠ M.b s) {B : Set (K × K)} (hB : MeasurableSet B) {E : Set Ω}
    (hE : MeasurableSet[known U I] E) : P (cand M F U s ⁻¹' B ∩ E) = ((law.prod law).map F) B * P E := by
  have h1 := indep_iSup_of_disjoint (fun i => (hU.measurable i).comap_le) hU.independent.iIndep
      (S := {i | i = M.a s ∨ i = M.b s}) (T := I) (by
        rw [Set.disjoint_left]
        rintro i hi hi'
        rcases hi with hi | hi
        · exact (hI i hi').1 hi
        · exact (hI i hi').2 hi)
  have h2 := (Indep_iff _ _ P).1 h1 (cand M F U s ⁻¹' B) E
    (cand_known hF s {i | i = M.a s ∨ i = M.b s} (Or.inl rfl) (Or.inr rfl) hB) hE
  rw [h2]
  congr 1
  have hmap : P.map (fun ω => (U (M.a s) ω, U (M.b s) ω)) = law.prod law := by
    rw [(hU.independent.indepFun (M.ne s hs)).map_prod_eq_prod_map_map (hU.measurable _).aemeasurable
      (hU.measurable _).aemeasurable, hU.distribution, hU.distribution]
  rw [← hmap, Measure.map_map hF ((hU.measurable _).prodMk (hU.measurable _)),
    Measure.map_apply (hF.comp ((hU.measurable _).prodMk (hU.measurable _))) hB]
  rfl

/-- The probabilities, as a recursion. -/
private noncomputable def chance (ν : Measure (K × K)) (H : Set (K × K)) : ℕ → List (Set (K × K)) → ENNReal
  | _, [] => 1
  | 0, _ :: _ => 0
  | f + 1, A :: As => ν (A ∩ H) * chance ν H f As + ν Hᶜ * chance ν H f (A :: As)

private theorem hits_chance (hU : IndependentDraws P U law) (hF : Measurable F) (hH : MeasurableSet {x | accept x = true})
    (f : ℕ) : ∀ (s : S), M.good s → ∀ (As : List (Set (K × K))), (∀ A ∈ As, MeasurableSet A) →
      P (hits M F accept U f s As) = chance ((law.prod law).map F) {x | accept x = true} f As := by
  induction f with
  | zero =>
    intro s _ As _
    cases As with
    | nil => rw [hits_nil, measure_univ, chance]
    | cons A As => rw [hits_zero, measure_empty, chance]
  | succ f ih =>
    intro s hs As hA
    cases As with
    | nil => rw [hits_nil, measure_univ, chance]
    | cons A As =>
      have hA0 := (hA A (by simp)).inter hH
      have hAs : ∀ B ∈ As, MeasurableSet B := fun B hB => hA B (by simp [hB])
      have t1 := hits_known (M := M) (U := U) hF hH f _ (M.good_acc s hs) As hAs
      have t2 := hits_known (M := M) (U := U) hF hH f _ (M.good_rej s hs) (A :: As) hA
      rw [hits_succ, measure_union, step_indep hU hF s hs _ (fun i hi => (M.reads_acc s hs i hi).2) hA0 t1,
        step_indep hU hF s hs _ (fun i hi => (M.reads_rej s hs i hi).2) hH.compl t2, ih _ (M.good_acc s hs) _ hAs,
        ih _ (M.good_rej s hs) _ hA, chance]
      · refine Set.disjoint_left.2 ?_
        rintro ω ⟨⟨-, h1⟩, -⟩ ⟨h2, -⟩
        exact h2 h1
      · refine MeasurableSet.inter ?_ (known_le hU _ _ t2)
        exact known_le hU _ _ (cand_known hF s _ (M.a_mem s hs) (M.b_mem s hs) hH.compl)

/-- The accepted candidates are independent, each with the distribution of a candidate given that it is accepted. -/
theorem Sampler.sampled_law (M : Sampler S) {U : ℕ → Ω → K} {law : Measure K} (hU : IndependentDraws P U law)
    (hF : Measurable F) (hH : MeasurableSet {x | accept x = true})
    (hpos : ((law.prod law).map F) {x | accept x = true} ≠ 0) (s : S) (hs : M.good s) (As : List (Set (K × K)))
    (hA : ∀ A ∈ As, MeasurableSet A) :
    P {ω | ∃ f l, Sampled M F accept (fun i => U i ω) f s l ∧ List.Forall₂ (fun x A => x ∈ A) l As}
      = (As.map fun A => ((law.prod law).map F) (A ∩ {x | accept x = true})
          / ((law.prod law).map F) {x | accept x = true}).prod := by
  have hl : IsProbabilityMeasure law := by
    rw [← hU.distribution 0]
    exact Measure.isProbabilityMeasure_map (hU.measurable 0).aemeasurable
  set ν := (law.prod law).map F with hν0
  have hν : IsProbabilityMeasure ν := Measure.isProbabilityMeasure_map hF.aemeasurable
  set H := {x | accept x = true} with hHdef
  have hset : {ω | ∃ f l, Sampled M F accept (fun i => U i ω) f s l ∧ List.Forall₂ (fun x A => x ∈ A) l As}
      = ⋃ f, hits M F accept U f s As := by
    ext ω
    simp only [Set.mem_ofPred_eq, Set.mem_iUnion, hits]
  have hmono : ∀ As, (∀ A ∈ As, MeasurableSet A) → Monotone fun f => chance ν H f As := by
    intro As hA f g hfg
    simp only
    rw [hHdef, hν0, ← hits_chance hU hF hH f s hs As hA, ← hits_chance hU hF hH g s hs As hA]
    exact measure_mono (hits_mono s As hfg)
  rw [hset, (hits_mono s As).measure_iUnion]
  simp only [hits_chance hU hF hH _ s hs As hA]
  rw [← hHdef, ← hν0]
  clear hset
  induction As with
  | nil =>
    simp only [List.map_nil, List.prod_nil]
    have : ∀ f, chance ν H f [] = 1 := fun f => by cases f <;> rfl
    simp [this]
  | cons A As ih =>
    have hAs : ∀ B ∈ As, MeasurableSet B := fun B hB => hA B (by simp [hB])
    have ih := ih hAs
    set Q := ⨆ f, chance ν H f As with hQ
    set Q' := ⨆ f, chance ν H f (A :: As) with hQ'
    have hrec : Q' = ν (A ∩ H) * Q + ν Hᶜ * Q' := by
      have h1 : Q' = ⨆ f, chance ν H (f + 1) (A :: As) := ((hmono _ hA).iSup_nat_add 1).symm
      refine h1.trans ?_
      simp only [chance]
      rw [← ENNReal.iSup_add_iSup_of_monotone, ← ENNReal.mul_iSup, ← ENNReal.mul_iSup]
      · intro f g hfg; exact mul_le_mul_right (hmono _ hAs hfg) _
      · intro f g hfg; exact mul_le_mul_right (hmono _ hA hfg) _
    have hle : Q' ≤ 1 := by
      refine iSup_le fun f => ?_
      rw [hHdef, hν0, ← hits_chance hU hF hH f s hs _ hA]
      exact prob_le_one
    have hfin : ν Hᶜ * Q' ≠ ⊤ := ENNReal.mul_ne_top (measure_ne_top _ _) (ne_top_of_le_ne_top ENNReal.one_ne_top hle)
    have htot : ν H * Q' + ν Hᶜ * Q' = Q' := by
      rw [← add_mul, prob_add_prob_compl hH, one_mul]
    have heq : ν H * Q' = ν (A ∩ H) * Q := by
      have : ν H * Q' + ν Hᶜ * Q' = ν (A ∩ H) * Q + ν Hᶜ * Q' := by rw [htot, ← hrec]
      exact (ENNReal.add_left_inj hfin).1 this
    rw [List.map_cons, List.prod_cons, ← ih, ENNReal.div_eq_inv_mul, mul_assoc, ← heq, ← mul_assoc,
      ENNReal.inv_mul_cancel hpos (measure_ne_top _ _), one_mul]

end Pointpats
