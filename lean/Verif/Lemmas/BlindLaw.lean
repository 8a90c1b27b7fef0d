import Verif.Spec.Chance
import Mathlib.Probability.Independence.Basic
import Mathlib.MeasureTheory.Measure.Prod

/-!
# The distribution of points selected blindly

A program draws candidates, keeps those that a test accepts, and finally returns some of those it has kept. Its decisions depend
on draws of their own and on whether the candidates were accepted, but not on where the accepted ones are. Then the returned points
are independent and each has the distribution of an accepted candidate.
-/

set_option linter.unusedSectionVars false

namespace Pointpats

open Spec MeasureTheory ProbabilityTheory

/-- A blind program: return the candidates with these numbers (in the order of their acceptance), give up, decide by a test of
one draw, or make a candidate of two draws. -/
inductive Blind (K : Type)
  | done (names : List ℕ)
  | dead
  | decision (i : ℕ) (test : K → ℕ) (next : ℕ → Blind K)
  | candidate (i : ℕ) (acc rej : Blind K)

variable {K : Type}

/-- The numbers of the candidates that are returned, and all accepted candidates. -/
def Blind.exec (F : K × K → K × K) (accept : K × K → Bool) (u : ℕ → K) : Blind K → Option (List ℕ × List (K × K))
  | done names => some (names, [])
  | dead => none
  | decision i test next => (next (test (u i))).exec F accept u
  | candidate i acc rej =>
      if accept (F (u i, u (i + 1))) then (acc.exec F accept u).map fun r => (r.1, F (u i, u (i + 1)) :: r.2)
      else rej.exec F accept u

/-- The returned points, when `past` are the candidates accepted so far. -/
def Blind.out [Zero K] (F : K × K → K × K) (accept : K × K → Bool) (u : ℕ → K) : Blind K → List (K × K) → Option (List (K × K))
  | done names, past => some (names.map fun c => past.getD c (0, 0))
  | dead, _ => none
  | decision i test next, past => (next (test (u i))).out F accept u past
  | candidate i acc rej, past =>
      if accept (F (u i, u (i + 1))) then acc.out F accept u (past ++ [F (u i, u (i + 1))]) else rej.out F accept u past

theorem Blind.out_eq [Zero K] (F : K × K → K × K) (accept : K × K → Bool) (u : ℕ → K) (t : Blind K) (past : List (K × K)) :
    t.out F accept u past = (t.exec F accept u).map fun r => r.1.map fun c => (past ++ r.2).getD c (0, 0) := by
  induction t generalizing past with
  | done names => simp [out, exec]
  | dead => rfl
  | decision i test next ih => exact ih _ past
  | candidate i acc rej ih1 ih2 =>
    rw [out, exec]
    split
    · rw [ih1, Option.map_map]
      congr 1
      funext r
      simp
    · exact ih2 past

/-- The program uses the draws in order, from number `lo` on, each once; its tests are measurable; and it returns `L` different
candidates that it has accepted, where `N` have been accepted so far. -/
def Blind.Ok [MeasurableSpace K] (L : ℕ) : ℕ → ℕ → Blind K → Prop
  | _, N, done names => names.Nodup ∧ (∀ c ∈ names, c < N) ∧ names.length = L
  | _, _, dead => True
  | lo, N, decision i test next => lo ≤ i ∧ Measurable test ∧ ∀ j, (next j).Ok L (i + 1) N
  | lo, N, candidate i acc rej => lo ≤ i ∧ acc.Ok L (i + 2) (N + 1) ∧ rej.Ok L (i + 2) N

theorem Blind.Ok.mono [MeasurableSpace K] {L lo lo' N : ℕ} {t : Blind K} (h : t.Ok L lo N) (hl : lo' ≤ lo) : t.Ok L lo' N := by
  cases t with
  | done names => exact h
  | dead => trivial
  | decision i test next => exact ⟨hl.trans h.1, h.2⟩
  | candidate i acc rej => exact ⟨hl.trans h.1, h.2⟩

theorem Blind.Ok.exec [MeasurableSpace K] {L : ℕ} (F : K × K → K × K) (accept : K × K → Bool) (u : ℕ → K) {t : Blind K} :
    ∀ {lo N : ℕ}, t.Ok L lo N → ∀ r, t.exec F accept u = some r → r.1.Nodup ∧ (∀ c ∈ r.1, c < N + r.2.length) ∧ r.1.length = L := by
  induction t with
  | done names =>
    intro lo N h r hr
    simp only [Blind.exec, Option.some.injEq] at hr
    subst hr
    exact h
  | dead => intro lo N h r hr; simp [Blind.exec] at hr
  | decision i test next ih => intro lo N h r hr; exact ih _ (h.2.2 _) r hr
  | candidate i acc rej ih1 ih2 =>
    intro lo N h r hr
    rw [Blind.exec] at hr
    split at hr
    · obtain ⟨r', hr', rfl⟩ := Option.map_eq_some_iff.1 hr
      obtain ⟨h1, h2, h3⟩ := ih1 h.2.1 r' hr'
      refine ⟨h1, fun c hc => ?_, h3⟩
      have := h2 c hc
      simp only [List.length_cons]
      omega
    · exact ih2 h.2.2 r hr

variable {Ω : Type} [mΩ : MeasurableSpace Ω] [MeasurableSpace K] {P : Measure Ω} [IsProbabilityMeasure P]
variable {F : K × K → K × K} {accept : K × K → Bool} {U : ℕ → Ω → K} {law : Measure K}

/-- The program returns the candidates `names`, and the accepted candidates are in the sets `S`. -/
private def hitsB (F : K × K → K × K) (accept : K × K → Bool) (U : ℕ → Ω → K) (names : List ℕ) (S : ℕ → Set (K × K)) (t : Blind K)
    (N : ℕ) : Set Ω :=
  {ω | ∃ l, t.exec F accept (fun i => U i ω) = some (names, l) ∧ ∀ j (hj : j < l.length), l[j] ∈ S (N + j)}

private abbrev knownB (U : ℕ → Ω → K) (I : Set ℕ) : MeasurableSpace Ω := ⨆ i ∈ I, MeasurableSpace.comap (U i) inferInstance

private theorem knownB_mono (U : ℕ → Ω → K) {I J : Set ℕ} (h : ∀ i ∈ I, i ∈ J) : knownB U I ≤ knownB U J :=
  iSup₂_le fun k hk => le_iSup₂_of_le (f := fun i (_ : i ∈ J) => MeasurableSpace.comap (U i) inferInstance) k (h k hk) (le_refl _)

private theorem knownB_le (hU : IndependentDraws P U law) (I : Set ℕ) : knownB U I ≤ mΩ :=
  iSup₂_le fun k _ => (hU.measurable k).comap_le

private theorem drawB_known (I : Set ℕ) {i : ℕ} (hi : i ∈ I) : @Measurable _ _ (knownB U I) _ (U i) := by
  rw [measurable_iff_comap_le]
  exact le_iSup₂_of_le (f := fun i (_ : i ∈ I) => MeasurableSpace.comap (U i) inferInstance) _ hi (le_refl _)

private theorem candB_known (hF : Measurable F) (I : Set ℕ) {i : ℕ} (hi : i ∈ I) (hi' : i + 1 ∈ I) {B : Set (K × K)}
    (hB : MeasurableSet B) : MeasurableSet[knownB U I] ((fun ω => F (U i ω, U (i + 1) ω)) ⁻¹' B) := by
  have : @Measurable _ _ (knownB U I) _ (fun ω => F (U i ω, U (i + 1) ω)) :=
    hF.comp (Measurable.prodMk (drawB_known I hi) (drawB_known I hi'))
  exact this hB

private theorem hitsB_decision (names : List ℕ) (S : ℕ → Set (K × K)) (i : ℕ) (test : K → ℕ) (next : ℕ → Blind K) (N : ℕ) :
    hitsB F accept U names S (.decision i test next) N
      = ⋃ j, ((fun ω => test (U i ω)) ⁻¹' {j} ∩ hitsB F accept U names S (next j) N) := by
  ext ω
  simp only [Set.mem_iUnion, Set.mem_inter_iff, Set.mem_preimage, Set.mem_singleton_iff]
  constructor
  · intro h
    exact ⟨_, rfl, h⟩
  · rintro ⟨j, rfl, h⟩
    exact h

private theorem hitsB_candidate (names : List ℕ) (S : ℕ → Set (K × K)) (i : ℕ) (acc rej : Blind K) (N : ℕ) :
    hitsB F accept U names S (.candidate i acc rej) N
      = ((fun ω => F (U i ω, U (i + 1) ω)) ⁻¹' (S N ∩ {x | accept x = true}) ∩ hitsB F accept U names S acc (N + 1))
        ∪ ((fun ω => F (U i ω, U (i + 1) ω)) ⁻¹' {x | accept x = true}ᶜ ∩ hitsB F accept U names S rej N) := by
  ext ω
  constructor
  · rintro ⟨l, h, hl⟩
    rw [Blind.exec] at h
    split at h
    · next ha =>
      obtain ⟨r, hr, he⟩ := Option.map_eq_some_iff.1 h
      obtain ⟨rfl, rfl⟩ := Prod.mk.injEq .. ▸ he
      refine Or.inl ⟨⟨(show F (U i ω, U (i + 1) ω) ∈ S N from hl 0 (by simp)), ha⟩, r.2, hr, fun j hj => ?_⟩
      have := hl (j + 1) (by simpa using hj)
      rw [show N + 1 + j = N + (j + 1) by omega]
      simpa using this
    · next ha => exact Or.inr ⟨ha, l, h, hl⟩
  · rintro (⟨⟨hS, ha⟩, l, h, hl⟩ | ⟨ha, l, h, hl⟩)
    · have ha' : accept (F (U i ω, U (i + 1) ω)) = true := ha
      refine ⟨F (U i ω, U (i + 1) ω) :: l, by rw [Blind.exec, if_pos ha', h]; rfl, fun j hj => ?_⟩
      cases j with
      | zero => exact hS
      | succ j =>
        rw [show N + (j + 1) = N + 1 + j by omega]
        exact hl j (by simpa using hj)
    · have ha' : ¬ accept (F (U i ω, U (i + 1) ω)) = true := ha
      exact ⟨l, by rw [Blind.exec, if_neg ha', h], hl⟩

private theorem hitsB_known (hF : Measurable F) (hH : MeasurableSet {x | accept x = true}) {L : ℕ} (names : List ℕ)
    (S : ℕ → Set (K × K)) (hS : ∀ c, MeasurableSet (S c)) (t : Blind K) :
    ∀ lo N, t.Ok L lo N → MeasurableSet[knownB U {i | lo ≤ i}] (hitsB F accept U names S t N) := by
  induction t with
  | done names' =>
    intro lo N _
    by_cases h : names' = names
    · have : hitsB F accept U names S (.done names') N = Set.univ :=
        Set.eq_univ_of_forall fun ω => ⟨[], by simp [Blind.exec, h], by simp⟩
      rw [this]
      exact @MeasurableSet.univ Ω (knownB U _)
    · have : hitsB F accept U names S (.done names') N = ∅ :=
        Set.eq_empty_of_forall_notMem fun ω ⟨l, hl, _⟩ => h (by simpa [Blind.exec] using congrArg (Option.map Prod.fst) hl)
      rw [this]
      exact @MeasurableSet.empty Ω (knownB U _)
  | dead =>
    intro lo N _
    have : hitsB F accept U names S .dead N = ∅ :=
      Set.eq_empty_of_forall_notMem fun ω ⟨l, hl, _⟩ => by simp [Blind.exec] at hl
    rw [this]
    exact @MeasurableSet.empty Ω (knownB U _)
  | decision i test next ih =>
    intro lo N h
    rw [hitsB_decision]
    refine @MeasurableSet.iUnion Ω ℕ (knownB U _) _ _ fun j => @MeasurableSet.inter Ω (knownB U _) _ _ ?_ ?_
    · exact (h.2.1.comp (drawB_known {i | lo ≤ i} h.1)) (measurableSet_singleton j)
    · exact knownB_mono U (fun k (hk : i + 1 ≤ k) => (by have := h.1; change lo ≤ k; omega)) _ (ih j _ _ (h.2.2 j))
  | candidate i acc rej ih1 ih2 =>
    intro lo N h
    have hi := h.1
    rw [hitsB_candidate]
    refine @MeasurableSet.union Ω (knownB U _) _ _ (@MeasurableSet.inter Ω (knownB U _) _ _ ?_ ?_)
      (@MeasurableSet.inter Ω (knownB U _) _ _ ?_ ?_)
    · exact candB_known hF {i | lo ≤ i} hi (show lo ≤ i + 1 by omega) ((hS N).inter hH)
    · exact knownB_mono U (fun k (hk : i + 2 ≤ k) => (by change lo ≤ k; omega)) _ (ih1 _ _ h.2.1)
    · exact candB_known hF {i | lo ≤ i} hi (show lo ≤ i + 1 by omega) hH.compl
    · exact knownB_mono U (fun k (hk : i + 2 ≤ k) => (by change lo ≤ k; omega)) _ (ih2 _ _ h.2.2)

private theorem candB_indep (hU : IndependentDraws P U law) (hF : Measurable F) (i : ℕ) {B : Set (K × K)} (hB : MeasurableSet B)
    {E : Set Ω} (hE : MeasurableSet[knownB U {k | i + 2 ≤ k}] E) :
    P ((fun ω => F (U i ω, U (i + 1) ω)) ⁻¹' B ∩ E) = ((law.prod law).map F) B * P E := by
  have h1 := indep_iSup_of_disjoint (fun i => (hU.measurable i).comap_le) hU.independent.iIndep
      (S := {k | k < i + 2}) (T := {k | i + 2 ≤ k}) (by
        rw [Set.disjoint_left]
        rintro k (hk : k < i + 2) (hk' : i + 2 ≤ k)
        omega)
  have h2 := (Indep_iff _ _ P).1 h1 _ E
    (candB_known hF {k | k < i + 2} (show i < i + 2 by omega) (show i + 1 < i + 2 by omega) hB) hE
  rw [h2]
  congr 1
  have hmap : P.map (fun ω => (U i ω, U (i + 1) ω)) = law.prod law := by
    rw [(hU.independent.indepFun (show i ≠ i + 1 by omega)).map_prod_eq_prod_map_map (hU.measurable _).aemeasurable
      (hU.measurable _).aemeasurable, hU.distribution, hU.distribution]
  rw [← hmap, Measure.map_map hF ((hU.measurable _).prodMk (hU.measurable _)),
    Measure.map_apply (hF.comp ((hU.measurable _).prodMk (hU.measurable _))) hB]
  rfl

private theorem testB_indep (hU : IndependentDraws P U law) (i : ℕ) {test : K → ℕ} (ht : Measurable test) (j : ℕ)
    {E : Set Ω} (hE : MeasurableSet[knownB U {k | i + 1 ≤ k}] E) :
    P ((fun ω => test (U i ω)) ⁻¹' {j} ∩ E) = P ((fun ω => test (U i ω)) ⁻¹' {j}) * P E := by
  have h1 := indep_iSup_of_disjoint (fun i => (hU.measurable i).comap_le) hU.independent.iIndep
      (S := {k | k < i + 1}) (T := {k | i + 1 ≤ k}) (by
        rw [Set.disjoint_left]
        rintro k (hk : k < i + 1) (hk' : i + 1 ≤ k)
        omega)
  exact (Indep_iff _ _ P).1 h1 _ E
    ((ht.comp (drawB_known {k | k < i + 1} (show i < i + 1 by omega))) (measurableSet_singleton j)) hE

/-- The share of a set among the accepted candidates. -/
noncomputable def acceptedShare (ν : Measure (K × K)) (H A : Set (K × K)) : ENNReal := ν (A ∩ H) / ν H

private theorem hitsB_prob (hU : IndependentDraws P U law) (hF : Measurable F) (hH : MeasurableSet {x | accept x = true})
    (hpos : ((law.prod law).map F) {x | accept x = true} ≠ 0) {L : ℕ} (names : List ℕ)
    (S : ℕ → Set (K × K)) (hS : ∀ c, MeasurableSet (S c)) (hu : ∀ c, c ∉ names → S c = Set.univ) (t : Blind K) :
    ∀ lo N, t.Ok L lo N → P (hitsB F accept U names S t N)
      = P (hitsB F accept U names (fun _ => Set.univ) t N)
        * ∏ c ∈ names.toFinset with N ≤ c, acceptedShare ((law.prod law).map F) {x | accept x = true} (S c) := by
  have hl : IsProbabilityMeasure law := by
    rw [← hU.distribution 0]
    exact Measure.isProbabilityMeasure_map (hU.measurable 0).aemeasurable
  have hν : IsProbabilityMeasure ((law.prod law).map F) := Measure.isProbabilityMeasure_map hF.aemeasurable
  have hfin : ((law.prod law).map F) {x | accept x = true} ≠ ⊤ := measure_ne_top _ _
  induction t with
  | done names' =>
    intro lo N h
    by_cases hn : names' = names
    · have : (names.toFinset.filter fun c => N ≤ c) = ∅ := by
        refine Finset.filter_eq_empty_iff.2 fun c hc => ?_
        have := h.2.1 c (by rw [hn]; exact List.mem_toFinset.1 hc)
        omega
      rw [this, Finset.prod_empty, mul_one]
      congr 1
      ext ω
      simp [hitsB, Blind.exec, hn]
    · have h0 : ∀ S : ℕ → Set (K × K), hitsB F accept U names S (.done names') N = ∅ := fun S =>
        Set.eq_empty_of_forall_notMem fun ω ⟨l, hl, _⟩ => hn (by simpa [Blind.exec] using congrArg (Option.map Prod.fst) hl)
      rw [h0, h0, measure_empty, zero_mul]
  | dead =>
    intro lo N _
    have h0 : ∀ S : ℕ → Set (K × K), hitsB F accept U names S .dead N = ∅ := fun S =>
      Set.eq_empty_of_forall_notMem fun ω ⟨l, hl, _⟩ => by simp [Blind.exec] at hl
    rw [h0, h0, measure_empty, zero_mul]
  | decision i test next ih =>
    intro lo N h
    have hsum : ∀ S : ℕ → Set (K × K), (∀ c, MeasurableSet (S c)) → P (hitsB F accept U names S (.decision i test next) N)
        = ∑' j, P ((fun ω => test (U i ω)) ⁻¹' {j}) * P (hitsB F accept U names S (next j) N) := by
      intro S hS
      rw [hitsB_decision, measure_iUnion]
      · exact tsum_congr fun j => testB_indep hU i h.2.1 j (hitsB_known hF hH names S hS _ _ _ (h.2.2 j))
      · intro j k hjk
        refine Set.disjoint_left.2 ?_
        rintro ω ⟨h1, -⟩ ⟨h2, -⟩
        exact hjk (h1.symm.trans h2)
      · intro j
        refine MeasurableSet.inter ((h.2.1.comp (hU.measurable i)) (measurableSet_singleton j)) ?_
        exact knownB_le hU _ _ (hitsB_known hF hH names S hS _ _ _ (h.2.2 j))
    rw [hsum S hS, hsum _ (fun _ => MeasurableSet.univ), ← ENNReal.tsum_mul_right]
    refine tsum_congr fun j => ?_
    rw [ih j _ _ (h.2.2 j), mul_assoc]
  | candidate i acc rej ih1 ih2 =>
    intro lo N h
    have hsum : ∀ S : ℕ → Set (K × K), (∀ c, MeasurableSet (S c)) → P (hitsB F accept U names S (.candidate i acc rej) N)
        = ((law.prod law).map F) (S N ∩ {x | accept x = true}) * P (hitsB F accept U names S acc (N + 1))
          + ((law.prod law).map F) {x | accept x = true}ᶜ * P (hitsB F accept U names S rej N) := by
      intro S hS
      have t1 := hitsB_known (U := U) hF hH names S hS _ _ _ h.2.1
      have t2 := hitsB_known (U := U) hF hH names S hS _ _ _ h.2.2
      rw [hitsB_candidate, measure_union, candB_indep hU hF i ((hS N).inter hH) t1, candB_indep hU hF i hH.compl t2]
      · refine Set.disjoint_left.2 ?_
        rintro ω ⟨⟨-, h1⟩, -⟩ ⟨h2, -⟩
        exact h2 h1
      · refine MeasurableSet.inter ?_ (knownB_le hU _ _ t2)
        exact knownB_le hU _ _ (candB_known hF Set.univ (Set.mem_univ i) (Set.mem_univ (i + 1)) hH.compl)
    rw [hsum S hS, hsum _ (fun _ => MeasurableSet.univ), ih1 _ _ h.2.1, ih2 _ _ h.2.2, add_mul, Set.univ_inter]
    congr 1
    · by_cases hN : N ∈ names
      · have : (names.toFinset.filter fun c => N ≤ c) = insert N (names.toFinset.filter fun c => N + 1 ≤ c) := by
          ext c
          simp only [Finset.mem_filter, List.mem_toFinset, Finset.mem_insert]
          constructor
          · rintro ⟨h1, h2⟩
            by_cases hc : c = N
            · exact Or.inl hc
            · exact Or.inr ⟨h1, by omega⟩
          · rintro (rfl | ⟨h1, h2⟩)
            · exact ⟨hN, le_rfl⟩
            · exact ⟨h1, by omega⟩
        rw [this, Finset.prod_insert (by simp)]
        rw [show ((law.prod law).map F) (S N ∩ {x | accept x = true})
          = acceptedShare ((law.prod law).map F) {x | accept x = true} (S N) * ((law.prod law).map F) {x | accept x = true} from
          (ENNReal.div_mul_cancel hpos hfin).symm]
        ring
      · have : (names.toFinset.filter fun c => N ≤ c) = names.toFinset.filter fun c => N + 1 ≤ c := by
          ext c
          simp only [Finset.mem_filter, List.mem_toFinset]
          constructor
          · rintro ⟨h1, h2⟩
            refine ⟨h1, ?_⟩
            rcases Nat.lt_or_ge N c with h3 | h3
            · exact h3
            · exact absurd (by rwa [show N = c by omega]) hN
          · rintro ⟨h1, h2⟩
            exact ⟨h1, by omega⟩
        rw [this, hu N hN, Set.univ_inter, mul_assoc]
    · rw [mul_assoc]

private theorem getDB {α : Type} {l : List α} {d : α} {k : ℕ} (h : k < l.length) : l.getD k d = l[k] := by
  rw [List.getD_eq_getElem?_getD, List.getElem?_eq_getElem h, Option.getD_some]

/-- The chance that a blind program returns points in given sets is the chance that it returns, times the product of the shares of
the sets. -/
theorem Blind.out_law [Zero K] {L : ℕ} (t : Blind K) (lo : ℕ) (ht : t.Ok L lo 0) (hU : IndependentDraws P U law) (hF : Measurable F)
    (hH : MeasurableSet {x | accept x = true}) (hpos : ((law.prod law).map F) {x | accept x = true} ≠ 0)
    (A : List (Set (K × K))) (hlen : A.length = L) (hA : ∀ a ∈ A, MeasurableSet a) :
    P {ω | ∃ l, t.out F accept (fun i => U i ω) [] = some l ∧ List.Forall₂ (fun x a => x ∈ a) l A}
      = P {ω | ∃ l, t.out F accept (fun i => U i ω) [] = some l}
        * (A.map (acceptedShare ((law.prod law).map F) {x | accept x = true})).prod := by
  classical
  -- the set that the candidate with a number must be in
  let S : List ℕ → ℕ → Set (K × K) := fun names c => if c ∈ names then A.getD (names.idxOf c) Set.univ else Set.univ
  have hS : ∀ names c, MeasurableSet (S names c) := by
    intro names c
    simp only [S]
    split
    · rw [List.getD_eq_getElem?_getD]
      cases hg : A[names.idxOf c]? with
      | none => exact MeasurableSet.univ
      | some a => exact hA a (List.mem_of_getElem? hg)
    · exact MeasurableSet.univ
  have hevent : {ω | ∃ l, t.out F accept (fun i => U i ω) [] = some l ∧ List.Forall₂ (fun x a => x ∈ a) l A}
      = ⋃ names : List ℕ, (if names.Nodup ∧ names.length = L then hitsB F accept U names (S names) t 0 else ∅) := by
    ext ω
    simp only [Set.mem_ofPred_eq, Set.mem_iUnion]
    constructor
    · rintro ⟨l, h, hl⟩
      rw [Blind.out_eq] at h
      obtain ⟨⟨names, new⟩, hr, rfl⟩ := Option.map_eq_some_iff.1 h
      obtain ⟨h1, h2, h3⟩ := ht.exec F accept (fun i => U i ω) _ hr
      simp only at h1 h2 h3
      refine ⟨names, ?_⟩
      rw [if_pos ⟨h1, h3⟩]
      refine ⟨new, hr, fun j hj => ?_⟩
      simp only [S, Nat.zero_add]
      split
      · next hmem =>
        have hk : names.idxOf j < names.length := List.idxOf_lt_length_iff.2 hmem
        have hk' : names.idxOf j < A.length := by omega
        have := (List.forall₂_iff_get.1 hl).2 (names.idxOf j) (by simpa using hk) hk'
        simp only [List.get_eq_getElem, List.getElem_map, List.getElem_idxOf, List.nil_append] at this
        rw [getDB hj] at this
        rwa [getDB hk']
      · exact Set.mem_univ _
    · rintro ⟨names, h⟩
      split at h
      · next hn =>
        obtain ⟨new, hr, hnew⟩ := h
        obtain ⟨h1, h2, h3⟩ := ht.exec F accept (fun i => U i ω) _ hr
        simp only at h1 h2 h3
        refine ⟨_, by rw [Blind.out_eq, hr]; rfl, ?_⟩
        rw [List.forall₂_iff_get]
        refine ⟨by simp [h3, hlen], fun k hk hk' => ?_⟩
        simp only [List.length_map] at hk
        have hlt : names[k] < new.length := by simpa using h2 _ (List.getElem_mem hk)
        have := hnew names[k] hlt
        simp only [S, Nat.zero_add, List.getElem_mem, if_true, List.Nodup.idxOf_getElem h1 k hk] at this
        rw [getDB hk'] at this
        simp only [List.get_eq_getElem, List.getElem_map, List.nil_append]
        rwa [getDB hlt]
      · exact absurd h (Set.notMem_empty ω)
  have hret : {ω | ∃ l, t.out F accept (fun i => U i ω) [] = some l}
      = ⋃ names : List ℕ, (if names.Nodup ∧ names.length = L then hitsB F accept U names (fun _ => Set.univ) t 0 else ∅) := by
    ext ω
    simp only [Set.mem_ofPred_eq, Set.mem_iUnion]
    constructor
    · rintro ⟨l, h⟩
      rw [Blind.out_eq] at h
      obtain ⟨⟨names, new⟩, hr, rfl⟩ := Option.map_eq_some_iff.1 h
      obtain ⟨h1, h2, h3⟩ := ht.exec F accept (fun i => U i ω) _ hr
      refine ⟨names, ?_⟩
      rw [if_pos ⟨h1, h3⟩]
      exact ⟨new, hr, fun _ _ => Set.mem_univ _⟩
    · rintro ⟨names, h⟩
      split at h
      · obtain ⟨new, hr, -⟩ := h
        exact ⟨_, by rw [Blind.out_eq, hr]; rfl⟩
      · exact absurd h (Set.notMem_empty ω)
  have hdisj : ∀ S : List ℕ → ℕ → Set (K × K), Pairwise (Function.onFun Disjoint fun names : List ℕ =>
      (if names.Nodup ∧ names.length = L then hitsB F accept U names (S names) t 0 else ∅)) := by
    intro S a b hab
    refine Set.disjoint_left.2 fun ω h1 h2 => ?_
    simp only at h1 h2
    split at h1
    · split at h2
      · obtain ⟨l1, e1, -⟩ := h1
        obtain ⟨l2, e2, -⟩ := h2
        rw [e1] at e2
        exact hab (by simpa using congrArg (Option.map Prod.fst) e2)
      · exact h2
    · exact h1
  have hms : ∀ S : List ℕ → ℕ → Set (K × K), (∀ names c, MeasurableSet (S names c)) → ∀ names : List ℕ,
      MeasurableSet (if names.Nodup ∧ names.length = L then hitsB F accept U names (S names) t 0 else ∅) := by
    intro S hS names
    split
    · exact knownB_le hU _ _ (hitsB_known hF hH names _ (hS names) t lo 0 ht)
    · exact MeasurableSet.empty
  rw [hevent, hret, measure_iUnion (hdisj S) (hms S hS),
    measure_iUnion (hdisj fun _ _ => Set.univ) (hms _ fun _ _ => MeasurableSet.univ), ← ENNReal.tsum_mul_right]
  refine tsum_congr fun names => ?_
  split
  · next hn =>
    rw [hitsB_prob hU hF hH hpos names (S names) (hS names) (fun c hc => by simp [S, hc]) t lo 0 ht]
    congr 1
    rw [Finset.filter_true_of_mem (fun c _ => Nat.zero_le c), List.prod_toFinset _ hn.1]
    congr 1
    refine List.ext_getElem (by simp [hn.2, hlen]) fun k hk hk' => ?_
    simp only [List.length_map] at hk hk'
    simp only [List.getElem_map, S, List.getElem_mem, if_true, List.Nodup.idxOf_getElem hn.1 k hk]
    rw [getDB hk']
  · rw [measure_empty, zero_mul]

end Pointpats
