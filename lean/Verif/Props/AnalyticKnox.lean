import Verif.Lemmas.Hypergeometric
import Verif.Props.LocalLevel

/-!
# C162, C163: the analytical p-values of the local Knox test
-/

set_option linter.unusedSectionVars false

namespace Pointpats.Props

open Spec Spacetime Hypergeometric

variable {K : Type} [Field K] [LinearOrder K] [IsStrictOrderedRing K]

/-! ### Probabilities -/

private theorem share_not {Ω : Type} [Fintype Ω] [Nonempty Ω] (P : Ω → Prop) : share K Ω P = 1 - share K Ω (fun ω => ¬ P ω) := by
  classical
  have h0 : (Fintype.card Ω : K) ≠ 0 := by exact_mod_cast Fintype.card_ne_zero
  rw [share_eq, share_eq, eq_sub_iff_add_eq, ← add_div, div_eq_one_iff_eq h0, ← Nat.cast_add, Finset.card_filter_add_card_filter_not,
    Finset.card_univ]

private theorem share_mean {B Ω : Type} [Fintype B] [Fintype Ω] (P : B × Ω → Prop) :
    share K (B × Ω) P = (∑ b, share K Ω fun ω => P (b, ω)) / (Fintype.card B : K) := by
  classical
  simp only [share_eq]
  have hsum : (Finset.univ.filter P).card = ∑ b : B, (Finset.univ.filter fun ω => P (b, ω)).card := by
    simp only [Finset.card_filter]
    exact Fintype.sum_prod_type _
  rw [hsum, Fintype.card_prod, ← Finset.sum_div, div_div, mul_comm]
  push_cast
  rfl

/-- The share of the outcomes that are at least as large is at most `α` only for a share `α` of the outcomes. -/
private theorem share_exact_level {Ω L : Type} [Fintype Ω] [LinearOrder L] (T : Ω → L) (α : K) (hα : 0 ≤ α) :
    share K Ω (fun ω => share K Ω (fun ω' => T ω ≤ T ω') ≤ α) ≤ α := by
  classical
  by_cases hB : (Finset.univ.filter fun ω => share K Ω (fun ω' => T ω ≤ T ω') ≤ α).Nonempty
  · obtain ⟨ω0, h0, hmin⟩ := Finset.exists_min_image _ T hB
    rw [Finset.mem_filter] at h0
    refine le_trans (share_mono fun ω hω => ?_) h0.2
    exact hmin ω (by simpa using hω)
  · rw [share_eq, Finset.not_nonempty_iff_eq_empty.1 hB]
    simpa using hα

/-! ### The counts after a rearrangement -/

private theorem card_nbr_fin {n : ℕ} (R : ℕ → ℕ → Prop) [DecidableRel R] (i : Fin n) :
    (nbr n R i).card = (Finset.univ.filter fun j : Fin n => j ≠ i ∧ R i j).card := by
  rw [← Finset.card_map Fin.valEmbedding]
  congr 1
  ext j
  simp only [mem_nbr, Finset.mem_map, Finset.mem_filter, Finset.mem_univ, true_and, Fin.valEmbedding_apply]
  constructor
  · rintro ⟨a, b, c⟩
    exact ⟨⟨j, a⟩, ⟨fun h => b (congrArg Fin.val h), c⟩, rfl⟩
  · rintro ⟨a, ⟨b, c⟩, rfl⟩
    exact ⟨a.2, fun h => b (Fin.ext h), c⟩

section

variable (sdist : K × K → K × K → K) (delta tau : K) (E : List (Event K))

/-- The other events close to `i` in space. -/
private def nearS {n : ℕ} (i : Fin n) : Finset (Fin n) := Finset.univ.filter fun j => j ≠ i ∧ NearSpace sdist delta (ev E i) (ev E j)

/-- The other events close to `a` in time. -/
private def nearT {n : ℕ} (a : Fin n) : Finset (Fin n) := Finset.univ.filter fun j => j ≠ a ∧ NearTime tau (ev E a) (ev E j)

private theorem card_nearS {n : ℕ} (hn : E.length = n) (i : Fin n) :
    (nearS sdist delta E i).card = neighbourCount (NearSpace sdist delta) E ((0, 0), 0) i := by
  subst hn
  rw [← card_nbr_ev, card_nbr_fin]
  rfl

private theorem card_nearT {n : ℕ} (hn : E.length = n) (i : Fin n) :
    (nearT tau E i).card = neighbourCount (NearTime tau) E ((0, 0), 0) i := by
  subst hn
  rw [← card_nbr_ev, card_nbr_fin]
  rfl

private theorem closeEvents_retime {n : ℕ} (hn : E.length = n) (σ : Equiv.Perm (Fin n)) (i : Fin n) :
    closeEvents sdist delta tau (retime (permList σ) E) i
      = ((nearS sdist delta E i).filter fun j => σ j ∈ nearT tau E (σ i)).card := by
  subst hn
  have hs : IsShuffle E.length (permList σ) := isShuffle_permList σ
  have hg : ∀ j : Fin E.length, (permList σ).getD j 0 = (σ j : ℕ) := fun j => by simp [permList, List.getD_eq_getElem?_getD]
  rw [closeEvents, ← card_nbr_ev, length_retime hs, card_nbr_fin]
  congr 1
  ext j
  simp only [nearS, nearT, Finset.mem_filter, Finset.mem_univ, true_and, retime_ev hs i.2, retime_ev hs j.2, hg]
  constructor
  · rintro ⟨a, b⟩
    exact ⟨⟨a, b.1⟩, fun h => a (σ.injective h), b.2⟩
  · rintro ⟨⟨a, b⟩, -, c⟩
    exact ⟨a, b, c⟩

/-- The rearrangements of the other things. -/
private def othersEquiv {n : ℕ} (i : Fin n) : Equiv.Perm {x : Fin n // x ≠ i} ≃ Keep i :=
  (Equiv.Perm.subtypeEquivSubtypePerm fun x => x ≠ i).trans
    (Equiv.subtypeEquivRight fun f => ⟨fun h => h i (by simp), fun h a ha => by rw [not_not.1 ha]; exact h⟩)

private theorem othersEquiv_apply {n : ℕ} (i : Fin n) (g : Equiv.Perm {x : Fin n // x ≠ i}) (j : {x : Fin n // x ≠ i}) :
    (othersEquiv i g).1 j = g j := by
  change Equiv.Perm.ofSubtype g j = g j
  exact Equiv.Perm.ofSubtype_apply_coe g j

/-- The probability that `i` gets the time of `a` and has fewer than `c` close events. -/
private theorem keep_share (cdf : ℤ → ℕ → ℕ → ℕ → K) (hc : IsHypergeomCdf cdf) {n : ℕ} (i a : Fin n) (S T : Finset (Fin n)) (hS : i ∉ S)
    (hT : a ∉ T) (k : ℤ) :
    share K (Keep i) (fun h => ((S.filter fun j => (Equiv.swap i a * h.1) j ∈ T).card : ℤ) ≤ k)
      = cdf k (n - 1) T.card S.card := by
  classical
  let S' : Finset {x : Fin n // x ≠ i} := S.subtype fun x => x ≠ i
  let T' : Finset {x : Fin n // x ≠ i} := (T.map (Equiv.swap i a).toEmbedding).subtype fun x => x ≠ i
  have hS' : S'.card = S.card := by
    rw [Finset.card_subtype, Finset.filter_true_of_mem]
    exact fun x hx h => hS (h ▸ hx)
  have hT' : T'.card = T.card := by
    rw [Finset.card_subtype, Finset.filter_true_of_mem, Finset.card_map]
    intro x hx h
    obtain ⟨y, hy, hyx⟩ := Finset.mem_map.1 hx
    rw [h] at hyx
    have : y = a := by
      have := congrArg (Equiv.swap i a) hyx
      simpa using this
    exact hT (this ▸ hy)
  have hcard : Fintype.card {x : Fin n // x ≠ i} = n - 1 := by
    rw [Fintype.card_subtype_compl, Fintype.card_fin, Fintype.card_unique]
  rw [← hS', ← hT', ← hcard, ← share_count cdf hc S' T' k, ← share_equiv (othersEquiv i)]
  congr 1
  funext g
  have : (S.filter fun j => (Equiv.swap i a * (othersEquiv i g).1) j ∈ T).card = (S'.filter fun j => g j ∈ T').card := by
    rw [← Finset.card_map (Function.Embedding.subtype _)]
    congr 1
    ext x
    simp only [Finset.mem_filter, Finset.mem_map, S', T', Finset.mem_subtype, Function.Embedding.coe_subtype, Equiv.coe_toEmbedding]
    constructor
    · rintro ⟨h1, h2⟩
      have hx : x ≠ i := fun h => hS (h ▸ h1)
      refine ⟨⟨x, hx⟩, ⟨h1, _, h2, ?_⟩, rfl⟩
      rw [Equiv.Perm.mul_apply, Equiv.swap_apply_self, ← othersEquiv_apply]
    · rintro ⟨y, ⟨h1, z, h2, h3⟩, rfl⟩
      refine ⟨h1, ?_⟩
      rw [Equiv.Perm.mul_apply, othersEquiv_apply, ← h3, Equiv.swap_apply_self]
      exact h2
  rw [this]

private theorem nearS_self {n : ℕ} (i : Fin n) : i ∉ nearS sdist delta E i := by simp [nearS]

private theorem nearT_self {n : ℕ} (i : Fin n) : i ∉ nearT tau E i := by simp [nearT]

private theorem sum_range_fin (n : ℕ) (f : ℕ → K) : ((List.range n).map f).sum = ∑ j : Fin n, f j := by
  rw [← List.map_coe_finRange_eq_range, List.map_map, ← List.ofFn_eq_map, List.sum_ofFn]
  rfl

private theorem lt_iff_sub (a c : ℕ) : ¬ c ≤ a ↔ (a : ℤ) ≤ (c : ℤ) - 1 := by omega

/-- The probability that event `i` has at least `c` close events, when all times are rearranged. -/
private theorem all_share (cdf : ℤ → ℕ → ℕ → ℕ → K) (hc : IsHypergeomCdf cdf) {n : ℕ} (hn : E.length = n) (i : Fin n) (c : ℕ) :
    1 - ((List.range n).map fun j => cdf ((c : ℤ) - 1) (n - 1) (neighbourCount (NearTime tau) E ((0, 0), 0) j)
        (neighbourCount (NearSpace sdist delta) E ((0, 0), 0) i)).sum / (n : K)
      = share K (Equiv.Perm (Fin n)) (fun σ => c ≤ closeEvents sdist delta tau (retime (permList σ) E) i) := by
  rw [share_not]
  congr 1
  simp only [lt_iff_sub, closeEvents_retime sdist delta tau E hn]
  rw [← share_equiv (keepEquiv i).symm, share_mean, Fintype.card_fin, sum_range_fin]
  congr 1
  refine Finset.sum_congr rfl fun a _ => ?_
  rw [← card_nearS sdist delta E hn, ← card_nearT tau E hn, ← keep_share cdf hc i a _ _ (nearS_self sdist delta E i) (nearT_self tau E a)]
  congr 1
  funext h
  have : (keepEquiv i).symm (a, h) i = a := by
    change (Equiv.swap i a * h.1) i = a
    simp [h.2]
  rw [this]
  rfl

/-- The same when the time of event `i` is kept. -/
private theorem kept_share (cdf : ℤ → ℕ → ℕ → ℕ → K) (hc : IsHypergeomCdf cdf) {n : ℕ} (hn : E.length = n) (i : Fin n) (c : ℕ) :
    1 - cdf ((c : ℤ) - 1) (n - 1) (neighbourCount (NearTime tau) E ((0, 0), 0) i)
        (neighbourCount (NearSpace sdist delta) E ((0, 0), 0) i)
      = share K (Keep i) (fun σ => c ≤ closeEvents sdist delta tau (retime (permList σ.1) E) i) := by
  have : Nonempty (Keep i) := ⟨⟨1, rfl⟩⟩
  rw [share_not]
  congr 1
  simp only [lt_iff_sub, closeEvents_retime sdist delta tau E hn]
  rw [← card_nearS sdist delta E hn, ← card_nearT tau E hn, ← keep_share cdf hc i i _ _ (nearS_self sdist delta E i) (nearT_self tau E i)]
  congr 1
  funext h
  rw [h.2, Equiv.swap_self]
  rfl

end

/-- **C162.** If the library computes the hypergeometric distribution function, the analytical p-value that `KnoxLocal` reports for an
event is exactly the probability that the event has at least as many close events as it is observed to have, when all times are
given to the locations at random, all rearrangements being equally likely. -/
theorem C162_analytic_exact [FloorRing K] {ι : Type} (default : ℕ → ι) {cdf : K → XF K → XF K} (hg : ℤ → ℕ → ℕ → ℕ → K)
    (hhg : IsHypergeomCdf hg) {sdist : K × K → K × K → K} (hd : IsSpaceDistance sdist) {delta tau : K} {E : List (Event K)}
    {sball tball gperms perms : List (List ℕ)} {order : List (ℕ × ℕ)}
    (h : LocalAnswers cdf sdist delta tau E sball tball gperms perms order) (keep : Bool) (ids : Option (List ι))
    (hids : ∀ l, ids = some l → l.length = E.length) :
    ∃ o, knoxLocalInit default cdf hg true true (E.map Prod.fst) (E.map Prod.snd) sball tball gperms perms keep ids order = .ok o
      ∧ o.p_hypergeom.length = E.length
      ∧ ∀ i : Fin E.length, o.p_hypergeom[(i : ℕ)]? = some (share K (Equiv.Perm (Fin E.length)) fun σ =>
          closeEvents sdist delta tau E i ≤ closeEvents sdist delta tau (retime (permList σ) E) i) := by
  obtain ⟨o, ho, -, -, -, -, -, -, h5, -⟩ := knoxLocalInit_eq default hg hd h keep ids hids
  refine ⟨o, ho, by simp [h5], fun i => ?_⟩
  rw [h5, List.getElem?_map, List.getElem?_range i.2, Option.map_some, all_share sdist delta tau E hg hhg rfl i]

/-- **C162, level.** Under the null hypothesis that the times are given to the locations at random, the probability that the
analytical p-value of an event is at most `α` is at most `α`. -/
theorem C162_analytic_level [FloorRing K] {ι : Type} (default : ℕ → ι) (cdf : K → XF K → XF K) (hg : ℤ → ℕ → ℕ → ℕ → K)
    (hhg : IsHypergeomCdf hg) {sdist : K × K → K × K → K} (hd : IsSpaceDistance sdist) (delta tau : K) (E : List (Event K))
    (sball : List (List ℕ)) (tball gperms perms : Equiv.Perm (Fin E.length) → List (List ℕ))
    (order : Equiv.Perm (Fin E.length) → List (ℕ × ℕ))
    (h : ∀ σ, LocalAnswers cdf sdist delta tau (retime (permList σ) E) sball (tball σ) (gperms σ) (perms σ) (order σ))
    (keep : Bool) (ids : Option (List ι)) (hids : ∀ l, ids = some l → l.length = E.length) (i : ℕ) (hi : i < E.length) (α : K)
    (hα : 0 ≤ α) :
    share K (Equiv.Perm (Fin E.length)) (fun σ => ∃ o p,
      knoxLocalInit default cdf hg true true (E.map Prod.fst) (shuffle 0 (permList σ) (E.map Prod.snd)) sball (tball σ)
        (gperms σ) (perms σ) keep ids (order σ) = .ok o
      ∧ o.p_hypergeom[i]? = some p ∧ p ≤ α) ≤ α := by
  refine le_trans (share_mono ?_)
    (share_exact_level (fun σ : Equiv.Perm (Fin E.length) => closeEvents sdist delta tau (retime (permList σ) E) i) α hα)
  rintro σ ⟨o, p, ho, hp, hle⟩
  have hsh : IsShuffle E.length (permList σ) := isShuffle_permList _
  have hl := length_retime (E := E) hsh
  have e1 : (retime (permList σ) E).map Prod.fst = E.map Prod.fst := by
    rw [retime_eq, List.map_fst_zip (by simp [shuffle, length_permList])]
  have e2 : (retime (permList σ) E).map Prod.snd = shuffle 0 (permList σ) (E.map Prod.snd) := by
    rw [retime_eq, List.map_snd_zip (by simp [shuffle, length_permList])]
  obtain ⟨o', ho', -, -, -, -, -, -, h5, -⟩ := knoxLocalInit_eq default hg hd (h σ) keep ids (by rw [hl]; exact hids)
  rw [e1, e2, ho] at ho'
  cases ho'
  rw [h5, hl, List.getElem?_map, List.getElem?_range hi, Option.map_some, Option.some.injEq,
    all_share sdist delta tau _ hg hhg hl ⟨i, hi⟩] at hp
  rw [← hp] at hle
  refine le_trans (le_of_eq ?_) hle
  rw [← share_equiv (Equiv.mulLeft σ)]
  simp only [Equiv.coe_mulLeft, retime_permList]

/-! ### The rearrangements that keep the time of the event -/

private theorem share_coordinate {A : Type} [Fintype A] [Nonempty A] {R : ℕ} (k : Fin R) (P : A → Prop) :
    share K (Fin R → A) (fun ω => P (ω k)) = share K A P := by
  classical
  rw [show share K (Fin R → A) (fun ω => P (ω k)) = share K (A × ({j // j ≠ k} → A)) (fun x => P x.1) from
    share_equiv (Equiv.funSplitAt k A) (fun x => P x.1), ← share_equiv (Equiv.prodComm _ _), share_mean]
  change (∑ _b : {j // j ≠ k} → A, share K A P) / _ = _
  rw [Finset.sum_const, Finset.card_univ, nsmul_eq_mul, mul_div_cancel_left₀]
  exact_mod_cast Fintype.card_ne_zero

private theorem mean_countP {A : Type} [Fintype A] [Nonempty A] (R : ℕ) (P : A → Prop) [DecidablePred P] :
    (∑ ω : Fin R → A, (((List.ofFn ω).countP fun a => decide (P a) : ℕ) : K)) / (Fintype.card (Fin R → A) : K)
      = R * share K A P := by
  have h1 : ∀ ω : Fin R → A, (((List.ofFn ω).countP fun a => decide (P a) : ℕ) : K) = ∑ k : Fin R, if P (ω k) then 1 else 0 := by
    induction R with
    | zero => simp
    | succ R ih =>
      intro ω
      rw [List.ofFn_succ, List.countP_cons, Nat.cast_add, ih, Fin.sum_univ_succ, add_comm]
      congr 1
      split_ifs <;> simp_all
  simp only [h1]
  rw [Finset.sum_comm, Finset.sum_div, Finset.sum_congr rfl (g := fun _ => share K A P)]
  · rw [Finset.sum_const, Finset.card_univ, Fintype.card_fin, nsmul_eq_mul]
  · intro k _
    rw [← share_coordinate k P, share_eq, Finset.sum_boole]

/-- A random rearrangement, changed as the code does so that it keeps event `i`, is a random one of the rearrangements that keep it. -/
private theorem share_focal {n : ℕ} (i : Fin n) (f : List ℕ → ℕ) (c : ℕ) :
    share K (Equiv.Perm (Fin n)) (fun σ => c ≤ f (focalPermutation (permList σ) i))
      = share K (Keep i) (fun σ => c ≤ f (permList σ.1)) := by
  have hn : Nonempty (Fin n) := ⟨i⟩
  rw [show share K (Equiv.Perm (Fin n)) (fun σ => c ≤ f (focalPermutation (permList σ) i))
      = share K (Fin n × Keep i) (fun x => c ≤ f (permList x.2.1)) by
    rw [← share_equiv (keepEquiv i)]
    simp only [focalPermutation_permList]
    rfl, share_mean, Fintype.card_fin]
  simp only
  rw [Finset.sum_const, Finset.card_univ, Fintype.card_fin, nsmul_eq_mul, mul_div_cancel_left₀]
  exact_mod_cast (Fin.pos i).ne'

/-- **C163.** The mean of the simulated p-value of event `i` over all shuffles is `(R q + 1) / (R + 1)`, where `q` is the probability
that the event has at least as many close events as observed when the times of the other events are rearranged at random and its own
time is kept. So `q` is what the simulations estimate; with the hypergeometric distribution function it is
`1 - cdf (observed - 1, n - 1, events close in time to event i, events close in space)`. -/
theorem C163_simulated_mean [FloorRing K] {ι : Type} (default : ℕ → ι) {cdf : K → XF K → XF K} (hg : ℤ → ℕ → ℕ → ℕ → K)
    (hhg : IsHypergeomCdf hg) {sdist : K × K → K × K → K} (hd : IsSpaceDistance sdist) {delta tau : K} {E : List (Event K)} (R : ℕ)
    (hR : 0 < R) {sball tball gperms : List (List ℕ)} {order : List (ℕ × ℕ)}
    (h : ∀ ω : Fin R → Equiv.Perm (Fin E.length),
      LocalAnswers cdf sdist delta tau E sball tball gperms (List.ofFn fun k => permList (ω k)) order) (keep : Bool)
    (ids : Option (List ι)) (hids : ∀ l, ids = some l → l.length = E.length) (i : Fin E.length)
    (p : (Fin R → Equiv.Perm (Fin E.length)) → K)
    (hp : ∀ ω, ∃ o ps, knoxLocalInit default cdf hg true true (E.map Prod.fst) (E.map Prod.snd) sball tball gperms
        (List.ofFn fun k => permList (ω k)) keep ids order = .ok o ∧ o.p_sims = some ps ∧ ps[(i : ℕ)]? = some (p ω)) :
    ∃ q : K, q = share K {σ : Equiv.Perm (Fin E.length) // σ i = i} (fun σ =>
          closeEvents sdist delta tau E i ≤ closeEvents sdist delta tau (retime (permList σ.1) E) i)
      ∧ q = 1 - hg ((closeEvents sdist delta tau E i : ℤ) - 1) (E.length - 1) (neighbourCount (NearTime tau) E ((0, 0), 0) i)
          (neighbourCount (NearSpace sdist delta) E ((0, 0), 0) i)
      ∧ (∑ ω, p ω) / (Fintype.card (Fin R → Equiv.Perm (Fin E.length)) : K) = (R * q + 1) / (R + 1) := by
  refine ⟨_, rfl, (kept_share sdist delta tau E hg hhg rfl i _).symm, ?_⟩
  have hpe : ∀ ω, p ω = ((((List.ofFn ω).countP fun σ => decide (closeEvents sdist delta tau E i ≤
      closeEvents sdist delta tau (retime (focalPermutation (permList σ) i) E) i) : ℕ) : K) + 1) / ((R : K) + 1) := by
    intro ω
    obtain ⟨o, ps, ho, hps, hpi⟩ := hp ω
    obtain ⟨o', ho', -, -, -, -, -, h4, -⟩ := knoxLocalInit_eq default hg hd (h ω) keep ids hids
    rw [ho] at ho'
    cases ho'
    rw [hps, if_neg (by intro hnil; have := congrArg List.length hnil; simp at this; omega)] at h4
    simp only [Option.some.injEq] at h4
    rw [h4, List.getElem?_map, List.getElem?_range i.2, Option.map_some, Option.some.injEq] at hpi
    rw [← hpi, List.length_ofFn, permutedCounts, List.countP_map,
      show (List.ofFn fun k => permList (ω k)) = (List.ofFn ω).map permList by rw [List.map_ofFn]; rfl, List.countP_map]
    rfl
  simp only [hpe]
  rw [← share_focal i (fun l => closeEvents sdist delta tau (retime l E) i)]
  rw [← mean_countP (K := K) R]
  have hN : (Fintype.card (Fin R → Equiv.Perm (Fin E.length)) : K) ≠ 0 := by exact_mod_cast Fintype.card_ne_zero
  have hR1 : (R : K) + 1 ≠ 0 := by positivity
  rw [← Finset.sum_div, Finset.sum_add_distrib, Finset.sum_const, Finset.card_univ, nsmul_eq_mul, mul_one]
  field_simp

/-- **C163 (partial).** If all events have equally many events close in time, the analytical p-value is the probability that the
simulations estimate. Missing: the case of different numbers of events close in time, where it is false, see
`C163_conditional_refuted`. -/
theorem C163_conditional_partial [FloorRing K] {ι : Type} (default : ℕ → ι) {cdf : K → XF K → XF K} (hg : ℤ → ℕ → ℕ → ℕ → K)
    (hhg : IsHypergeomCdf hg) {sdist : K × K → K × K → K} (hd : IsSpaceDistance sdist) {delta tau : K} {E : List (Event K)}
    {sball tball gperms perms : List (List ℕ)} {order : List (ℕ × ℕ)}
    (h : LocalAnswers cdf sdist delta tau E sball tball gperms perms order) (keep : Bool) (ids : Option (List ι))
    (hids : ∀ l, ids = some l → l.length = E.length) (i : Fin E.length)
    (hsame : ∀ j < E.length, neighbourCount (NearTime tau) E ((0, 0), 0) j = neighbourCount (NearTime tau) E ((0, 0), 0) i) :
    ∃ o, knoxLocalInit default cdf hg true true (E.map Prod.fst) (E.map Prod.snd) sball tball gperms perms keep ids order = .ok o
      ∧ o.p_hypergeom[(i : ℕ)]? = some (share K {σ : Equiv.Perm (Fin E.length) // σ i = i} fun σ =>
          closeEvents sdist delta tau E i ≤ closeEvents sdist delta tau (retime (permList σ.1) E) i) := by
  obtain ⟨o, ho, -, -, -, -, -, -, h5, -⟩ := knoxLocalInit_eq default hg hd h keep ids hids
  refine ⟨o, ho, ?_⟩
  have hn : (E.length : K) ≠ 0 := by exact_mod_cast (Fin.pos i).ne'
  rw [h5, List.getElem?_map, List.getElem?_range i.2, Option.map_some, ← kept_share sdist delta tau E hg hhg rfl i]
  rw [List.map_congr_left (g := fun _ => hg ((closeEvents sdist delta tau E i : ℤ) - 1) (E.length - 1)
      (neighbourCount (NearTime tau) E ((0, 0), 0) i) (neighbourCount (NearSpace sdist delta) E ((0, 0), 0) i))
      (fun j hj => by rw [hsame j (List.mem_range.1 hj)]), List.map_const', List.sum_replicate, List.length_range, nsmul_eq_mul,
    mul_div_cancel_left₀ _ hn]

/-! ### A concrete case -/

/-- The hypergeometric distribution function. -/
def exactHypergeom (k : ℤ) (M n N : ℕ) : ℚ :=
  ∑ x ∈ Finset.range (N + 1), if (x : ℤ) ≤ k then ((n.choose x : ℚ) * ((M - n).choose (N - x) : ℚ)) / (M.choose N : ℚ) else 0

theorem exactHypergeom_isCdf : IsHypergeomCdf exactHypergeom := fun _ _ _ _ _ _ => rfl

/-- **C163 (refuted).** Four events for which the analytical p-value of the first is 1/2, while the probability that the simulations
estimate is 2/3. -/
theorem C163_conditional_refuted :
    ∃ (o : KnoxLocalObject ℚ ℕ), knoxLocalInit id (fun _ _ => XF.fin (1/2)) exactHypergeom true true (someEvents.map Prod.fst)
        (someEvents.map Prod.snd) [[0, 1], [1, 0, 2], [2, 1], [3]] [[0, 1, 3], [3, 1, 0], [2], [0, 1, 3]] [[1, 0, 3, 2]]
        [[0, 2, 1, 3]] true none [(0, 1)] = .ok o
      ∧ o.p_hypergeom[0]? = some (1 / 2)
      ∧ share ℚ {σ : Equiv.Perm (Fin someEvents.length) // σ ⟨0, by decide⟩ = ⟨0, by decide⟩} (fun σ =>
          closeEvents lineDist 1 2 someEvents 0 ≤ closeEvents lineDist 1 2 (retime (permList σ.1) someEvents) 0) = 2 / 3 := by
  obtain ⟨o, ho, -, -, -, -, -, -, h5, -⟩ := knoxLocalInit_eq (id : ℕ → ℕ) exactHypergeom lineDist_isDistance someEvents_local true none
    (by simp)
  refine ⟨o, ho, ?_, ?_⟩
  · rw [h5]
    decide +kernel
  · refine (kept_share lineDist 1 2 someEvents exactHypergeom exactHypergeom_isCdf rfl ⟨0, by decide⟩ _).symm.trans ?_
    decide +kernel

/-- Non-vacuity of C162: the analytical p-values of the four example events. -/
example : ∃ (o : KnoxLocalObject ℚ ℕ), knoxLocalInit id (fun _ _ => XF.fin (1/2)) exactHypergeom true true (someEvents.map Prod.fst)
        (someEvents.map Prod.snd) [[0, 1], [1, 0, 2], [2, 1], [3]] [[0, 1, 3], [3, 1, 0], [2], [0, 1, 3]] [[1, 0, 3, 2]]
        [[0, 2, 1, 3]] true none [(0, 1)] = .ok o ∧ o.p_hypergeom = [1 / 2, 3 / 4, 1, 1] := by
  obtain ⟨o, ho, -, -, -, -, -, -, h5, -⟩ := knoxLocalInit_eq (id : ℕ → ℕ) exactHypergeom lineDist_isDistance someEvents_local true none
    (by simp)
  refine ⟨o, ho, ?_⟩
  rw [h5]
  decide +kernel

end Pointpats.Props
