import Verif.Props.KnoxLocal
import Verif.Lemmas.Hotspots

/-!
# Property C79: hot spots
-/

set_option linter.unusedSectionVars false

namespace Pointpats.Props

open Spec Spacetime

variable {K : Type} [Field K] [LinearOrder K] [IsStrictOrderedRing K] {ι : Type} [LinearOrder ι]

/-- `labels` numbers the weakly connected components of the directed graph with these nodes and edges: two
nodes have the same number exactly if a chain of edges, in either direction, leads from one to the other. -/
def NumbersComponents (nodes : List ι) (edges : List (ι × ι)) (labels : List ℕ) : Prop :=
  labels.length = nodes.length ∧
    ∀ (k : ℕ) (a b : ι) (x y l : ℕ), (nodes.zip labels)[k]? = some (a, x) → (nodes.zip labels)[l]? = some (b, y) →
      (x = y ↔ Relation.EqvGen (fun c d => (c, d) ∈ edges) a b)

/-- What the component numbering of the library answers for the graph built inside `hotspots`. -/
def AnswersComponents (o : KnoxLocalObject K ι) (crit : K) (p : List K) (labels : List ℕ) : Prop :=
  ∀ table, hotTable (gdfRows o p) o.adjlist crit = some table →
    NumbersComponents (table.map Prod.fst) (table.map fun row => (row.1, row.2.2.2.1)) labels

/-- The column of p-values that is asked for: with `permutation` the simulated ones, if there are permutations. -/
def askedPvalues (o : KnoxLocalObject K ι) (inference : Inference) : List K :=
  if inference = .permutation then o.p_sims.getD o.p_hypergeom else o.p_hypergeom

theorem zip_three {α β γ : Type} (n : ℕ) (f : ℕ → α) (g : ℕ → β) (h : ℕ → γ) :
    ((List.range n).map f).zip (((List.range n).map g).zip ((List.range n).map h))
      = (List.range n).map fun i => (f i, g i, h i) := by
  generalize List.range n = l
  induction l with
  | nil => rfl
  | cons a l ih => simp [ih]

section

variable {cdf : K → XF K → XF K} {sdist : K × K → K × K → K} {delta tau : K} {E : List (Event K)}
  {sball tball gperms perms : List (List ℕ)} {order : List (ℕ × ℕ)}

/-- An event with no other event close in space and time has p-value 1. -/
theorem askedPvalues_one [FloorRing K] (default : ℕ → ι) (hg : ℤ → ℕ → ℕ → ℕ → K) (hd : IsSpaceDistance sdist)
    (hgneg : ∀ x < 0, ∀ a b c, hg x a b c = 0)
    (h : LocalAnswers cdf sdist delta tau E sball tball gperms perms order) (keep : Bool)
    (ids : Option (List ι)) (hids : ∀ l, ids = some l → l.length = E.length) (o : KnoxLocalObject K ι)
    (ho : knoxLocalInit default cdf hg true true (E.map Prod.fst) (E.map Prod.snd) sball tball gperms perms keep ids order
      = .ok o) (inference : Inference) :
    ∃ P : ℕ → K, askedPvalues o inference = (List.range E.length).map P ∧
      ∀ i < E.length, (∀ j < E.length, j ≠ i → ¬ NearBoth sdist delta tau (ev E i) (ev E j)) → P i = 1 := by
  obtain ⟨o', ho', -, -, -, -, -, h4, h5, -⟩ := knoxLocalInit_eq default hg hd h keep ids hids
  rw [ho] at ho'
  obtain rfl : o = o' := by simpa using ho'
  have hz : ∀ i < E.length, (∀ j < E.length, j ≠ i → ¬ NearBoth sdist delta tau (ev E i) (ev E j)) →
      closeEvents sdist delta tau E i = 0 := by
    intro i hi hno
    rw [closeEvents, neighbourCount, List.length_eq_zero_iff, List.filter_eq_nil_iff]
    intro j hj
    rw [mem_others] at hj
    simpa [ev] using hno j (by tauto) (by tauto)
  have hyp : ∃ P : ℕ → K, o.p_hypergeom = (List.range E.length).map P ∧
      ∀ i < E.length, (∀ j < E.length, j ≠ i → ¬ NearBoth sdist delta tau (ev E i) (ev E j)) → P i = 1 := by
    refine ⟨_, h5, ?_⟩
    intro i hi hno
    have : ((List.range E.length).map fun j => hg ((closeEvents sdist delta tau E i : ℤ) - 1) (E.length - 1)
          (neighbourCount (NearTime tau) E ((0, 0), 0) j) (neighbourCount (NearSpace sdist delta) E ((0, 0), 0) i)).sum
        = 0 := by
      refine List.sum_eq_zero ?_
      intro x hx
      obtain ⟨j, -, rfl⟩ := List.mem_map.1 hx
      exact hgneg _ (by rw [hz i hi hno]; decide) _ _ _
    rw [this]
    simp
  unfold askedPvalues
  by_cases hi : inference = .permutation
  · rw [if_pos hi, h4]
    by_cases hp : perms = []
    · rw [if_pos hp]
      exact hyp
    · rw [if_neg hp]
      refine ⟨_, rfl, ?_⟩
      intro i hi hno
      have hlen : (permutedCounts sdist delta tau E perms i).length = perms.length := by simp [permutedCounts]
      have : ((permutedCounts sdist delta tau E perms i).countP fun c => decide (closeEvents sdist delta tau E i ≤ c))
          = perms.length := by
        rw [hz i hi hno, ← hlen, List.countP_eq_length]
        simp
      rw [this, div_self (by positivity)]
  · rw [if_neg hi]
    exact hyp

/-- **C79, partial.** For a critical value below 1 and different labels, if some event is significant, `hotspots` lists
each significant event exactly once, in the order of the events, with its own p-value and time (and, with
`keep_neighbors`, also the events close in space and time to a significant one). The neighbour in a row is another
event close in space and time, and one of the two is significant; the orientation is `lead` if the event is earlier
than that neighbour, `lag` if it is later and `coincident` otherwise. Rows with the same cluster number
are connected by a chain of events close in space and time, each link with a significant end.

Missing for the full property: events connected by such a chain need not get the same cluster number
(`C79_linked_events_split_refuted`), and without significant events the code fails (not modelled). -/
theorem C79_hotspots_partial [FloorRing K] (default : ℕ → ι) (hg : ℤ → ℕ → ℕ → ℕ → K) (hd : IsSpaceDistance sdist)
    (hgneg : ∀ x < 0, ∀ a b c, hg x a b c = 0)
    (h : LocalAnswers cdf sdist delta tau E sball tball gperms perms order) (keep : Bool)
    (ids : Option (List ι)) (hids : ∀ l, ids = some l → l.length = E.length)
    (hlab : ∀ i < E.length, ∀ j < E.length, labelOf default ids i = labelOf default ids j → i = j)
    (o : KnoxLocalObject K ι)
    (ho : knoxLocalInit default cdf hg true true (E.map Prod.fst) (E.map Prod.snd) sball tball gperms perms keep ids order
      = .ok o)
    (inference : Inference) (hinf : inference ≠ .other) (crit : K) (hcrit : crit < 1)
    (hne : ∃ i < E.length, (askedPvalues o inference).getD i 0 ≤ crit) (keep_neighbors : Bool) (labels : List ℕ)
    (hcomp : AnswersComponents o crit (askedPvalues o inference) labels) :
    ∃ rows, hotspots o crit inference keep_neighbors labels = .ok (some rows) ∧
      rows.map HotRow.focal = ((List.range E.length).filter fun i =>
          decide ((askedPvalues o inference).getD i 0 ≤ crit) || (keep_neighbors && (others E.length i).any fun j =>
            decide (NearBoth sdist delta tau (ev E i) (ev E j)) && decide ((askedPvalues o inference).getD j 0 ≤ crit))).map
          (labelOf default ids) ∧
      (∀ row ∈ rows, ∃ i < E.length, row.focal = labelOf default ids i ∧
        row.pvalue = (askedPvalues o inference).getD i 0 ∧ row.focal_time = (ev E i).2 ∧
        ∃ j < E.length, j ≠ i ∧ row.neighbor = labelOf default ids j ∧ NearBoth sdist delta tau (ev E i) (ev E j) ∧
          ((askedPvalues o inference).getD i 0 ≤ crit ∨ (askedPvalues o inference).getD j 0 ≤ crit) ∧
          row.orientation = if (ev E i).2 < (ev E j).2 then Orientation.lead
            else if (ev E j).2 < (ev E i).2 then Orientation.lag else Orientation.coincident) ∧
      (∀ row ∈ rows, ∀ row' ∈ rows, row.cluster = row'.cluster → ∃ i < E.length, ∃ j < E.length,
        row.focal = labelOf default ids i ∧ row'.focal = labelOf default ids j ∧
        Relation.EqvGen (fun a b => a < E.length ∧ b < E.length ∧ a ≠ b ∧ NearBoth sdist delta tau (ev E a) (ev E b) ∧
          ((askedPvalues o inference).getD a 0 ≤ crit ∨ (askedPvalues o inference).getD b 0 ≤ crit)) i j) := by
  obtain ⟨P, hP, hP1⟩ := askedPvalues_one default hg hd hgneg h keep ids hids o ho inference
  obtain ⟨o', ho', hid, htm, -, -, -, -, -, hadj⟩ := knoxLocalInit_eq default hg hd h keep ids hids
  rw [ho] at ho'
  obtain rfl : o = o' := by simpa using ho'
  have hL := h.listsPairs hd
  set lab := labelOf default ids with hlabdef
  have hPg : ∀ i < E.length, (askedPvalues o inference).getD i 0 = P i := by
    intro i hi
    rw [hP, getD_map_range _ hi]
  have hcol : pvalueColumn o inference = .ok (askedPvalues o inference) := by
    cases inference with
    | permutation => rfl
    | analytic => rfl
    | other => exact absurd rfl hinf
  have htimes : E.map Prod.snd = (List.range E.length).map fun i => (ev E i).2 := by
    apply List.ext_getElem
    · simp
    · intro i h1 h2
      have hi : i < E.length := by simpa using h1
      simp [ev, List.getD_eq_getElem?_getD, hi]
  have hrows : gdfRows o (askedPvalues o inference)
      = (List.range E.length).map fun i => (lab i, P i, (ev E i).2) := by
    rw [gdfRows, hid, hP, htm, htimes, zip_three]
  have mrows : ∀ k p t, (k, p, t) ∈ gdfRows o (askedPvalues o inference) ↔
      ∃ i < E.length, k = lab i ∧ p = P i ∧ t = (ev E i).2 := by
    intro k p t
    rw [hrows, List.mem_map]
    constructor
    · rintro ⟨i, hi, he⟩
      simp only [Prod.mk.injEq] at he
      exact ⟨i, List.mem_range.1 hi, he.1.symm, he.2.1.symm, he.2.2.symm⟩
    · rintro ⟨i, hi, rfl, rfl, rfl⟩
      exact ⟨i, List.mem_range.2 hi, rfl⟩
  have madj : ∀ a b w, (a, b, w) ∈ o.adjlist ↔ ∃ i < E.length, ∃ j < E.length, i ≠ j ∧ a = lab i ∧ b = lab j ∧
      NearBoth sdist delta tau (ev E i) (ev E j) ∧ w = orientation (E.map Prod.snd) i j := by
    intro a b w
    rw [hadj, List.mem_map]
    constructor
    · rintro ⟨⟨i, j, w'⟩, hm, he⟩
      simp only [Prod.mk.injEq] at he
      obtain ⟨h1, h2, h3, h4, h5⟩ := (mem_adjacency _ (fun i j => nearBoth_symm hd delta tau _ _) hL i j w').1 hm
      exact ⟨i, h1, j, h2, h3, he.1.symm, he.2.1.symm, h4, he.2.2.symm.trans h5⟩
    · rintro ⟨i, h1, j, h2, h3, rfl, rfl, h4, rfl⟩
      exact ⟨(i, j, _), (mem_adjacency _ (fun i j => nearBoth_symm hd delta tau _ _) hL i j _).2
        ⟨h1, h2, h3, h4, rfl⟩, rfl⟩
  obtain ⟨table, ht, hnd, hmem, hrow⟩ := hotTable_spec (gdfRows o (askedPvalues o inference)) o.adjlist crit
    (by
      rintro a b ⟨w, hw⟩
      obtain ⟨i, h1, j, h2, h3, rfl, rfl, h4, -⟩ := (madj _ _ _).1 hw
      exact ⟨_, (madj _ _ _).2 ⟨j, h2, i, h1, h3.symm, rfl, rfl, (nearBoth_symm hd delta tau _ _).1 h4, rfl⟩⟩)
    (by
      intro a b w hw
      obtain ⟨i, h1, j, h2, h3, rfl, rfl, h4, -⟩ := (madj _ _ _).1 hw
      exact List.mem_map.2 ⟨_, (mrows _ _ _).2 ⟨i, h1, rfl, rfl, rfl⟩, rfl⟩)
    (by
      intro k p t hm hp
      obtain ⟨i, hi, rfl, rfl, rfl⟩ := (mrows _ _ _).1 hm
      by_contra hcon
      have : P i = 1 := hP1 i hi fun j hj hji hn => hcon ⟨lab j, _, (madj _ _ _).2
        ⟨i, hi, j, hj, hji.symm, rfl, rfl, hn, rfl⟩⟩
      rw [this] at hp
      exact absurd hcrit (not_lt.2 hp))
    (by
      obtain ⟨i, hi, hp⟩ := hne
      rw [hPg i hi] at hp
      exact ⟨lab i, P i, _, (mrows _ _ _).2 ⟨i, hi, rfl, rfl, rfl⟩, hp⟩)
  obtain ⟨hclen, hc⟩ := hcomp table ht
  rw [List.length_map] at hclen
  let mk : (ι × K × K × ι × Orientation) × ℕ → HotRow K ι := fun x =>
    { focal := x.1.1, pvalue := x.1.2.1, focal_time := x.1.2.2.1, neighbor := x.1.2.2.2.1,
      orientation := x.1.2.2.2.2, cluster := x.2 }
  let T := (table.zip labels).map mk
  have hTf : T.map HotRow.focal = table.map Prod.fst := by
    simp only [T, List.map_map]
    have : (HotRow.focal ∘ mk) = Prod.fst ∘ Prod.fst := rfl
    rw [this, ← List.map_map, List.map_fst_zip (by omega)]
  let T' := if keep_neighbors then T else T.filter fun r => decide (r.pvalue ≤ crit)
  have hT'sub : T'.Sublist T := by
    simp only [T']
    split_ifs
    · exact List.Sublist.refl _
    · exact List.filter_sublist
  have hTnb : ∀ r ∈ T, ∀ i < E.length, r.focal = lab i → ∃ j < E.length, j ≠ i ∧ r.neighbor = lab j ∧
      NearBoth sdist delta tau (ev E i) (ev E j) ∧ (P i ≤ crit ∨ P j ≤ crit) ∧
      r.orientation = orientation (E.map Prod.snd) i j := by
    intro r hr i hi hf
    obtain ⟨⟨⟨k, p, t, b, w⟩, c⟩, hx, rfl⟩ := List.mem_map.1 hr
    obtain ⟨-, hw, hs⟩ := hrow k p t b w (List.of_mem_zip hx).1
    obtain ⟨u, hu, v, hv, huv, e1, e2, hn, ew⟩ := (madj _ _ _).1 hw
    obtain rfl := hlab i hi u hu (hf.symm.trans e1)
    refine ⟨v, hv, huv.symm, e2, hn, ?_, ew⟩
    rcases hs with ⟨p', t', hm', hp'⟩ | ⟨p', t', hm', hp'⟩
    · obtain ⟨z, hz, ez, rfl, -⟩ := (mrows _ _ _).1 hm'
      obtain rfl := hlab i hi z hz (e1.symm.trans ez)
      exact Or.inl hp'
    · obtain ⟨z, hz, ez, rfl, -⟩ := (mrows _ _ _).1 hm'
      obtain rfl := hlab v hv z hz (e2.symm.trans ez)
      exact Or.inr hp'
  have hTrow : ∀ r ∈ T, ∃ i < E.length, r.focal = lab i ∧ r.pvalue = P i ∧ r.focal_time = (ev E i).2 := by
    intro r hr
    obtain ⟨⟨⟨k, p, t, b, w⟩, c⟩, hx, rfl⟩ := List.mem_map.1 hr
    have h1 := (hrow k p t b w (List.of_mem_zip hx).1).1
    obtain ⟨i, hi, rfl, rfl, rfl⟩ := (mrows _ _ _).1 h1
    exact ⟨i, hi, rfl, rfl, rfl⟩
  have hT'nd : (T'.map HotRow.focal).Nodup := (hTf ▸ hnd : (T.map HotRow.focal).Nodup).sublist (hT'sub.map _)
  have hres : hotspots o crit inference keep_neighbors labels
      = .ok (some ((gdfRows o (askedPvalues o inference)).flatMap fun g => T'.filter fun r => decide (r.focal = g.1))) := by
    simp only [hotspots, hcol, ht]
    rfl
  -- the keys of the table
  have hkey : ∀ i < E.length, (lab i ∈ table.map Prod.fst ↔
      P i ≤ crit ∨ ∃ j < E.length, j ≠ i ∧ NearBoth sdist delta tau (ev E i) (ev E j) ∧ P j ≤ crit) := by
    intro i hi
    rw [hmem]
    constructor
    · rintro (⟨p, t, hm, hp⟩ | ⟨s, w, p, t, hw, hm, hp⟩)
      · obtain ⟨j, hj, he, rfl, rfl⟩ := (mrows _ _ _).1 hm
        rw [← hlab i hi j hj he] at hp
        exact Or.inl hp
      · obtain ⟨a, ha, b, hb, hab, e1, e2, hn, -⟩ := (madj _ _ _).1 hw
        obtain ⟨j, hj, e3, rfl, rfl⟩ := (mrows _ _ _).1 hm
        obtain rfl := hlab i hi a ha e1
        obtain rfl := hlab b hb j hj (e2.symm.trans e3)
        exact Or.inr ⟨b, hb, hab.symm, hn, hp⟩
    · rintro (hp | ⟨j, hj, hji, hn, hp⟩)
      · exact Or.inl ⟨_, _, (mrows _ _ _).2 ⟨i, hi, rfl, rfl, rfl⟩, hp⟩
      · exact Or.inr ⟨lab j, _, P j, _, (madj _ _ _).2 ⟨i, hi, j, hj, hji.symm, rfl, rfl, hn, rfl⟩,
          (mrows _ _ _).2 ⟨j, hj, rfl, rfl, rfl⟩, hp⟩
  have hT'key : ∀ i < E.length, (lab i ∈ T'.map HotRow.focal ↔
      P i ≤ crit ∨ (keep_neighbors = true ∧
        ∃ j < E.length, j ≠ i ∧ NearBoth sdist delta tau (ev E i) (ev E j) ∧ P j ≤ crit)) := by
    intro i hi
    cases hk : keep_neighbors with
    | true =>
      have : T' = T := by simp only [T', hk, if_true]
      rw [this, hTf, hkey i hi]
      simp
    | false =>
      have : T' = T.filter fun r => decide (r.pvalue ≤ crit) := by simp only [T', hk, Bool.false_eq_true, if_false]
      rw [this]
      simp only [Bool.false_eq_true, false_and, or_false]
      constructor
      · intro hm
        obtain ⟨r, hr, he⟩ := List.mem_map.1 hm
        simp only [List.mem_filter, decide_eq_true_eq] at hr
        obtain ⟨j, hj, e1, e2, -⟩ := hTrow r hr.1
        obtain rfl := hlab i hi j hj (he.symm.trans e1)
        rw [← e2]; exact hr.2
      · intro hp
        have : lab i ∈ T.map HotRow.focal := by
          rw [hTf, hkey i hi]; exact Or.inl hp
        obtain ⟨r, hr, he⟩ := List.mem_map.1 this
        obtain ⟨j, hj, e1, e2, -⟩ := hTrow r hr
        obtain rfl := hlab i hi j hj (he.symm.trans e1)
        refine List.mem_map.2 ⟨r, ?_, he⟩
        simp only [List.mem_filter, decide_eq_true_eq, e2]
        exact ⟨hr, hp⟩
  refine ⟨_, hres, ?_, ?_, ?_⟩
  · have := map_flatMap_pick HotRow.focal T' hT'nd ((gdfRows o (askedPvalues o inference)).map Prod.fst)
    rw [List.flatMap_map] at this
    rw [this, hrows, List.map_map, List.filter_map]
    have e : ((List.range E.length).filter ((fun g => decide (g ∈ T'.map HotRow.focal)) ∘
        (Prod.fst ∘ fun i => (lab i, P i, (ev E i).2))))
        = (List.range E.length).filter fun i =>
          decide ((askedPvalues o inference).getD i 0 ≤ crit) || (keep_neighbors && (others E.length i).any fun j =>
            decide (NearBoth sdist delta tau (ev E i) (ev E j)) && decide ((askedPvalues o inference).getD j 0 ≤ crit)) := by
      refine List.filter_congr fun i hi => ?_
      have hi' := List.mem_range.1 hi
      rw [Bool.eq_iff_iff]
      simp only [Function.comp_apply, decide_eq_true_eq, Bool.or_eq_true, Bool.and_eq_true, List.any_eq_true]
      rw [hT'key i hi', hPg i hi']
      refine or_congr Iff.rfl (and_congr Iff.rfl ?_)
      constructor
      · rintro ⟨j, hj, hji, hn, hp⟩
        exact ⟨j, mem_others.2 ⟨hj, hji⟩, hn, by rw [hPg j hj]; exact hp⟩
      · rintro ⟨j, hj, hn, hp⟩
        obtain ⟨h1, h2⟩ := mem_others.1 hj
        exact ⟨j, h1, h2, hn, by rw [hPg j h1] at hp; exact hp⟩
    rw [e]
    rfl
  · intro row hr
    obtain ⟨g, -, hr⟩ := List.mem_flatMap.1 hr
    obtain ⟨i, hi, h1, h2, h3⟩ := hTrow row (hT'sub.subset (List.mem_of_mem_filter hr))
    obtain ⟨j, hj, k1, k2, k3, k4, k5⟩ := hTnb row (hT'sub.subset (List.mem_of_mem_filter hr)) i hi h1
    exact ⟨i, hi, h1, by rw [hPg i hi]; exact h2, h3, j, hj, k1, k2, k3, by rw [hPg i hi, hPg j hj]; exact k4,
      by rw [k5, orientation, htimes, getD_map_range _ hi, getD_map_range _ hj]⟩
  · intro row hr row' hr' hcl
    obtain ⟨g, -, hr⟩ := List.mem_flatMap.1 hr
    obtain ⟨g', -, hr'⟩ := List.mem_flatMap.1 hr'
    have hT1 := hT'sub.subset (List.mem_of_mem_filter hr)
    have hT2 := hT'sub.subset (List.mem_of_mem_filter hr')
    obtain ⟨i, hi, e1, -, -⟩ := hTrow row hT1
    obtain ⟨j, hj, e2, -, -⟩ := hTrow row' hT2
    refine ⟨i, hi, j, hj, e1, e2, ?_⟩
    obtain ⟨x, hx, rfl⟩ := List.mem_map.1 hT1
    obtain ⟨y, hy, rfl⟩ := List.mem_map.1 hT2
    obtain ⟨k, hk⟩ := List.mem_iff_getElem?.1 hx
    obtain ⟨l, hl⟩ := List.mem_iff_getElem?.1 hy
    have hz : (table.map Prod.fst).zip labels = (table.zip labels).map fun z => (z.1.1, z.2) := by
      rw [List.zip_map_left]
      rfl
    have := (hc k x.1.1 y.1.1 x.2 y.2 l (by rw [hz, List.getElem?_map, hk]; rfl)
      (by rw [hz, List.getElem?_map, hl]; rfl)).1 hcl
    have e1' : x.1.1 = lab i := e1
    have e2' : y.1.1 = lab j := e2
    rw [e1', e2'] at this
    -- chains of labels are chains of events
    have gen : ∀ a b, Relation.EqvGen (fun c d => (c, d) ∈ table.map fun row => (row.1, row.2.2.2.1)) a b →
        (a = b ∨ ((∃ i < E.length, a = lab i) ∧ (∃ j < E.length, b = lab j))) ∧
        ∀ i < E.length, ∀ j < E.length, a = lab i → b = lab j →
          Relation.EqvGen (fun a b => a < E.length ∧ b < E.length ∧ a ≠ b ∧ NearBoth sdist delta tau (ev E a) (ev E b) ∧
            ((askedPvalues o inference).getD a 0 ≤ crit ∨ (askedPvalues o inference).getD b 0 ≤ crit)) i j := by
      intro a b hab
      induction hab with
      | rel a b hm =>
        obtain ⟨⟨k, p, t, b', w⟩, hr, he⟩ := List.mem_map.1 hm
        simp only [Prod.mk.injEq] at he
        obtain ⟨rfl, rfl⟩ := he
        obtain ⟨-, hw, hs⟩ := hrow _ _ _ _ _ hr
        obtain ⟨u, hu, v, hv, huv, rfl, rfl, hn, -⟩ := (madj _ _ _).1 hw
        refine ⟨Or.inr ⟨⟨u, hu, rfl⟩, ⟨v, hv, rfl⟩⟩, ?_⟩
        intro i hi j hj ei ej
        obtain rfl := hlab u hu i hi ei
        obtain rfl := hlab v hv j hj ej
        refine .rel _ _ ⟨hu, hv, huv, hn, ?_⟩
        rcases hs with ⟨p', t', hm', hp'⟩ | ⟨p', t', hm', hp'⟩
        · obtain ⟨z, hz, ez, rfl, -⟩ := (mrows _ _ _).1 hm'
          obtain rfl := hlab u hu z hz ez
          exact Or.inl (by rw [hPg u hu]; exact hp')
        · obtain ⟨z, hz, ez, rfl, -⟩ := (mrows _ _ _).1 hm'
          obtain rfl := hlab v hv z hz ez
          exact Or.inr (by rw [hPg v hv]; exact hp')
      | refl a =>
        refine ⟨Or.inl rfl, ?_⟩
        intro i hi j hj ei ej
        obtain rfl := hlab i hi j hj (ei.symm.trans ej)
        exact .refl _
      | symm a b _ ih =>
        refine ⟨ih.1.imp Eq.symm And.symm, ?_⟩
        intro i hi j hj ei ej
        exact .symm _ _ (ih.2 j hj i hi ej ei)
      | trans a b c _ _ ih1 ih2 =>
        rcases ih1.1 with rfl | ⟨ha, hb⟩
        · exact ih2
        · rcases ih2.1 with rfl | ⟨hb', hc'⟩
          · exact ih1
          · refine ⟨Or.inr ⟨ha, hc'⟩, ?_⟩
            intro i hi j hj ei ej
            obtain ⟨m, hm, em⟩ := hb
            exact .trans _ _ _ (ih1.2 i hi m hm ei em) (ih2.2 m hm j hj em ej)
    exact (gen _ _ this).2 i hi j hj rfl rfl

end

/-! ### A chain of four events -/

/-- Four events in a chain, in the order 0, 2, 3, 1 of positions and times, and four events far from all others. -/
def chainEvents : List (Event ℚ) :=
  [((0, 0), 0), ((3, 0), 3), ((1, 0), 1), ((2, 0), 2), ((100, 0), 100), ((200, 0), 200), ((300, 0), 300), ((400, 0), 400)]

/-- What an index answers for them, in space and in time, with threshold 1. -/
def chainBall : List (List ℕ) := [[0, 2], [1, 3], [0, 2, 3], [1, 2, 3], [4], [5], [6], [7]]

/-- The permutation that exchanges the chain with the other events. -/
def chainPerm : List ℕ := [4, 5, 6, 7, 0, 1, 2, 3]

theorem chain_space : AnswersSpace lineDist 1 chainEvents chainBall where
  length := rfl
  mem := by
    have key : ∀ i < 8, ∀ j < 8, j ∈ chainBall.getD i [] ↔ NearSpace lineDist 1 (ev chainEvents i) (ev chainEvents j) := by
      decide +kernel
    have key2 : ∀ i < 8, ∀ j ∈ chainBall.getD i [], j < 8 := by decide +kernel
    intro i hi j
    constructor
    · intro h
      exact ⟨key2 i hi j h, (key i hi j (key2 i hi j h)).1 h⟩
    · rintro ⟨h1, h2⟩
      exact (key i hi j h1).2 h2

theorem chain_time : AnswersTime 1 chainEvents chainBall where
  length := rfl
  mem := by
    have key : ∀ i < 8, ∀ j < 8, j ∈ chainBall.getD i [] ↔ NearTime 1 (ev chainEvents i) (ev chainEvents j) := by
      decide +kernel
    have key2 : ∀ i < 8, ∀ j ∈ chainBall.getD i [], j < 8 := by decide +kernel
    intro i hi j
    constructor
    · intro h
      exact ⟨key2 i hi j h, (key i hi j (key2 i hi j h)).1 h⟩
    · rintro ⟨h1, h2⟩
      exact (key i hi j h1).2 h2

theorem chain_local : LocalAnswers (fun _ _ => XF.fin (1/2)) lineDist 1 1 chainEvents chainBall chainBall [] [chainPerm]
    [(0, 2), (2, 3), (1, 3)] where
  space := chain_space
  time := chain_time
  gshuffles := by simp
  shuffles := by decide +kernel
  nodup := by decide
  lists := by
    intro g hg p
    obtain ⟨r, hr, -, -, -, -, -, -, -, -, -, -, h5, -⟩ := knoxGlobal_eq (fun _ _ => XF.fin (1/2)) lineDist_isDistance 1 1
      chainEvents chain_space chain_time [] (by simp)
    rw [hg] at hr
    obtain rfl : g = r := by simpa using hr
    obtain ⟨i, j⟩ := p
    rw [h5]
    have key : ∀ j < 8, ∀ i < j, (i, j) ∈ [(0, 2), (2, 3), (1, 3)] ↔
        NearBoth lineDist 1 1 (ev chainEvents i) (ev chainEvents j) := by decide +kernel
    constructor
    · intro h
      have hj : i < j ∧ j < 8 := by
        simp only [List.mem_cons, Prod.mk.injEq, List.not_mem_nil, or_false] at h
        omega
      exact ⟨hj.1, hj.2, (key j hj.2 i hj.1).1 h⟩
    · rintro ⟨h1, h2, h3⟩
      exact (key j h2 i h1).2 h3

/-- The local Knox test of the chain. -/
def chainObject : KnoxLocalObject ℚ ℕ where
  ids := [0, 1, 2, 3, 4, 5, 6, 7]
  times := [0, 3, 1, 2, 100, 200, 300, 400]
  nst := 3
  p_sim := none
  sim := none
  p_sims := some [1/2, 1/2, 1/2, 1/2, 1, 1, 1, 1]
  sims := none
  nsti := [1, 1, 2, 2, 0, 0, 0, 0]
  p_hypergeom := [1/2, 1/2, 1/2, 1/2, 1, 1, 1, 1]
  adjlist := [(0, 2, .lead), (1, 3, .lag), (2, 0, .lag), (2, 3, .lead), (3, 1, .lead), (3, 2, .lag)]

theorem chainObject_eq : knoxLocalInit id (fun _ _ => XF.fin (1/2)) (fun x _ _ _ => if x < 0 then 0 else 1/2) true true
    (chainEvents.map Prod.fst) (chainEvents.map Prod.snd) chainBall chainBall [] [chainPerm] false none
    [(0, 2), (2, 3), (1, 3)] = .ok chainObject := by
  decide +kernel

theorem chain_table : hotTable (gdfRows chainObject (askedPvalues chainObject .permutation)) chainObject.adjlist (1/2)
    = some [(0, 1/2, 0, 2, .lead), (1, 1/2, 3, 3, .lag), (2, 1/2, 1, 0, .lag), (3, 1/2, 2, 1, .lead)] := by
  decide +kernel

/-- **C79, refuted.** Four events form a chain, all significant. Whatever way the components of the graph built inside
`hotspots` are numbered, events 2 and 3 get different cluster numbers although they are close in space and time:
the graph keeps only the first neighbour of every event. -/
theorem C79_linked_events_split_refuted :
    LocalAnswers (fun _ _ => XF.fin (1/2)) lineDist 1 1 chainEvents chainBall chainBall [] [chainPerm]
      [(0, 2), (2, 3), (1, 3)] ∧
    knoxLocalInit id (fun _ _ => XF.fin (1/2)) (fun x _ _ _ => if x < 0 then 0 else 1/2) true true
      (chainEvents.map Prod.fst) (chainEvents.map Prod.snd) chainBall chainBall [] [chainPerm] false none
      [(0, 2), (2, 3), (1, 3)] = .ok chainObject ∧
    NearBoth lineDist 1 1 (ev chainEvents 2) (ev chainEvents 3) ∧
    ∀ labels, AnswersComponents chainObject (1/2) (askedPvalues chainObject .permutation) labels →
      ∃ rows r2 r3, hotspots chainObject (1/2) .permutation true labels = .ok (some rows) ∧
        r2 ∈ rows ∧ r3 ∈ rows ∧ r2.focal = 2 ∧ r3.focal = 3 ∧ r2.pvalue ≤ 1/2 ∧ r3.pvalue ≤ 1/2 ∧
        r2.cluster ≠ r3.cluster := by
  refine ⟨chain_local, chainObject_eq, by decide +kernel, ?_⟩
  intro labels hl
  obtain ⟨hlen, hc⟩ := hl _ chain_table
  obtain ⟨a, b, c, d, rfl⟩ : ∃ a b c d, labels = [a, b, c, d] := by
    match labels, hlen with
    | [a, b, c, d], _ => exact ⟨a, b, c, d, rfl⟩
  have hcol : pvalueColumn chainObject .permutation = .ok (askedPvalues chainObject .permutation) := rfl
  have hcd : c ≠ d := by
    intro he
    have := (hc 2 2 3 c d 3 rfl rfl).1 he
    have inv : ∀ x y, Relation.EqvGen (fun c d => (c, d) ∈
        ([(0, 1/2, 0, 2, .lead), (1, 1/2, 3, 3, .lag), (2, 1/2, 1, 0, .lag), (3, 1/2, 2, 1, .lead)] : List (ℕ × ℚ × ℚ × ℕ × Orientation)).map
          fun row => (row.1, row.2.2.2.1)) x y → x % 2 = y % 2 := by
      intro x y h
      induction h with
      | rel x y h =>
        simp only [List.map_cons, List.map_nil, List.mem_cons, Prod.mk.injEq, List.not_mem_nil, or_false] at h
        omega
      | refl x => rfl
      | symm x y _ ih => exact ih.symm
      | trans x y z _ _ h1 h2 => exact h1.trans h2
    have := inv _ _ this
    omega
  refine ⟨[⟨0, 1/2, 0, 2, .lead, a⟩, ⟨1, 1/2, 3, 3, .lag, b⟩, ⟨2, 1/2, 1, 0, .lag, c⟩, ⟨3, 1/2, 2, 1, .lead, d⟩],
    ⟨2, 1/2, 1, 0, .lag, c⟩, ⟨3, 1/2, 2, 1, .lead, d⟩, ?_, by simp, by simp, rfl, rfl, le_refl _, le_refl _, hcd⟩
  simp only [hotspots, hcol, chain_table]
  rfl

/-- Non-vacuity of `C79_hotspots_partial`: the hypotheses hold for the chain and critical value 1/2, with the
components numbered 0, 1, 0, 1. -/
example : (∀ x < 0, ∀ a b c : ℕ, (fun (x : ℤ) (_ _ _ : ℕ) => if x < 0 then (0 : ℚ) else 1/2) x a b c = 0) ∧
    (∀ i < chainEvents.length, ∀ j < chainEvents.length, labelOf id none i = labelOf id none j → i = j) ∧
    (∃ i < chainEvents.length, (askedPvalues chainObject .permutation).getD i 0 ≤ 1/2) ∧
    (hotspots chainObject (1/2) .permutation false [0, 1, 0, 1]).map (Option.map (List.map HotRow.focal))
      = .ok (some [0, 1, 2, 3]) := by
  refine ⟨?_, ?_, by decide +kernel, by decide +kernel⟩
  · intro x hx a b c
    exact if_pos hx
  · intro i _ j _ h
    exact h

end Pointpats.Props
