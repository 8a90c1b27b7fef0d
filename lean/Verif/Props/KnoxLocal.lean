import Verif.Props.Knox

/-!
# Properties C76, C77, C78, C80: the local Knox test
-/

set_option linter.unusedSectionVars false

namespace Pointpats.Props

open Spec Spacetime

variable {K : Type} [Field K] [LinearOrder K] [IsStrictOrderedRing K]

/-- What the libraries answer while `KnoxLocal` is computed for the events `E`: the two indexes, the
permutations of the global and of the local inference, and the order in which the set of pairs is listed. -/
structure LocalAnswers (cdf : K → XF K → XF K) (sdist : K × K → K × K → K) (delta tau : K) (E : List (Event K))
    (sball tball gperms perms : List (List ℕ)) (order : List (ℕ × ℕ)) : Prop where
  space : AnswersSpace sdist delta E sball
  time : AnswersTime tau E tball
  gshuffles : ∀ p ∈ gperms, IsShuffle E.length p
  shuffles : ∀ p ∈ perms, IsShuffle E.length p
  nodup : order.Nodup
  lists : ∀ g, knoxGlobal cdf sball tball gperms = .ok g → ∀ p, p ∈ order ↔ p ∈ g.st_pairs

/-- The number of other events close to event `i` in space and time. -/
def closeEvents (sdist : K × K → K × K → K) (delta tau : K) (E : List (Event K)) (i : ℕ) : ℕ :=
  neighbourCount (NearBoth sdist delta tau) E ((0, 0), 0) i

/-- The label of event `i`. -/
def labelOf {ι : Type} (default : ℕ → ι) (ids : Option (List ι)) (i : ℕ) : ι :=
  match ids with
  | none => default i
  | some l => l.getD i (default i)

theorem card_nbr_ev (close : Event K → Event K → Prop) [DecidableRel close] (E : List (Event K)) (i : ℕ) :
    (nbr E.length (fun i j => close (ev E i) (ev E j)) i).card = neighbourCount close E ((0, 0), 0) i := by
  rw [card_nbr]
  rfl

section

variable {cdf : K → XF K → XF K} {sdist : K × K → K × K → K} {delta tau : K} {E : List (Event K)}
  {sball tball gperms perms : List (List ℕ)} {order : List (ℕ × ℕ)}

theorem LocalAnswers.listsPairs (hd : IsSpaceDistance sdist)
    (h : LocalAnswers cdf sdist delta tau E sball tball gperms perms order) :
    ListsPairs E.length (fun i j => NearBoth sdist delta tau (ev E i) (ev E j)) order := by
  obtain ⟨r, hr, -, -, -, -, -, -, -, -, -, -, h5, -⟩ := knoxGlobal_eq cdf hd delta tau E h.space h.time gperms h.gshuffles
  refine ⟨h.nodup, fun i j => ?_⟩
  rw [h.lists r hr, h5]

theorem localPermuted_eq (h : LocalAnswers cdf sdist delta tau E sball tball gperms perms order) {q : List ℕ}
    (hq : q ∈ perms) {i : ℕ} (hi : i < E.length) :
    localPermuted ((List.range E.length).map (nbr E.length fun i j => NearSpace sdist delta (ev E i) (ev E j)))
        ((List.range E.length).map (nbr E.length fun i j => NearTime tau (ev E i) (ev E j))) q i
      = closeEvents sdist delta tau (retime (focalPermutation q i) E) i := by
  have hs := focalPermutation_shuffle (h.shuffles q hq) hi
  have hself := focalPermutation_self (h.shuffles q hq) hi
  rw [localPermuted, getD_map_range _ hi, getD_map_range _ hi, closeEvents, ← card_nbr_ev, length_retime hs]
  have hf := filter_nbr (R := fun i j => NearSpace sdist delta (ev E i) (ev E j))
    (S := fun i j => NearTime tau (ev E i) (ev E j)) hs hi
  rw [hself] at hf
  rw [hf]
  congr 1
  ext j
  simp only [mem_nbr]
  constructor
  · rintro ⟨a, b, c, d⟩
    refine ⟨a, b, ?_⟩
    rw [retime_ev hs hi, retime_ev hs a]
    exact ⟨c, d⟩
  · rintro ⟨a, b, c⟩
    rw [retime_ev hs hi, retime_ev hs a] at c
    exact ⟨a, b, c.1, c.2⟩

/-- The counts of the permuted events, event by event. -/
def permutedCounts (sdist : K × K → K × K → K) (delta tau : K) (E : List (Event K)) (perms : List (List ℕ)) (i : ℕ) :
    List ℕ :=
  perms.map fun q => closeEvents sdist delta tau (retime (focalPermutation q i) E) i

/-- Everything `KnoxLocal` computes, in terms of the events. -/
theorem knoxLocalInit_eq [FloorRing K] {ι : Type} (default : ℕ → ι) (hg : ℤ → ℕ → ℕ → ℕ → K) (hd : IsSpaceDistance sdist)
    (h : LocalAnswers cdf sdist delta tau E sball tball gperms perms order)
    (keep : Bool) (ids : Option (List ι)) (hids : ∀ l, ids = some l → l.length = E.length) :
    ∃ o, knoxLocalInit default cdf hg true true (E.map Prod.fst) (E.map Prod.snd) sball tball gperms perms keep ids order
        = .ok o ∧
      o.ids = (List.range E.length).map (labelOf default ids) ∧
      o.times = E.map Prod.snd ∧
      o.nst = closePairs (NearBoth sdist delta tau) E ∧
      o.nsti = (List.range E.length).map (closeEvents sdist delta tau E) ∧
      o.sims = (if keep then (if perms = [] then none else
        some ((List.range E.length).map (permutedCounts sdist delta tau E perms))) else none) ∧
      o.p_sims = (if perms = [] then none else some ((List.range E.length).map fun i =>
        ((((permutedCounts sdist delta tau E perms i).countP fun c => decide (closeEvents sdist delta tau E i ≤ c) : ℕ) : K)
          + 1) / ((perms.length : K) + 1))) ∧
      o.p_hypergeom = (List.range E.length).map (fun i =>
        1 - ((List.range E.length).map fun j => hg ((closeEvents sdist delta tau E i : ℤ) - 1) (E.length - 1)
          (neighbourCount (NearTime tau) E ((0, 0), 0) j) (neighbourCount (NearSpace sdist delta) E ((0, 0), 0) i)).sum
          / (E.length : K)) ∧
      o.adjlist = (adjacency (E.map Prod.snd) order).map
        (fun row => (labelOf default ids row.1, labelOf default ids row.2.1, row.2.2)) := by
  obtain ⟨g, hgl, h1, h2, h3, h4, -, -, -, e1, e2, e3, h5, h6⟩ :=
    knoxGlobal_eq cdf hd delta tau E h.space h.time gperms h.gshuffles
  have hnsti : localCounts E.length order = (List.range E.length).map (closeEvents sdist delta tau E) := by
    apply List.ext_getElem
    · simp [length_localCounts]
    · intro i a b
      have hi : i < E.length := by simpa using b
      have := localCounts_eq (fun i _ j _ => nearBoth_symm hd delta tau _ _) (h.listsPairs hd) hi
      rw [card_nbr_ev] at this
      simpa [List.getD_eq_getElem?_getD, a, closeEvents] using this
  have hlab : ∀ i < E.length, (ids.getD ((List.range E.length).map default)).getD i (default i) = labelOf default ids i := by
    intro i hi
    cases ids with
    | none => simp [labelOf, List.getD_eq_getElem?_getD, hi]
    | some l => rfl
  have hcounts : ((List.range E.length).map fun i => perms.map fun rids => localPermuted g.sneighbors g.tneighbors rids i)
      = (List.range E.length).map (permutedCounts sdist delta tau E perms) := by
    refine List.map_congr_left fun i hi => ?_
    refine List.map_congr_left fun q hq => ?_
    rw [e1, e2, localPermuted_eq h hq (List.mem_range.1 hi)]
  have hint : pyInt g.nst = (closePairs (NearBoth sdist delta tau) E : ℤ) := by
    rw [h3, pyInt, if_pos (Nat.cast_nonneg _)]
    simp
  have hL := h.listsPairs hd
  have hadj : ∀ row ∈ adjacency (E.map Prod.snd) order, row.1 < E.length ∧ row.2.1 < E.length := by
    intro row hrow
    simp only [adjacency, List.mem_map, List.mem_insertionSort, List.mem_flatMap] at hrow
    obtain ⟨p, ⟨q, hq, hpq⟩, rfl⟩ := hrow
    obtain ⟨a, b, -⟩ := (hL.mem q.1 q.2).1 hq
    simp only [List.mem_cons, List.not_mem_nil, or_false] at hpq
    rcases hpq with rfl | rfl <;> constructor <;> simp only <;> omega
  have hlen : sball.length = E.length := h.space.length
  have hidlen : (ids.map List.length).getD E.length = E.length := by
    cases ids with
    | none => rfl
    | some l => exact hids l rfl
  unfold knoxLocalInit knoxLocal
  simp only [hgl, List.length_map, hidlen, hlen, hnsti, hcounts, hint, ne_eq, not_true, if_false, Bool.true_eq_false]
  refine ⟨_, rfl, ?_, rfl, rfl, rfl, ?_, ?_, ?_, ?_⟩
  · cases ids with
    | none => rfl
    | some l =>
      apply List.ext_getElem
      · simp [hids l rfl]
      · intro i a b
        have : i < l.length := by simpa using a
        simp [labelOf, List.getD_eq_getElem?_getD, this]
  · cases keep
    · rfl
    · by_cases hp : perms = [] <;> simp [hp]
  · by_cases hp : perms = []
    · simp [hp]
    · simp only [if_neg hp, Option.map_some, Option.some.injEq]
      refine List.map_congr_left fun i hi => ?_
      rw [getD_map_range _ (List.mem_range.1 hi), getD_map_range _ (List.mem_range.1 hi)]
  · simp only [e1, e2, List.map_map, List.length_map, List.length_range]
    refine List.map_congr_left fun i hi => ?_
    rw [getD_map_range _ (List.mem_range.1 hi), getD_map_range _ (List.mem_range.1 hi), card_nbr_ev]
    simp only [Function.comp_def, card_nbr_ev]
  · refine List.map_congr_left fun row hrow => ?_
    rw [hlab _ (hadj row hrow).1, hlab _ (hadj row hrow).2]

/-- **C76.** `nsti` has for every event the number of other events close to it in space and time, and these
add up to twice the global count `nst`. -/
theorem C76_local_counts [FloorRing K] {ι : Type} (default : ℕ → ι) (hg : ℤ → ℕ → ℕ → ℕ → K) (hd : IsSpaceDistance sdist)
    (h : LocalAnswers cdf sdist delta tau E sball tball gperms perms order)
    (keep : Bool) (ids : Option (List ι)) (hids : ∀ l, ids = some l → l.length = E.length) :
    ∃ o, knoxLocalInit default cdf hg true true (E.map Prod.fst) (E.map Prod.snd) sball tball gperms perms keep ids order
        = .ok o ∧
      o.nsti = ((List.range E.length).map fun i =>
        ((others E.length i).filter fun j => decide (NearBoth sdist delta tau (ev E i) (ev E j))).length) ∧
      ((o.nsti.sum : ℕ) : ℤ) = 2 * o.nst ∧ o.nst = closePairs (NearBoth sdist delta tau) E := by
  obtain ⟨o, ho, -, -, h1, h2, -⟩ := knoxLocalInit_eq default hg hd h keep ids hids
  refine ⟨o, ho, h2, ?_, h1⟩
  rw [h1, h2, closePairs_ev]
  have := sum_card_nbr E.length (fun i j => NearBoth sdist delta tau (ev E i) (ev E j))
    (fun i _ j _ => nearBoth_symm hd delta tau _ _)
  rw [List.map_map] at this
  have e : (List.range E.length).map (closeEvents sdist delta tau E)
      = (List.range E.length).map (Finset.card ∘ nbr E.length fun i j => NearBoth sdist delta tau (ev E i) (ev E j)) :=
    List.map_congr_left fun i _ => (card_nbr_ev _ E i).symm
  rw [e, this]
  push_cast
  rfl

/-- **C76, the global test.** The global count and the global p-value of `KnoxLocal` are those of the `Knox` test of the same
events with the same permutations: the p-value is the documented one for the counts of the rearranged events. -/
theorem C76_global_test [FloorRing K] {ι : Type} (default : ℕ → ι) (hg : ℤ → ℕ → ℕ → ℕ → K) (hd : IsSpaceDistance sdist)
    (h : LocalAnswers cdf sdist delta tau E sball tball gperms perms order)
    (keep : Bool) (ids : Option (List ι)) (hids : ∀ l, ids = some l → l.length = E.length) (o : KnoxLocalObject K ι)
    (ho : knoxLocalInit default cdf hg true true (E.map Prod.fst) (E.map Prod.snd) sball tball gperms perms keep ids order
        = .ok o) (keep' : Bool) :
    (∃ o', knoxInit cdf sball tball gperms keep' = .ok o' ∧ o.nst = o'.statistic_ ∧ o.p_sim = o'.p_sim)
    ∧ o.p_sim = if gperms = [] then none else some (pseudoP K (closePairs (NearBoth sdist delta tau) E)
        (gperms.map fun q => closePairs (NearBoth sdist delta tau) (retime q E))) := by
  obtain ⟨r, o', hr, ho', -⟩ := C74_knox_counts_pairs cdf hd delta tau E sball tball h.space h.time gperms h.gshuffles keep'
  have hlen : sball.length = E.length := h.space.length
  have hidlen : (ids.map List.length).getD E.length = E.length := by
    cases ids with
    | none => rfl
    | some l => exact hids l rfl
  have key : o.nst = o'.statistic_ ∧ o.p_sim = o'.p_sim := by
    unfold knoxLocalInit knoxLocal at ho
    simp only [hr, List.length_map, hidlen, ne_eq, not_true, if_false, Bool.true_eq_false, Except.ok.injEq] at ho
    unfold knoxInit at ho'
    rw [hr] at ho'
    cases ho'
    rw [← ho]
    exact ⟨rfl, rfl⟩
  refine ⟨⟨o', ho', key.1, key.2⟩, ?_⟩
  rw [key.2]
  by_cases hne : gperms = []
  · rw [if_pos hne]
    unfold knoxInit at ho'
    rw [hr] at ho'
    cases ho'
    obtain ⟨r', hr', -, -, -, -, -, -, -, -, -, -, -, h5⟩ := knoxGlobal_eq cdf hd delta tau E h.space h.time gperms h.gshuffles
    rw [hr] at hr'
    cases hr'
    rw [if_pos hne] at h5
    simp [h5]
  · rw [if_neg hne]
    obtain ⟨o2, p, e1, e2, -, e3, -⟩ := C75_permutations_relabel_time cdf hd delta tau E sball tball h.space h.time gperms
      h.gshuffles hne keep'
    rw [ho'] at e1
    cases e1
    rw [e2, e3]

/-- **C77.** For event `i` the permutation `p` is changed into a permutation `q` of all events that keeps `i` in
its place and otherwise only sends to `p i` the event that `p` sends to `i`; the permuted count of event `i` is
the number of other events close to it after the times are assigned according to `q`, and event `i` itself is
unchanged. -/
theorem C77_focal_event_kept [FloorRing K] {ι : Type} (default : ℕ → ι) (hg : ℤ → ℕ → ℕ → ℕ → K) (hd : IsSpaceDistance sdist)
    (h : LocalAnswers cdf sdist delta tau E sball tball gperms perms order) (hne : perms ≠ [])
    (ids : Option (List ι)) (hids : ∀ l, ids = some l → l.length = E.length) :
    ∃ o sims, knoxLocalInit default cdf hg true true (E.map Prod.fst) (E.map Prod.snd) sball tball gperms perms true ids
        order = .ok o ∧ o.sims = some sims ∧ sims.length = E.length ∧
      ∀ i < E.length, (sims.getD i []).length = perms.length ∧ ∀ k < perms.length, ∃ q,
        IsShuffle E.length q ∧ q.getD i 0 = i ∧
        (∀ j < E.length, j ≠ i → q.getD j 0 =
          if (perms.getD k []).getD j 0 = i then (perms.getD k []).getD i 0 else (perms.getD k []).getD j 0) ∧
        ev (retime q E) i = ev E i ∧
        (sims.getD i []).getD k 0 =
          ((others E.length i).filter fun j =>
            decide (NearBoth sdist delta tau (ev (retime q E) i) (ev (retime q E) j))).length := by
  obtain ⟨o, ho, -, -, -, -, h3, -⟩ := knoxLocalInit_eq default hg hd h true ids hids
  rw [if_pos rfl, if_neg hne] at h3
  refine ⟨o, _, ho, h3, by simp, ?_⟩
  intro i hi
  rw [getD_map_range _ hi]
  refine ⟨by simp [permutedCounts], fun k hk => ?_⟩
  have hq : perms.getD k [] ∈ perms := by simp [List.getD_eq_getElem?_getD, hk]
  have hs := focalPermutation_shuffle (h.shuffles _ hq) hi
  have hself := focalPermutation_self (h.shuffles _ hq) hi
  refine ⟨focalPermutation (perms.getD k []) i, hs, hself, ?_, ?_, ?_⟩
  · intro j hj hji
    have hl : (perms.getD k []).length = E.length := (h.shuffles _ hq).length
    have hj' : j < (perms.getD k []).length := by omega
    generalize perms.getD k [] = p at *
    simp only [focalPermutation, List.getD_eq_getElem?_getD, List.getElem?_set_ne (Ne.symm hji), List.getElem?_map,
      List.getElem?_eq_getElem hj', Option.map_some, Option.getD_some]
  · rw [retime_ev hs hi, hself]
  · have : (permutedCounts sdist delta tau E perms i).getD k 0
        = closeEvents sdist delta tau (retime (focalPermutation (perms.getD k []) i) E) i := by
      simp [permutedCounts, List.getD_eq_getElem?_getD, hk]
    rw [this, closeEvents, neighbourCount, length_retime hs]
    rfl

theorem mem_adjacency (t : List K) {n : ℕ} {R : ℕ → ℕ → Prop} (hR : ∀ i j, R i j ↔ R j i) {order : List (ℕ × ℕ)}
    (ho : ListsPairs n R order) (i j : ℕ) (w : Orientation) :
    (i, j, w) ∈ adjacency t order ↔ i < n ∧ j < n ∧ i ≠ j ∧ R i j ∧ w = orientation t i j := by
  simp only [adjacency, List.mem_map, List.mem_insertionSort, List.mem_flatMap, List.mem_cons, List.not_mem_nil, or_false,
    Prod.mk.injEq]
  constructor
  · rintro ⟨p, ⟨q, hq, hpq⟩, h1, h2, h3⟩
    obtain ⟨a, b, c⟩ := (ho.mem q.1 q.2).1 hq
    rcases hpq with rfl | rfl
    · subst h1; subst h2
      exact ⟨by omega, b, by omega, c, h3.symm⟩
    · simp only at h1 h2 h3
      subst h1; subst h2
      exact ⟨b, by omega, by omega, (hR _ _).1 c, h3.symm⟩
  · rintro ⟨h1, h2, h3, h4, rfl⟩
    refine ⟨(i, j), ?_, rfl, rfl, rfl⟩
    rcases Nat.lt_or_ge i j with hij | hij
    · exact ⟨(i, j), (ho.mem i j).2 ⟨hij, h2, h4⟩, Or.inl rfl⟩
    · exact ⟨(j, i), (ho.mem j i).2 ⟨by omega, h1, (hR _ _).1 h4⟩, Or.inr rfl⟩

theorem nodup_directions {n : ℕ} {R : ℕ → ℕ → Prop} {order : List (ℕ × ℕ)} (ho : ListsPairs n R order) :
    (order.flatMap fun p => [(p.1, p.2), (p.2, p.1)]).Nodup := by
  rw [List.nodup_flatMap]
  constructor
  · rintro ⟨a, b⟩ hp
    have := (ho.mem a b).1 hp
    simp only [List.nodup_cons, List.mem_cons, List.not_mem_nil, or_false, Prod.mk.injEq, List.nodup_nil,
      not_false_eq_true, and_true]
    omega
  · refine ho.nodup.imp_of_mem ?_
    rintro ⟨a, b⟩ ⟨c, d⟩ hp hq hne
    have h1 := (ho.mem a b).1 hp
    have h2 := (ho.mem c d).1 hq
    simp only [Function.onFun, List.disjoint_left, List.mem_cons, List.not_mem_nil, or_false, Prod.forall, Prod.mk.injEq]
    rintro x y (⟨rfl, rfl⟩ | ⟨rfl, rfl⟩) (⟨rfl, rfl⟩ | ⟨rfl, rfl⟩)
    · exact hne rfl
    · omega
    · omega
    · exact hne rfl

theorem nodup_adjacency (t : List K) {n : ℕ} {R : ℕ → ℕ → Prop} {order : List (ℕ × ℕ)} (ho : ListsPairs n R order) :
    ((adjacency t order).map fun r => (r.1, r.2.1)).Nodup := by
  have : ((adjacency t order).map fun r => (r.1, r.2.1))
      = (order.flatMap fun p => [(p.1, p.2), (p.2, p.1)]).insertionSort
        (fun a b => a.1 < b.1 ∨ (a.1 = b.1 ∧ a.2 ≤ b.2)) := by
    rw [adjacency, List.map_map]
    exact List.map_id _
  rw [this, (List.perm_insertionSort _ _).nodup_iff]
  exact nodup_directions ho

/-- **C78.** The adjacency list of `KnoxLocal` is the list of a table of rows `(i, j, orientation)` with the events
named by their labels. The table holds every ordered pair of different events that are close in space and time,
exactly once, and no other pair; the orientation is `lead` if `i` is earlier than `j`, `lag` if it is later and
`coincident` otherwise, so that the row of `(j, i)` has the opposite orientation; the rows are sorted. -/
theorem C78_adjacency_list [FloorRing K] {ι : Type} (default : ℕ → ι) (hg : ℤ → ℕ → ℕ → ℕ → K) (hd : IsSpaceDistance sdist)
    (h : LocalAnswers cdf sdist delta tau E sball tball gperms perms order)
    (keep : Bool) (ids : Option (List ι)) (hids : ∀ l, ids = some l → l.length = E.length) :
    ∃ o, ∃ table : List (ℕ × ℕ × Orientation),
      knoxLocalInit default cdf hg true true (E.map Prod.fst) (E.map Prod.snd) sball tball gperms perms keep ids
        order = .ok o ∧
      o.adjlist = table.map (fun row => (labelOf default ids row.1, labelOf default ids row.2.1, row.2.2)) ∧
      (table.map fun row => (row.1, row.2.1)).Nodup ∧
      (table.map fun row => (row.1, row.2.1)).Pairwise (fun a b => a.1 < b.1 ∨ (a.1 = b.1 ∧ a.2 < b.2)) ∧
      (∀ i j w, (i, j, w) ∈ table ↔ i < E.length ∧ j < E.length ∧ i ≠ j ∧ NearBoth sdist delta tau (ev E i) (ev E j) ∧
        ((w = .lead ∧ (ev E i).2 < (ev E j).2) ∨ (w = .lag ∧ (ev E j).2 < (ev E i).2) ∨
          (w = .coincident ∧ (ev E i).2 = (ev E j).2))) ∧
      (∀ i j, (i, j, .lead) ∈ table ↔ (j, i, .lag) ∈ table) ∧
      (∀ i j, (i, j, .coincident) ∈ table ↔ (j, i, .coincident) ∈ table) := by
  obtain ⟨o, ho, -, -, -, -, -, -, -, h8⟩ := knoxLocalInit_eq default hg hd h keep ids hids
  have hL := h.listsPairs hd
  have hm : ∀ i j w, (i, j, w) ∈ adjacency (E.map Prod.snd) order ↔
      i < E.length ∧ j < E.length ∧ i ≠ j ∧ NearBoth sdist delta tau (ev E i) (ev E j) ∧
        ((w = .lead ∧ (ev E i).2 < (ev E j).2) ∨ (w = .lag ∧ (ev E j).2 < (ev E i).2) ∨
          (w = .coincident ∧ (ev E i).2 = (ev E j).2)) := by
    intro i j w
    rw [mem_adjacency _ (fun i j => nearBoth_symm hd delta tau _ _) hL]
    refine and_congr_right fun hi => and_congr_right fun hj => and_congr_right fun _ => and_congr_right fun _ => ?_
    have ti : (E.map Prod.snd).getD i 0 = (ev E i).2 := by simp [ev, List.getD_eq_getElem?_getD, hi]
    have tj : (E.map Prod.snd).getD j 0 = (ev E j).2 := by simp [ev, List.getD_eq_getElem?_getD, hj]
    rw [orientation, ti, tj]
    rcases lt_trichotomy (ev E i).2 (ev E j).2 with hlt | heq | hgt
    · simp [hlt, hlt.not_gt, hlt.ne]
    · simp [heq]
    · simp [hgt, hgt.not_gt, hgt.ne']
  refine ⟨o, _, ho, h8, nodup_adjacency _ hL, ?_, hm, ?_, ?_⟩
  · have hn := nodup_adjacency (E.map Prod.snd) hL
    have hs : ((adjacency (E.map Prod.snd) order).map fun r => (r.1, r.2.1)).Pairwise
        (fun a b => a.1 < b.1 ∨ (a.1 = b.1 ∧ a.2 ≤ b.2)) := by
      have e : ((adjacency (E.map Prod.snd) order).map fun r => (r.1, r.2.1))
          = (order.flatMap fun p => [(p.1, p.2), (p.2, p.1)]).insertionSort
            (fun a b => a.1 < b.1 ∨ (a.1 = b.1 ∧ a.2 ≤ b.2)) := by
        rw [adjacency, List.map_map]
        exact List.map_id _
      rw [e]
      have : Std.Total (fun a b : ℕ × ℕ => a.1 < b.1 ∨ (a.1 = b.1 ∧ a.2 ≤ b.2)) := ⟨fun a b => by omega⟩
      have : IsTrans (ℕ × ℕ) (fun a b => a.1 < b.1 ∨ (a.1 = b.1 ∧ a.2 ≤ b.2)) := ⟨fun a b c h1 h2 => by omega⟩
      exact List.pairwise_insertionSort _ _
    refine (hs.and hn).imp ?_
    rintro ⟨a, b⟩ ⟨c, d⟩ ⟨h1, h2⟩
    simp only [ne_eq, Prod.mk.injEq, not_and] at *
    rcases h1 with h1 | ⟨h1, h3⟩
    · exact Or.inl h1
    · exact Or.inr ⟨h1, lt_of_le_of_ne h3 (h2 h1)⟩
  · intro i j
    rw [hm, hm, nearBoth_symm hd delta tau (ev E i)]
    simp only [reduceCtorEq, false_and, true_and, or_false, false_or]
    tauto
  · intro i j
    rw [hm, hm, nearBoth_symm hd delta tau (ev E i), @eq_comm _ (ev E i).2]
    simp only [reduceCtorEq, false_and, true_and, false_or]
    tauto

/-- **C80, simulated.** Every simulated p-value is one more than the number of permuted counts that are at least
the observed count over one more than the number of permutations; it is between `1 / (P + 1)` and 1, and it is
1 for an event with no other event close in space and time. -/
theorem C80_simulated_pvalues [FloorRing K] {ι : Type} (default : ℕ → ι) (hg : ℤ → ℕ → ℕ → ℕ → K) (hd : IsSpaceDistance sdist)
    (h : LocalAnswers cdf sdist delta tau E sball tball gperms perms order) (hne : perms ≠ [])
    (ids : Option (List ι)) (hids : ∀ l, ids = some l → l.length = E.length) :
    ∃ o sims ps, knoxLocalInit default cdf hg true true (E.map Prod.fst) (E.map Prod.snd) sball tball gperms perms true ids
        order = .ok o ∧ o.sims = some sims ∧ o.p_sims = some ps ∧ ps.length = E.length ∧
      ∀ i < E.length, ps.getD i 0 = pseudoP K (o.nsti.getD i 0) (sims.getD i []) ∧
        1 / ((perms.length : K) + 1) ≤ ps.getD i 0 ∧ ps.getD i 0 ≤ 1 ∧
        ((∀ j < E.length, j ≠ i → ¬ NearBoth sdist delta tau (ev E i) (ev E j)) → ps.getD i 0 = 1) := by
  obtain ⟨o, ho, -, -, -, h2, h3, h4, -⟩ := knoxLocalInit_eq default hg hd h true ids hids
  rw [if_pos rfl, if_neg hne] at h3
  rw [if_neg hne] at h4
  refine ⟨o, _, _, ho, h3, h4, by simp, ?_⟩
  intro i hi
  rw [getD_map_range _ hi, h2, getD_map_range _ hi, getD_map_range _ hi]
  have hlen : (permutedCounts sdist delta tau E perms i).length = perms.length := by simp [permutedCounts]
  have hP : (0 : K) < (perms.length : K) + 1 := by positivity
  refine ⟨?_, ?_, ?_, ?_⟩
  · rw [pseudoP, hlen, List.countP_eq_length_filter, add_comm]
  · rw [div_le_div_iff_of_pos_right hP]
    linarith [(Nat.cast_nonneg _ : (0 : K) ≤ ((permutedCounts sdist delta tau E perms i).countP
      fun c => decide (closeEvents sdist delta tau E i ≤ c) : ℕ))]
  · rw [div_le_one hP]
    have := List.countP_le_length (p := fun c => decide (closeEvents sdist delta tau E i ≤ c))
      (l := permutedCounts sdist delta tau E perms i)
    rw [hlen] at this
    exact add_le_add_left (Nat.cast_le.2 this) 1
  · intro hno
    have hz : closeEvents sdist delta tau E i = 0 := by
      rw [closeEvents, neighbourCount, List.length_eq_zero_iff, List.filter_eq_nil_iff]
      intro j hj
      rw [mem_others] at hj
      simpa [ev] using hno j (by tauto) (by tauto)
    have : ((permutedCounts sdist delta tau E perms i).countP fun c => decide (closeEvents sdist delta tau E i ≤ c))
        = perms.length := by
      rw [hz, ← hlen, List.countP_eq_length]
      simp
    rw [this, div_self hP.ne']

/-- **C80, analytical.** If the hypergeometric distribution function of the library has values in `[0, 1]` and is zero
below zero, every analytical p-value is in `[0, 1]` and it is 1 for an event with no other event close in space
and time. -/
theorem C80_analytical_pvalues [FloorRing K] {ι : Type} (default : ℕ → ι) (hg : ℤ → ℕ → ℕ → ℕ → K) (hd : IsSpaceDistance sdist)
    (hg01 : ∀ x a b c, 0 ≤ hg x a b c ∧ hg x a b c ≤ 1) (hgneg : ∀ x < 0, ∀ a b c, hg x a b c = 0)
    (h : LocalAnswers cdf sdist delta tau E sball tball gperms perms order) (keep : Bool)
    (ids : Option (List ι)) (hids : ∀ l, ids = some l → l.length = E.length) :
    ∃ o, knoxLocalInit default cdf hg true true (E.map Prod.fst) (E.map Prod.snd) sball tball gperms perms keep ids
        order = .ok o ∧ o.p_hypergeom.length = E.length ∧
      ∀ i < E.length, 0 ≤ o.p_hypergeom.getD i 0 ∧ o.p_hypergeom.getD i 0 ≤ 1 ∧
        ((∀ j < E.length, j ≠ i → ¬ NearBoth sdist delta tau (ev E i) (ev E j)) → o.p_hypergeom.getD i 0 = 1) := by
  obtain ⟨o, ho, -, -, -, -, -, -, h5, -⟩ := knoxLocalInit_eq default hg hd h keep ids hids
  refine ⟨o, ho, by simp [h5], ?_⟩
  intro i hi
  rw [h5, getD_map_range _ hi]
  have hn : (0 : K) < (E.length : K) := by exact_mod_cast (by omega : 0 < E.length)
  have hbound : ∀ (l : List ℕ) (f : ℕ → K), (∀ j, 0 ≤ f j ∧ f j ≤ 1) → 0 ≤ (l.map f).sum ∧ (l.map f).sum ≤ l.length := by
    intro l f hf
    induction l with
    | nil => simp
    | cons a l ih =>
      have := hf a
      simp only [List.map_cons, List.sum_cons, List.length_cons, Nat.cast_add, Nat.cast_one]
      constructor <;> linarith [ih.1, ih.2, this.1, this.2]
  have hb := hbound (List.range E.length) (fun j => hg ((closeEvents sdist delta tau E i : ℤ) - 1) (E.length - 1)
          (neighbourCount (NearTime tau) E ((0, 0), 0) j) (neighbourCount (NearSpace sdist delta) E ((0, 0), 0) i))
          (fun j => hg01 _ _ _ _)
  rw [List.length_range] at hb
  refine ⟨?_, ?_, ?_⟩
  · rw [sub_nonneg, div_le_one hn]
    exact hb.2
  · rw [sub_le_self_iff]
    exact div_nonneg hb.1 hn.le
  · intro hno
    have hz : closeEvents sdist delta tau E i = 0 := by
      rw [closeEvents, neighbourCount, List.length_eq_zero_iff, List.filter_eq_nil_iff]
      intro j hj
      rw [mem_others] at hj
      simpa [ev] using hno j (by tauto) (by tauto)
    have : ((List.range E.length).map fun j => hg ((closeEvents sdist delta tau E i : ℤ) - 1) (E.length - 1)
          (neighbourCount (NearTime tau) E ((0, 0), 0) j) (neighbourCount (NearSpace sdist delta) E ((0, 0), 0) i)).sum
        = 0 := by
      refine List.sum_eq_zero ?_
      intro x hx
      obtain ⟨j, -, rfl⟩ := List.mem_map.1 hx
      exact hgneg _ (by rw [hz]; decide) _ _ _
    rw [this]
    simp

end

/-! ### A concrete case -/

/-- Non-vacuity of C76, C77, C78 and C80: the answers of the libraries for the four example events, the only pair close
in space and time being `(0, 1)`. -/
theorem someEvents_local : LocalAnswers (fun _ _ => XF.fin (1/2)) lineDist 1 2 someEvents
    [[0, 1], [1, 0, 2], [2, 1], [3]] [[0, 1, 3], [3, 1, 0], [2], [0, 1, 3]] [[1, 0, 3, 2]] [[0, 2, 1, 3]] [(0, 1)] where
  space := someEvents_space
  time := someEvents_time
  gshuffles := by decide +kernel
  shuffles := by decide +kernel
  nodup := by decide
  lists := by
    intro g hg p
    have h : (someResults.map fun r => r.st_pairs) = .ok {(0, 1)} := by decide +kernel
    rw [someResults, hg] at h
    have h' : g.st_pairs = {(0, 1)} := by simpa [Except.map] using h
    rw [h']
    simp

/-- The local results for these answers. -/
def someLocal : Py (KnoxLocalObject ℚ ℕ) :=
  knoxLocalInit id (fun _ _ => XF.fin (1/2)) (fun x _ _ _ => if x < 0 then 0 else 1/2) true true
    (someEvents.map Prod.fst) (someEvents.map Prod.snd) [[0, 1], [1, 0, 2], [2, 1], [3]]
    [[0, 1, 3], [3, 1, 0], [2], [0, 1, 3]] [[1, 0, 3, 2]] [[0, 2, 1, 3]] true none [(0, 1)]

example : someLocal.map (fun o => (o.nsti, o.p_sims)) = .ok ([1, 1, 0, 0], some [1/2, 1, 1, 1]) ∧
    someLocal.map (fun o => (o.sims, o.p_hypergeom)) = .ok (some [[0], [1], [0], [0]], [1/2, 1/2, 1, 1]) ∧
    someLocal.map (fun o => o.adjlist) = .ok [(0, 1, .lead), (1, 0, .lag)] := by
  refine ⟨by decide +kernel, by decide +kernel, by decide +kernel⟩

end Pointpats.Props
