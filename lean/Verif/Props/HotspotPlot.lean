import Verif.Props.Hotspots

/-!
# Property C88: the colours of the local Knox plot
-/

set_option linter.unusedSectionVars false

namespace Pointpats.Props

open Spacetime Spec

variable {K : Type} [Field K] [LinearOrder K] [IsStrictOrderedRing K] {ι : Type} [LinearOrder ι]
  {cdf : K → XF K → XF K} {sdist : K × K → K × K → K} {delta tau : K} {E : List (Event K)}
  {sball tball gperms perms : List (List ℕ)} {order : List (ℕ × ℕ)}

/-- The colour that an event should have. -/
noncomputable def dueColour (sdist : K × K → K × K → K) (delta tau : K) (E : List (Event K)) (p : ℕ → K) (crit : K)
    (i : ℕ) : Colour := by
  classical
  exact
    if p i ≤ crit then .focal
    else if ∃ j < E.length, j ≠ i ∧ p j ≤ crit ∧ NearBoth sdist delta tau (ev E i) (ev E j) then .neighbor
    else .nonsig

/-- **C88.** The plot of `KnoxLocal` shows every event once, in the order of the events: in the focal colour if its
p-value (simulated or analytical, as asked) is at most `crit`, else in the neighbour colour if it is close in space and
time to another event whose p-value is at most `crit`, else in the colour of events that are not significant. -/
theorem C88_plot_colours [FloorRing K] (default : ℕ → ι) (hg : ℤ → ℕ → ℕ → ℕ → K) (hd : IsSpaceDistance sdist)
    (h : LocalAnswers cdf sdist delta tau E sball tball gperms perms order) (keep : Bool)
    (ids : Option (List ι)) (hids : ∀ l, ids = some l → l.length = E.length)
    (hlab : ∀ i < E.length, ∀ j < E.length, labelOf default ids i = labelOf default ids j → i = j)
    (o : KnoxLocalObject K ι)
    (ho : knoxLocalInit default cdf hg true true (E.map Prod.fst) (E.map Prod.snd) sball tball gperms perms keep ids order
      = .ok o)
    (inference : Inference) (hinf : inference ≠ .other) (crit : K) :
    plotColours o crit inference = .ok ((List.range E.length).map fun i =>
      (labelOf default ids i, dueColour sdist delta tau E (fun i => (askedPvalues o inference).getD i 0) crit i)) := by
  classical
  obtain ⟨o', ho', hid, htm, -, -, -, h4, h5, hadj⟩ := knoxLocalInit_eq default hg hd h keep ids hids
  rw [ho] at ho'
  obtain rfl : o = o' := by simpa using ho'
  have hL := h.listsPairs hd
  obtain ⟨P, hP⟩ : ∃ P : ℕ → K, askedPvalues o inference = (List.range E.length).map P := by
    unfold askedPvalues
    by_cases hi : inference = .permutation
    · rw [if_pos hi, h4]
      by_cases hp : perms = []
      · rw [if_pos hp]; exact ⟨_, h5⟩
      · rw [if_neg hp]; exact ⟨_, rfl⟩
    · rw [if_neg hi]; exact ⟨_, h5⟩
  have hPg : ∀ i < E.length, (askedPvalues o inference).getD i 0 = P i := by
    intro i hi
    rw [hP, getD_map_range _ hi]
  have hcol : pvalueColumn o inference = .ok (askedPvalues o inference) := by
    cases inference with
    | permutation => rfl
    | analytic => rfl
    | other => exact absurd rfl hinf
  have htimes : E.map Prod.snd = (List.range E.length).map fun i => (ev E i).2 := by
    apply List.ext_getElem
    · simp
    · intro i h1 h2
      have hi : i < E.length := by simpa using h1
      simp [ev, List.getD_eq_getElem?_getD, hi]
  have hrows : gdfRows o (askedPvalues o inference)
      = (List.range E.length).map fun i => (labelOf default ids i, P i, (ev E i).2) := by
    rw [gdfRows, hid, hP, htm, htimes, zip_three]
  simp only [plotColours, hcol, hrows]
  congr 1
  simp only [List.map_map]
  refine List.map_congr_left fun i hi => ?_
  have hi' := List.mem_range.1 hi
  have hnb : (labelOf default ids i ∈ ((o.adjlist.filter fun row => decide (row.1 ∈ ((((List.range E.length).map fun i =>
        (labelOf default ids i, P i, (ev E i).2)).filter fun r => decide (r.2.1 ≤ crit)).map Prod.fst))).map
          fun row => row.2.1)) ↔
      ∃ j < E.length, j ≠ i ∧ P j ≤ crit ∧ NearBoth sdist delta tau (ev E i) (ev E j) := by
    rw [hadj]
    constructor
    · intro hm
      obtain ⟨row, hrow, he⟩ := List.mem_map.1 hm
      obtain ⟨hr, hmask⟩ := List.mem_filter.1 hrow
      obtain ⟨⟨a, b, w⟩, hab, rfl⟩ := List.mem_map.1 hr
      obtain ⟨h1, h2, h3, hn, -⟩ := (mem_adjacency _ (fun i j => nearBoth_symm hd delta tau _ _) hL a b w).1 hab
      obtain rfl := hlab b h2 i hi' he
      simp only [decide_eq_true_eq, List.mem_map, List.mem_filter, List.mem_range] at hmask
      obtain ⟨x, ⟨⟨c, hc, rfl⟩, hp⟩, hx⟩ := hmask
      obtain rfl := hlab c hc a h1 hx
      exact ⟨c, hc, h3, hp, (nearBoth_symm hd delta tau _ _).1 hn⟩
    · rintro ⟨j, hj, hji, hp, hn⟩
      refine List.mem_map.2 ⟨(labelOf default ids j, labelOf default ids i, orientation (E.map Prod.snd) j i), ?_, rfl⟩
      refine List.mem_filter.2 ⟨List.mem_map.2 ⟨(j, i, _), (mem_adjacency _ (fun i j => nearBoth_symm hd delta tau _ _) hL j i _).2
        ⟨hj, hi', hji, (nearBoth_symm hd delta tau _ _).1 hn, rfl⟩, rfl⟩, ?_⟩
      simp only [decide_eq_true_eq, List.mem_map, List.mem_filter, List.mem_range]
      exact ⟨_, ⟨⟨j, hj, rfl⟩, hp⟩, rfl⟩
  have hex : (∃ j < E.length, j ≠ i ∧ (askedPvalues o inference).getD j 0 ≤ crit ∧
        NearBoth sdist delta tau (ev E i) (ev E j)) ↔
      ∃ j < E.length, j ≠ i ∧ P j ≤ crit ∧ NearBoth sdist delta tau (ev E i) (ev E j) := by
    refine exists_congr fun j => and_congr_right fun hj => ?_
    rw [hPg j hj]
  simp only [Function.comp_apply]
  unfold dueColour
  by_cases hp : P i ≤ crit
  · by_cases hc : ∃ j < E.length, j ≠ i ∧ P j ≤ crit ∧ NearBoth sdist delta tau (ev E i) (ev E j)
    · rw [if_pos (hnb.2 hc)]
      simp only [hPg i hi', if_pos hp]
    · rw [if_neg (mt hnb.1 hc)]
      simp only [hPg i hi', if_pos hp]
  · by_cases hc : ∃ j < E.length, j ≠ i ∧ P j ≤ crit ∧ NearBoth sdist delta tau (ev E i) (ev E j)
    · rw [if_pos (hnb.2 hc)]
      simp only [hPg i hi', if_neg hp, if_pos (hex.2 hc)]
    · rw [if_neg (mt hnb.1 hc)]
      simp only [hPg i hi', if_neg hp, if_neg (mt hex.1 hc)]

/-- **C88, other names.** With any other value of `inference` the plot is refused with a `ValueError`. -/
theorem C88_other_inference (o : KnoxLocalObject K ι) (crit : K) : plotColours o crit .other = .error .valueError := rfl

/-- Non-vacuity of C88: the hypotheses hold for four events (`someEvents_local`), and event 0 is significant at 1/2, event
1 is its neighbour. -/
example : (someLocal.bind fun o => plotColours o (1/2) .permutation)
    = .ok [(0, .focal), (1, .neighbor), (2, .nonsig), (3, .nonsig)] := by
  decide +kernel

end Pointpats.Props
