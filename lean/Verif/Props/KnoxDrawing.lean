import Verif.Model.KnoxPlot
import Verif.Props.HotspotPlot

/-!
# Properties C111 and C112: the lines and the colours that `KnoxLocal.plot` and `KnoxLocal.explore` draw
-/

set_option linter.unusedSectionVars false

namespace Pointpats.Props

open Spacetime Spec

variable {K : Type} [Field K] [LinearOrder K] [IsStrictOrderedRing K] {ι : Type} [LinearOrder ι]
  {cdf : K → XF K → XF K} {sdist : K × K → K × K → K} {delta tau : K} {E : List (Event K)}
  {sball tball gperms perms : List (List ℕ)} {order : List (ℕ × ℕ)}

/-- The events that belong to a hot spot, in the order of the events: the significant ones and those close in space and
time to a significant one. -/
def hotEvents (sdist : K × K → K × K → K) (delta tau : K) (E : List (Event K)) (p : ℕ → K) (crit : K) : List ℕ :=
  (List.range E.length).filter fun i => decide (p i ≤ crit) || (others E.length i).any fun j =>
    decide (NearBoth sdist delta tau (ev E i) (ev E j)) && decide (p j ≤ crit)

theorem filter_label_eq {n : ℕ} (lab : ℕ → ι) (f : ℕ → K × K) (hlab : ∀ i < n, ∀ j < n, lab i = lab j → i = j)
    {i : ℕ} (hi : i < n) :
    (((List.range n).map fun j => (lab j, f j)).filter fun r => decide (r.1 = lab i)).map Prod.snd = [f i] := by
  rw [List.filter_map, List.map_map]
  have h1 : (List.range n).filter ((fun r : ι × (K × K) => decide (r.1 = lab i)) ∘ fun j => (lab j, f j)) = [i] := by
    have h2 : (List.range n).filter ((fun r : ι × (K × K) => decide (r.1 = lab i)) ∘ fun j => (lab j, f j))
        = (List.range n).filter fun j => decide (j = i) := by
      refine List.filter_congr fun j hj => ?_
      have hj' := List.mem_range.1 hj
      simp only [Function.comp_apply, decide_eq_decide]
      exact ⟨fun h => hlab j hj' i hi h, fun h => by rw [h]⟩
    rw [h2]
    refine List.perm_singleton.1 ?_
    refine (List.perm_ext_iff_of_nodup (List.nodup_range.filter _) (List.nodup_singleton i)).2 fun a => ?_
    simp only [List.mem_filter, List.mem_range, decide_eq_true_eq, List.mem_singleton]
    constructor
    · exact fun h => h.2
    · rintro rfl
      exact ⟨hi, rfl⟩
  rw [h1]
  rfl

theorem locGeometry_labels {n : ℕ} (lab : ℕ → ι) (f : ℕ → K × K) (hlab : ∀ i < n, ∀ j < n, lab i = lab j → i = j)
    (l : List ℕ) (hl : ∀ i ∈ l, i < n) :
    locGeometry ((List.range n).map fun j => (lab j, f j)) (l.map lab) = l.map f := by
  induction l with
  | nil => rfl
  | cons a l ih =>
    have ih' := ih fun i hi => hl i (List.mem_cons_of_mem _ hi)
    have h0 := filter_label_eq lab f hlab (hl a List.mem_cons_self)
    unfold locGeometry at ih' ⊢
    rw [List.map_cons, List.flatMap_cons, h0, ih']
    rfl

/-- **C111, partial.** With `plot_edges`, for a critical value below 1 and different labels, if some event is
significant, `KnoxLocal.plot` and `explore` draw exactly one line for every event of a hot spot, in the order of the
events: from the location of the event to the location of another event that is close to it in space and time, one of
the two being significant.

Missing for the full property: the other events that are close to it in space and time are not connected to it
(`C111_missing_line_refuted`). -/
theorem C111_lines_partial [FloorRing K] (default : ℕ → ι) (hg : ℤ → ℕ → ℕ → ℕ → K) (hd : IsSpaceDistance sdist)
    (hgneg : ∀ x < 0, ∀ a b c, hg x a b c = 0)
    (h : LocalAnswers cdf sdist delta tau E sball tball gperms perms order) (keep : Bool)
    (ids : Option (List ι)) (hids : ∀ l, ids = some l → l.length = E.length)
    (hlab : ∀ i < E.length, ∀ j < E.length, labelOf default ids i = labelOf default ids j → i = j)
    (o : KnoxLocalObject K ι)
    (ho : knoxLocalInit default cdf hg true true (E.map Prod.fst) (E.map Prod.snd) sball tball gperms perms keep ids order
      = .ok o)
    (inference : Inference) (hinf : inference ≠ .other) (crit : K) (hcrit : crit < 1)
    (hne : ∃ i < E.length, (askedPvalues o inference).getD i 0 ≤ crit) (labels : List ℕ)
    (hcomp : AnswersComponents o crit (askedPvalues o inference) labels) :
    ∃ other : ℕ → ℕ,
      plotEdges o (E.map Prod.fst) crit inference labels = .ok (some
        ((hotEvents sdist delta tau E (fun i => (askedPvalues o inference).getD i 0) crit).map fun i =>
          ((ev E i).1, (ev E (other i)).1))) ∧
      ∀ i ∈ hotEvents sdist delta tau E (fun i => (askedPvalues o inference).getD i 0) crit,
        other i < E.length ∧ other i ≠ i ∧ NearBoth sdist delta tau (ev E i) (ev E (other i)) ∧
        ((askedPvalues o inference).getD i 0 ≤ crit ∨ (askedPvalues o inference).getD (other i) 0 ≤ crit) := by
  classical
  obtain ⟨rows, hrows, hfocal, hrow, -⟩ := C79_hotspots_partial default hg hd hgneg h keep ids hids hlab o ho inference
    hinf crit hcrit hne true labels hcomp
  obtain ⟨o', ho', hid, -⟩ := knoxLocalInit_eq default hg hd h keep ids hids
  rw [ho] at ho'
  obtain rfl : o = o' := by simpa using ho'
  set H := hotEvents sdist delta tau E (fun i => (askedPvalues o inference).getD i 0) crit with hHdef
  have hH : rows.map HotRow.focal = H.map (labelOf default ids) := by
    rw [hfocal, hHdef, hotEvents]
    simp
  have hHlt : ∀ i ∈ H, i < E.length := by
    intro i hi
    rw [hHdef, hotEvents, List.mem_filter] at hi
    exact List.mem_range.1 hi.1
  have hHnd : H.Nodup := by
    rw [hHdef, hotEvents]
    exact List.nodup_range.filter _
  have hlen : rows.length = H.length := by simpa using congrArg List.length hH
  -- the neighbour of the row at every position
  have hex : ∀ k (hk : k < H.length), ∃ j < E.length, j ≠ H[k] ∧ (rows[k]'(hlen ▸ hk)).neighbor = labelOf default ids j ∧
      NearBoth sdist delta tau (ev E H[k]) (ev E j) ∧
      ((askedPvalues o inference).getD H[k] 0 ≤ crit ∨ (askedPvalues o inference).getD j 0 ≤ crit) := by
    intro k hk
    have hk' : k < rows.length := hlen ▸ hk
    obtain ⟨i, hi, e1, -, -, j, hj, k1, k2, k3, k4⟩ := hrow rows[k] (List.getElem_mem hk')
    have e2 : rows[k].focal = labelOf default ids H[k] := by
      have := congrArg (fun l => l[k]?) hH
      simpa [hk, hk'] using this
    obtain rfl := hlab i hi _ (hHlt _ (List.getElem_mem hk)) (e1.symm.trans e2)
    exact ⟨j, hj, k1, k2, k3, k4.1⟩
  choose g hg1 hg2 hg3 hg4 hg5 using hex
  let other : ℕ → ℕ := fun i => if hi : H.idxOf i < H.length then g (H.idxOf i) hi else 0
  have hother : ∀ k (hk : k < H.length), other H[k] = g k hk := by
    intro k hk
    have : H.idxOf H[k] = k := hHnd.idxOf_getElem k hk
    simp only [other, this, hk, dif_pos]
  have hnb : rows.map HotRow.neighbor = (H.map other).map (labelOf default ids) := by
    apply List.ext_getElem
    · simpa using hlen
    · intro k h1 h2
      have hk : k < H.length := by simpa using h2
      simp only [List.getElem_map]
      rw [hother k hk, hg3 k hk]
  have hgeo : gdfGeometry o (E.map Prod.fst) = (List.range E.length).map fun i => (labelOf default ids i, (ev E i).1) := by
    have hs : E.map Prod.fst = (List.range E.length).map fun i => (ev E i).1 := by
      apply List.ext_getElem
      · simp
      · intro i h1 h2
        have hi : i < E.length := by simpa using h1
        simp [ev, List.getD_eq_getElem?_getD, hi]
    rw [gdfGeometry, hid, hs, List.zip_map']
  have hotherlt : ∀ i ∈ H, other i < E.length ∧ other i ≠ i ∧ NearBoth sdist delta tau (ev E i) (ev E (other i)) ∧
      ((askedPvalues o inference).getD i 0 ≤ crit ∨ (askedPvalues o inference).getD (other i) 0 ≤ crit) := by
    intro i hi
    obtain ⟨k, hk, rfl⟩ := List.getElem_of_mem hi
    rw [hother k hk]
    exact ⟨hg1 k hk, hg2 k hk, hg4 k hk, hg5 k hk⟩
  refine ⟨other, ?_, hotherlt⟩
  have ho1 : locGeometry (gdfGeometry o (E.map Prod.fst)) (rows.map HotRow.focal) = H.map fun i => (ev E i).1 := by
    rw [hgeo, hH]
    exact locGeometry_labels _ (fun i => (ev E i).1) hlab H hHlt
  have ho2 : locGeometry (gdfGeometry o (E.map Prod.fst)) (rows.map HotRow.neighbor)
      = (H.map other).map fun i => (ev E i).1 := by
    rw [hgeo, hnb]
    refine locGeometry_labels _ (fun i => (ev E i).1) hlab _ fun i hi => ?_
    obtain ⟨a, ha, rfl⟩ := List.mem_map.1 hi
    exact (hotherlt a ha).1
  simp only [plotEdges, hrows, ho1, ho2]
  rw [if_neg (by simp)]
  congr 2
  rw [List.map_map, List.zip_map']
  rfl

/-- **C111, refuted.** In the chain of four significant events, events 2 and 3 are close in space and time, and no line
is drawn between them, in neither direction, however the clusters are numbered. -/
theorem C111_missing_line_refuted :
    LocalAnswers (fun _ _ => XF.fin (1/2)) lineDist 1 1 chainEvents chainBall chainBall [] [chainPerm]
      [(0, 2), (2, 3), (1, 3)] ∧
    knoxLocalInit id (fun _ _ => XF.fin (1/2)) (fun x _ _ _ => if x < 0 then 0 else 1/2) true true
      (chainEvents.map Prod.fst) (chainEvents.map Prod.snd) chainBall chainBall [] [chainPerm] false none
      [(0, 2), (2, 3), (1, 3)] = .ok chainObject ∧
    NearBoth lineDist 1 1 (ev chainEvents 2) (ev chainEvents 3) ∧
    (askedPvalues chainObject .permutation).getD 2 0 ≤ 1/2 ∧ (askedPvalues chainObject .permutation).getD 3 0 ≤ 1/2 ∧
    ∀ labels, AnswersComponents chainObject (1/2) (askedPvalues chainObject .permutation) labels →
      ∃ lines, plotEdges chainObject (chainEvents.map Prod.fst) (1/2) .permutation labels = .ok (some lines) ∧
        ((ev chainEvents 2).1, (ev chainEvents 3).1) ∉ lines ∧ ((ev chainEvents 3).1, (ev chainEvents 2).1) ∉ lines := by
  refine ⟨chain_local, chainObject_eq, by decide +kernel, by decide +kernel, by decide +kernel, ?_⟩
  intro labels hl
  obtain ⟨hlen, -⟩ := hl _ chain_table
  obtain ⟨a, b, c, d, rfl⟩ : ∃ a b c d, labels = [a, b, c, d] := by
    match labels, hlen with
    | [a, b, c, d], _ => exact ⟨a, b, c, d, rfl⟩
  have hcol : pvalueColumn chainObject .permutation = .ok (askedPvalues chainObject .permutation) := rfl
  have hhot : hotspots chainObject (1/2) .permutation true [a, b, c, d]
      = .ok (some [⟨0, 1/2, 0, 2, .lead, a⟩, ⟨1, 1/2, 3, 3, .lag, b⟩, ⟨2, 1/2, 1, 0, .lag, c⟩, ⟨3, 1/2, 2, 1, .lead, d⟩]) := by
    simp only [hotspots, hcol, chain_table]
    rfl
  refine ⟨[((0, 0), (1, 0)), ((3, 0), (2, 0)), ((1, 0), (0, 0)), ((2, 0), (3, 0))], ?_, by decide +kernel, by decide +kernel⟩
  simp only [plotEdges, hhot]
  have e1 : locGeometry (gdfGeometry chainObject (chainEvents.map Prod.fst)) ([0, 1, 2, 3] : List ℕ)
      = [(0, 0), (3, 0), (1, 0), (2, 0)] := by decide +kernel
  have e2 : locGeometry (gdfGeometry chainObject (chainEvents.map Prod.fst)) ([2, 3, 0, 1] : List ℕ)
      = [(1, 0), (2, 0), (0, 0), (3, 0)] := by decide +kernel
  simp only [List.map_cons, List.map_nil, e1, e2]
  rfl

/-! ### C112 -/

omit [Field K] [LinearOrder K] [IsStrictOrderedRing K] [LinearOrder ι] in
theorem mem_layer (g : List (ι × String)) (colour shown : String) (k : ι) (c : String) :
    (k, c) ∈ layer g colour shown ↔ (k, colour) ∈ g ∧ c = shown := by
  simp only [layer, List.mem_map, List.mem_filter, decide_eq_true_eq, Prod.mk.injEq, Prod.exists]
  constructor
  · rintro ⟨a, b, ⟨h1, rfl⟩, rfl, rfl⟩
    exact ⟨h1, rfl⟩
  · rintro ⟨h1, rfl⟩
    exact ⟨k, colour, ⟨h1, rfl⟩, rfl, rfl⟩

omit [Field K] [LinearOrder K] [IsStrictOrderedRing K] [LinearOrder ι] in
theorem mem_colourColumn (palette : Palette) (n : ℕ) (lab : ℕ → ι) (due : ℕ → Colour) (k : ι) (c : String) :
    (k, c) ∈ colourColumn palette ((List.range n).map fun i => (lab i, due i)) ↔
      ∃ i < n, k = lab i ∧ c = palette (due i) := by
  simp only [colourColumn, List.map_map, List.mem_map, List.mem_range, Function.comp_apply, Prod.mk.injEq]
  constructor
  · rintro ⟨i, hi, rfl, rfl⟩
    exact ⟨i, hi, rfl, rfl⟩
  · rintro ⟨i, hi, rfl, rfl⟩
    exact ⟨i, hi, rfl, rfl⟩

/-- **C112, the plot.** Whatever colours are asked for, also equal ones, `KnoxLocal.plot` draws every event, and only in
the colour asked for its kind: significant, close in space and time to a significant event, or neither. -/
theorem C112_plot_palette [FloorRing K] (default : ℕ → ι) (hg : ℤ → ℕ → ℕ → ℕ → K) (hd : IsSpaceDistance sdist)
    (h : LocalAnswers cdf sdist delta tau E sball tball gperms perms order) (keep : Bool)
    (ids : Option (List ι)) (hids : ∀ l, ids = some l → l.length = E.length)
    (hlab : ∀ i < E.length, ∀ j < E.length, labelOf default ids i = labelOf default ids j → i = j)
    (o : KnoxLocalObject K ι)
    (ho : knoxLocalInit default cdf hg true true (E.map Prod.fst) (E.map Prod.snd) sball tball gperms perms keep ids order
      = .ok o)
    (inference : Inference) (hinf : inference ≠ .other) (crit : K) (palette : Palette) :
    ∃ drawn, plotPoints o palette crit inference = .ok drawn ∧ ∀ k c, (k, c) ∈ drawn ↔
      ∃ i < E.length, k = labelOf default ids i ∧
        c = palette (dueColour sdist delta tau E (fun i => (askedPvalues o inference).getD i 0) crit i) := by
  have hc := C88_plot_colours default hg hd h keep ids hids hlab o ho inference hinf crit
  simp only [plotPoints, hc]
  refine ⟨_, rfl, fun k c => ?_⟩
  simp only [List.mem_append, mem_layer, mem_colourColumn]
  constructor
  · rintro ((⟨⟨i, hi, e1, e2⟩, rfl⟩ | ⟨⟨i, hi, e1, e2⟩, rfl⟩) | ⟨⟨i, hi, e1, e2⟩, rfl⟩) <;> exact ⟨i, hi, e1, e2⟩
  · rintro ⟨i, hi, rfl, rfl⟩
    cases hdue : dueColour sdist delta tau E (fun i => (askedPvalues o inference).getD i 0) crit i with
    | focal => exact Or.inr ⟨⟨i, hi, rfl, by rw [hdue]⟩, rfl⟩
    | neighbor => exact Or.inl (Or.inr ⟨⟨i, hi, rfl, by rw [hdue]⟩, rfl⟩)
    | nonsig => exact Or.inl (Or.inl ⟨⟨i, hi, rfl, by rw [hdue]⟩, rfl⟩)

/-- **C112, the map, partial.** `KnoxLocal.explore` draws what `plot` draws when the colour asked for events that are not
significant is grey. Missing: any other colour is ignored (`C112_explore_palette_refuted`). -/
theorem C112_explore_palette_partial [FloorRing K] (default : ℕ → ι) (hg : ℤ → ℕ → ℕ → ℕ → K) (hd : IsSpaceDistance sdist)
    (h : LocalAnswers cdf sdist delta tau E sball tball gperms perms order) (keep : Bool)
    (ids : Option (List ι)) (hids : ∀ l, ids = some l → l.length = E.length)
    (hlab : ∀ i < E.length, ∀ j < E.length, labelOf default ids i = labelOf default ids j → i = j)
    (o : KnoxLocalObject K ι)
    (ho : knoxLocalInit default cdf hg true true (E.map Prod.fst) (E.map Prod.snd) sball tball gperms perms keep ids order
      = .ok o)
    (inference : Inference) (hinf : inference ≠ .other) (crit : K) (palette : Palette) (hgrey : palette .nonsig = "grey") :
    ∃ drawn, explorePoints o palette crit inference = .ok drawn ∧ ∀ k c, (k, c) ∈ drawn ↔
      ∃ i < E.length, k = labelOf default ids i ∧
        c = palette (dueColour sdist delta tau E (fun i => (askedPvalues o inference).getD i 0) crit i) := by
  obtain ⟨drawn, h1, h2⟩ := C112_plot_palette default hg hd h keep ids hids hlab o ho inference hinf crit palette
  refine ⟨drawn, ?_, h2⟩
  rw [← h1]
  have hc := C88_plot_colours default hg hd h keep ids hids hlab o ho inference hinf crit
  simp only [plotPoints, explorePoints, hc]
  congr 1
  split_ifs with h0
  · rw [List.length_eq_zero_iff.1 h0, List.append_nil, hgrey]
  · rw [hgrey]

/-- **C112, the map, refuted.** Blue is asked for the events that are not significant; `explore` draws event 2, which is
not significant, in grey, and nothing in blue. -/
theorem C112_explore_palette_refuted :
    ∃ palette : Palette, palette .nonsig = "blue" ∧ ∃ drawn,
      (someLocal.bind fun o => explorePoints o palette (1/2) .permutation) = .ok drawn ∧
      (someLocal.bind fun o => plotColours o (1/2) .permutation)
        = .ok [(0, .focal), (1, .neighbor), (2, .nonsig), (3, .nonsig)] ∧
      (2, "grey") ∈ drawn ∧ ∀ k, (k, "blue") ∉ drawn := by
  refine ⟨fun c => match c with | .focal => "red" | .neighbor => "yellow" | .nonsig => "blue", rfl,
    [(2, "grey"), (3, "grey"), (1, "yellow"), (0, "red")], by decide +kernel, by decide +kernel, by decide, ?_⟩
  intro k hk
  simp at hk

/-- **C112, the neighbours shown by the map.** `explore` shows with every event, in the order of the events, exactly the
events close to it in space and time, and nothing (`none`) for an event without any. -/
theorem C112_explore_neighbors [FloorRing K] (default : ℕ → ι) (hg : ℤ → ℕ → ℕ → ℕ → K) (hd : IsSpaceDistance sdist)
    (h : LocalAnswers cdf sdist delta tau E sball tball gperms perms order) (keep : Bool)
    (ids : Option (List ι)) (hids : ∀ l, ids = some l → l.length = E.length)
    (hlab : ∀ i < E.length, ∀ j < E.length, labelOf default ids i = labelOf default ids j → i = j)
    (o : KnoxLocalObject K ι)
    (ho : knoxLocalInit default cdf hg true true (E.map Prod.fst) (E.map Prod.snd) sball tball gperms perms keep ids order
      = .ok o) :
    ∃ shown : ℕ → Option (List ι),
      exploreNeighbors o = (List.range E.length).map (fun i => (labelOf default ids i, shown i)) ∧
      ∀ i < E.length, ((shown i = none ↔ ∀ j < E.length, j ≠ i → ¬ NearBoth sdist delta tau (ev E i) (ev E j)) ∧
        ∀ l, shown i = some l → ∀ k, k ∈ l ↔
          ∃ j < E.length, j ≠ i ∧ k = labelOf default ids j ∧ NearBoth sdist delta tau (ev E i) (ev E j)) := by
  obtain ⟨o', ho', hid, -, -, -, -, -, -, hadj⟩ := knoxLocalInit_eq default hg hd h keep ids hids
  rw [ho] at ho'
  obtain rfl : o = o' := by simpa using ho'
  have hL := h.listsPairs hd
  let nb : ℕ → List ι := fun i => (o.adjlist.filter fun row => decide (row.1 = labelOf default ids i)).map fun row => row.2.1
  have hnb : ∀ i < E.length, ∀ k, k ∈ nb i ↔
      ∃ j < E.length, j ≠ i ∧ k = labelOf default ids j ∧ NearBoth sdist delta tau (ev E i) (ev E j) := by
    intro i hi k
    simp only [nb, hadj, List.mem_map, List.mem_filter, decide_eq_true_eq]
    constructor
    · rintro ⟨row, ⟨⟨⟨a, b, w⟩, hab, rfl⟩, h1⟩, rfl⟩
      obtain ⟨ha, hb, hne, hn, -⟩ := (mem_adjacency _ (fun i j => nearBoth_symm hd delta tau _ _) hL a b w).1 hab
      obtain rfl := hlab a ha i hi h1
      exact ⟨b, hb, hne.symm, rfl, hn⟩
    · rintro ⟨j, hj, hji, rfl, hn⟩
      exact ⟨_, ⟨⟨(i, j, _), (mem_adjacency _ (fun i j => nearBoth_symm hd delta tau _ _) hL i j _).2
        ⟨hi, hj, hji.symm, hn, rfl⟩, rfl⟩, rfl⟩, rfl⟩
  refine ⟨fun i => if nb i = [] then none else some (nb i), ?_, ?_⟩
  · rw [exploreNeighbors, hid, List.map_map]
    rfl
  · intro i hi
    constructor
    · constructor
      · intro h0 j hj hji hn
        have hm := (hnb i hi (labelOf default ids j)).2 ⟨j, hj, hji, rfl, hn⟩
        by_cases he : nb i = []
        · rw [he] at hm
          simp at hm
        · simp [he] at h0
      · intro hno
        have he : nb i = [] := by
          rw [List.eq_nil_iff_forall_not_mem]
          intro k hk
          obtain ⟨j, hj, hji, -, hn⟩ := (hnb i hi k).1 hk
          exact hno j hj hji hn
        simp [he]
    · intro l hl k
      by_cases he : nb i = []
      · simp [he] at hl
      · simp only [he, if_false, Option.some.injEq] at hl
        rw [← hl]
        exact hnb i hi k

/-- Non-vacuity of C111 and C112: the hypotheses hold for the chain (`chain_local`, `chainObject_eq`), and there are
lines and neighbours to show. -/
example : (∃ i < chainEvents.length, (askedPvalues chainObject .permutation).getD i 0 ≤ 1/2) ∧
    plotEdges chainObject (chainEvents.map Prod.fst) (1/2) .permutation [0, 1, 0, 1]
      = .ok (some [((0, 0), (1, 0)), ((3, 0), (2, 0)), ((1, 0), (0, 0)), ((2, 0), (3, 0))]) ∧
    exploreNeighbors chainObject = [(0, some [2]), (1, some [3]), (2, some [0, 3]), (3, some [1, 2]), (4, none),
      (5, none), (6, none), (7, none)] := by
  refine ⟨by decide +kernel, by decide +kernel, by decide +kernel⟩

end Pointpats.Props
