import Verif.Spec.PatternLabels

/-!
# C156: which event a mark belongs to
-/

set_option linter.unusedSectionVars false

namespace Pointpats.Props

open Spec PointPattern

variable {K : Type} [Field K] [LinearOrder K]

private theorem markedInOrder_zipWith (s : LRows K) (values : List (XF K)) (h : values.length = s.length) :
    MarkedInOrder s values (List.zipWith (fun r v => (r.1, r.2 ++ [v])) s values) := by
  refine ⟨by simp [h], h, fun j r v hr hv => ?_⟩
  rw [List.getElem?_zipWith, hr, hv]

/-- **C156, lists and arrays.** For every pattern, however it was made and however its rows are labelled, the `j`-th event gets the
`j`-th value of a mark that is a list or an array; a mark of another length is refused. A single value is given to all events. -/
theorem C156_arrays (s : LRows K) (values : List (XF K)) :
    (values.length = s.length → ∃ s', s.addMark (.array values) = .ok s' ∧ MarkedInOrder s values s')
    ∧ (values.length ≠ s.length → s.addMark (.array values) = .error .valueError)
    ∧ ∀ v, ∃ s', s.addMark (.scalar v) = .ok s' ∧ MarkedInOrder s (List.replicate s.length v) s' := by
  refine ⟨fun h => ⟨_, by rw [LRows.addMark, if_neg (by simpa using h)], markedInOrder_zipWith s values h⟩,
    fun h => by rw [LRows.addMark, if_pos h], fun v => ⟨_, rfl, by simp, by simp, fun j r v' hr hv => ?_⟩⟩
  rw [List.getElem?_map, hr]
  obtain ⟨-, rfl⟩ := List.mem_replicate.1 (List.mem_of_getElem? hv)
  rfl

private theorem labels_ofArray (rows : List (List (XF K))) : (LRows.ofArray rows).labels = (List.range rows.length).map (Nat.cast : ℕ → ℤ) := by
  apply List.ext_getElem
  · simp [LRows.labels, LRows.ofArray]
  · intro i h1 h2
    simp [LRows.labels, LRows.ofArray]

private theorem defaultIndex_labels (values : List (XF K)) :
    (defaultIndex values).map Prod.fst = (List.range values.length).map (Nat.cast : ℕ → ℤ) := by
  apply List.ext_getElem
  · simp [defaultIndex]
  · intro i h1 h2
    simp [defaultIndex]

private theorem defaultIndex_values (values : List (XF K)) : (defaultIndex values).map Prod.snd = values := by
  apply List.ext_getElem
  · simp [defaultIndex]
  · intro i h1 h2
    simp [defaultIndex]

private theorem lookup_of_mem {l : List (ℤ × XF K)} (hn : (l.map Prod.fst).Nodup) {a : ℤ} {v : XF K} (h : (a, v) ∈ l) :
    l.lookup a = some v := by
  induction l with
  | nil => simp at h
  | cons q l ih =>
    obtain ⟨b, w⟩ := q
    simp only [List.map_cons, List.nodup_cons] at hn
    rcases List.mem_cons.1 h with h' | h'
    · cases h'
      simp
    · have hne : a ≠ b := by
        rintro rfl
        exact hn.1 (List.mem_map.2 ⟨(a, v), h', rfl⟩)
      rw [List.lookup_cons, beq_false_of_ne hne]
      exact ih hn.2 h'

private theorem lookup_of_not_mem {l : List (ℤ × XF K)} {a : ℤ} (h : a ∉ l.map Prod.fst) : l.lookup a = none := by
  induction l with
  | nil => rfl
  | cons q l ih =>
    obtain ⟨b, w⟩ := q
    simp only [List.map_cons, List.mem_cons, not_or] at h
    rw [List.lookup_cons, beq_false_of_ne h.1]
    exact ih h.2

/-- **C156, partial.** A `Series` is given to the events in order if it has the labels of the pattern, in particular if it has been
made from a list of values and the pattern from a list of events. What is missing: patterns that have been made by `unique`,
`superimpose` or `explode`, see `C156_series_refuted`. -/
theorem C156_series_partial (s : LRows K) :
    (∀ entries : List (ℤ × XF K), entries.map Prod.fst = LRows.labels s →
      ∃ s', s.addMark (.series entries) = .ok s' ∧ MarkedInOrder s (entries.map Prod.snd) s')
    ∧ (∀ rows values, s = .ofArray rows → values.length = rows.length →
      ∃ s', s.addMark (.series (defaultIndex values)) = .ok s' ∧ MarkedInOrder s values s') := by
  have key : ∀ entries : List (ℤ × XF K), entries.map Prod.fst = LRows.labels s →
      ∃ s', s.addMark (.series entries) = .ok s' ∧ MarkedInOrder s (entries.map Prod.snd) s' := by
    intro entries h
    refine ⟨_, by rw [LRows.addMark, if_pos h], markedInOrder_zipWith _ _ ?_⟩
    have := congrArg List.length h
    simpa [LRows.labels] using this
  refine ⟨key, ?_⟩
  rintro rows values rfl hl
  obtain ⟨s', h1, h2⟩ := key (defaultIndex values) (by rw [defaultIndex_labels, labels_ofArray, hl])
  rw [defaultIndex_values] at h2
  exact ⟨s', h1, h2⟩

/-- What a `Series` with different labels does: an event gets the value with its own label, wherever it stands, and `nan` if there is
none. -/
theorem C156_series_aligned (s : LRows K) (entries : List (ℤ × XF K)) (hn : (entries.map Prod.fst).Nodup) :
    ∃ s', s.addMark (.series entries) = .ok s' ∧ s'.length = s.length ∧ ∀ (j : ℕ) (r : ℤ × List (XF K)), s[j]? = some r →
      ∃ v, s'[j]? = some (r.1, r.2 ++ [v]) ∧ ((r.1, v) ∈ entries ∨ (r.1 ∉ entries.map Prod.fst ∧ v = .nan)) := by
  by_cases h : entries.map Prod.fst = LRows.labels s
  · refine ⟨_, by rw [LRows.addMark, if_pos h], ?_, fun j r hr => ?_⟩
    · have := congrArg List.length h
      simp only [LRows.labels, List.length_map] at this
      simp [this]
    · have hj : j < entries.length := by
        have := congrArg List.length h
        simp only [LRows.labels, List.length_map] at this
        rw [this]
        exact (List.getElem?_eq_some_iff.1 hr).1
      have hl : (entries.map Prod.fst)[j]? = some r.1 := by rw [h, LRows.labels, List.getElem?_map, hr]; rfl
      rw [List.getElem?_map, List.getElem?_eq_getElem hj] at hl
      simp only [Option.map_some, Option.some.injEq] at hl
      refine ⟨entries[j].2, ?_, .inl ?_⟩
      · rw [List.getElem?_zipWith, hr, List.getElem?_map, List.getElem?_eq_getElem hj]
        rfl
      · rw [← hl]
        exact List.getElem_mem hj
  · refine ⟨_, by rw [LRows.addMark, if_neg h, if_neg (by simpa using hn)], by simp, fun j r hr => ?_⟩
    rw [List.getElem?_map, hr]
    refine ⟨_, rfl, ?_⟩
    by_cases hm : r.1 ∈ entries.map Prod.fst
    · obtain ⟨⟨a, v⟩, hq, e⟩ := List.mem_map.1 hm
      simp only at e
      subst e
      rw [lookup_of_mem hn hq]
      exact .inl hq
    · rw [lookup_of_not_mem hm]
      exact .inr ⟨hm, rfl⟩

/-- **C156 is false of a `Series`.** Whenever the labels of a pattern are not `0, 1, 2, …`, a `Series` made from a list of different
numbers, one for each event, does not give the events their numbers in order. `unique`, `superimpose` and `explode` make such
patterns: in the three examples an event gets the number of another event or `nan`. -/
theorem C156_series_refuted :
    (∀ (s : LRows K) (values : List (XF K)), values.length = s.length → values.Nodup → .nan ∉ values →
      LRows.labels s ≠ (List.range s.length).map (Nat.cast : ℕ → ℤ) →
      ∀ s', s.addMark (.series (defaultIndex values)) = .ok s' → ¬ MarkedInOrder s values s')
    ∧ (let s : LRows ℚ := (LRows.ofArray [[.fin 0, .fin 0], [.fin 0, .fin 0], [.fin 1, .fin 0], [.fin 2, .fin 0]]).unique
       MadeFromArrays s ∧ s.addMark (.series (defaultIndex [.fin 10, .fin 20, .fin 30]))
        = .ok [(0, [.fin 0, .fin 0, .fin 10]), (2, [.fin 1, .fin 0, .fin 30]), (3, [.fin 2, .fin 0, .nan])])
    ∧ (let s : LRows ℚ := (LRows.ofArray [[.fin 0, .fin 0], [.fin 1, .fin 0]]).superimpose (LRows.ofArray [[.fin 2, .fin 0]])
       MadeFromArrays s ∧ s.addMark (.series (defaultIndex [.fin 10, .fin 20, .fin 30]))
        = .ok [(0, [.fin 0, .fin 0, .fin 10]), (1, [.fin 1, .fin 0, .fin 20]), (0, [.fin 2, .fin 0, .fin 10])])
    ∧ (let s : LRows ℚ := (LRows.ofArray [[.fin 0, .fin 0, .fin 7], [.fin 1, .fin 0, .fin 8]]).explode 2 (.fin 8)
       MadeFromArrays s ∧ s.addMark (.series (defaultIndex [.fin 10])) = .ok [(1, [.fin 1, .fin 0, .fin 8, .nan])]) := by
  refine ⟨?_, ⟨.unique (.array _), ?_⟩, ⟨.superimpose (.array _) (.array _), ?_⟩, ⟨.explode _ _ (.array _), ?_⟩⟩
  · intro s values hl hnd hnan hlab s' hs' hm
    obtain ⟨-, -, hm⟩ := hm
    have hn : ((defaultIndex values).map Prod.fst).Nodup := by
      rw [defaultIndex_labels]
      exact List.nodup_range.map Nat.cast_injective
    obtain ⟨s'', h1, -, h3⟩ := C156_series_aligned s (defaultIndex values) hn
    rw [hs'] at h1
    cases h1
    apply hlab
    apply List.ext_getElem
    · simp [LRows.labels]
    · intro j hj1 hj2
      have hj : j < s.length := by simpa [LRows.labels] using hj1
      have hjv : j < values.length := by omega
      obtain ⟨v, hv, hcase⟩ := h3 j _ (List.getElem?_eq_getElem hj)
      have := hm j _ _ (List.getElem?_eq_getElem hj) (List.getElem?_eq_getElem hjv)
      rw [hv] at this
      simp only [Option.some.injEq, Prod.mk.injEq, true_and, List.append_cancel_left_eq, List.cons.injEq, and_true] at this
      subst this
      rcases hcase with hc | ⟨-, hc⟩
      · obtain ⟨⟨w, i⟩, hi, e⟩ := List.mem_map.1 hc
        simp only [Prod.mk.injEq] at e
        obtain ⟨hi1, hi2⟩ := List.mem_zipIdx' hi
        have hij : i = j := by
          have : values[i] = values[j] := by rw [← hi2, e.2]
          exact (List.Nodup.getElem_inj_iff hnd).1 this
        subst hij
        simp [LRows.labels, ← e.1]
      · exact absurd (hc ▸ List.getElem_mem hjv) hnan
  all_goals decide +kernel

/-- The labels are only additional information: without them the rows of `unique`, `superimpose` and `explode` are those of C06, C08
and C09. -/
theorem C156_rows (s t : LRows K) :
    (s.unique.map Prod.snd = PointPattern.dropDuplicates (s.map Prod.snd))
    ∧ (s.superimpose t).map Prod.snd = PointPattern.dropDuplicates (s.map Prod.snd ++ t.map Prod.snd)
    ∧ ∀ j v, (s.explode j v).map Prod.snd = (s.map Prod.snd).filter fun r => decide (r.getD j .nan = v) := by
  have key : ∀ s : LRows K, s.dropDuplicates.map Prod.snd = PointPattern.dropDuplicates (s.map Prod.snd) := by
    intro s
    induction s with
    | nil => rfl
    | cons r rs ih =>
      simp only [LRows.dropDuplicates, List.map_cons, PointPattern.dropDuplicates, ← ih, List.filter_map]
      rfl
  refine ⟨key s, by rw [LRows.superimpose, key, List.map_append], fun j v => ?_⟩
  rw [LRows.explode, List.filter_map]
  rfl

/-- Non-vacuity: a pattern with the labels of the events that are left, and a mark that is a list. -/
example : ((LRows.ofArray [[.fin (0 : ℚ), .fin 0], [.fin 0, .fin 0], [.fin 1, .fin 0]]).unique).addMark (.array [.fin 10, .fin 20])
    = .ok [(0, [.fin 0, .fin 0, .fin 10]), (2, [.fin 1, .fin 0, .fin 20])] := by decide +kernel

end Pointpats.Props
