import Verif.Props.PointPattern

/-!
# C145: which tables `PointPattern` accepts
-/

set_option linter.unusedSectionVars false

namespace Pointpats.Props

open PointPattern Spec

variable {K : Type} [Field K] [LinearOrder K]

private theorem construct_pair (p : ℕ) (rows : List (List K)) (window : Option (Win K)) (names coordNames : Option (List String))
    (x y : String) (hc : (resolveNames p names coordNames).coords = [x, y]) :
    ((resolveNames p names coordNames).cols.length ≠ p → construct p rows window names coordNames = .error .valueError)
    ∧ ((resolveNames p names coordNames).cols.length = p →
      (¬ (x ∈ (resolveNames p names coordNames).cols ∧ y ∈ (resolveNames p names coordNames).cols) →
        construct p rows window names coordNames = .error .keyError)
      ∧ (x ∈ (resolveNames p names coordNames).cols → y ∈ (resolveNames p names coordNames).cols → rows ≠ [] →
        ∃ s, construct p rows window names coordNames = .ok s ∧ s.df.rows = rows
          ∧ s.df.names = (resolveNames p names coordNames).cols
          ∧ s.points = rows.map fun r => (cell (resolveNames p names coordNames).cols x r,
              cell (resolveNames p names coordNames).cols y r))) := by
  unfold construct
  rw [hc]
  simp only
  refine ⟨fun h => if_pos h, fun h => ?_⟩
  rw [if_neg (not_not.2 h)]
  simp only [Frame.col]
  refine ⟨fun hn => ?_, fun hx hy hr => ?_⟩
  · by_cases hx : x ∈ (resolveNames p names coordNames).cols
    · have hy : y ∉ (resolveNames p names coordNames).cols := fun hy => hn ⟨hx, hy⟩
      rw [if_pos hx, if_neg hy]; rfl
    · rw [if_neg hx]; rfl
  · rw [if_pos hx, if_pos hy]
    simp only [bind, Except.bind]
    obtain ⟨r, rs, rfl⟩ := List.exists_cons_of_ne_nil hr
    have hz : ∀ l : List (List K), ((l.map fun r => r.getD ((resolveNames p names coordNames).cols.idxOf x) 0).zip
        (l.map fun r => r.getD ((resolveNames p names coordNames).cols.idxOf y) 0))
        = l.map fun r => (cell (resolveNames p names coordNames).cols x r,
              cell (resolveNames p names coordNames).cols y r) := by
      intro l
      induction l with
      | nil => rfl
      | cons a l ih => simp only [List.map_cons, List.zip_cons_cons, ih, cell]
    cases window with
    | some w => exact ⟨_, rfl, rfl, rfl, hz _⟩
    | none =>
      simp only [List.map_cons, List.zip_cons_cons, Geometry.bboxPts]
      exact ⟨_, rfl, rfl, rfl, by simpa using hz (r :: rs)⟩

/-- **C145, names given.** Let the column names `ns` be different from each other and the coordinates be the two that
`coord_names` asks for, or else the first two names. A number of coordinates other than two, or of names other than the number
of columns, is a `ValueError`; a coordinate that is not among the names is a `KeyError`; every other table with rows is
accepted: its columns carry the names, and the points are the entries of the two columns asked for, row by row. -/
theorem C145_names_given (p : ℕ) (rows : List (List K)) (window : Option (Win K)) (ns : List String) (_hd : ns.Nodup)
    (coordNames : Option (List String)) (coords : List String) (hc : coords = coordNames.getD (ns.take 2)) :
    (coords.length ≠ 2 ∨ ns.length ≠ p → construct p rows window (some ns) coordNames = .error .valueError)
    ∧ (coords.length = 2 → ns.length = p → (∃ c ∈ coords, c ∉ ns) →
        construct p rows window (some ns) coordNames = .error .keyError)
    ∧ (∀ x y, coords = [x, y] → ns.length = p → x ∈ ns → y ∈ ns → rows ≠ [] →
        ∃ s, construct p rows window (some ns) coordNames = .ok s ∧ s.df.rows = rows ∧ s.df.names = ns
          ∧ s.points = rows.map fun r => (cell ns x r, cell ns y r)) := by
  have hco : (resolveNames p (some ns) coordNames).coords = coords := hc.symm
  refine ⟨fun h => ?_, fun h2 hl hm => ?_, fun x y hxy hl hx hy hr => ?_⟩
  · match coords, hco with
    | [x, y], hco =>
      rcases h with h | h
      · exact absurd rfl h
      · exact (construct_pair p rows window (some ns) coordNames x y hco).1 h
    | [], hco => unfold construct; rw [hco]
    | [_], hco => unfold construct; rw [hco]
    | _ :: _ :: _ :: _, hco => unfold construct; rw [hco]
  · obtain ⟨x, y, rfl⟩ := List.length_eq_two.1 h2
    refine ((construct_pair p rows window (some ns) coordNames x y hco).2 hl).1 ?_
    rintro ⟨hx, hy⟩
    obtain ⟨c, hc, hn⟩ := hm
    rcases List.mem_cons.1 hc with rfl | hc
    · exact hn hx
    · rw [List.mem_singleton] at hc; subst hc; exact hn hy
  · subst hxy
    exact ((construct_pair p rows window (some ns) coordNames x y hco).2 hl).2 hx hy hr

/-- The names of the columns of a table with `p ≥ 2` columns without names: the coordinates, and numbered marks. -/
def numberedNames (x y : String) (p : ℕ) : List String :=
  [x, y] ++ (List.range (p - 2)).map fun j => "mark_" ++ toString j

/-- **C145, no names.** Without column names the coordinates are named as asked for, or `x` and `y`. A table with fewer than two
columns, or another number of coordinate names than two, is a `ValueError`. Every other table with rows is accepted: its columns
are named after the coordinates and `mark_0`, `mark_1`, …, and the points are the entries of its first two columns. -/
theorem C145_no_names (p : ℕ) (rows : List (List K)) (window : Option (Win K)) (coordNames : Option (List String))
    (coords : List String) (hc : coords = coordNames.getD ["x", "y"]) :
    (p < 2 ∨ coords.length ≠ 2 → construct p rows window none coordNames = .error .valueError)
    ∧ (∀ x y, coords = [x, y] → (numberedNames x y p).Nodup → 2 ≤ p → rows ≠ [] →
        ∃ s, construct p rows window none coordNames = .ok s ∧ s.df.rows = rows
          ∧ s.df.names = numberedNames x y p
          ∧ s.points = rows.map fun r => (r.getD 0 0, r.getD 1 0)) := by
  have hcols : ∀ marks, (if p > 2 then (List.range' 2 (p - 2)).map fun m => markName (m - 2) else []) = marks →
      (resolveNames p none coordNames).cols = coords ++ marks := by
    intro marks hm
    rw [hc, ← hm]; rfl
  have hmarks : (if p > 2 then (List.range' 2 (p - 2)).map fun m => markName (m - 2) else [])
      = (List.range (p - 2)).map fun j => "mark_" ++ toString j := by
    split_ifs with h
    · rw [List.range'_eq_map_range, List.map_map]
      refine List.map_congr_left fun j _ => ?_
      simp [markName]
    · rw [show p - 2 = 0 by omega]; rfl
  have hcols' := hcols _ hmarks
  have hcoords : (resolveNames p none coordNames).coords = (resolveNames p none coordNames).cols.take 2 := rfl
  refine ⟨fun h => ?_, fun x y hxy hnd hp hr => ?_⟩
  · rcases hl : (resolveNames p none coordNames).coords with _ | ⟨x, _ | ⟨y, _ | ⟨z, l⟩⟩⟩
    · unfold construct; rw [hl]
    · unfold construct; rw [hl]
    · refine (construct_pair p rows window none coordNames x y hl).1 ?_
      rw [hcols', List.length_append, List.length_map, List.length_range]
      have h2 : 2 ≤ (resolveNames p none coordNames).cols.length := by
        have := congrArg List.length hl
        rw [hcoords, List.length_take] at this
        simp only [List.length_cons, List.length_nil] at this
        omega
      rw [hcols', List.length_append, List.length_map, List.length_range] at h2
      omega
    · unfold construct; rw [hl]
  · subst hxy
    have hcs : (resolveNames p none coordNames).cols = numberedNames x y p := hcols'
    have hco : (resolveNames p none coordNames).coords = [x, y] := by rw [hcoords, hcs]; rfl
    obtain ⟨s, h1, h2, h3, h4⟩ := ((construct_pair p rows window none coordNames x y hco).2
      (by rw [hcs]; simp [numberedNames]; omega)).2 (by rw [hcs]; simp [numberedNames]) (by rw [hcs]; simp [numberedNames]) hr
    have hne : x ≠ y := by
      simp only [numberedNames, List.cons_append, List.nodup_cons, List.mem_cons, not_or] at hnd
      exact hnd.1.1
    refine ⟨s, h1, h2, h3.trans hcs, h4.trans (List.map_congr_left fun r _ => ?_)⟩
    rw [hcs]
    simp [cell, numberedNames, hne]

/-- Non-vacuity: the coordinates may be other columns than the first two; a third coordinate name is refused. -/
example : (∃ s, construct (K := ℚ) 3 [[5, 1, 2], [6, 3, 4]] none (some ["id", "e", "n"]) (some ["n", "e"]) = .ok s
      ∧ s.points = [(2, 1), (4, 3)])
    ∧ construct (K := ℚ) 3 [[5, 1, 2], [6, 3, 4]] none (some ["id", "e", "n"]) (some ["n", "f"]) = .error .keyError
    ∧ construct (K := ℚ) 3 [[5, 1, 2], [6, 3, 4]] none none (some ["a", "b", "c"]) = .error .valueError
    ∧ (numberedNames "x" "y" 4).Nodup := by
  refine ⟨⟨_, rfl, by decide +kernel⟩, by decide +kernel, by decide +kernel, by decide +kernel⟩

end Pointpats.Props
