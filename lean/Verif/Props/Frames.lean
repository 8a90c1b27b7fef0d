import Verif.Model.Frames
import Verif.Props.HotspotPlot

/-!
# Properties C89 and C90: data frames and shape files as input of the space-time tests
-/

set_option linter.unusedSectionVars false

namespace Pointpats.Props

open Spacetime Spec

variable {K : Type} [Field K] [LinearOrder K] [IsStrictOrderedRing K] {ι : Type}

/-- The data frame with these labels and events, all points. -/
def eventFrame (crs : Crs) (numeric : Bool) (rows : List (ι × Event K)) : Frame K ι :=
  { crs, numeric, rows := rows.map fun r => (r.1, .point r.2.1, r.2.2) }

theorem mapM_points (rows : List (ι × Event K)) :
    (rows.map fun r => ((r.1, Geom.point r.2.1, r.2.2) : ι × Geom K × K)).mapM (fun r => r.2.1.point?)
      = some (rows.map fun r => r.2.1) := by
  induction rows with
  | nil => rfl
  | cons a l ih => simp only [List.map_cons, List.mapM_cons, ih]; rfl

theorem pointsToArrays_eventFrame (crs : Crs) (hcrs : crs ≠ .geographic) (rows : List (ι × Event K)) (hne : rows ≠ []) :
    pointsToArrays (eventFrame crs true rows)
      = .ok (decide (crs = .none), (rows.map Prod.snd).map Prod.fst, (rows.map Prod.snd).map Prod.snd) := by
  have h0 : (rows.map fun r => ((r.1, Geom.point r.2.1, r.2.2) : ι × Geom K × K)) ≠ [] := by simpa using hne
  simp only [pointsToArrays, eventFrame, if_neg hcrs, mapM_points, if_neg h0, Bool.true_eq_false, if_false,
    List.map_map]
  rfl

/-- **C89, local.** For a data frame of points that is not empty, with projected coordinates or none and a numeric time
column, `KnoxLocal.from_dataframe` gives what the constructor gives for the locations, the times and the index labels in the
order of the rows. -/
theorem C89_local_from_dataframe [FloorRing K] (default : ℕ → ι) (cdf : K → XF K → XF K) (hg : ℤ → ℕ → ℕ → ℕ → K)
    (sballs : List (K × K) → List (List ℕ)) (tballs : List K → List (List ℕ)) (crs : Crs) (hcrs : crs ≠ .geographic)
    (rows : List (ι × Event K)) (hne : rows ≠ []) (gperms perms : List (List ℕ)) (keep : Bool) (order : List (ℕ × ℕ)) :
    ∀ labels s t, labels = rows.map (fun r => r.1) → s = rows.map (fun r => r.2.1) → t = rows.map (fun r => r.2.2) →
    knoxLocalFromDataframe default cdf hg sballs tballs (eventFrame crs true rows) gperms perms keep order
      = knoxLocalInit default cdf hg true true s t (sballs s) (tballs t) gperms perms keep (some labels) order := by
  rintro labels s t rfl rfl rfl
  simp only [knoxLocalFromDataframe, pointsToArrays_eventFrame crs hcrs rows hne, List.map_map]
  simp only [eventFrame, List.map_map]
  rfl

/-- **C89, global.** For such a data frame `Knox.from_dataframe` gives a statistic that is the number of pairs of rows
within `delta` in space and `tau` in time. -/
theorem C89_knox_from_dataframe [FloorRing K] (cdf : K → XF K → XF K) {sdist : K × K → K × K → K}
    (hd : IsSpaceDistance sdist) (delta tau : K)
    (sballs : List (K × K) → List (List ℕ)) (tballs : List K → List (List ℕ)) (crs : Crs) (hcrs : crs ≠ .geographic)
    (rows : List (ι × Event K)) (hne : rows ≠ [])
    (hs : AnswersSpace sdist delta (rows.map Prod.snd) (sballs (rows.map fun r => r.2.1)))
    (ht : AnswersTime tau (rows.map Prod.snd) (tballs (rows.map fun r => r.2.2)))
    (perms : List (List ℕ)) (hperm : ∀ p ∈ perms, IsShuffle rows.length p) (keep : Bool) :
    ∃ o, knoxFromDataframe cdf sballs tballs (eventFrame crs true rows) perms keep = .ok o ∧
      knoxInit cdf (sballs (rows.map fun r => r.2.1)) (tballs (rows.map fun r => r.2.2)) perms keep = .ok o ∧
      o.statistic_ = (closePairs (NearBoth sdist delta tau) (rows.map Prod.snd) : ℤ) := by
  obtain ⟨r, o, -, ho, -, -, -, h, -⟩ := C74_knox_counts_pairs cdf hd delta tau (rows.map Prod.snd) _ _ hs ht perms
    (by simpa using hperm) keep
  refine ⟨o, ?_, ho, h⟩
  simp only [knoxFromDataframe, pointsToArrays_eventFrame crs hcrs rows hne, List.map_map]
  exact ho

/-- **C89, refused frames.** A data frame in geographic coordinates, or with a geometry that is not a point, or with a time
column that is not numeric, or without rows, raises `ValueError` in both tests. -/
theorem C89_refused_frames [FloorRing K] (default : ℕ → ι) (cdf : K → XF K → XF K) (hg : ℤ → ℕ → ℕ → ℕ → K)
    (sballs : List (K × K) → List (List ℕ)) (tballs : List K → List (List ℕ)) (f : Frame K ι)
    (hf : f.crs = .geographic ∨ (∃ r ∈ f.rows, r.2.1 = .other) ∨ f.numeric = false ∨ f.rows = [])
    (gperms perms : List (List ℕ)) (keep : Bool) (order : List (ℕ × ℕ)) :
    knoxFromDataframe cdf sballs tballs f perms keep = .error .valueError ∧
    knoxLocalFromDataframe default cdf hg sballs tballs f gperms perms keep order = .error .valueError := by
  have key : pointsToArrays f = .error .valueError := by
    unfold pointsToArrays
    by_cases h1 : f.crs = .geographic
    · rw [if_pos h1]
    · rw [if_neg h1]
      cases hm : f.rows.mapM fun r => r.2.1.point? with
      | none => rfl
      | some s =>
        simp only
        by_cases h2 : f.numeric = false
        · rw [if_pos h2]
        · rw [if_neg h2]
          by_cases h3 : f.rows = []
          · rw [if_pos h3]
          · exfalso
            rcases hf with h | ⟨r, hr, ho⟩ | h | h
            · exact h1 h
            · have : ∀ l : List (ι × Geom K × K), r ∈ l → l.mapM (fun r => r.2.1.point?) = none := by
                intro l hl
                induction l with
                | nil => simp at hl
                | cons a l ih =>
                  rw [List.mapM_cons]
                  rcases List.mem_cons.1 hl with rfl | hl
                  · rw [ho]; rfl
                  · rw [ih hl]
                    cases a.2.1.point? <;> rfl
              rw [this _ hr] at hm
              exact absurd hm (by simp)
            · exact h2 h
            · exact h3 h
  simp only [knoxFromDataframe, knoxLocalFromDataframe, key, and_self]

/-- Non-vacuity of C89. -/
example : pointsToArrays (eventFrame .projected true [("a", (((1 : ℚ), 2), 3)), ("b", ((4, 5), 6))])
      = .ok (false, [(1, 2), (4, 5)], [3, 6]) ∧
    pointsToArrays ({ crs := .none, numeric := true, rows := [("a", .point (1, 2), 3), ("b", .other, 6)] } : Frame ℚ String)
      = .error .valueError := by
  refine ⟨by decide +kernel, by decide +kernel⟩

/-- Non-vacuity of `C89_knox_from_dataframe`: the four events of `someEvents`, for which the answers of the index are
correct. -/
example : AnswersSpace lineDist 1 ((someEvents.map fun e => ("x", e)).map Prod.snd)
      [[0, 1], [1, 0, 2], [2, 1], [3]] ∧
    AnswersTime 2 ((someEvents.map fun e => ("x", e)).map Prod.snd) [[0, 1, 3], [3, 1, 0], [2], [0, 1, 3]] := by
  have : (someEvents.map fun e => ("x", e)).map Prod.snd = someEvents := by decide +kernel
  rw [this]
  exact ⟨someEvents_space, someEvents_time⟩

/-- The database that belongs to a shape file: the file with the same name and the ending `dbf` in the same directory. -/
def databaseOf (path : FilePath) : FilePath := { dir := path.dir, parts := path.parts.dropLast ++ ["dbf"] }

/-- **C90, partial.** If the database that the library finds under the name of the shape file is the one beside it, then the
events have the points of the shape file in their order, and the times of the column of the database; with
`infer_timestamp`, dates become days since the earliest: numbers whose differences are those of the dates, the smallest
of them 0.

Missing for the full property: the hypothesis on the database (`C90_database_refuted`). -/
theorem C90_events_partial (disk : Disk K) (path : FilePath) (time_col : String) (shp : List (K × K)) (hne : shp ≠ [])
    (hshp : disk.shp path = some shp) (table : String → Option (Column K))
    (hdb : disk.dbf (databaseOf path) = some table)
    (hex : disk.examples [path.parts.headD "", "dbf"] = some (databaseOf path)) :
    (∀ l : List K, table time_col = some (.numbers l) → l.length = shp.length → ∀ infer,
      spaceTimeEvents disk path time_col infer
        = .ok { n := shp.length, x := shp.map Prod.fst, y := shp.map Prod.snd, space := shp, t := .numbers l }) ∧
    (∀ days : List ℤ, table time_col = some (.dates days) → days.length = shp.length →
      spaceTimeEvents disk path time_col false
        = .ok { n := shp.length, x := shp.map Prod.fst, y := shp.map Prod.snd, space := shp, t := .dates days } ∧
      ∃ first ∈ days, (∀ d ∈ days, first ≤ d) ∧
        spaceTimeEvents disk path time_col true
          = .ok { n := shp.length, x := shp.map Prod.fst, y := shp.map Prod.snd, space := shp
                  t := .numbers (days.map fun (d : ℤ) => (d : K) - (first : K)) }) := by
  constructor
  · intro l hl hlen infer
    have hl0 : l ≠ [] := by
      rintro rfl
      exact hne (List.length_eq_zero_iff.1 hlen.symm)
    obtain ⟨a, l', rfl⟩ := List.exists_cons_of_ne_nil hl0
    have h2 : ¬ (Column.numbers (a :: l')).length ≠ shp.length := by simpa [Column.length] using hlen
    cases infer <;>
      simp only [spaceTimeEvents, hshp, hex, hdb, hl, Bool.false_eq_true, if_false, if_true, inferTimes, if_neg h2]
  · intro days hl hlen
    have hl0 : days ≠ [] := by
      rintro rfl
      exact hne (List.length_eq_zero_iff.1 hlen.symm)
    obtain ⟨d, ds, rfl⟩ := List.exists_cons_of_ne_nil hl0
    have h1 : ¬ (Column.dates (K := K) (d :: ds)).length ≠ shp.length := by simpa [Column.length] using hlen
    have h2 : ¬ (Column.numbers ((d :: ds).map fun e => (((e - (ds.foldl min d)) : ℤ) : K))).length ≠ shp.length := by
      simpa [Column.length] using hlen
    refine ⟨?_, ds.foldl min d, ?_, ?_, ?_⟩
    · simp only [spaceTimeEvents, hshp, hex, hdb, hl, Bool.false_eq_true, if_false, if_neg h1]
    · clear hl hlen hl0 h1 h2
      induction ds generalizing d with
      | nil => simp
      | cons e ds ih =>
        rw [List.foldl_cons]
        have := ih (min d e)
        rcases List.mem_cons.1 this with h | h
        · rw [h]
          rcases min_choice d e with h' | h' <;> rw [h'] <;> simp
        · simp [h]
    · clear hl hlen hl0 h1 h2
      have : ∀ (ds : List ℤ) (d : ℤ), ds.foldl min d ≤ d ∧ ∀ e ∈ ds, ds.foldl min d ≤ e := by
        intro ds
        induction ds with
        | nil => intro d; simp
        | cons e ds ih =>
          intro d
          rw [List.foldl_cons]
          obtain ⟨h1, h2⟩ := ih (min d e)
          refine ⟨h1.trans (min_le_left _ _), ?_⟩
          intro x hx
          rcases List.mem_cons.1 hx with rfl | hx
          · exact h1.trans (min_le_right _ _)
          · exact h2 x hx
      obtain ⟨h1, h2⟩ := this ds d
      intro x hx
      rcases List.mem_cons.1 hx with rfl | hx
      · exact h1
      · exact h2 x hx
    · simp only [spaceTimeEvents, hshp, hex, hdb, hl, if_true, inferTimes, if_neg h2]
      simp

/-- **C90, sizes.** If the column has another number of entries than the shape file has points, the events are refused. -/
theorem C90_sizes (disk : Disk K) (path : FilePath) (time_col : String) (shp : List (K × K))
    (hshp : disk.shp path = some shp) (p : FilePath) (table : String → Option (Column K)) (hdb : disk.dbf p = some table)
    (hex : disk.examples [path.parts.headD "", "dbf"] = some p) (col : Column K) (hcol : table time_col = some col)
    (hlen : col.length ≠ shp.length) (infer : Bool) : ∃ e, spaceTimeEvents disk path time_col infer = .error e := by
  cases infer with
  | false => exact ⟨.valueError, by simp only [spaceTimeEvents, hshp, hex, hdb, hcol, Bool.false_eq_true, if_false, if_pos hlen]⟩
  | true =>
    match col, hcol, hlen with
    | .dates [], hcol, _ => exact ⟨.indexError, by simp only [spaceTimeEvents, hshp, hex, hdb, hcol, if_true, inferTimes]⟩
    | .numbers [], hcol, _ => exact ⟨.indexError, by simp only [spaceTimeEvents, hshp, hex, hdb, hcol, if_true, inferTimes]⟩
    | .dates (d :: ds), hcol, hlen =>
      have : (Column.numbers ((d :: ds).map fun e => (((e - (ds.foldl min d)) : ℤ) : K))).length ≠ shp.length := by
        simpa [Column.length] using hlen
      exact ⟨.valueError, by simp only [spaceTimeEvents, hshp, hex, hdb, hcol, if_true, inferTimes, if_pos this]⟩
    | .numbers (a :: l), hcol, hlen =>
      exact ⟨.valueError, by simp only [spaceTimeEvents, hshp, hex, hdb, hcol, if_true, inferTimes, if_pos hlen]⟩

/-- Two databases called `burkitt`: the one of the examples and one of the user. -/
def twoDatabases : Disk ℚ where
  shp := fun p => if p = ⟨"home", ["burkitt", "shp"]⟩ then some [(0, 0), (1, 1)] else none
  dbf := fun p => if p = ⟨"home", ["burkitt", "dbf"]⟩ then some fun _ => some (.numbers [1, 2])
    else if p = ⟨"examples", ["burkitt", "dbf"]⟩ then some fun _ => some (.numbers [7, 8]) else none
  examples := fun name => if name = ["burkitt", "dbf"] then some ⟨"examples", ["burkitt", "dbf"]⟩ else none

/-- **C90, refuted.** A shape file that the user has beside its database, under the name of an example: the times are
those of the example's database, not those of the database beside it. -/
theorem C90_database_refuted :
    ∃ (disk : Disk ℚ) (path : FilePath) (table : String → Option (Column ℚ)) (ev : STEvents ℚ),
      disk.dbf (databaseOf path) = some table ∧ table "T" = some (.numbers [1, 2]) ∧
      spaceTimeEvents disk path "T" false = .ok ev ∧ ev.t = .numbers [7, 8] := by
  refine ⟨twoDatabases, ⟨"home", ["burkitt", "shp"]⟩, fun _ => some (.numbers [1, 2]),
    ⟨2, [0, 1], [0, 1], [(0, 0), (1, 1)], .numbers [7, 8]⟩, ?_, rfl, ?_, rfl⟩
  · simp [twoDatabases, databaseOf]
  · simp [twoDatabases, spaceTimeEvents, Column.length]

/-- Non-vacuity of `C90_events_partial`: an example file, with dates. -/
example : ∃ disk : Disk ℚ, disk.shp ⟨"examples", ["a", "shp"]⟩ = some [(0, 0), (1, 1)] ∧
    disk.examples ["a", "dbf"] = some (databaseOf ⟨"examples", ["a", "shp"]⟩) ∧
    (spaceTimeEvents disk ⟨"examples", ["a", "shp"]⟩ "T" true).map (fun e => e.t) = .ok (.numbers [5, 0]) := by
  refine ⟨⟨fun _ => some [(0, 0), (1, 1)], fun _ => some fun _ => some (.dates [105, 100]),
    fun _ => some ⟨"examples", ["a", "dbf"]⟩⟩, rfl, rfl, ?_⟩
  decide +kernel

end Pointpats.Props
