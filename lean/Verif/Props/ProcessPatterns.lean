import Verif.Props.Process
import Mathlib.Tactic.NormNum

/-!
# C121: realisations as point patterns
-/

set_option linter.unusedSectionVars false

namespace Pointpats.Props

open Process Random PointPattern

variable {K : Type} [Field K] [LinearOrder K] [IsStrictOrderedRing K]

theorem construct_pattern (window : Win K) (l : List (K × K)) (hl : l ≠ []) :
    ∃ pp, construct 2 (l.map fun p => [p.1, p.2]) (some window) none none = .ok pp ∧ pp.points = l
      ∧ pp.window = some window ∧ pp.df.rows = l.map (fun p => [p.1, p.2]) ∧ pp.df.names = ["x", "y"] ∧ pp.nMarks = 0 := by
  refine ⟨_, rfl, ?_, rfl, rfl, rfl, rfl⟩
  simp only [Option.getD_none]
  induction l with
  | nil => exact absurd rfl hl
  | cons p l ih =>
    rcases eq_or_ne l [] with rfl | h
    · rfl
    · have := ih h
      simp only [List.map_cons, List.zip_cons_cons] at this ⊢
      rw [this]
      rfl

theorem asPatterns_spec (window : Win K) : ∀ ls : List (List (K × K)),
    ((∀ l ∈ ls, l ≠ []) → ∃ pps, asPatterns window ls = .ok pps ∧ pps.map Obj.points = ls
      ∧ ∀ pp ∈ pps, pp.window = some window ∧ pp.nMarks = 0 ∧ pp.df.rows = pp.points.map (fun p => [p.1, p.2])
          ∧ pp.df.names = ["x", "y"])
    ∧ ([] ∈ ls → asPatterns window ls = .error .valueError)
  | [] => ⟨fun _ => ⟨[], rfl, rfl, by simp⟩, by simp⟩
  | l :: ls => by
    obtain ⟨h1, h2⟩ := asPatterns_spec window ls
    rcases eq_or_ne l [] with rfl | hl
    · exact ⟨fun h => absurd rfl (h [] (List.mem_cons_self ..)), fun _ => rfl⟩
    · obtain ⟨pp, hpp, ha, hb, hc, hd, he⟩ := construct_pattern window l hl
      constructor
      · intro h
        obtain ⟨pps, e, hm, hw⟩ := h1 fun l hl => h l (List.mem_cons_of_mem _ hl)
        refine ⟨pp :: pps, ?_, by simp [ha, hm], ?_⟩
        · rw [asPatterns, if_neg hl, hpp, e]; rfl
        · intro q hq
          rcases List.mem_cons.1 hq with rfl | hq
          · exact ⟨hb, he, by rw [hc, ha], hd⟩
          · exact hw q hq
      · intro h
        rcases List.mem_cons.1 h with h | h
        · exact absurd h.symm hl
        · rw [asPatterns, if_neg hl, hpp, h2 h]; rfl

/-- C121: if no realisation is empty, `asPP=True` gives the point patterns of the arrays that `asPP=False` gives with the same
generator, in the same order, all with the window of the process and without marks. Missing: empty realisations. -/
theorem C121_patterns_partial (window : Win K) (bbox : BBox K) (contains : K × K → Bool) (u : ℕ → K) (n samples : ℕ)
    (conditioning : Bool) (lambdas : List ℕ) (pos : ℕ) (ls : List (List (K × K))) (pos' : ℕ)
    (h : Returns (fun fuel => poissonProcess bbox contains u n samples conditioning lambdas fuel pos) (.ok (ls, pos')))
    (hsize : if conditioning then ∀ k ∈ lambdas, 0 < k else 0 < n) :
    ∃ pps, Returns (fun fuel => poissonPatterns window bbox contains u n samples conditioning lambdas fuel pos) (.ok (pps, pos'))
      ∧ pps.map Obj.points = ls
      ∧ ∀ pp ∈ pps, pp.window = some window ∧ pp.nMarks = 0 ∧ pp.df.rows = pp.points.map (fun p => [p.1, p.2])
          ∧ pp.df.names = ["x", "y"] := by
  have hne : ∀ l ∈ ls, l ≠ [] := by
    obtain ⟨-, h1, h2⟩ := C36_poisson_process bbox contains u n samples lambdas pos conditioning ls pos' h
    intro l hl e
    subst e
    cases conditioning with
    | false =>
      have := (h1 rfl).2 _ hl
      simp only [Bool.false_eq_true, if_false] at hsize
      simp at this
      omega
    | true =>
      have h3 := h2 rfl
      simp only [if_true] at hsize
      have : (0 : ℕ) ∈ lambdas := by rw [← h3]; exact List.mem_map.2 ⟨[], hl, rfl⟩
      exact absurd (hsize _ this) (lt_irrefl _)
  obtain ⟨pps, e, hm, hw⟩ := (asPatterns_spec window ls).1 hne
  obtain ⟨fuel, hf⟩ := h
  refine ⟨pps, ⟨fuel, ?_⟩, hm, hw⟩
  simp only [poissonPatterns]
  rw [show poissonProcess bbox contains u n samples conditioning lambdas fuel pos = _ from hf]
  simp [Run.andThen, e, Run.ret]

/-- C121 is false if one of the random sizes is zero: then `asPP=False` gives the arrays, `asPP=True` raises a `ValueError` and
all realisations are lost. -/
theorem C121_empty_refuted (window : Win K) (bbox : BBox K) (contains : K × K → Bool) (u : ℕ → K) (n samples : ℕ)
    (lambdas : List ℕ) (pos : ℕ) (ls : List (List (K × K))) (pos' : ℕ)
    (h : Returns (fun fuel => poissonProcess bbox contains u n samples true lambdas fuel pos) (.ok (ls, pos')))
    (hzero : 0 ∈ lambdas) :
    Returns (fun fuel => poissonPatterns window bbox contains u n samples true lambdas fuel pos) (.error .valueError) := by
  obtain ⟨-, -, h2⟩ := C36_poisson_process bbox contains u n samples lambdas pos true ls pos' h
  have : [] ∈ ls := by
    rw [← h2 rfl, List.mem_map] at hzero
    obtain ⟨l, hl, e⟩ := hzero
    exact List.length_eq_zero_iff.1 e ▸ hl
  obtain ⟨fuel, hf⟩ := h
  refine ⟨fuel, ?_⟩
  simp only [poissonPatterns]
  rw [show poissonProcess bbox contains u n samples true lambdas fuel pos = _ from hf]
  simp [Run.andThen, (asPatterns_spec window ls).2 this, Run.fail]

/-- Both hypotheses are met: sizes 2 and 1, and sizes 2 and 0, in the unit square. -/
example :
    ((poissonProcess (⟨0, 0, 1, 1⟩ : BBox ℚ) (fun _ => true) (fun i => (1 : ℚ) / (i + 2)) 0 2 true [2, 1] 3 0).map
        (·.map fun a => a.1)) = some (.ok [[(1 / 2, 1 / 4), (1 / 3, 1 / 5)], [(1 / 6, 1 / 7)]])
    ∧ ((poissonProcess (⟨0, 0, 1, 1⟩ : BBox ℚ) (fun _ => true) (fun i => (1 : ℚ) / (i + 2)) 0 2 true [2, 0] 3 0).map
        (·.map fun a => a.1)) = some (.ok [[(1 / 2, 1 / 4), (1 / 3, 1 / 5)], []]) := by
  constructor <;> decide +kernel

end Pointpats.Props
