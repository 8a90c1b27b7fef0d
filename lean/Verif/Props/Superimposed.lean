import Verif.Props.PointPattern
import Verif.Props.Centers

/-!
# C180: the measures of a superimposed pattern follow from those of its parts
-/

set_option linter.unusedSectionVars false

namespace Pointpats.Props

open PointPattern Spec Centrography

private theorem sumSq_expand (l : List (ℝ × ℝ)) (q : ℝ × ℝ) :
    sumSq l q = (l.map fun p => p.1 ^ 2 + p.2 ^ 2).sum - 2 * q.1 * (l.map Prod.fst).sum - 2 * q.2 * (l.map Prod.snd).sum
      + l.length * (q.1 ^ 2 + q.2 ^ 2) := by
  unfold sumSq
  induction l with
  | nil => simp
  | cons a l ih =>
    simp only [List.map_cons, List.sum_cons, List.length_cons]
    rw [ih, sqDist]
    push_cast
    ring

private theorem sumSq_about_mean (l : List (ℝ × ℝ)) (hne : l ≠ []) (q : ℝ × ℝ) :
    sumSq l q = sumSq l (meanCenter l) + l.length * sqDist (meanCenter l) q := by
  have hn : (l.length : ℝ) ≠ 0 := by exact_mod_cast (List.length_pos_iff.2 hne).ne'
  have h1 : (l.map Prod.fst).sum = l.length * (meanCenter l).1 := by simp only [meanCenter]; field_simp
  have h2 : (l.map Prod.snd).sum = l.length * (meanCenter l).2 := by simp only [meanCenter]; field_simp
  rw [sumSq_expand, sumSq_expand l (meanCenter l), h1, h2, sqDist]
  ring

/-- C180, combining the measures of two groups of events: the mean centre of all events is the mean of the two mean
centres, weighted with the numbers of events, and the squared standard distance is made of the squared standard
distances of the groups and the squared distance of their mean centres. -/
theorem C180_groups (a b : List (ℝ × ℝ)) (ha : a ≠ []) (hb : b ≠ []) :
    meanCenter (a ++ b)
      = ((a.length * (meanCenter a).1 + b.length * (meanCenter b).1) / (a.length + b.length),
         (a.length * (meanCenter a).2 + b.length * (meanCenter b).2) / (a.length + b.length))
    ∧ stdDistance (a ++ b) ^ 2
      = (a.length * stdDistance a ^ 2 + b.length * stdDistance b ^ 2) / (a.length + b.length)
        + a.length * b.length * sqDist (meanCenter a) (meanCenter b) / (a.length + b.length : ℝ) ^ 2 := by
  have hn : (0 : ℝ) < a.length := by exact_mod_cast List.length_pos_iff.2 ha
  have hm : (0 : ℝ) < b.length := by exact_mod_cast List.length_pos_iff.2 hb
  have hmean : meanCenter (a ++ b)
      = ((a.length * (meanCenter a).1 + b.length * (meanCenter b).1) / (a.length + b.length),
         (a.length * (meanCenter a).2 + b.length * (meanCenter b).2) / (a.length + b.length)) := by
    simp only [meanCenter, List.map_append, List.sum_append, List.length_append]
    push_cast
    rw [mul_div_cancel₀ _ hn.ne', mul_div_cancel₀ _ hm.ne', mul_div_cancel₀ _ hn.ne', mul_div_cancel₀ _ hm.ne']
  refine ⟨hmean, ?_⟩
  rw [(C27_std_distance (a ++ b) (by simp [ha])).2.1, (C27_std_distance a ha).2.1, (C27_std_distance b hb).2.1]
  have hsplit : sumSq (a ++ b) (meanCenter (a ++ b)) = sumSq a (meanCenter (a ++ b)) + sumSq b (meanCenter (a ++ b)) := by
    simp [sumSq]
  rw [hsplit, sumSq_about_mean a ha, sumSq_about_mean b hb, hmean, mul_div_cancel₀ _ hn.ne', mul_div_cancel₀ _ hm.ne',
    List.length_append]
  push_cast
  simp only [sqDist]
  generalize (meanCenter a).1 = x, (meanCenter a).2 = y, (meanCenter b).1 = z, (meanCenter b).2 = w
  generalize sumSq a _ = A, sumSq b _ = B
  generalize (a.length : ℝ) = n at hn ⊢
  generalize (b.length : ℝ) = m at hm ⊢
  have hnm : n + m ≠ 0 := by positivity
  field_simp
  ring

/-- **C180, what holds.** Two patterns of tables with the same columns, in which no row is twice, neither within a table nor
in both: superimposing them gives a pattern with the events of the first and then of the second; its number of events is the
sum, its mean centre and its standard distance are those of the two groups combined. Missing: tables with equal rows, for
which it is false (`C180_superimposed_refuted`). -/
theorem C180_superimposed_partial (ext : Ext ℝ) (p : ℕ) (rows rows' : List (List ℝ)) (hrows : ∀ r ∈ rows, r.length = p)
    (w w' : Option (Win ℝ)) (names coordNames : Option (List String)) (s t : Obj ℝ)
    (hs : construct p rows w names coordNames = .ok s) (ht : construct p rows' w' names coordNames = .ok t)
    (hne : rows ≠ []) (hne' : rows' ≠ []) (hnd : (rows ++ rows').Nodup) :
    ∃ u, superimpose s t = .ok u ∧ u.points = s.points ++ t.points
      ∧ (read ext .n u).1 = .ok (.nat (rows.length + rows'.length))
      ∧ meanCenter u.points
        = ((rows.length * (meanCenter s.points).1 + rows'.length * (meanCenter t.points).1) / (rows.length + rows'.length),
           (rows.length * (meanCenter s.points).2 + rows'.length * (meanCenter t.points).2) / (rows.length + rows'.length))
      ∧ stdDistance u.points ^ 2
        = (rows.length * stdDistance s.points ^ 2 + rows'.length * stdDistance t.points ^ 2) / (rows.length + rows'.length)
          + rows.length * rows'.length * sqDist (meanCenter s.points) (meanCenter t.points)
            / (rows.length + rows'.length : ℝ) ^ 2 := by
  obtain ⟨x, y, e1, -, -, -, e5, e6, -, -, e9, -⟩ := construct_ok hs
  obtain ⟨x', y', e1', -, -, -, e5', e6', -, -, e9', -⟩ := construct_ok ht
  have hxy : [x, y] = [x', y'] := by rw [← e1, e1']
  obtain ⟨u, k1, -, -, k4, -⟩ := reconstruct (shape_construct hrows hs) (rows ++ rows') none (by simp [hne])
  have hu : superimpose s t = .ok u := by
    unfold superimpose
    rw [if_neg (by rw [e5, e5', e6, e6', hxy]; simp), ← k1]
    simp only [e5, e5', dropDuplicates_of_nodup hnd]
  have hl : ∀ r : List (List ℝ), locations s.df.names.length r (some s.df.names) (some s.coordNames)
      = locations p r names coordNames := by
    intro r
    simp only [locations, e5, e6]
    simp only [resolveNames, Option.getD_some] at e1 ⊢
    rw [e1]
  have hp : u.points = s.points ++ t.points := by
    rw [k4, hl, e9, e9']
    simp [locations]
  have l1 : s.points.length = rows.length := by rw [e9]; simp [locations]
  have l2 : t.points.length = rows'.length := by rw [e9']; simp [locations]
  have n1 : s.points ≠ [] := fun h => hne (List.length_eq_zero_iff.1 (by rw [← l1, h]; rfl))
  have n2 : t.points ≠ [] := fun h => hne' (List.length_eq_zero_iff.1 (by rw [← l2, h]; rfl))
  have hc := C180_groups s.points t.points n1 n2
  rw [l1, l2, ← hp] at hc
  refine ⟨u, hu, hp, ?_, hc⟩
  have hn := C01_attributes_history_independent ext s.df.names.length (rows ++ rows') none (some s.df.names)
    (some s.coordNames) u k1 [] .n _ rfl
  simp only [run, List.foldl_nil] at hn
  rw [hn]
  simp [locations]

/-- **C180 is false of the code.** Two patterns with an event in common: it is counted once, and the mean centre is not that of
the two groups combined. -/
theorem C180_superimposed_refuted : ∃ s t u : Obj ℚ, construct 2 [[0, 0], [4, 0]] none none none = .ok s
    ∧ construct 2 [[0, 0], [0, 4]] none none none = .ok t ∧ superimpose s t = .ok u
    ∧ s.points.length = 2 ∧ t.points.length = 2 ∧ u.points.length = 3
    ∧ meanCenter s.points = (2, 0) ∧ meanCenter t.points = (0, 2) ∧ meanCenter u.points ≠ (1, 1) :=
  ⟨_, _, _, rfl, rfl, rfl, by decide +kernel⟩

/-- Non-vacuity. -/
example : ∃ s t u : Obj ℚ, construct 2 [[0, 0], [4, 0]] none none none = .ok s
    ∧ construct 2 [[1, 0], [0, 4]] none none none = .ok t ∧ superimpose s t = .ok u
    ∧ u.points = [(0, 0), (4, 0), (1, 0), (0, 4)] :=
  ⟨_, _, _, rfl, rfl, rfl, by decide +kernel⟩

end Pointpats.Props
