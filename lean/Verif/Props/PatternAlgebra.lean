import Verif.Props.PointPattern
import Verif.Props.Superimposed

/-!
# C183: putting patterns together does not depend on the grouping, and undoes taking them apart
-/

set_option linter.unusedSectionVars false

namespace Pointpats.Props

open PointPattern Spec

variable {K : Type} [Field K] [LinearOrder K] [IsStrictOrderedRing K]

private theorem dd_append {α : Type} [DecidableEq α] (l m : List α) :
    dropDuplicates (l ++ m) = dropDuplicates l ++ (dropDuplicates m).filter fun a => decide (a ∉ l) := by
  induction l with
  | nil => simp [dropDuplicates]
  | cons a l ih =>
    simp only [List.cons_append, dropDuplicates, ih, List.filter_append, List.filter_filter]
    congr 2
    refine List.filter_congr fun b _ => ?_
    simp only [List.mem_cons, not_or]
    by_cases h1 : b = a <;> by_cases h2 : b ∈ l <;> simp [h1, h2]

private theorem dd_dd {α : Type} [DecidableEq α] (l : List α) : dropDuplicates (dropDuplicates l) = dropDuplicates l :=
  dropDuplicates_of_nodup (dropDuplicates_spec l).nodup

private theorem dd_left {α : Type} [DecidableEq α] (l m : List α) :
    dropDuplicates (dropDuplicates l ++ m) = dropDuplicates (l ++ m) := by
  rw [dd_append, dd_append l, dd_dd]
  simp only [mem_dropDuplicates]

private theorem dd_right {α : Type} [DecidableEq α] (l m : List α) :
    dropDuplicates (l ++ dropDuplicates m) = dropDuplicates (l ++ m) := by
  rw [dd_append, dd_append l, dd_dd]

private theorem dd_ne {α : Type} [DecidableEq α] {l : List α} (h : l ≠ []) : dropDuplicates l ≠ [] := by
  cases l with
  | nil => exact absurd rfl h
  | cons a l => simp [dropDuplicates]

/-- Superimposing two patterns with the columns of a third. -/
private theorem superimpose_like {s a b : Obj K} (hs : Shape s) (ha : a.df.names = s.df.names) (ha' : a.coordNames = s.coordNames)
    (hb : b.df.names = s.df.names) (hb' : b.coordNames = s.coordNames) (hne : a.df.rows ++ b.df.rows ≠ []) :
    ∃ u, superimpose a b = .ok u ∧ u.df = ⟨s.df.names, dropDuplicates (a.df.rows ++ b.df.rows)⟩
      ∧ u.coordNames = s.coordNames
      ∧ construct s.df.names.length (dropDuplicates (a.df.rows ++ b.df.rows)) none (some s.df.names) (some s.coordNames)
          = .ok u := by
  obtain ⟨u, h1, h2, h3, -⟩ := reconstruct hs (dropDuplicates (a.df.rows ++ b.df.rows)) none fun _ => dd_ne hne
  refine ⟨u, ?_, h2, h3, h1⟩
  unfold superimpose
  rw [if_neg (by rw [ha, ha', hb, hb']; simp), ha, ha', h1]

/-- **C183, grouping.** Three patterns, the middle one with events: superimposing the third on the first two gives the same
pattern, or the same error, as superimposing the last two on the first. -/
theorem C183_grouping (ext : Ext K) (s t u : Obj K) (hs : Reachable ext s) (ht : Reachable ext t) (hne : t.df.rows ≠ []) :
    ((superimpose s t) >>= fun v => superimpose v u) = ((superimpose t u) >>= fun v => superimpose s v) := by
  have hss := shape_reachable hs
  have hst := shape_reachable ht
  by_cases h1 : s.df.names ≠ t.df.names ∨ s.coordNames ≠ t.coordNames
  · have e1 : superimpose s t = .error .typeError := by unfold superimpose; rw [if_pos h1]
    rw [e1]
    by_cases h2 : t.df.names ≠ u.df.names ∨ t.coordNames ≠ u.coordNames
    · have e2 : superimpose t u = .error .typeError := by unfold superimpose; rw [if_pos h2]
      rw [e2]
      rfl
    · push Not at h2
      obtain ⟨v, k1, k2, k3, -⟩ := superimpose_like hst rfl rfl h2.1.symm h2.2.symm (by simp [hne])
      rw [k1]
      show _ = superimpose s v
      unfold superimpose
      rw [if_pos (by rw [k2, k3]; exact h1)]
      rfl
  · push Not at h1
    obtain ⟨v, k1, k2, k3, -⟩ := superimpose_like hss rfl rfl h1.1.symm h1.2.symm (by simp [hne])
    rw [k1]
    by_cases h2 : t.df.names ≠ u.df.names ∨ t.coordNames ≠ u.coordNames
    · have e2 : superimpose t u = .error .typeError := by unfold superimpose; rw [if_pos h2]
      rw [e2]
      show superimpose v u = _
      unfold superimpose
      rw [if_pos (by rw [k2, k3, h1.1, h1.2]; exact h2)]
      rfl
    · push Not at h2
      obtain ⟨w, m1, m2, m3, -⟩ := superimpose_like hss h1.1.symm h1.2.symm (h2.1.symm.trans h1.1.symm)
        (h2.2.symm.trans h1.2.symm) (a := t) (b := u) (by simp [hne])
      rw [m1]
      show superimpose v u = superimpose s w
      obtain ⟨x, a1, -, -, a4⟩ := superimpose_like hss (a := v) (b := u) (by rw [k2]) k3 (h2.1.symm.trans h1.1.symm)
        (h2.2.symm.trans h1.2.symm) (by rw [k2]; simp [dd_ne (show s.df.rows ++ t.df.rows ≠ [] by simp [hne])])
      obtain ⟨y, b1, -, -, b4⟩ := superimpose_like hss (a := s) (b := w) rfl rfl (by rw [m2]) m3
        (by rw [m2]; simp [dd_ne (show t.df.rows ++ u.df.rows ≠ [] by simp [hne])])
      rw [a1, b1]
      simp only [k2, dd_left] at a4
      simp only [m2, dd_right] at b4
      rw [← List.append_assoc, a4] at b4
      exact b4

/-- **C183, parts.** A pattern with events, and one of its columns: superimposing the parts that `explode` gives, one after the
other, gives a pattern with the same columns and the same events; if the column has more than one value each event is there
once, as in `unique`, and otherwise the table is the one of the pattern. -/
theorem C183_parts (ext : Ext K) (s : Obj K) (hs : Reachable ext s) (hne : s.df.rows ≠ []) (mark : String)
    (hm : mark ∈ s.df.names) :
    ∃ p ps u v, explode s mark = .ok (p :: ps) ∧ ps.foldlM superimpose p = .ok u ∧ unique s = .ok v
      ∧ u.df.names = s.df.names ∧ u.coordNames = s.coordNames ∧ (∀ r, r ∈ u.df.rows ↔ r ∈ s.df.rows)
      ∧ (ps ≠ [] → u.df.rows.Perm v.df.rows) ∧ (ps = [] → u.df.rows = s.df.rows) := by
  have hsh := shape_reachable hs
  obtain ⟨v, v1, v2, -⟩ := C06_unique ext s hs
  obtain ⟨parts, vals, e1, -, e3, e4, -⟩ := (C09_explode ext s hs mark).2 hm
  have hcols : ∀ p ∈ parts, p.df.names = s.df.names ∧ p.coordNames = s.coordNames ∧ p.df.rows ≠ [] := by
    intro p hp
    obtain ⟨k, hk, rfl⟩ := List.getElem_of_mem hp
    obtain ⟨-, a2, a3, a4⟩ := (List.forall₂_iff_get.1 e4).2 k hk (by rw [← e4.length_eq]; exact hk)
    exact ⟨a2, a3, a4⟩
  have hrows : ∀ r, (∃ p ∈ parts, r ∈ p.df.rows) ↔ r ∈ s.df.rows := by
    intro r
    constructor
    · rintro ⟨p, hp, hr⟩
      obtain ⟨k, hk, rfl⟩ := List.getElem_of_mem hp
      obtain ⟨a1, -⟩ := (List.forall₂_iff_get.1 e4).2 k hk (by rw [← e4.length_eq]; exact hk)
      have hr' : r ∈ (parts.get ⟨k, hk⟩).df.rows := hr
      rw [a1] at hr'
      exact (List.mem_filter.1 hr').1
    · intro hr
      obtain ⟨k, hk, hkv⟩ := List.getElem_of_mem ((e3 (cell s.df.names mark r)).2 ⟨r, hr, rfl⟩)
      have hk' : k < parts.length := by rw [e4.length_eq]; exact hk
      obtain ⟨a1, -⟩ := (List.forall₂_iff_get.1 e4).2 k hk' hk
      refine ⟨parts.get ⟨k, hk'⟩, List.get_mem _ _, ?_⟩
      rw [a1, List.mem_filter]
      exact ⟨hr, by simpa using hkv.symm⟩
  have hfold : ∀ (ps : List (Obj K)) (p : Obj K), (p.df.names = s.df.names ∧ p.coordNames = s.coordNames ∧ p.df.rows ≠ []) →
      (∀ q ∈ ps, q.df.names = s.df.names ∧ q.coordNames = s.coordNames ∧ q.df.rows ≠ []) →
      ∃ u, ps.foldlM superimpose p = .ok u ∧ u.df.names = s.df.names ∧ u.coordNames = s.coordNames
        ∧ (∀ r, r ∈ u.df.rows ↔ ∃ q ∈ p :: ps, r ∈ q.df.rows) ∧ ((ps ≠ [] ∨ p.df.rows.Nodup) → u.df.rows.Nodup)
        ∧ (ps = [] → u = p) := by
    intro ps
    induction ps with
    | nil => intro p hp _; exact ⟨p, rfl, hp.1, hp.2.1, by simp, by simp, fun _ => rfl⟩
    | cons q ps ih =>
      intro p hp hps
      have hq := hps q (by simp)
      obtain ⟨w, w1, w2, w3, -⟩ := superimpose_like hsh hp.1 hp.2.1 hq.1 hq.2.1 (by simp [hp.2.2])
      have hw : w.df.rows = dropDuplicates (p.df.rows ++ q.df.rows) := by rw [w2]
      obtain ⟨u, u1, u2, u3, u4, u5, -⟩ := ih w ⟨by rw [w2], w3, by rw [hw]; exact dd_ne (by simp [hp.2.2])⟩
        fun x hx => hps x (List.mem_cons_of_mem _ hx)
      refine ⟨u, ?_, u2, u3, fun r => ?_, fun _ => u5 (Or.inr (by rw [hw]; exact (dropDuplicates_spec _).nodup)), by simp⟩
      · rw [List.foldlM_cons, w1]
        exact u1
      · rw [u4]
        simp only [List.mem_cons, exists_eq_or_imp, hw, mem_dropDuplicates, List.mem_append, or_assoc]
  cases parts with
  | nil =>
    exfalso
    obtain ⟨r, hr⟩ := List.exists_mem_of_ne_nil _ hne
    obtain ⟨p, hp, -⟩ := (hrows r).2 hr
    simp at hp
  | cons p ps =>
    obtain ⟨u, u1, u2, u3, u4, u5, u6⟩ := hfold ps p (hcols p (by simp)) fun q hq => hcols q (List.mem_cons_of_mem _ hq)
    have hmem : ∀ r, r ∈ u.df.rows ↔ r ∈ s.df.rows := fun r => by rw [u4, hrows]
    refine ⟨p, ps, u, v, e1, u1, v1, u2, u3, hmem, fun h => ?_, ?_⟩
    · rw [List.perm_ext_iff_of_nodup (u5 (Or.inl h)) v2.nodup]
      intro r
      rw [hmem, v2.mem]
    · rintro rfl
      rw [u6 rfl]
      cases vals with
      | nil => cases e4
      | cons x xs =>
        cases e4 with
        | cons a b =>
          cases b
          rw [a.1, List.filter_eq_self]
          intro r hr
          have := (e3 (cell s.df.names mark r)).2 ⟨r, hr, rfl⟩
          simpa using this

/-- Non-vacuity: a pattern with two values of the third column, and an event that is there twice, meets the hypotheses. -/
example (ext : Ext ℚ) : ∃ s : Obj ℚ, Reachable ext s ∧ s.df.rows = [[0, 0, 1], [1, 0, 2], [0, 0, 1], [5, 5, 1]]
    ∧ "m" ∈ s.df.names ∧ ∃ v, unique s = .ok v ∧ v.df.rows = [[0, 0, 1], [1, 0, 2], [5, 5, 1]] := by
  refine ⟨_, ⟨3, [[0, 0, 1], [1, 0, 2], [0, 0, 1], [5, 5, 1]], none, some ["x", "y", "m"], none, _, [], by decide, rfl, rfl⟩,
    rfl, show "m" ∈ ["x", "y", "m"] by decide, _, rfl,
    show dropDuplicates ([[0, 0, 1], [1, 0, 2], [0, 0, 1], [5, 5, 1]] : List (List ℚ)) = _ by decide +kernel⟩

end Pointpats.Props
