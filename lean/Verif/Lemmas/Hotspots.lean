import Verif.Model.Knox
import Mathlib.Data.List.Sort

/-!
# Lemmas on the table of hot spots
-/

set_option linter.unusedSectionVars false

namespace Pointpats.Spacetime

theorem option_mapM_some {α β : Type} (f : α → Option β) (l : List α) (h : ∀ a ∈ l, (f a).isSome) :
    ∃ out, l.mapM f = some out ∧ List.Forall₂ (fun a b => f a = some b) l out := by
  induction l with
  | nil => exact ⟨[], rfl, .nil⟩
  | cons a l ih =>
    obtain ⟨out, h1, h2⟩ := ih fun b hb => h b (List.mem_cons_of_mem _ hb)
    obtain ⟨b, hb⟩ := Option.isSome_iff_exists.1 (h a List.mem_cons_self)
    refine ⟨b :: out, ?_, .cons hb h2⟩
    rw [List.mapM_cons, hb, h1]
    rfl

/-- Picking rows by key, for a list of keys, when the keys of the rows are different. -/
theorem map_flatMap_pick {α ι : Type} [DecidableEq ι] (key : α → ι) (T : List α) (hT : (T.map key).Nodup) (l : List ι) :
    (l.flatMap fun g => T.filter fun r => decide (key r = g)).map key
      = l.filter fun g => decide (g ∈ T.map key) := by
  induction l with
  | nil => rfl
  | cons g l ih =>
    rw [List.flatMap_cons, List.map_append, ih, List.filter_cons]
    have e : (T.filter fun r => decide (key r = g)).map key = if g ∈ T.map key then [g] else [] := by
      have : (T.filter fun r => decide (key r = g)).map key = (T.map key).filter fun k => decide (k = g) := by
        rw [List.filter_map]
        rfl
      rw [this]
      have h2 := List.filter_eq (l := T.map key) g
      rw [h2]
      by_cases hm : g ∈ T.map key
      · rw [if_pos hm, List.count_eq_one_of_mem hT hm]
        rfl
      · rw [if_neg hm, List.count_eq_zero_of_not_mem hm]
        rfl
    rw [e]
    by_cases hm : g ∈ T.map key
    · simp only [hm, if_true, decide_true, List.cons_append, List.nil_append]
    · simp only [hm, if_false, decide_false, List.nil_append, Bool.false_eq_true]

variable {K ι : Type} [Field K] [LinearOrder K] [LinearOrder ι]

/-- The table of hot spots lists the significant keys and those next to one, with their own data and one of
their neighbours. -/
theorem hotTable_spec (rows : List (ι × K × K)) (adj : List (ι × ι × Orientation)) (crit : K)
    (hsymm : ∀ a b, (∃ w, (a, b, w) ∈ adj) → ∃ w, (b, a, w) ∈ adj)
    (hend : ∀ a b w, (a, b, w) ∈ adj → a ∈ rows.map Prod.fst)
    (hsig : ∀ k p t, (k, p, t) ∈ rows → p ≤ crit → ∃ b w, (k, b, w) ∈ adj)
    (hne : ∃ k p t, (k, p, t) ∈ rows ∧ p ≤ crit) :
    ∃ table, hotTable rows adj crit = some table ∧ (table.map Prod.fst).Nodup ∧
      (∀ k, k ∈ table.map Prod.fst ↔ (∃ p t, (k, p, t) ∈ rows ∧ p ≤ crit) ∨
        ∃ s w p t, (k, s, w) ∈ adj ∧ (s, p, t) ∈ rows ∧ p ≤ crit) ∧
      (∀ k p t b w, (k, p, t, b, w) ∈ table → (k, p, t) ∈ rows ∧ (k, b, w) ∈ adj ∧
        ((∃ p' t', (k, p', t') ∈ rows ∧ p' ≤ crit) ∨ ∃ p' t', (b, p', t') ∈ rows ∧ p' ≤ crit)) := by
  let sig := rows.filter fun r => decide (r.2.1 ≤ crit)
  let temp := touching adj (sig.map Prod.fst)
  let tab := sig ++ rows.filter fun r => decide (r.1 ∈ temp.map fun row => row.2.1)
  let keys := ((tab.map Prod.fst ++ temp.map Prod.fst).dedup).insertionSort (· ≤ ·)
  have msig : ∀ k, k ∈ sig.map Prod.fst ↔ ∃ p t, (k, p, t) ∈ rows ∧ p ≤ crit := by
    intro k
    simp only [sig, List.mem_map, List.mem_filter, decide_eq_true_eq, Prod.exists]
    constructor
    · rintro ⟨a, p, t, ⟨h1, h2⟩, rfl⟩; exact ⟨p, t, h1, h2⟩
    · rintro ⟨p, t, h1, h2⟩; exact ⟨k, p, t, ⟨h1, h2⟩, rfl⟩
  have mtemp : ∀ a b w, (a, b, w) ∈ temp ↔ (a, b, w) ∈ adj ∧ (a ∈ sig.map Prod.fst ∨ b ∈ sig.map Prod.fst) := by
    intro a b w
    simp only [temp, touching, List.mem_filter, Bool.or_eq_true, decide_eq_true_eq]
  have mtab : ∀ k p t, (k, p, t) ∈ tab → (k, p, t) ∈ rows := by
    intro k p t h
    simp only [tab, sig, List.mem_append, List.mem_filter] at h
    tauto
  -- hot keys
  let hot : ι → Prop := fun k => k ∈ sig.map Prod.fst ∨ ∃ s w, (k, s, w) ∈ adj ∧ s ∈ sig.map Prod.fst
  have htab : ∀ k, hot k → ∃ p t, (k, p, t) ∈ tab := by
    rintro k (h | ⟨s, w, h1, h2⟩)
    · obtain ⟨p, t, h1, h2⟩ := (msig k).1 h
      refine ⟨p, t, List.mem_append_left _ ?_⟩
      simp only [sig, List.mem_filter, decide_eq_true_eq]
      exact ⟨h1, h2⟩
    · obtain ⟨w', h3⟩ := hsymm k s ⟨w, h1⟩
      have h4 : (s, k, w') ∈ temp := (mtemp _ _ _).2 ⟨h3, Or.inl h2⟩
      obtain ⟨⟨k', p, t⟩, hr, hk⟩ := List.mem_map.1 (hend k s w h1)
      simp only at hk
      subst hk
      refine ⟨p, t, List.mem_append_right _ ?_⟩
      simp only [List.mem_filter, decide_eq_true_eq]
      exact ⟨hr, List.mem_map.2 ⟨_, h4, rfl⟩⟩
  have htemp : ∀ k, hot k → ∃ b w, (k, b, w) ∈ temp := by
    rintro k (h | ⟨s, w, h1, h2⟩)
    · obtain ⟨p, t, h1, h2⟩ := (msig k).1 h
      obtain ⟨b, w, h3⟩ := hsig k p t h1 h2
      exact ⟨b, w, (mtemp _ _ _).2 ⟨h3, Or.inl h⟩⟩
    · exact ⟨s, w, (mtemp _ _ _).2 ⟨h1, Or.inr h2⟩⟩
  have hkeys : ∀ k, k ∈ keys ↔ hot k := by
    intro k
    simp only [keys, List.mem_insertionSort, List.mem_dedup, List.mem_append]
    constructor
    · rintro (h | h)
      · obtain ⟨⟨a, p, t⟩, hr, rfl⟩ := List.mem_map.1 h
        rcases List.mem_append.1 hr with hr | hr
        · exact Or.inl (List.mem_map.2 ⟨_, hr, rfl⟩)
        · simp only [List.mem_filter, decide_eq_true_eq] at hr
          obtain ⟨⟨x, y, w⟩, h1, h2⟩ := List.mem_map.1 hr.2
          simp only at h2
          subst h2
          obtain ⟨h3, h4⟩ := (mtemp _ _ _).1 h1
          rcases h4 with h4 | h4
          · obtain ⟨w', h5⟩ := hsymm x y ⟨w, h3⟩
            exact Or.inr ⟨x, w', h5, h4⟩
          · exact Or.inl h4
      · obtain ⟨⟨x, y, w⟩, h1, rfl⟩ := List.mem_map.1 h
        obtain ⟨h3, h4⟩ := (mtemp _ _ _).1 h1
        rcases h4 with h4 | h4
        · exact Or.inl h4
        · exact Or.inr ⟨y, w, h3, h4⟩
    · intro h
      obtain ⟨p, t, h1⟩ := htab k h
      exact Or.inl (List.mem_map.2 ⟨_, h1, rfl⟩)
  have hnd : keys.Nodup := by
    simp only [keys, (List.perm_insertionSort _ _).nodup_iff]
    exact List.nodup_dedup _
  have hkne : keys ≠ [] := by
    obtain ⟨k, p, t, h1, h2⟩ := hne
    intro h
    have := (hkeys k).2 (Or.inl ((msig k).2 ⟨p, t, h1, h2⟩))
    rw [h] at this
    simp at this
  let f : ι → Option (ι × K × K × ι × Orientation) := fun k =>
    match tab.find? (fun r => decide (r.1 = k)), temp.find? (fun row => decide (row.1 = k)) with
    | some r, some row => some (k, r.2.1, r.2.2, row.2.1, row.2.2)
    | _, _ => none
  have hf : ∀ k ∈ keys, (f k).isSome := by
    intro k hk
    obtain ⟨p, t, h1⟩ := htab k ((hkeys k).1 hk)
    obtain ⟨b, w, h2⟩ := htemp k ((hkeys k).1 hk)
    have e1 : (tab.find? fun r => decide (r.1 = k)).isSome := by
      rw [List.find?_isSome]
      exact ⟨_, h1, by simp⟩
    have e2 : (temp.find? fun row => decide (row.1 = k)).isSome := by
      rw [List.find?_isSome]
      exact ⟨_, h2, by simp⟩
    obtain ⟨r, hr⟩ := Option.isSome_iff_exists.1 e1
    obtain ⟨row, hrow⟩ := Option.isSome_iff_exists.1 e2
    simp only [f, hr, hrow, Option.isSome_some]
  have hfk : ∀ k x, f k = some x → x.1 = k ∧ (k, x.2.1, x.2.2.1) ∈ tab ∧ (k, x.2.2.2.1, x.2.2.2.2) ∈ temp := by
    intro k x hx
    simp only [f] at hx
    split at hx
    · rename_i r row hr hrow
      have h1 := List.find?_some hr
      have h2 := List.find?_some hrow
      have h3 := List.mem_of_find?_eq_some hr
      have h4 := List.mem_of_find?_eq_some hrow
      simp only [decide_eq_true_eq] at h1 h2
      simp only [Option.some.injEq] at hx
      subst hx
      subst h1
      refine ⟨rfl, h3, ?_⟩
      rw [← h2]
      exact h4
    · simp at hx
  obtain ⟨table, ht, hF⟩ := option_mapM_some f keys hf
  have hmap : table.map Prod.fst = keys := by
    clear ht
    have : ∀ (l : List ι) (out : List (ι × K × K × ι × Orientation)), List.Forall₂ (fun a b => f a = some b) l out →
        out.map Prod.fst = l := by
      intro l out h
      induction h with
      | nil => rfl
      | cons h1 _ ih => rw [List.map_cons, ih, (hfk _ _ h1).1]
    exact this _ _ hF
  refine ⟨table, ?_, hmap ▸ hnd, ?_, ?_⟩
  · have : hotTable rows adj crit = if keys = [] then none else keys.mapM f := rfl
    rw [this, if_neg hkne, ht]
  · intro k
    rw [hmap, hkeys]
    simp only [hot, msig]
    constructor
    · rintro (h | ⟨s, w, h1, p, t, h2, h3⟩)
      · exact Or.inl h
      · exact Or.inr ⟨s, w, p, t, h1, h2, h3⟩
    · rintro (h | ⟨s, w, p, t, h1, h2, h3⟩)
      · exact Or.inl h
      · exact Or.inr ⟨s, w, h1, p, t, h2, h3⟩
  · intro k p t b w hm
    have : ∃ a ∈ keys, f a = some (k, p, t, b, w) := by
      clear ht hmap
      have : ∀ (l : List ι) (out : List (ι × K × K × ι × Orientation)), List.Forall₂ (fun a b => f a = some b) l out →
          ∀ y ∈ out, ∃ a ∈ l, f a = some y := by
        intro l out h
        induction h with
        | nil => intro y hy; simp at hy
        | cons h1 _ ih =>
          intro y hy
          rcases List.mem_cons.1 hy with rfl | hy
          · exact ⟨_, List.mem_cons_self, h1⟩
          · obtain ⟨a, ha, h⟩ := ih y hy
            exact ⟨a, List.mem_cons_of_mem _ ha, h⟩
      exact this _ _ hF _ hm
    obtain ⟨a, -, ha⟩ := this
    obtain ⟨h1, h2, h3⟩ := hfk _ _ ha
    simp only at h1 h2 h3
    subst h1
    obtain ⟨h4, h5⟩ := (mtemp _ _ _).1 h3
    exact ⟨mtab _ _ _ h2, h4, h5.imp (msig _).1 (msig _).1⟩

end Pointpats.Spacetime
