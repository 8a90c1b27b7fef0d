import Verif.Model.Py
import Mathlib.Tactic.Common
import Mathlib.Algebra.BigOperators.Group.List.Basic
import Mathlib.Data.List.Count

/-! # Facts about the dictionary model -/

namespace Pointpats.Dict

theorem incr_of_mem {k : ℤ} : ∀ {d : Dict}, k ∈ d.keys →
    ∃ d', incr k d = .ok d' ∧ d'.keys = d.keys ∧ d'.values.sum = d.values.sum + 1
      ∧ ∀ k', getD0 k' d' = getD0 k' d + (if k' = k then 1 else 0)
  | [], h => by simp [keys] at h
  | (a, v) :: d, h => by
    by_cases ha : a = k
    · subst ha
      refine ⟨(a, v + 1) :: d, by simp [incr], by simp [keys], by simp [values]; omega, ?_⟩
      intro k'
      by_cases hk : a = k'
      · subst hk; simp [getD0]
      · have : ¬ k' = a := fun h => hk h.symm
        simp [getD0, hk, this]
    · have hk : k ∈ keys d := by
        simp only [keys, List.map_cons, List.mem_cons] at h
        rcases h with h | h
        · exact absurd h.symm ha
        · exact h
      obtain ⟨d', h1, h2, h3, h4⟩ := incr_of_mem hk
      refine ⟨(a, v) :: d', by simp [incr, ha, h1], ?_, ?_, ?_⟩
      · simpa [keys] using h2
      · simp only [values, List.map_cons, List.sum_cons] at h3 ⊢; omega
      · intro k'
        by_cases hk : a = k'
        · subst hk; simp [getD0, ha]
        · simp [getD0, hk, h4]

theorem incr_of_not_mem {k : ℤ} : ∀ {d : Dict}, k ∉ d.keys → incr k d = .error .keyError
  | [], _ => rfl
  | (a, v) :: d, h => by
    simp only [keys, List.map_cons, List.mem_cons, not_or] at h
    have := incr_of_not_mem (k := k) (d := d) h.2
    simp [incr, Ne.symm h.1, this]

/-- Counting loop: if every key computed is present, the loop succeeds and counts. -/
theorem foldlM_incr {α : Type _} (f : α → Py ℤ) (g : α → ℤ) (l : List α) : ∀ (d : Dict),
    (∀ a ∈ l, f a = .ok (g a) ∧ g a ∈ d.keys) →
    ∃ d', l.foldlM (fun d a => do let c ← f a; incr c d) d = .ok d' ∧ d'.keys = d.keys
      ∧ d'.values.sum = d.values.sum + l.length
      ∧ ∀ k, getD0 k d' = getD0 k d + (l.filter fun a => g a = k).length := by
  induction l with
  | nil => intro d _; exact ⟨d, rfl, rfl, by simp, by simp⟩
  | cons a l ih =>
    intro d h
    obtain ⟨ha, hk⟩ := h a (by simp)
    obtain ⟨d1, h1, h2, h3, h4⟩ := incr_of_mem hk
    obtain ⟨d', e1, e2, e3, e4⟩ := ih d1 (fun b hb => by
      have := h b (by simp [hb]); rw [h2]; exact this)
    refine ⟨d', ?_, by rw [e2, h2], by rw [e3, h3]; simp; omega, ?_⟩
    · simp only [List.foldlM_cons, ha]
      show (do let d ← (do let c ← (Except.ok (g a) : Py ℤ); incr c d); _) = _
      have : (do let c ← (Except.ok (g a) : Py ℤ); incr c d) = .ok d1 := h1
      rw [this]; exact e1
    · intro k
      rw [e4, h4]
      by_cases hgk : g a = k
      · simp [hgk]; omega
      · have : ¬ k = g a := fun h => hgk h.symm
        simp [hgk, this]

theorem foldlM_error {α : Type _} (f : α → Dict → Py Dict) (l : List α)
    (d : Dict) (h : ∃ a ∈ l, ∀ d, ∃ e, f a d = .error e) :
    ∃ e, l.foldlM (fun d a => f a d) d = .error e := by
  induction l generalizing d with
  | nil => simp at h
  | cons a l ih =>
    simp only [List.foldlM_cons]
    cases hd : f a d with
    | error e => exact ⟨e, rfl⟩
    | ok d' =>
      apply ih
      obtain ⟨b, hb, hb'⟩ := h
      simp only [List.mem_cons] at hb
      rcases hb with rfl | hb
      · obtain ⟨e, he⟩ := hb' d; rw [hd] at he; cases he
      · exact ⟨b, hb, hb'⟩

/-- Setting fresh keys to zero appends them. -/
theorem set_of_not_mem {k : ℤ} {v : ℕ} : ∀ {d : Dict}, k ∉ d.keys → set k v d = d ++ [(k, v)]
  | [], _ => rfl
  | (a, w) :: d, h => by
    simp only [keys, List.map_cons, List.mem_cons, not_or] at h
    simp [set, Ne.symm h.1, set_of_not_mem (d := d) h.2]

/-- Setting a list of distinct fresh keys. -/
theorem foldl_set (ks : List ℤ) : ∀ (d : Dict), ks.Nodup → (∀ k ∈ ks, k ∉ d.keys) →
    ks.foldl (fun d k => set k 0 d) d = d ++ ks.map (fun k => (k, 0)) := by
  induction ks with
  | nil => intro d _ _; simp
  | cons k ks ih =>
    intro d hn hd
    simp only [List.nodup_cons] at hn
    simp only [List.foldl_cons]
    rw [set_of_not_mem (hd k (by simp)), ih _ hn.2]
    · simp
    · intro k' hk' hm
      simp only [keys, List.map_append, List.mem_append, List.map_cons, List.map_nil,
        List.mem_singleton] at hm
      rcases hm with hm | hm
      · exact hd k' (by simp [hk']) hm
      · subst hm; exact hn.1 hk'

theorem getD0_map_zero (ks : List ℤ) (k : ℤ) : getD0 k (ks.map fun k => (k, 0)) = 0 := by
  induction ks with
  | nil => rfl
  | cons a ks ih => simp [getD0, ih]

theorem keys_map_zero (ks : List ℤ) : keys (ks.map fun k => (k, 0)) = ks := by
  simp [keys, Function.comp_def]

theorem values_sum_map_zero (ks : List ℤ) : (values (ks.map fun k => (k, 0))).sum = 0 := by
  simp [values, Function.comp_def]

end Pointpats.Dict
