import Verif.Model.Py

/-!
# Loops that may raise
-/

namespace Pointpats

/-- A comprehension whose element may raise: the list of the values if none does. -/
theorem mapM_ok_iff {α β : Type} (f : α → Py β) (l : List α) (r : List β) :
    l.mapM f = .ok r ↔ List.Forall₂ (fun a b => f a = .ok b) l r := by
  induction l generalizing r with
  | nil =>
    rw [List.mapM_nil]
    constructor
    · intro h; cases h; exact .nil
    · intro h; cases h; rfl
  | cons a l ih =>
    rw [List.mapM_cons]
    constructor
    · intro h
      cases ha : f a with
      | error e => rw [ha] at h; cases h
      | ok b =>
        rw [ha] at h
        cases hl : l.mapM f with
        | error e => rw [hl] at h; cases h
        | ok bs =>
          rw [hl] at h
          cases h
          exact .cons ha ((ih bs).1 hl)
    · intro h
      cases h with
      | cons h1 h2 =>
        rw [h1, (ih _).2 h2]
        rfl

/-- Loops with the same bodies. -/
theorem mapM_congr_mem {α β : Type} {f g : α → Py β} {l : List α} (h : ∀ a ∈ l, f a = g a) : l.mapM f = l.mapM g := by
  induction l with
  | nil => rfl
  | cons a l ih => rw [List.mapM_cons, List.mapM_cons, h a (by simp), ih fun b hb => h b (by simp [hb])]

/-- The first exception. -/
theorem mapM_error {α β : Type} (f : α → Py β) (l : List α) (e : PyErr) (h : l.mapM f = .error e) :
    ∃ a ∈ l, f a = .error e := by
  induction l with
  | nil => rw [List.mapM_nil] at h; cases h
  | cons a l ih =>
    rw [List.mapM_cons] at h
    cases ha : f a with
    | error e' =>
      rw [ha] at h
      cases h
      exact ⟨a, by simp, ha⟩
    | ok b =>
      rw [ha] at h
      cases hl : l.mapM f with
      | error e' =>
        rw [hl] at h
        cases h
        obtain ⟨a', h1, h2⟩ := ih hl
        exact ⟨a', by simp [h1], h2⟩
      | ok bs => rw [hl] at h; cases h

/-- Over `range(n)`. -/
theorem mapM_range_ok {β : Type} (f : ℕ → Py β) (n : ℕ) (r : List β) (h : (List.range n).mapM f = .ok r) :
    r.length = n ∧ ∀ i < n, ∃ b, r[i]? = some b ∧ f i = .ok b := by
  have hf := (mapM_ok_iff f _ r).1 h
  have hlen : r.length = n := by
    have := hf.length_eq
    simpa using this.symm
  refine ⟨hlen, ?_⟩
  intro i hi
  have := (List.forall₂_iff_get.1 hf).2 i (by simpa using hi) (by omega)
  refine ⟨r[i]'(by omega), List.getElem?_eq_getElem _, ?_⟩
  simpa using this

end Pointpats
