import Verif.Lemmas.Random
import Mathlib.Tactic.Ring
import Mathlib.Tactic.Linarith

/-! # Uniform points in a circle -/

namespace Pointpats

open Random Spec

variable {K : Type} [Field K] [LinearOrder K]

theorem circleLoop_no_error (r : K) (center : K × K) (inHull : K → K → Bool) (u : ℕ → K) (n fuel pos : ℕ)
    (good : List (K × K)) (e : PyErr) : circleLoop r center inHull u n fuel pos good ≠ some (.error e) := by
  induction fuel generalizing pos good with
  | zero =>
    rw [circleLoop]
    split <;> simp [Run.ret]
  | succ f ih =>
    rw [circleLoop]
    split
    · simp [Run.ret]
    · exact ih _ _

/-- More rounds do not change an outcome. -/
theorem circleLoop_mono (r : K) (center : K × K) (inHull : K → K → Bool) (u : ℕ → K) (n fuel k pos : ℕ)
    (good : List (K × K)) (x : Py (List (K × K) × ℕ))
    (h : circleLoop r center inHull u n fuel pos good = some x) :
    circleLoop r center inHull u n (fuel + k) pos good = some x := by
  induction fuel generalizing pos good with
  | zero =>
    rw [circleLoop] at h
    split at h
    · next hc => rw [circleLoop.eq_def]; simp only [if_pos hc]; exact h
    · cases h
  | succ f ih =>
    rw [Nat.add_right_comm]
    rw [circleLoop] at h ⊢
    split at h
    · next hc => rw [if_pos hc]; exact h
    · next hc =>
      rw [if_neg hc]
      exact ih _ _ h

theorem circleLoop_spec (r : K) (center : K × K) (inHull : K → K → Bool) (u : ℕ → K) (n fuel pos : ℕ)
    (good : List (K × K)) (hlen : good.length ≤ n)
    (hgood : ∀ p ∈ good, p.1 * p.1 + p.2 * p.2 ≤ r * r ∧ inHull (p.1 + center.1) (p.2 + center.2) = true)
    (l : List (K × K)) (pos' : ℕ)
    (h : circleLoop r center inHull u n fuel pos good = some (.ok (l, pos'))) :
    l.length = n ∧ ∀ p ∈ l, Within r p center ∧ inHull p.1 p.2 = true := by
  have fin : ∀ (good : List (K × K)), good.length ≤ n → n ≤ good.length →
      (∀ p ∈ good, p.1 * p.1 + p.2 * p.2 ≤ r * r ∧ inHull (p.1 + center.1) (p.2 + center.2) = true) →
      (good.map fun p => (p.1 + center.1, p.2 + center.2)).length = n ∧
      ∀ p ∈ good.map fun p => (p.1 + center.1, p.2 + center.2), Within r p center ∧ inHull p.1 p.2 = true := by
    intro good h1 h2 h3
    refine ⟨by rw [List.length_map]; omega, ?_⟩
    intro p hp
    obtain ⟨q, hq, rfl⟩ := List.mem_map.1 hp
    obtain ⟨g1, g2⟩ := h3 q hq
    refine ⟨?_, g2⟩
    unfold Within
    have e1 : (q.1 + center.1 - center.1) = q.1 := by ring
    have e2 : (q.2 + center.2 - center.2) = q.2 := by ring
    simp only [e1, e2, pow_two]
    exact g1
  induction fuel generalizing pos good with
  | zero =>
    rw [circleLoop] at h
    split at h
    · next hc =>
      rw [Run.ret_ok] at h
      obtain ⟨rfl, _⟩ := h
      exact fin good hlen hc hgood
    · cases h
  | succ f ih =>
    rw [circleLoop] at h
    split at h
    · next hc =>
      rw [Run.ret_ok] at h
      obtain ⟨rfl, _⟩ := h
      exact fin good hlen hc hgood
    · refine ih _ _ ?_ ?_ h
      · rw [List.length_append, List.length_take]; omega
      · intro p hp
        rcases List.mem_append.1 hp with hp | hp
        · exact hgood p hp
        · have := List.mem_of_mem_take hp
          unfold circleChunk at this
          have := (List.mem_filter.1 this).2
          simpa using this

theorem uniformCircle_spec (n : ℕ) (r : K) (center : K × K) (inHull : K → K → Bool) (u : ℕ → K) (fuel pos : ℕ)
    (l : List (K × K)) (pos' : ℕ) (h : uniformCircle n r center inHull u fuel pos = some (.ok (l, pos'))) :
    l.length = n ∧ ∀ p ∈ l, Within r p center ∧ inHull p.1 p.2 = true :=
  circleLoop_spec r center inHull u n fuel pos [] (by simp) (by simp) l pos' h

end Pointpats
