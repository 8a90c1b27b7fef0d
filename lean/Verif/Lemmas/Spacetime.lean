import Verif.Model.Spacetime
import Verif.Spec.Spacetime
import Verif.Lemmas.Pairs
import Mathlib.Data.List.Perm.Basic
import Mathlib.Algebra.Order.Field.Basic
import Mathlib.Algebra.BigOperators.Group.List.Basic
import Mathlib.Tactic.Linarith
import Mathlib.Tactic.Ring
import Mathlib.Tactic.FieldSimp

/-!
# Lemmas on space-time pairs and permutations
-/

set_option linter.unusedSectionVars false

namespace Pointpats.Spacetime

open Spec

section pairsLemmas

variable {α β : Type}

theorem pairs_map (f : α → β) (l : List α) : pairs (l.map f) = (pairs l).map fun p => (f p.1, f p.2) := by
  induction l with
  | nil => rfl
  | cons a l ih => simp [pairs, ih, List.map_map, Function.comp_def]

theorem mem_pairs_mem {l : List α} {p : α × α} (h : p ∈ pairs l) : p.1 ∈ l ∧ p.2 ∈ l := by
  induction l with
  | nil => simp [pairs] at h
  | cons a l ih =>
    rw [pairs, List.mem_append, List.mem_map] at h
    rcases h with ⟨b, hb, rfl⟩ | h
    · exact ⟨by simp, List.mem_cons_of_mem _ hb⟩
    · exact ⟨List.mem_cons_of_mem _ (ih h).1, List.mem_cons_of_mem _ (ih h).2⟩

theorem pairs_concat (l : List α) (x : α) : (pairs (l ++ [x])).Perm (pairs l ++ l.map fun a => (a, x)) := by
  induction l with
  | nil => simp [pairs]
  | cons a l ih =>
    simp only [List.cons_append, pairs, List.map_append, List.map_cons, List.map_nil, List.append_assoc]
    refine List.Perm.append_left _ ?_
    rw [List.nil_append]
    exact (List.Perm.cons _ ih).trans List.perm_middle.symm

/-- The pairs of positions of a list, as pairs of entries. -/
theorem allPairs_map_perm (l : List α) (d : α) :
    ((allPairs l.length).map fun p => (l.getD p.1 d, l.getD p.2 d)).Perm (pairs l) := by
  induction l using List.reverseRecOn with
  | nil => simp [allPairs, pairs]
  | append_singleton l x ih =>
    rw [List.length_append, List.length_singleton, allPairs_succ, List.map_append]
    refine List.Perm.trans ?_ (pairs_concat l x).symm
    refine List.Perm.append ?_ ?_
    · refine List.Perm.trans (List.Perm.of_eq ?_) ih
      refine List.map_congr_left ?_
      rintro ⟨i, j⟩ h
      obtain ⟨h1, h2⟩ := mem_allPairs.1 h
      simp only [Prod.mk.injEq]
      constructor <;>
        rw [List.getD_eq_getElem?_getD, List.getD_eq_getElem?_getD, List.getElem?_append_left (by omega)]
    · refine List.Perm.of_eq ?_
      rw [List.map_map]
      apply List.ext_getElem
      · simp
      · intro i h1 h2
        have hi : i < l.length := by simpa using h1
        simp [List.getD_eq_getElem?_getD, List.getElem?_append_left hi, hi]

/-- With a symmetric function, the values on all pairs do not depend on the order of the list. -/
theorem pairs_perm (f : α → α → β) (hf : ∀ a b, f a b = f b a) {l l' : List α} (h : l.Perm l') :
    ((pairs l).map fun p => f p.1 p.2).Perm ((pairs l').map fun p => f p.1 p.2) := by
  induction h with
  | nil => exact List.Perm.refl _
  | cons a h ih =>
    simp only [pairs, List.map_append, List.map_map, Function.comp_def]
    exact (h.map _).append ih
  | swap a b l =>
    simp only [pairs, List.map_append, List.map_map, Function.comp_def, List.map_cons, List.cons_append]
    rw [hf a b]
    refine List.Perm.cons _ ?_
    rw [← List.append_assoc, ← List.append_assoc]
    exact List.Perm.append_right _ List.perm_append_comm
  | trans _ _ ih1 ih2 => exact ih1.trans ih2

theorem closePairs_eq_count (close : α → α → Prop) [DecidableRel close] (l : List α) :
    closePairs close l = ((pairs l).map fun p => decide (close p.1 p.2)).count true := by
  rw [closePairs, List.count, List.countP_map]
  congr 1
  funext p
  simp

theorem closePairs_perm (close : α → α → Prop) [DecidableRel close] (hs : ∀ a b, close a b ↔ close b a)
    {l l' : List α} (h : l.Perm l') : closePairs close l = closePairs close l' := by
  rw [closePairs_eq_count, closePairs_eq_count]
  refine (pairs_perm (fun a b => decide (close a b)) (fun a b => ?_) h).count_eq _
  exact decide_eq_decide.2 (hs a b)

theorem length_pairs (l : List α) : 2 * (pairs l).length = l.length * (l.length - 1) := by
  cases l with
  | nil => rfl
  | cons a l =>
    rw [← (allPairs_map_perm (a :: l) a).length_eq, List.length_map, two_mul_length_allPairs]

/-- Counting close pairs by positions. -/
theorem closePairs_index (close : α → α → Prop) [DecidableRel close] (l : List α) (d : α) :
    closePairs close l
      = (allPairs l.length).countP fun p => decide (close (l.getD p.1 d) (l.getD p.2 d)) := by
  rw [closePairs, ← (allPairs_map_perm l d).countP_eq, List.countP_map]
  rfl

theorem closePairs_le (close : α → α → Prop) [DecidableRel close] (l : List α) :
    closePairs close l ≤ (pairs l).length := List.countP_le_length

theorem closePairs_mono {R S : α → α → Prop} [DecidableRel R] [DecidableRel S] (h : ∀ a b, R a b → S a b)
    (l : List α) : closePairs R l ≤ closePairs S l := by
  refine List.countP_mono_left ?_
  intro p _ hp
  simpa using h _ _ (by simpa using hp)

theorem closePairs_congr {R S : α → α → Prop} [DecidableRel R] [DecidableRel S] (l : List α)
    (h : ∀ a ∈ l, ∀ b ∈ l, R a b ↔ S a b) : closePairs R l = closePairs S l := by
  refine List.countP_congr ?_
  intro p hp
  have := mem_pairs_mem hp
  simp [h p.1 this.1 p.2 this.2]

theorem closePairs_map (f : β → α) (close : α → α → Prop) [DecidableRel close] (l : List β) :
    closePairs close (l.map f) = closePairs (fun a b => close (f a) (f b)) l := by
  rw [closePairs, closePairs, pairs_map, List.countP_map]
  rfl

theorem sum_map_add_indicator (g : α → ℕ) (r : α → Prop) [DecidablePred r] (l : List α) :
    (l.map fun b => g b + if r b then 1 else 0).sum = (l.map g).sum + l.countP fun b => decide (r b) := by
  induction l with
  | nil => rfl
  | cons b l ih =>
    rw [List.map_cons, List.sum_cons, List.map_cons, List.sum_cons, ih, List.countP_cons]
    by_cases h : r b
    · simp [h]; ring
    · simp [h]; ring

/-- The number of ordered pairs (position by position, including a position with itself) is twice the
number of unordered pairs plus the number of entries related to themselves. -/
theorem sum_countP_eq (close : α → α → Prop) [DecidableRel close] (hs : ∀ a b, close a b ↔ close b a)
    (l : List α) :
    (l.map fun a => l.countP fun b => decide (close a b)).sum
      = 2 * closePairs close l + l.countP fun a => decide (close a a) := by
  induction l with
  | nil => rfl
  | cons a l ih =>
    have hm : (l.map fun b => (a :: l).countP fun c => decide (close b c)).sum
        = (l.map fun b => l.countP fun c => decide (close b c)).sum + l.countP fun b => decide (close a b) := by
      rw [← sum_map_add_indicator]
      congr 1
      refine List.map_congr_left ?_
      intro b _
      rw [List.countP_cons]
      congr 1
      simp [hs b a]
    rw [List.map_cons, List.sum_cons, hm, ih, List.countP_cons, List.countP_cons]
    have : closePairs close (a :: l) = (l.countP fun b => decide (close a b)) + closePairs close l := by
      simp [closePairs, pairs, List.countP_append, List.countP_map, Function.comp_def]
    rw [this]
    ring

end pairsLemmas

section shuffleLemmas

variable {α β : Type}

theorem shuffle_range (d : α) (l : List α) : shuffle d (List.range l.length) l = l := by
  apply List.ext_getElem
  · simp [shuffle]
  · intro i h1 h2
    simp [shuffle, List.getD_eq_getElem?_getD, h2]

theorem length_shuffle (d : α) (p : List ℕ) (l : List α) : (shuffle d p l).length = p.length := by
  simp [shuffle]

theorem _root_.Pointpats.Spec.IsShuffle.length {n : ℕ} {p : List ℕ} (h : IsShuffle n p) : p.length = n := by
  simpa using List.Perm.length_eq h

theorem _root_.Pointpats.Spec.IsShuffle.mem {n : ℕ} {p : List ℕ} (h : IsShuffle n p) {i : ℕ} : i ∈ p ↔ i < n := by
  rw [List.Perm.mem_iff h, List.mem_range]

theorem _root_.Pointpats.Spec.IsShuffle.nodup {n : ℕ} {p : List ℕ} (h : IsShuffle n p) : p.Nodup :=
  (List.Perm.nodup_iff h).2 List.nodup_range

/-- Shuffling rearranges the entries. -/
theorem shuffle_perm (d : α) {p : List ℕ} {l : List α} (h : IsShuffle l.length p) : (shuffle d p l).Perm l := by
  have := List.Perm.map (fun i => l.getD i d) h
  exact this.trans (List.Perm.of_eq (shuffle_range d l))

theorem shuffle_map (f : α → β) (d : α) (p : List ℕ) {l : List α} (h : ∀ i ∈ p, i < l.length) :
    shuffle (f d) p (l.map f) = (shuffle d p l).map f := by
  simp only [shuffle, List.map_map]
  refine List.map_congr_left ?_
  intro i hi
  simp [List.getD_eq_getElem?_getD, h i hi]

theorem shuffle_map' (f : α → β) (d : α) (e : β) (p : List ℕ) {l : List α} (h : ∀ i ∈ p, i < l.length) :
    shuffle e p (l.map f) = (shuffle d p l).map f := by
  simp only [shuffle, List.map_map]
  refine List.map_congr_left ?_
  intro i hi
  simp [List.getD_eq_getElem?_getD, h i hi]

end shuffleLemmas

end Pointpats.Spacetime
