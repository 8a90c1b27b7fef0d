import Verif.Model.Random
import Verif.Spec.Random
import Mathlib.Tactic.Linarith
import Mathlib.Tactic.Ring

/-!
# Lemmas on the samplers
-/

namespace Pointpats.Random

open Spec

variable {K : Type}

theorem Run.andThen_ok {α β : Type} {r : Run α} {f : α → ℕ → Run β} {b : β} {pos : ℕ} :
    r.andThen f = some (.ok (b, pos)) ↔ ∃ a p, r = some (.ok (a, p)) ∧ f a p = some (.ok (b, pos)) := by
  unfold Run.andThen
  constructor
  · intro h
    split at h
    · cases h
    · cases h
    · exact ⟨_, _, rfl, h⟩
  · rintro ⟨a, p, rfl, h⟩
    exact h

theorem Run.andThen_error {α β : Type} {r : Run α} {f : α → ℕ → Run β} {e : PyErr} :
    r.andThen f = some (.error e) ↔
      r = some (.error e) ∨ ∃ a p, r = some (.ok (a, p)) ∧ f a p = some (.error e) := by
  unfold Run.andThen
  constructor
  · intro h
    split at h
    · cases h
    · left; cases h; rfl
    · exact Or.inr ⟨_, _, rfl, h⟩
  · rintro (h | ⟨a, p, rfl, h⟩)
    · rw [h]
    · exact h

theorem Run.ret_ok {α : Type} {a b : α} {p q : ℕ} :
    Run.ret a p = some (.ok (b, q)) ↔ a = b ∧ p = q := by
  unfold Run.ret
  constructor
  · intro h; cases h; exact ⟨rfl, rfl⟩
  · rintro ⟨rfl, rfl⟩; rfl

/-! ### Rejection sampling -/

theorem rejection_no_error (cand : ℕ → K × K) (accept : K × K → Bool) (fuel pos n : ℕ) (e : PyErr) :
    rejection cand accept fuel pos n ≠ some (.error e) := by
  induction fuel generalizing pos n with
  | zero => cases n <;> simp [rejection, Run.ret]
  | succ f ih =>
    cases n with
    | zero => simp [rejection, Run.ret]
    | succ n =>
      rw [rejection]
      split
      · intro h
        rcases Run.andThen_error.1 h with h | ⟨a, p, _, h⟩
        · exact ih _ _ h
        · simp [Run.ret] at h
      · exact ih _ _

theorem rejection_mono (cand : ℕ → K × K) (accept : K × K → Bool) (fuel k pos n : ℕ) (r : Py (List (K × K) × ℕ))
    (h : rejection cand accept fuel pos n = some r) : rejection cand accept (fuel + k) pos n = some r := by
  induction fuel generalizing pos n r with
  | zero =>
    cases n with
    | zero => cases k <;> simpa [rejection] using h
    | succ n => simp [rejection] at h
  | succ f ih =>
    cases n with
    | zero => rw [Nat.add_right_comm]; simpa [rejection] using h
    | succ n =>
      rw [Nat.add_right_comm, rejection]
      rw [rejection] at h
      split
      · next hc =>
        rw [if_pos hc] at h
        match r with
        | .error e =>
          rcases Run.andThen_error.1 h with h | ⟨a, p, _, h⟩
          · exact absurd h (rejection_no_error _ _ _ _ _ _)
          · simp [Run.ret] at h
        | .ok (l, p) =>
          obtain ⟨l', p', h1, h2⟩ := Run.andThen_ok.1 h
          exact Run.andThen_ok.2 ⟨l', p', ih _ _ _ h1, h2⟩
      · next hc =>
        rw [if_neg hc] at h
        exact ih _ _ _ h

theorem rejection_spec (cand : ℕ → K × K) (accept : K × K → Bool) (fuel pos n : ℕ) (l : List (K × K)) (pos' : ℕ)
    (h : rejection cand accept fuel pos n = some (.ok (l, pos'))) :
    ∃ m, pos' = pos + 2 * m ∧ FirstAccepted (fun i => cand (pos + 2 * i)) accept n l m := by
  induction fuel generalizing pos n l with
  | zero =>
    cases n with
    | zero =>
      rw [rejection, Run.ret_ok] at h
      obtain ⟨rfl, rfl⟩ := h
      exact ⟨0, rfl, by simp [FirstAccepted]⟩
    | succ n => simp [rejection] at h
  | succ f ih =>
    cases n with
    | zero =>
      rw [rejection, Run.ret_ok] at h
      obtain ⟨rfl, rfl⟩ := h
      exact ⟨0, rfl, by simp [FirstAccepted]⟩
    | succ n =>
      have shift : ∀ m, ((List.range (m + 1)).map fun i => cand (pos + 2 * i))
          = cand pos :: (List.range m).map fun i => cand (pos + 2 + 2 * i) := by
        intro m
        rw [List.range_succ_eq_map, List.map_cons, List.map_map]
        congr 1
        apply List.map_congr_left
        intro i _
        simp only [Function.comp]
        congr 1
        omega
      rw [rejection] at h
      split at h
      · next hc =>
        obtain ⟨l', p', h1, h2⟩ := Run.andThen_ok.1 h
        rw [Run.ret_ok] at h2
        obtain ⟨rfl, rfl⟩ := h2
        obtain ⟨m, hm, e1, e2, e3⟩ := ih _ _ _ h1
        refine ⟨m + 1, by omega, ?_, by simp [e2], Or.inr ?_⟩
        · rw [shift, List.filter_cons_of_pos hc, ← e1]
        · rcases e3 with rfl | e3
          · simpa using hc
          · rcases Nat.eq_zero_or_pos m with rfl | hm0
            · simpa using hc
            · have : pos + 2 * (m + 1 - 1) = pos + 2 + 2 * (m - 1) := by omega
              show accept (cand (pos + 2 * (m + 1 - 1))) = true
              rw [this]; exact e3
      · next hc =>
        obtain ⟨m, hm, e1, e2, e3⟩ := ih _ _ _ h
        have hm0 : 0 < m := by
          rcases Nat.eq_zero_or_pos m with rfl | h
          · simp at e1; simp [e1] at e2
          · exact h
        refine ⟨m + 1, by omega, ?_, e2, Or.inr ?_⟩
        · rw [shift, List.filter_cons_of_neg (by simpa using hc), ← e1]
        · rcases e3 with rfl | e3
          · omega
          · have : pos + 2 * (m + 1 - 1) = pos + 2 + 2 * (m - 1) := by omega
            show accept (cand (pos + 2 * (m + 1 - 1))) = true
            rw [this]; exact e3

theorem rejection_complete (cand : ℕ → K × K) (accept : K × K → Bool) (m pos n : ℕ) (l : List (K × K))
    (h : FirstAccepted (fun i => cand (pos + 2 * i)) accept n l m) :
    rejection cand accept m pos n = some (.ok (l, pos + 2 * m)) := by
  induction m generalizing pos n l with
  | zero =>
    obtain ⟨e1, e2, _⟩ := h
    simp at e1
    subst e1
    simp at e2
    subst e2
    simp [rejection, Run.ret]
  | succ m ih =>
    have shift : ((List.range (m + 1)).map fun i => cand (pos + 2 * i))
        = cand pos :: (List.range m).map fun i => cand (pos + 2 + 2 * i) := by
      rw [List.range_succ_eq_map, List.map_cons, List.map_map]
      congr 1
      apply List.map_congr_left
      intro i _
      simp only [Function.comp]
      congr 1
      omega
    obtain ⟨e1, e2, e3⟩ := h
    rw [shift] at e1
    have e3' : accept (cand (pos + 2 * m)) = true := by
      rcases e3 with h | h
      · omega
      · exact h
    have hlast : m = 0 ∨ accept (cand (pos + 2 + 2 * (m - 1))) = true := by
      rcases Nat.eq_zero_or_pos m with h | h
      · exact Or.inl h
      · right
        have : pos + 2 + 2 * (m - 1) = pos + 2 * m := by omega
        rw [this]; exact e3'
    by_cases hc : accept (cand pos) = true
    · rw [List.filter_cons_of_pos hc] at e1
      cases n with
      | zero => rw [e1] at e2; simp at e2
      | succ n =>
        rw [rejection]
        rw [if_pos hc]
        have := ih (pos + 2) n (((List.range m).map fun i => cand (pos + 2 + 2 * i)).filter accept)
          ⟨rfl, by rw [e1] at e2; simpa using e2, hlast⟩
        rw [this]
        refine Run.andThen_ok.2 ⟨_, _, rfl, ?_⟩
        rw [Run.ret_ok]
        exact ⟨e1.symm, by omega⟩
    · rw [List.filter_cons_of_neg (by simpa using hc)] at e1
      have hm0 : m ≠ 0 := by
        rintro rfl
        simp at e3'
        exact hc e3'
      have hne : 0 < l.length := by
        rw [e1]
        apply List.length_pos_of_mem (a := cand (pos + 2 * m))
        rw [List.mem_filter]
        refine ⟨List.mem_map.2 ⟨m - 1, List.mem_range.2 (by omega), ?_⟩, e3'⟩
        congr 1; omega
      cases n with
      | zero => omega
      | succ n =>
        rw [rejection]
        rw [if_neg hc]
        have := ih (pos + 2) (n + 1) l ⟨e1, e2, hlast⟩
        rw [this, show pos + 2 + 2 * m = pos + 2 * (m + 1) by omega]

/-- The loop ends with `l` exactly if `l` are the first `n` accepted candidates. -/
theorem rejection_iff (cand : ℕ → K × K) (accept : K × K → Bool) (pos n : ℕ) (l : List (K × K)) (pos' : ℕ) :
    Returns (fun fuel => rejection cand accept fuel pos n) (.ok (l, pos'))
      ↔ ∃ m, pos' = pos + 2 * m ∧ FirstAccepted (fun i => cand (pos + 2 * i)) accept n l m := by
  constructor
  · rintro ⟨f, h⟩; exact rejection_spec _ _ _ _ _ _ _ h
  · rintro ⟨m, rfl, h⟩; exact ⟨m, rejection_complete _ _ _ _ _ _ h⟩

theorem rejection_mem (cand : ℕ → K × K) (accept : K × K → Bool) (fuel pos n : ℕ) (l : List (K × K)) (pos' : ℕ)
    (h : rejection cand accept fuel pos n = some (.ok (l, pos'))) :
    l.length = n ∧ ∀ p ∈ l, accept p = true ∧ ∃ i, p = cand (pos + 2 * i) := by
  obtain ⟨m, _, e1, e2, _⟩ := rejection_spec _ _ _ _ _ _ _ h
  refine ⟨e2, ?_⟩
  intro p hp
  rw [e1, List.mem_filter] at hp
  obtain ⟨i, _, rfl⟩ := List.mem_map.1 hp.1
  exact ⟨hp.2, i, rfl⟩

/-- Asking for `a + b` points is asking for `a` and then for `b`. -/
theorem rejection_split (cand : ℕ → K × K) (accept : K × K → Bool) (fuel pos a b : ℕ) (l : List (K × K))
    (pos' : ℕ) (h : rejection cand accept fuel pos (a + b) = some (.ok (l, pos'))) :
    ∃ l1 l2 p, l = l1 ++ l2 ∧ rejection cand accept fuel pos a = some (.ok (l1, p))
      ∧ rejection cand accept fuel p b = some (.ok (l2, pos')) := by
  induction fuel generalizing pos a l with
  | zero =>
    cases a with
    | zero => exact ⟨[], l, pos, rfl, rfl, by simpa using h⟩
    | succ a => rw [Nat.add_right_comm] at h; simp [rejection] at h
  | succ f ih =>
    cases a with
    | zero => exact ⟨[], l, pos, rfl, rfl, by simpa using h⟩
    | succ a =>
      rw [Nat.add_right_comm, rejection] at h
      rw [rejection]
      split at h
      · next hc =>
        rw [if_pos hc]
        obtain ⟨l', p', h1, h2⟩ := Run.andThen_ok.1 h
        rw [Run.ret_ok] at h2
        obtain ⟨rfl, rfl⟩ := h2
        obtain ⟨l1, l2, p, rfl, g1, g2⟩ := ih _ _ _ h1
        exact ⟨cand pos :: l1, l2, p, rfl, Run.andThen_ok.2 ⟨_, _, g1, rfl⟩, rejection_mono _ _ f 1 _ _ _ g2⟩
      · next hc =>
        rw [if_neg hc]
        rw [Nat.add_right_comm] at h
        obtain ⟨l1, l2, p, rfl, g1, g2⟩ := ih _ (a + 1) _ h
        exact ⟨l1, l2, p, rfl, g1, rejection_mono _ _ f 1 _ _ _ g2⟩

theorem firstAccepted_append {α : Type} {cand : ℕ → α} {accept : α → Bool} {a b : ℕ} {l1 l2 : List α} {m1 m2 : ℕ}
    (h1 : FirstAccepted cand accept a l1 m1) (h2 : FirstAccepted (fun i => cand (m1 + i)) accept b l2 m2) :
    FirstAccepted cand accept (a + b) (l1 ++ l2) (m1 + m2) := by
  obtain ⟨e1, e2, e3⟩ := h1
  obtain ⟨g1, g2, g3⟩ := h2
  refine ⟨?_, by simp [e2, g2], ?_⟩
  · rw [e1, g1, List.range_add, List.map_append, List.filter_append, List.map_map]
    rfl
  · rcases g3 with rfl | g3
    · simpa using e3
    · rcases Nat.eq_zero_or_pos m2 with rfl | h
      · simpa using e3
      · right
        have : m1 + m2 - 1 = m1 + (m2 - 1) := by omega
        rw [this]; exact g3

/-- The converse of `rejection_split`. -/
theorem rejection_append (cand : ℕ → K × K) (accept : K × K → Bool) (f1 f2 pos a b : ℕ) (l1 l2 : List (K × K))
    (p pos' : ℕ) (h1 : rejection cand accept f1 pos a = some (.ok (l1, p)))
    (h2 : rejection cand accept f2 p b = some (.ok (l2, pos'))) :
    Returns (fun fuel => rejection cand accept fuel pos (a + b)) (.ok (l1 ++ l2, pos')) := by
  obtain ⟨m1, rfl, g1⟩ := rejection_spec _ _ _ _ _ _ _ h1
  obtain ⟨m2, rfl, g2⟩ := rejection_spec _ _ _ _ _ _ _ h2
  rw [rejection_iff]
  refine ⟨m1 + m2, by omega, firstAccepted_append g1 ?_⟩
  have : (fun i => cand (pos + 2 * m1 + 2 * i)) = fun i => cand (pos + 2 * (m1 + i)) := by
    funext i; congr 1; omega
  rw [← this]; exact g2

/-! ### Replications -/

theorem replications_spec {α : Type} (body : ℕ → ℕ → Run α) (i s pos : ℕ) (ls : List α) (pos' : ℕ)
    (h : replications body i s pos = some (.ok (ls, pos'))) :
    ls.length = s ∧ ∀ a ∈ ls, ∃ j p p', j < i + s ∧ body j p = some (.ok (a, p')) := by
  induction s generalizing i pos ls with
  | zero =>
    rw [replications, Run.ret_ok] at h
    obtain ⟨rfl, _⟩ := h
    simp
  | succ s ih =>
    rw [replications] at h
    obtain ⟨a, p, h1, h2⟩ := Run.andThen_ok.1 h
    obtain ⟨rest, p', h3, h4⟩ := Run.andThen_ok.1 h2
    rw [Run.ret_ok] at h4
    obtain ⟨rfl, rfl⟩ := h4
    obtain ⟨g1, g2⟩ := ih _ _ _ h3
    refine ⟨by simp [g1], ?_⟩
    intro b hb
    rcases List.mem_cons.1 hb with rfl | hb
    · exact ⟨i, pos, p, by omega, h1⟩
    · obtain ⟨j, q, q', hj, h⟩ := g2 b hb
      exact ⟨j, q, q', by omega, h⟩

theorem replications_index {α : Type} (body : ℕ → ℕ → Run α) (i s pos : ℕ) (ls : List α) (pos' : ℕ)
    (h : replications body i s pos = some (.ok (ls, pos'))) (k : ℕ) (a : α) (hk : ls[k]? = some a) :
    ∃ p p', body (i + k) p = some (.ok (a, p')) := by
  induction s generalizing i pos ls k with
  | zero =>
    rw [replications, Run.ret_ok] at h
    obtain ⟨rfl, _⟩ := h
    simp at hk
  | succ s ih =>
    rw [replications] at h
    obtain ⟨b, p, h1, h2⟩ := Run.andThen_ok.1 h
    obtain ⟨bs, p', h3, h4⟩ := Run.andThen_ok.1 h2
    rw [Run.ret_ok] at h4
    obtain ⟨rfl, rfl⟩ := h4
    cases k with
    | zero =>
      simp at hk
      subst hk
      exact ⟨_, _, h1⟩
    | succ k =>
      obtain ⟨q, q', hq⟩ := ih (i + 1) _ _ h3 k (by simpa using hk)
      exact ⟨q, q', by rw [← hq]; congr 1; omega⟩

theorem replications_error {α : Type} (body : ℕ → ℕ → Run α) (i s pos : ℕ) (e : PyErr)
    (h : replications body i s pos = some (.error e)) : ∃ j p, body j p = some (.error e) := by
  induction s generalizing i pos with
  | zero => simp [replications, Run.ret] at h
  | succ s ih =>
    rw [replications] at h
    rcases Run.andThen_error.1 h with h | ⟨a, p, _, h⟩
    · exact ⟨_, _, h⟩
    · rcases Run.andThen_error.1 h with h | ⟨b, q, _, h⟩
      · exact ih _ _ h
      · simp [Run.ret] at h

theorem replications_mono {α : Type} (body body' : ℕ → ℕ → Run α) (i s pos : ℕ) (r : Py (List α × ℕ))
    (hb : ∀ j p r, body j p = some r → body' j p = some r)
    (h : replications body i s pos = some r) : replications body' i s pos = some r := by
  induction s generalizing i pos r with
  | zero => simpa [replications] using h
  | succ s ih =>
    rw [replications] at h ⊢
    match r with
    | .error e =>
      rcases Run.andThen_error.1 h with h | ⟨a, p, h1, h⟩
      · exact Run.andThen_error.2 (Or.inl (hb _ _ _ h))
      · refine Run.andThen_error.2 (Or.inr ⟨a, p, hb _ _ _ h1, ?_⟩)
        rcases Run.andThen_error.1 h with h | ⟨b, q, _, h⟩
        · exact Run.andThen_error.2 (Or.inl (ih _ _ _ h))
        · simp [Run.ret] at h
    | .ok (ls, p') =>
      obtain ⟨a, p, h1, h2⟩ := Run.andThen_ok.1 h
      obtain ⟨rest, q, h3, h4⟩ := Run.andThen_ok.1 h2
      exact Run.andThen_ok.2 ⟨a, p, hb _ _ _ h1, Run.andThen_ok.2 ⟨rest, q, ih _ _ _ h3, h4⟩⟩

/-- The replications of rejection sampling are the pieces of one longer run. -/
theorem replications_flatten (cand : ℕ → K × K) (accept : K × K → Bool) (n fuel i s pos : ℕ)
    (reps : List (List (K × K))) (pos' : ℕ)
    (h : replications (fun _ p => rejection cand accept fuel p n) i s pos = some (.ok (reps, pos'))) :
    Returns (fun fuel => rejection cand accept fuel pos (n * s)) (.ok (reps.flatten, pos')) := by
  induction s generalizing i pos reps with
  | zero =>
    rw [replications, Run.ret_ok] at h
    obtain ⟨rfl, rfl⟩ := h
    exact ⟨0, rfl⟩
  | succ s ih =>
    rw [replications] at h
    obtain ⟨a, p, h1, h2⟩ := Run.andThen_ok.1 h
    obtain ⟨rest, p', h3, h4⟩ := Run.andThen_ok.1 h2
    rw [Run.ret_ok] at h4
    obtain ⟨rfl, rfl⟩ := h4
    obtain ⟨f, hf⟩ := ih _ _ _ h3
    have := rejection_append cand accept fuel f pos n (n * s) a rest.flatten p p' h1 hf
    rw [List.flatten_cons]
    have e : n * (s + 1) = n + n * s := by ring
    rw [e]; exact this

theorem replications_cut (cand : ℕ → K × K) (accept : K × K → Bool) (n fuel i s pos : ℕ)
    (l : List (K × K)) (pos' : ℕ) (h : rejection cand accept fuel pos (n * s) = some (.ok (l, pos'))) :
    ∃ reps, reps.flatten = l ∧
      replications (fun _ p => rejection cand accept fuel p n) i s pos = some (.ok (reps, pos')) := by
  induction s generalizing i pos l with
  | zero =>
    have e : rejection cand accept fuel pos 0 = some (.ok (l, pos')) := by simpa using h
    have e0 : rejection cand accept fuel pos 0 = Run.ret [] pos := by cases fuel <;> rfl
    rw [e0, Run.ret_ok] at e
    obtain ⟨rfl, rfl⟩ := e
    exact ⟨[], rfl, rfl⟩
  | succ s ih =>
    have e : n * (s + 1) = n + n * s := by ring
    rw [e] at h
    obtain ⟨l1, l2, p, rfl, h1, h2⟩ := rejection_split _ _ _ _ _ _ _ _ h
    obtain ⟨reps, rfl, h3⟩ := ih (i + 1) _ _ h2
    refine ⟨l1 :: reps, rfl, ?_⟩
    rw [replications]
    exact Run.andThen_ok.2 ⟨l1, p, h1, Run.andThen_ok.2 ⟨reps, pos', h3, rfl⟩⟩

/-- Monotonicity in the number of rounds: two runs that end, end alike. -/
theorem rejection_det (cand : ℕ → K × K) (accept : K × K → Bool) (f1 f2 pos n : ℕ)
    (r1 r2 : Py (List (K × K) × ℕ)) (h1 : rejection cand accept f1 pos n = some r1)
    (h2 : rejection cand accept f2 pos n = some r2) : r1 = r2 := by
  have e1 := rejection_mono cand accept f1 f2 pos n r1 h1
  have e2 := rejection_mono cand accept f2 f1 pos n r2 h2
  rw [Nat.add_comm] at e2
  rw [e1] at e2
  exact Option.some.inj e2

/-! ### `squeeze` -/

variable [Field K]

omit [Field K] in
theorem length_flatten_const (n : ℕ) (reps : List (List (K × K))) (h : ∀ r ∈ reps, r.length = n) :
    reps.flatten.length = reps.length * n := by
  induction reps with
  | nil => simp
  | cons a l ih =>
    rw [List.flatten_cons, List.length_append, h a (by simp), ih (fun r hr => h r (by simp [hr])),
      List.length_cons]
    ring

theorem squeeze_data (s n : ℕ) (reps : List (List (K × K))) (hs : reps.length = s)
    (hn : ∀ r ∈ reps, r.length = n) : (squeeze s n reps).data = reps.flatten := by
  unfold squeeze
  have hl := length_flatten_const n reps hn
  by_cases h1 : s = 1
  · by_cases h2 : n = 1
    · rw [if_pos h1, if_pos h2]
      rw [hs, h1, h2] at hl
      simp only [Squeezed.data]
      match hf : reps.flatten, hl with
      | [p], _ => rfl
    · rw [if_pos h1, if_neg h2]; rfl
  · rw [if_neg h1]
    split <;> rfl

theorem squeeze_shape (s n : ℕ) (reps : List (List (K × K))) (hs : reps.length = s)
    (hn : ∀ r ∈ reps, r.length = n) : (squeeze s n reps).shape = [s, n].filter (· ≠ 1) ++ [2] := by
  unfold squeeze
  have hl := length_flatten_const n reps hn
  rw [hs] at hl
  by_cases h1 : s = 1
  · by_cases h2 : n = 1
    · simp [h1, h2, Squeezed.shape]
    · rw [if_pos h1, if_neg h2]
      simp [Squeezed.shape, h1, h2] at hl ⊢
      exact hl
  · rw [if_neg h1]
    by_cases h2 : n = 1
    · rw [if_pos h2]
      simp [Squeezed.shape, h1, h2] at hl ⊢
      exact hl
    · rw [if_neg h2]
      simp [Squeezed.shape, h1, h2, hs]

end Pointpats.Random
