import Verif.Lemmas.SamplerLaw
import Verif.Lemmas.Circle
import Verif.Model.Process

/-!
# Rounds of candidates as a sampler

`runif_in_circle`, `_uniform_circle` and the point processes draw the candidates in rounds: `c` numbers for the first
coordinates, then `c` numbers for the second ones. What is left of a round when there are enough points is thrown away.
-/

set_option linter.unusedSectionVars false

namespace Pointpats

open Random

/-- Candidate `j` of a round of `c` candidates that starts at position `pos`; `left` points are missing in the present sample,
and `rest` are the further samples, with the sizes of their rounds. -/
structure ChunkState where
  pos : ℕ
  c : ℕ
  j : ℕ
  left : ℕ
  rest : List (ℕ × ℕ)

/-- The beginning of the first sample that is not empty. -/
def startOf : ℕ → List (ℕ × ℕ) → ChunkState
  | pos, [] => ⟨pos, 1, 0, 1, []⟩
  | pos, (c, n) :: rest => if n = 0 then startOf pos rest else ⟨pos, c, 0, n, rest⟩

/-- Candidate `j` of the round, which is in the next round if `j` is too large. -/
def stateAt (pos c j left : ℕ) (rest : List (ℕ × ℕ)) : ChunkState :=
  if j < c then ⟨pos, c, j, left, rest⟩ else ⟨pos + 2 * c, c, 0, left, rest⟩

private def goodChunk (s : ChunkState) : Prop := s.j < s.c ∧ ∀ x ∈ s.rest, x.2 ≠ 0 → 0 < x.1

private def readsChunk (s : ChunkState) : Set ℕ :=
  {i | s.pos + 2 * s.c ≤ i ∨ (s.pos + s.j ≤ i ∧ i < s.pos + s.c) ∨ s.pos + s.c + s.j ≤ i}

private theorem startOf_good (pos : ℕ) (rest : List (ℕ × ℕ)) (h : ∀ x ∈ rest, x.2 ≠ 0 → 0 < x.1) :
    goodChunk (startOf pos rest) ∧ ∀ i ∈ readsChunk (startOf pos rest), pos ≤ i := by
  induction rest with
  | nil =>
    refine ⟨⟨by simp [startOf], by simp [startOf]⟩, ?_⟩
    intro i hi
    simp only [readsChunk, startOf, Set.mem_ofPred_eq] at hi
    omega
  | cons x rest ih =>
    obtain ⟨c, n⟩ := x
    rw [startOf]
    split
    · exact ih fun x hx => h x (by simp [hx])
    · next hn =>
      have hc := h (c, n) (by simp) hn
      refine ⟨⟨hc, fun x hx => h x (by simp [hx])⟩, ?_⟩
      intro i hi
      simp only [readsChunk, Set.mem_ofPred_eq] at hi
      omega

private theorem stateAt_good (s : ChunkState) (left : ℕ) (h : goodChunk s) :
    goodChunk (stateAt s.pos s.c (s.j + 1) left s.rest)
    ∧ ∀ i ∈ readsChunk (stateAt s.pos s.c (s.j + 1) left s.rest),
        i ∈ readsChunk s ∧ i ≠ s.pos + s.j ∧ i ≠ s.pos + s.c + s.j := by
  obtain ⟨h1, h2⟩ := h
  unfold stateAt
  split
  · next hj =>
    refine ⟨⟨hj, h2⟩, ?_⟩
    intro i hi
    simp only [readsChunk, Set.mem_ofPred_eq] at hi ⊢
    omega
  · refine ⟨⟨by simp only; omega, h2⟩, ?_⟩
    intro i hi
    simp only [readsChunk, Set.mem_ofPred_eq] at hi ⊢
    omega

/-- The sampler that goes through the rounds. -/
def chunkSampler : Sampler ChunkState where
  a s := s.pos + s.j
  b s := s.pos + s.c + s.j
  acc s := if s.left ≤ 1 then startOf (s.pos + 2 * s.c) s.rest else stateAt s.pos s.c (s.j + 1) (s.left - 1) s.rest
  rej s := stateAt s.pos s.c (s.j + 1) s.left s.rest
  good := goodChunk
  reads := readsChunk
  good_acc s h := by
    split
    · exact (startOf_good _ _ h.2).1
    · exact (stateAt_good s _ h).1
  good_rej s h := (stateAt_good s _ h).1
  ne s h := by have := h.1; omega
  a_mem s h := by
    have := h.1
    simp only [readsChunk, Set.mem_ofPred_eq]
    omega
  b_mem s h := by
    have := h.1
    simp only [readsChunk, Set.mem_ofPred_eq]
    omega
  reads_acc s h i hi := by
    split at hi
    · have := (startOf_good _ _ h.2).2 i hi
      have := h.1
      simp only [readsChunk, Set.mem_ofPred_eq]
      omega
    · exact (stateAt_good s _ h).2 i hi
  reads_rej s h i hi := (stateAt_good s _ h).2 i hi

theorem startOf_isGood (pos : ℕ) (rest : List (ℕ × ℕ)) (h : ∀ x ∈ rest, x.2 ≠ 0 → 0 < x.1) :
    chunkSampler.good (startOf pos rest) := (startOf_good pos rest h).1

variable {K : Type} (F : K × K → K × K) (accept : K × K → Bool) (u : ℕ → K)

/-- The accepted candidates of a round, from candidate `j` on. -/
def chunkFrom (pos c j : ℕ) : List (K × K) :=
  ((List.range' j (c - j)).map fun j => F (u (pos + j), u (pos + c + j))).filter accept

private theorem chunkFrom_end (pos c : ℕ) : chunkFrom F accept u pos c c = [] := by
  simp [chunkFrom]

private theorem chunkFrom_step (pos c j : ℕ) (h : j < c) : chunkFrom F accept u pos c j
    = if accept (F (u (pos + j), u (pos + c + j))) = true
      then F (u (pos + j), u (pos + c + j)) :: chunkFrom F accept u pos c (j + 1)
      else chunkFrom F accept u pos c (j + 1) := by
  unfold chunkFrom
  rw [show c - j = (c - (j + 1)) + 1 by omega, List.range'_succ, List.map_cons, List.filter_cons]

private theorem stateAt_lt {pos c j left : ℕ} {rest : List (ℕ × ℕ)} (h : j < c) :
    stateAt pos c j left rest = ⟨pos, c, j, left, rest⟩ := by rw [stateAt, if_pos h]

private theorem chunk_fwd_end (pos c : ℕ) (rest : List (ℕ × ℕ)) (l' : List (K × K)) (f : ℕ)
    (hs : Sampled chunkSampler F accept u f (startOf (pos + 2 * c) rest) l') (k : ℕ) : ∀ j left, c - j = k → j ≤ c → 0 < left →
    left ≤ (chunkFrom F accept u pos c j).length →
    ∃ f', Sampled chunkSampler F accept u f' (stateAt pos c j left rest) ((chunkFrom F accept u pos c j).take left ++ l') := by
  induction k with
  | zero =>
    intro j left hk hj h0 hl
    obtain rfl : j = c := by omega
    rw [chunkFrom_end, List.length_nil] at hl
    omega
  | succ k ih =>
    intro j left hk hj h0 hl
    have hjc : j < c := by omega
    rw [stateAt_lt hjc]
    rw [chunkFrom_step F accept u pos c j hjc] at hl ⊢
    split at hl
    · next ha =>
      rw [if_pos ha]
      obtain ⟨left, rfl⟩ := Nat.exists_eq_succ_of_ne_zero h0.ne'
      rw [List.take_succ_cons, List.cons_append]
      rw [List.length_cons] at hl
      by_cases hleft : left = 0
      · subst hleft
        refine ⟨f + 1, .acc (s := (⟨pos, c, j, 1, rest⟩ : ChunkState)) ha ?_⟩
        rw [List.take_zero, List.nil_append]
        exact hs
      · obtain ⟨f', hf'⟩ := ih (j + 1) left (by omega) (by omega) (by omega) (by omega)
        refine ⟨f' + 1, .acc (s := (⟨pos, c, j, left + 1, rest⟩ : ChunkState)) ha ?_⟩
        simp only [chunkSampler]
        rw [if_neg (by omega)]
        exact hf'
    · next ha =>
      rw [if_neg ha]
      obtain ⟨f', hf'⟩ := ih (j + 1) left (by omega) (by omega) h0 hl
      cases hc : (chunkFrom F accept u pos c (j + 1)).take left ++ l' with
      | nil =>
        exfalso
        have := congrArg List.length hc
        rw [List.length_append, List.length_take, List.length_nil] at this
        omega
      | cons x l =>
        rw [hc] at hf'
        exact ⟨f' + 1, .rej (s := (⟨pos, c, j, left, rest⟩ : ChunkState)) ha hf'⟩

private theorem chunk_fwd_more (pos c : ℕ) (rest : List (ℕ × ℕ)) (x : K × K) (l' : List (K × K)) (k : ℕ) :
    ∀ j left, c - j = k → j ≤ c → (chunkFrom F accept u pos c j).length < left →
    ∀ f, Sampled chunkSampler F accept u f (stateAt pos c c (left - (chunkFrom F accept u pos c j).length) rest) (x :: l') →
    ∃ f', Sampled chunkSampler F accept u f' (stateAt pos c j left rest) (chunkFrom F accept u pos c j ++ x :: l') := by
  induction k with
  | zero =>
    intro j left hk hj hl f hs
    obtain rfl : j = c := by omega
    rw [chunkFrom_end, List.length_nil, Nat.sub_zero] at hs
    rw [chunkFrom_end, List.nil_append]
    exact ⟨f, hs⟩
  | succ k ih =>
    intro j left hk hj hl f hs
    have hjc : j < c := by omega
    rw [stateAt_lt hjc]
    rw [chunkFrom_step F accept u pos c j hjc] at hl hs ⊢
    split at hl
    · next ha =>
      rw [if_pos ha] at hs
      rw [if_pos ha, List.cons_append]
      rw [List.length_cons] at hl hs
      obtain ⟨f', hf'⟩ := ih (j + 1) (left - 1) (by omega) (by omega) (by omega) f
        (by rwa [show left - 1 - (chunkFrom F accept u pos c (j + 1)).length
              = left - ((chunkFrom F accept u pos c (j + 1)).length + 1) by omega])
      refine ⟨f' + 1, .acc (s := (⟨pos, c, j, left, rest⟩ : ChunkState)) ha ?_⟩
      simp only [chunkSampler]
      rw [if_neg (by omega)]
      exact hf'
    · next ha =>
      rw [if_neg ha] at hs
      rw [if_neg ha]
      obtain ⟨f', hf'⟩ := ih (j + 1) left (by omega) (by omega) hl f hs
      cases hc : chunkFrom F accept u pos c (j + 1) ++ x :: l' with
      | nil => simp at hc
      | cons y l =>
        rw [hc] at hf'
        exact ⟨f' + 1, .rej (s := (⟨pos, c, j, left, rest⟩ : ChunkState)) ha hf'⟩

private theorem chunk_bwd (pos c : ℕ) (rest : List (ℕ × ℕ)) (k : ℕ) : ∀ j left f (l : List (K × K)), c - j = k → j ≤ c →
    0 < left → left ≤ l.length → Sampled chunkSampler F accept u f (stateAt pos c j left rest) l →
    (left ≤ (chunkFrom F accept u pos c j).length
      ∧ ∃ l' f', l = (chunkFrom F accept u pos c j).take left ++ l' ∧ f' < f
        ∧ Sampled chunkSampler F accept u f' (startOf (pos + 2 * c) rest) l')
    ∨ ((chunkFrom F accept u pos c j).length < left
      ∧ ∃ l' f', l = chunkFrom F accept u pos c j ++ l' ∧ f' + k ≤ f
        ∧ Sampled chunkSampler F accept u f' (stateAt pos c c (left - (chunkFrom F accept u pos c j).length) rest) l') := by
  induction k with
  | zero =>
    intro j left f l hk hj h0 hl hs
    obtain rfl : j = c := by omega
    rw [chunkFrom_end]
    exact Or.inr ⟨h0, l, f, rfl, le_refl _, hs⟩
  | succ k ih =>
    intro j left f l hk hj h0 hl hs
    have hjc : j < c := by omega
    rw [stateAt_lt hjc] at hs
    rw [chunkFrom_step F accept u pos c j hjc]
    cases hs with
    | nil => simp at hl; omega
    | @acc f _ l ha hs =>
      simp only [chunkSampler] at ha hs ⊢
      rw [if_pos ha, List.length_cons]
      rw [List.length_cons] at hl
      by_cases hleft : left ≤ 1
      · rw [if_pos hleft] at hs
        obtain rfl : left = 1 := by omega
        refine Or.inl ⟨by omega, l, f, ?_, Nat.lt_succ_self f, hs⟩
        rw [List.take_succ_cons, List.take_zero]
        rfl
      · rw [if_neg hleft] at hs
        rcases ih (j + 1) (left - 1) f l (by omega) (by omega) (by omega) (by omega) hs with
          ⟨h1, l', f', rfl, hf, h2⟩ | ⟨h1, l', f', rfl, hf, h2⟩
        · refine Or.inl ⟨by omega, l', f', ?_, by omega, h2⟩
          obtain ⟨left, rfl⟩ := Nat.exists_eq_succ_of_ne_zero h0.ne'
          rw [List.take_succ_cons]
          rfl
        · refine Or.inr ⟨by omega, l', f', rfl, by omega, ?_⟩
          rwa [show left - ((chunkFrom F accept u pos c (j + 1)).length + 1)
              = left - 1 - (chunkFrom F accept u pos c (j + 1)).length by omega]
    | @rej f _ x l ha hs =>
      simp only [chunkSampler] at ha hs ⊢
      rw [if_neg ha]
      rcases ih (j + 1) left f _ (by omega) (by omega) h0 hl hs with ⟨h1, l', f', h3, hf, h2⟩ | ⟨h1, l', f', h3, hf, h2⟩
      · exact Or.inl ⟨h1, l', f', h3, by omega, h2⟩
      · exact Or.inr ⟨h1, l', f', h3, by omega, h2⟩

/-- Rounds until there are `n` points. -/
def rounds (c n : ℕ) : ℕ → ℕ → List (K × K) → Option (List (K × K) × ℕ)
  | fuel, pos, sample =>
      if n ≤ sample.length then some (sample.take n, pos)
      else match fuel with
        | 0 => none
        | fuel + 1 => rounds c n fuel (pos + 2 * c) (sample ++ chunkFrom F accept u pos c 0)

theorem rounds_full (c n fuel pos : ℕ) (sample : List (K × K)) (h : n ≤ sample.length) :
    rounds F accept u c n fuel pos sample = some (sample.take n, pos) := by
  cases fuel <;> rw [rounds, if_pos h]

theorem rounds_mono (c n : ℕ) (fuel k : ℕ) : ∀ pos sample r, rounds F accept u c n fuel pos sample = some r →
    rounds F accept u c n (fuel + k) pos sample = some r := by
  induction fuel with
  | zero =>
    intro pos sample r h
    rw [rounds] at h
    split at h
    · next hc => rw [rounds_full F accept u c n _ _ _ hc]; exact h
    · cases h
  | succ f ih =>
    intro pos sample r h
    rw [rounds] at h
    rw [show f + 1 + k = (f + k) + 1 by omega, rounds]
    split at h
    · next hc => rw [if_pos hc]; exact h
    · next hc => rw [if_neg hc]; exact ih _ _ _ h

theorem rounds_sampled (c n : ℕ) (hc : 0 < c) (fuel : ℕ) : ∀ pos sample l pos', sample.length < n →
    rounds F accept u c n fuel pos sample = some (l, pos') →
    ∃ m, l = sample ++ m ∧ m.length = n - sample.length ∧ ∀ f rest l', Sampled chunkSampler F accept u f (startOf pos' rest) l' →
      ∃ f', Sampled chunkSampler F accept u f' ⟨pos, c, 0, n - sample.length, rest⟩ (m ++ l') := by
  induction fuel with
  | zero =>
    intro pos sample l pos' hlen h
    rw [rounds, if_neg (by omega)] at h
    cases h
  | succ fuel ih =>
    intro pos sample l pos' hlen h
    rw [rounds, if_neg (by omega)] at h
    by_cases hfull : n ≤ (sample ++ chunkFrom F accept u pos c 0).length
    · rw [rounds_full F accept u c n fuel _ _ hfull, Option.some.injEq, Prod.mk.injEq] at h
      obtain ⟨rfl, rfl⟩ := h
      rw [List.length_append] at hfull
      refine ⟨(chunkFrom F accept u pos c 0).take (n - sample.length), ?_, ?_, ?_⟩
      · rw [List.take_append, List.take_of_length_le hlen.le]
      · rw [List.length_take]; omega
      · intro f rest l' hs
        have := chunk_fwd_end F accept u pos c rest l' f hs c 0 (n - sample.length) (by omega) (by omega) (by omega) (by omega)
        rwa [stateAt_lt hc] at this
    · obtain ⟨m, rfl, hm, hfw⟩ := ih _ _ _ _ (by omega) h
      rw [List.length_append] at hfull hm hfw
      refine ⟨chunkFrom F accept u pos c 0 ++ m, by rw [List.append_assoc], by rw [List.length_append]; omega, ?_⟩
      intro f rest l' hs
      obtain ⟨f', hf'⟩ := hfw f rest l' hs
      cases m with
      | nil => simp at hm; omega
      | cons x m =>
        have := chunk_fwd_more F accept u pos c rest x (m ++ l') c 0 (n - sample.length) (by omega) (by omega) (by omega) f'
          (by
            rw [stateAt, if_neg (lt_irrefl c)]
            rwa [show n - sample.length - (chunkFrom F accept u pos c 0).length
              = n - (sample.length + (chunkFrom F accept u pos c 0).length) by omega])
        rw [stateAt_lt hc] at this
        rw [List.append_assoc]
        exact this

theorem sampled_rounds (c n : ℕ) (hc : 0 < c) (f : ℕ) : ∀ pos sample l rest, sample.length < n → n - sample.length ≤ l.length →
    Sampled chunkSampler F accept u f ⟨pos, c, 0, n - sample.length, rest⟩ l →
    ∃ fuel m l' pos', l = m ++ l' ∧ m.length = n - sample.length
      ∧ rounds F accept u c n fuel pos sample = some (sample ++ m, pos')
      ∧ ∃ f', Sampled chunkSampler F accept u f' (startOf pos' rest) l' := by
  induction f using Nat.strong_induction_on with
  | _ f ih =>
    intro pos sample l rest hlen hl hs
    rw [← stateAt_lt hc] at hs
    rcases chunk_bwd F accept u pos c rest c 0 (n - sample.length) f l (by omega) (by omega) (by omega) hl hs with
      ⟨h1, l', f', rfl, _, h2⟩ | ⟨h1, l', f', rfl, hf, h2⟩
    · refine ⟨1, (chunkFrom F accept u pos c 0).take (n - sample.length), l', pos + 2 * c, rfl, ?_, ?_, f', h2⟩
      · rw [List.length_take]; omega
      · rw [rounds, if_neg (by omega), rounds_full F accept u c n _ _ _ (by rw [List.length_append]; omega), List.take_append,
          List.take_of_length_le hlen.le]
    · rw [stateAt, if_neg (lt_irrefl c)] at h2
      have e : n - sample.length - (chunkFrom F accept u pos c 0).length
          = n - (sample ++ chunkFrom F accept u pos c 0).length := by rw [List.length_append]; omega
      rw [e] at h2
      rw [List.length_append] at hl
      obtain ⟨fuel, m, l'', pos', rfl, hm, h3, h4⟩ := ih f' (by omega) (pos + 2 * c) (sample ++ chunkFrom F accept u pos c 0) l' rest
        (by rw [List.length_append]; omega) (by rw [← e]; omega) h2
      refine ⟨fuel + 1, chunkFrom F accept u pos c 0 ++ m, l'', pos', by rw [List.append_assoc], ?_, ?_, h4⟩
      · rw [List.length_append, hm]
        rw [List.length_append]
        omega
      · rw [rounds, if_neg (by omega), h3, List.append_assoc]

end Pointpats
