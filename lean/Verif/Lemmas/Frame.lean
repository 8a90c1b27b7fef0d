import Verif.Lemmas.PointPattern

/-!
# Lemmas on data frames: columns, duplicates, generated names
-/

namespace Pointpats.PointPattern

open Spec

variable {K : Type} [Field K] [LinearOrder K]

/-- All rows have one cell per column name. -/
def Frame.Rect (df : Frame K) : Prop := ∀ r ∈ df.rows, r.length = df.names.length

omit [LinearOrder K] in
theorem Frame.col_eq {df : Frame K} {nm : String} (h : nm ∈ df.names) :
    df.col nm = .ok (df.rows.map (cell df.names nm)) := by
  simp only [Frame.col, h, if_true]
  rfl

omit [LinearOrder K] in
/-- Setting a column: the names, the shape, the column itself and the other columns. -/
theorem Frame.setCol_spec {df df' : Frame K} {nm : String} {vals : List K} (hr : df.Rect)
    (h : df.setCol nm vals = .ok df') :
    vals.length = df.rows.length
    ∧ df'.names = (if nm ∈ df.names then df.names else df.names ++ [nm])
    ∧ df'.rows.length = df.rows.length
    ∧ df'.Rect
    ∧ df'.col nm = .ok vals
    ∧ ∀ nm' ∈ df.names, nm' ≠ nm → df'.col nm' = df.col nm' := by
  unfold Frame.setCol at h
  by_cases hl : vals.length = df.rows.length
  swap
  · simp [hl] at h
  simp only [hl, ne_eq, not_true_eq_false, if_false] at h
  by_cases hn : nm ∈ df.names
  · rw [if_pos hn] at h
    simp only [Except.ok.injEq] at h
    subst h
    have hidx : df.names.idxOf nm < df.names.length := List.idxOf_lt_length_iff.2 hn
    refine ⟨hl, by simp [hn], by simp [hl], ?_, ?_, ?_⟩
    · intro r hmem
      obtain ⟨i, hi, rfl⟩ := List.mem_iff_getElem.1 hmem
      simp only [List.getElem_zipWith, List.length_set]
      exact hr _ (List.getElem_mem _)
    · rw [Frame.col_eq (by simpa using hn)]
      congr 1
      apply List.ext_getElem
      · simp [hl]
      · intro i h1 h2
        simp only [List.length_map, List.length_zipWith] at h1
        have hi : i < df.rows.length := by omega
        have := hr _ (List.getElem_mem hi)
        simp only [List.getElem_map, List.getElem_zipWith, cell]
        rw [List.getD_eq_getElem?_getD, List.getElem?_eq_getElem (by simp [this, hidx])]
        simp
    · intro nm' hm' hne
      rw [Frame.col_eq (by simpa using hm'), Frame.col_eq hm']
      congr 1
      apply List.ext_getElem
      · simp [hl]
      · intro i h1 h2
        simp only [List.getElem_map, List.getElem_zipWith, cell]
        rw [List.getD_eq_getElem?_getD, List.getD_eq_getElem?_getD, List.getElem?_set_ne]
        intro heq
        have h1 : nm = nm' := by
          have e1 := List.getElem_idxOf (List.idxOf_lt_length_iff.2 hn)
          have e2 := List.getElem_idxOf (List.idxOf_lt_length_iff.2 hm')
          rw [← e1, ← e2]
          congr 1
        exact hne h1.symm
  · rw [if_neg hn] at h
    simp only [Except.ok.injEq] at h
    subst h
    refine ⟨hl, by simp [hn], by simp [hl], ?_, ?_, ?_⟩
    · intro r hmem
      obtain ⟨i, hi, rfl⟩ := List.mem_iff_getElem.1 hmem
      simp only [List.getElem_zipWith, List.length_append, List.length_cons, List.length_nil]
      rw [hr _ (List.getElem_mem _)]
    · rw [Frame.col_eq (by simp)]
      congr 1
      apply List.ext_getElem
      · simp [hl]
      · intro i h1 h2
        simp only [List.length_map, List.length_zipWith] at h1
        have hi : i < df.rows.length := by omega
        have hlen := hr _ (List.getElem_mem hi)
        have hidx : (df.names ++ [nm]).idxOf nm = df.names.length := by
          rw [List.idxOf_append_of_notMem hn]; simp
        simp only [List.getElem_map, List.getElem_zipWith, cell, hidx]
        rw [List.getD_eq_getElem?_getD, List.getElem?_eq_getElem (by simp [hlen])]
        simp [← hlen]
    · intro nm' hm' hne
      rw [Frame.col_eq (by simp [hm']), Frame.col_eq hm']
      congr 1
      apply List.ext_getElem
      · simp [hl]
      · intro i h1 h2
        simp only [List.length_map, List.length_zipWith] at h1
        have hi : i < df.rows.length := by omega
        have hlen := hr _ (List.getElem_mem hi)
        have hidx : df.names.idxOf nm' < df.names.length := List.idxOf_lt_length_iff.2 hm'
        simp only [List.getElem_map, List.getElem_zipWith, cell, List.idxOf_append_of_mem hm']
        rw [List.getD_eq_getElem?_getD, List.getD_eq_getElem?_getD, List.getElem?_append_left (by omega)]

/-- Two generated names are equal only if their numbers are. -/
theorem markName_inj {i j : ℕ} (h : markName i = markName j) : i = j := by
  unfold markName at h
  have h1 := congrArg String.toList h
  simp only [String.toList_append, List.append_cancel_left_eq] at h1
  have h2 : Nat.toDigits 10 i = Nat.toDigits 10 j := by
    have e : ∀ k : ℕ, (toString k).toList = Nat.toDigits 10 k := fun k => Nat.toList_repr
    rwa [e, e] at h1
  have h3 := congrArg (fun l => Nat.ofDigitChars 10 l 0) h2
  simpa [Nat.ofDigitChars_ten_toDigits] using h3

section
variable {α : Type} [DecidableEq α]

theorem mem_dropDuplicates {l : List α} {r : α} : r ∈ dropDuplicates l ↔ r ∈ l := by
  induction l with
  | nil => simp [dropDuplicates]
  | cons a l ih =>
    simp only [dropDuplicates, List.mem_cons, List.mem_filter, ih, decide_eq_true_eq]
    constructor
    · rintro (h | h)
      · exact Or.inl h
      · exact Or.inr h.1
    · rintro (h | h)
      · exact Or.inl h
      · by_cases hr : r = a
        · exact Or.inl hr
        · exact Or.inr ⟨h, hr⟩

theorem dropDuplicates_spec (l : List α) : FirstOccurrences l (dropDuplicates l) := by
  refine ⟨?_, fun r => mem_dropDuplicates, ?_⟩
  · induction l with
    | nil => simp [dropDuplicates]
    | cons a l ih =>
      simp only [dropDuplicates, List.nodup_cons]
      exact ⟨by simp, ih.filter _⟩
  · induction l with
    | nil => simp [dropDuplicates]
    | cons a l ih =>
      simp only [dropDuplicates, List.pairwise_cons]
      constructor
      · intro b hb
        have hne : b ≠ a := by simpa using (List.mem_filter.1 hb).2
        rw [List.idxOf_cons_self, List.idxOf_cons_ne _ (Ne.symm hne)]
        omega
      · refine List.Pairwise.imp_of_mem ?_ (ih.filter _)
        intro b c hb hc h
        have hb' : b ≠ a := by simpa using (List.mem_filter.1 hb).2
        have hc' : c ≠ a := by simpa using (List.mem_filter.1 hc).2
        rw [List.idxOf_cons_ne _ (Ne.symm hb'), List.idxOf_cons_ne _ (Ne.symm hc')]
        omega

/-- The list of first occurrences is unique. -/
theorem firstOccurrences_unique {l o o' : List α} (h : FirstOccurrences l o)
    (h' : FirstOccurrences l o') : o = o' := by
  have hp : o.Perm o' := (List.perm_ext_iff_of_nodup h.nodup h'.nodup).2 fun a => by rw [h.mem, h'.mem]
  refine hp.eq_of_pairwise ?_ h.order h'.order
  intro a b _ _ h1 h2
  omega

theorem dropDuplicates_of_nodup {l : List α} (h : l.Nodup) : dropDuplicates l = l := by
  induction l with
  | nil => rfl
  | cons a l ih =>
    have := List.nodup_cons.1 h
    simp only [dropDuplicates, ih this.2, List.cons.injEq, true_and]
    apply List.filter_eq_self.2
    intro r hr
    have : r ≠ a := by rintro rfl; exact this.1 hr
    simpa using this

theorem dropDuplicates_append_self (l : List α) : dropDuplicates (l ++ l) = dropDuplicates l := by
  refine firstOccurrences_unique (l := l) ?_ (dropDuplicates_spec l)
  have h := dropDuplicates_spec (l ++ l)
  refine ⟨h.nodup, fun a => by rw [h.mem]; simp, ?_⟩
  refine List.Pairwise.imp_of_mem ?_ h.order
  intro a b ha hb hab
  have ha' : a ∈ l := by have := (h.mem a).1 ha; simpa using this
  have hb' : b ∈ l := by have := (h.mem b).1 hb; simpa using this
  rwa [List.idxOf_append_of_mem ha', List.idxOf_append_of_mem hb'] at hab

end

omit [Field K] in
theorem npUnique_spec (l : List K) :
    (npUnique l).Pairwise (· < ·) ∧ ∀ v, v ∈ npUnique l ↔ v ∈ l := by
  have hmem : ∀ v, v ∈ npUnique l ↔ v ∈ l := by
    intro v
    unfold npUnique
    rw [(List.mergeSort_perm _ _).mem_iff, List.mem_dedup]
  refine ⟨?_, hmem⟩
  have h1 : (npUnique l).Pairwise (fun a b => decide (a ≤ b) = true) :=
    List.pairwise_mergeSort (fun a b c => by simpa using le_trans)
      (fun a b => by simpa using le_total a b) l.dedup
  have h2 : (npUnique l).Nodup := (List.mergeSort_perm _ _).nodup_iff.2 (List.nodup_dedup l)
  have h3 := List.pairwise_and_iff.2 ⟨h1, h2⟩
  exact h3.imp fun h => lt_of_le_of_ne (by simpa using h.1) h.2

end Pointpats.PointPattern
