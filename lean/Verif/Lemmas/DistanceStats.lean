import Verif.Model.DistanceStats
import Verif.Spec.DistanceStats
import Verif.Lemmas.Neighbours
import Verif.Lemmas.PyList
import Verif.Lemmas.MinMax
import Mathlib.Tactic.Linarith
import Mathlib.Tactic.Ring
import Mathlib.Tactic.FieldSimp

/-!
# Lemmas on histograms and supports
-/

namespace Pointpats.DistStats

open Spec

variable {K : Type} [Field K] [LinearOrder K]

omit [Field K] in
theorem monotoneBins_iff (s : List K) : monotoneBins s = true ↔ s.Pairwise (· ≤ ·) := by
  induction s with
  | nil => simp [monotoneBins]
  | cons a l ih =>
    cases l with
    | nil => simp [monotoneBins]
    | cons b l =>
      rw [monotoneBins, Bool.and_eq_true, decide_eq_true_eq, ih, List.pairwise_cons (l := b :: l)]
      constructor
      · rintro ⟨h1, h2⟩
        refine ⟨?_, h2⟩
        intro c hc
        rcases List.mem_cons.1 hc with rfl | hc
        · exact h1
        · exact le_trans h1 ((List.pairwise_cons.1 h2).1 c hc)
      · rintro ⟨h1, h2⟩
        exact ⟨h1 b (by simp), h2⟩

omit [Field K] in
theorem length_cumCounts (data s : List K) : (cumCounts data s).length = s.length := by
  induction s with
  | nil => rfl
  | cons a l ih =>
    cases l with
    | nil => rfl
    | cons b l => rw [cumCounts, List.length_cons, ih, List.length_cons] <;> simp

omit [Field K] in
theorem cumCounts_get (data s : List K) (i : ℕ) (b : K) (hb : s[i]? = some b) :
    (cumCounts data s)[i]? = some (if i + 1 = s.length then (data.filter fun x => decide (x ≤ b)).length
      else (data.filter fun x => decide (x < b)).length) := by
  induction s generalizing i with
  | nil => simp at hb
  | cons a l ih =>
    cases l with
    | nil =>
      cases i with
      | zero => simp at hb; subst hb; simp [cumCounts]
      | succ i => simp at hb
    | cons c l =>
      cases i with
      | zero => simp at hb; subst hb; simp [cumCounts]
      | succ i =>
        have hb' : (c :: l)[i]? = some b := by simpa using hb
        rw [cumCounts, List.getElem?_cons_succ, ih i hb']
        · simp
        · simp

omit [Field K] [LinearOrder K] in
private theorem filter_length_mono (data : List K) (p q : K → Bool) (h : ∀ x, p x = true → q x = true) :
    (data.filter p).length ≤ (data.filter q).length :=
  (List.monotone_filter_right data h).length_le

omit [Field K] in
theorem cumCounts_mono (data s : List K) (hs : s.Pairwise (· ≤ ·)) : (cumCounts data s).Pairwise (· ≤ ·) := by
  induction s with
  | nil => simp [cumCounts]
  | cons a l ih =>
    cases l with
    | nil => simp [cumCounts]
    | cons b l =>
      rw [cumCounts]
      · rw [List.pairwise_cons]
        refine ⟨?_, ih (List.pairwise_cons.1 hs).2⟩
        intro c hc
        obtain ⟨i, hi⟩ := List.mem_iff_getElem?.1 hc
        have hi' : i < (b :: l).length := by
          have := (List.getElem?_eq_some_iff.1 hi).1
          rwa [length_cumCounts] at this
        have hab : a ≤ (b :: l)[i] := (List.pairwise_cons.1 hs).1 _ (List.getElem_mem hi')
        rw [cumCounts_get data (b :: l) i _ (List.getElem?_eq_getElem hi')] at hi
        injection hi with hi
        rw [← hi]
        split
        · exact filter_length_mono _ _ _ fun x hx => by simp at hx ⊢; exact le_trans hx.le hab
        · exact filter_length_mono _ _ _ fun x hx => by simp at hx ⊢; exact lt_of_lt_of_le hx hab
      · simp

theorem cumsum_diffs (a s : ℕ) (l : List ℕ) (h : (a :: l).Pairwise (· ≤ ·)) :
    cumsum s (diffs (a :: l)) = l.map fun b => s + (b - a) := by
  induction l generalizing a s with
  | nil => simp [diffs, cumsum]
  | cons b l ih =>
    obtain ⟨h1, h2⟩ := List.pairwise_cons.1 h
    rw [diffs, cumsum, ih b _ h2]
    simp only [List.map_cons, List.cons.injEq, true_and]
    apply List.map_congr_left
    intro c hc
    have := (List.pairwise_cons.1 h2).1 c hc
    have := h1 b (by simp)
    omega

theorem sum_diffs (a : ℕ) (l : List ℕ) (h : (a :: l).Pairwise (· ≤ ·)) :
    (diffs (a :: l)).sum = (a :: l).getLast (by simp) - a := by
  induction l generalizing a with
  | nil => simp [diffs]
  | cons b l ih =>
    obtain ⟨h1, h2⟩ := List.pairwise_cons.1 h
    rw [diffs, List.sum_cons, ih b h2, List.getLast_cons (List.cons_ne_nil b l)]
    have hb := h1 b (by simp)
    have hl := h1 _ (List.getLast_mem (l := b :: l) (by simp))
    have hl2 : b ≤ (b :: l).getLast (by simp) := by
      rcases List.mem_cons.1 (List.getLast_mem (l := b :: l) (by simp)) with e | e
      · omega
      · exact (List.pairwise_cons.1 h2).1 _ e
    omega

omit [Field K] [LinearOrder K] in
private theorem filter_sub (data : List K) (p q : K → Bool) (h : ∀ x, p x = true → q x = true) :
    (data.filter q).length - (data.filter p).length = (data.filter fun x => q x && !p x).length := by
  induction data with
  | nil => simp
  | cons a l ih =>
    have hle := filter_length_mono l p q h
    cases hp : p a with
    | true =>
      have hq := h a hp
      simp only [List.filter_cons, hp, hq, if_true, List.length_cons, Bool.not_true, Bool.and_false, Bool.false_eq_true, if_false]
      omega
    | false =>
      cases hq : q a with
      | true =>
        simp only [List.filter_cons, hp, hq, if_true, List.length_cons, Bool.not_false, Bool.and_true, Bool.false_eq_true, if_false]
        omega
      | false =>
        simp only [List.filter_cons, hp, hq, Bool.not_false, Bool.and_true, Bool.false_eq_true, if_false]
        omega

omit [Field K] in
private theorem head_le (a : K) (l : List K) (hs : (a :: l).Pairwise (· ≤ ·)) (i : ℕ) (b : K) (hb : (a :: l)[i]? = some b) :
    a ≤ b := by
  cases i with
  | zero => simp at hb; rw [hb]
  | succ i => exact (List.pairwise_cons.1 hs).1 b (List.mem_of_getElem? (by simpa using hb))

/-- The cumulative counts above the first one are the numbers of data in the ranges. -/
theorem cumCounts_sub (data s : List K) (hs : s.Pairwise (· ≤ ·)) (h2 : 2 ≤ s.length) (i : ℕ) (hi : i < s.length) :
    (cumCounts data s).getD i 0 - (cumCounts data s).getD 0 0 = countUpTo s i data := by
  obtain ⟨a, l, rfl⟩ := List.exists_cons_of_length_pos (by omega : 0 < s.length)
  have hb : (a :: l)[i]? = some (a :: l)[i] := List.getElem?_eq_getElem hi
  have hab := head_le a l hs i _ hb
  have h0 := cumCounts_get data (a :: l) 0 a rfl
  rw [if_neg (by omega)] at h0
  have h1 := cumCounts_get data (a :: l) i _ hb
  rw [List.getD_eq_getElem?_getD, List.getD_eq_getElem?_getD, h0, h1]
  simp only [Option.getD_some]
  unfold countUpTo
  have e0 : (a :: l).getD 0 0 = a := rfl
  have ei : (a :: l).getD i 0 = (a :: l)[i] := by rw [List.getD_eq_getElem?_getD, hb]; rfl
  rw [e0, ei]
  split
  · next hlast =>
    rw [filter_sub]
    · congr 2
      funext x
      rw [Bool.eq_iff_iff]
      simp only [Bool.and_eq_true, decide_eq_true_eq, Bool.not_eq_true', decide_eq_false_iff_not, not_lt, hlast, true_and]
      rw [le_iff_lt_or_eq (a := x), and_comm]
    · intro x hx
      simp only [decide_eq_true_eq] at hx ⊢
      exact le_trans hx.le hab
  · next hlast =>
    rw [filter_sub]
    · congr 2
      funext x
      rw [Bool.eq_iff_iff]
      simp only [Bool.and_eq_true, decide_eq_true_eq, Bool.not_eq_true', decide_eq_false_iff_not, not_lt, hlast, false_and,
        or_false]
      rw [and_comm]
    · intro x hx
      simp only [decide_eq_true_eq] at hx ⊢
      exact lt_of_lt_of_le hx hab

theorem countUpTo_last (data s : List K) (h : 1 ≤ s.length) : countUpTo s (s.length - 1) data = countWithin s data := by
  unfold countUpTo countWithin
  congr 2
  funext x
  rw [Bool.eq_iff_iff]
  simp only [decide_eq_true_eq, Nat.sub_add_cancel h, true_and]
  rw [le_iff_lt_or_eq (a := x)]

theorem countUpTo_zero (data s : List K) (h : 2 ≤ s.length) : countUpTo s 0 data = 0 := by
  unfold countUpTo
  rw [List.length_eq_zero_iff, List.filter_eq_nil_iff]
  intro x _
  simp only [decide_eq_true_eq, not_and, not_or]
  intro h1
  exact ⟨not_lt.2 h1, fun h2 => by omega⟩

theorem countUpTo_mono (data s : List K) (hs : s.Pairwise (· ≤ ·)) (i j : ℕ) (hij : i ≤ j) (hj : j < s.length) :
    countUpTo s i data ≤ countUpTo s j data := by
  unfold countUpTo
  apply filter_length_mono
  intro x hx
  simp only [decide_eq_true_eq] at hx ⊢
  refine ⟨hx.1, ?_⟩
  rcases Nat.lt_or_eq_of_le hij with hij | rfl
  · have hle : s.getD i 0 ≤ s.getD j 0 := by
      rw [List.getD_eq_getElem?_getD, List.getD_eq_getElem?_getD, List.getElem?_eq_getElem hj,
        List.getElem?_eq_getElem (by omega : i < s.length)]
      exact List.pairwise_iff_getElem.1 hs i j _ _ hij
    rcases hx.2 with h | ⟨h, _⟩
    · exact Or.inl (lt_of_lt_of_le h hle)
    · omega
  · exact hx.2

/-- What `numpy.cumsum(counts) / counts.sum()` computes. -/
theorem shares_spec (data s : List K) (h2 : 2 ≤ s.length) :
    (¬ s.Pairwise (· ≤ ·) → shares data s = .error .valueError)
    ∧ (s.Pairwise (· ≤ ·) → shares data s = .ok (s, .fin 0 :: (List.range (s.length - 1)).map fun i =>
        XF.div (.fin (countUpTo s (i + 1) data : K)) (.fin (countWithin s data : K)))) := by
  constructor
  · intro hs
    unfold shares histogram
    rw [if_neg (by rw [monotoneBins_iff]; exact hs)]
    rfl
  · intro hs
    unfold shares histogram
    rw [if_pos ((monotoneBins_iff s).2 hs)]
    have hlen := length_cumCounts data s
    have hmono := cumCounts_mono data s hs
    have hsub := cumCounts_sub data s hs h2
    obtain ⟨a, l, hc⟩ := List.exists_cons_of_length_pos (by omega : 0 < (cumCounts data s).length)
    rw [hc] at hlen hmono hsub
    have hl : l.length = s.length - 1 := by simp at hlen; omega
    have htot : (diffs (a :: l)).sum = countWithin s data := by
      rw [sum_diffs a l hmono, ← countUpTo_last data s (by omega), ← hsub (s.length - 1) (by omega)]
      have : (a :: l).getLast (by simp) = (a :: l).getD (s.length - 1) 0 := by
        rw [List.getLast_eq_getElem, List.getD_eq_getElem?_getD, List.getElem?_eq_getElem (by omega)]
        simp [hlen]
      rw [this]
      rfl
    show Except.ok _ = Except.ok _
    rw [hc, htot, cumsum_diffs a 0 l hmono]
    congr 2
    congr 1
    apply List.ext_getElem
    · simp [hl]
    · intro i h1 h2'
      simp only [List.getElem_map, List.getElem_range]
      have hi : i + 1 < s.length := by simp at h1; omega
      rw [← hsub (i + 1) hi]
      have : (a :: l).getD (i + 1) 0 = l[i]'(by simpa using h1) := by
        simp only [List.getD_eq_getElem?_getD, List.getElem?_cons_succ]
        rw [List.getElem?_eq_getElem (by simpa using h1)]
        rfl
      rw [this]
      simp

variable [IsStrictOrderedRing K]

/-- The shares as a curve of numbers. -/
theorem shares_curve (data s : List K) (h2 : 2 ≤ s.length) (r : List K × List (XF K)) (h : shares data s = .ok r) :
    r.1 = s ∧ s.Pairwise (· ≤ ·)
    ∧ (countWithin s data = 0 → r.2 = .fin 0 :: List.replicate (s.length - 1) .nan)
    ∧ (0 < countWithin s data → ∃ v : List K, r.2 = v.map .fin ∧ IsShareCurve data s v ∧ IsDistributionCurve v) := by
  obtain ⟨e1, e2⟩ := shares_spec data s h2
  by_cases hs : s.Pairwise (· ≤ ·)
  · rw [e2 hs] at h
    injection h with h
    subst h
    refine ⟨rfl, hs, ?_, ?_⟩
    · intro h0
      simp only [h0]
      congr 1
      rw [List.eq_replicate_iff]
      refine ⟨by simp, ?_⟩
      intro b hb
      obtain ⟨i, hi, rfl⟩ := List.mem_map.1 hb
      have hle := countUpTo_mono data s hs (i + 1) (s.length - 1) (by simp at hi; omega) (by omega)
      rw [countUpTo_last data s (by omega), h0] at hle
      have : countUpTo s (i + 1) data = 0 := by omega
      simp [this, XF.div]
    · intro hpos
      have hposK : (0 : K) < (countWithin s data : K) := by exact_mod_cast hpos
      set v : List K := (List.range s.length).map fun i => (countUpTo s i data : K) / (countWithin s data : K) with hv
      have hvget : ∀ i, i < s.length → v[i]? = some ((countUpTo s i data : K) / (countWithin s data : K)) := by
        intro i hi
        rw [hv, List.getElem?_map, List.getElem?_range hi]
        rfl
      have hvlen : v.length = s.length := by simp [hv]
      refine ⟨v, ?_, ⟨hvlen, hvget⟩, ?_, ?_, ?_⟩
      · obtain ⟨n, hn⟩ : ∃ n, s.length = n + 1 := ⟨s.length - 1, by omega⟩
        have hz : countUpTo s 0 data = 0 := countUpTo_zero data s h2
        rw [hv]
        have : ∀ i, XF.div (.fin (countUpTo s (i + 1) data : K)) (.fin (countWithin s data : K))
            = .fin ((countUpTo s (i + 1) data : K) / (countWithin s data : K)) := by
          intro i
          simp only [XF.div, if_neg hposK.ne']
        simp only [this]
        rw [hn, List.range_succ_eq_map]
        simp only [List.map_cons, List.map_map, Nat.add_sub_cancel, hz]
        simp [Function.comp_def]
      · rw [hvget 0 (by omega), countUpTo_zero data s h2]
        simp
      · rw [List.pairwise_iff_getElem]
        intro i j hi hj hij
        have h1 := hvget i (by omega)
        have h2' := hvget j (by omega)
        rw [List.getElem?_eq_getElem hi] at h1
        rw [List.getElem?_eq_getElem hj] at h2'
        injection h1 with h1
        injection h2' with h2'
        rw [h1, h2']
        apply div_le_div_of_nonneg_right _ hposK.le
        exact_mod_cast countUpTo_mono data s hs i j hij.le (by omega)
      · rw [List.getLast?_eq_getElem?, hvlen, hvget _ (by omega), countUpTo_last data s (by omega), div_self hposK.ne']
  · rw [e1 hs] at h
    cases h

theorem linspace_ok (start stop : K) (num : ℤ) (s : List K) (h : linspace start stop num = .ok s) :
    0 ≤ num ∧ IsGrid start stop num.toNat s := by
  unfold linspace at h
  split at h
  · cases h
  · next hneg =>
    refine ⟨by omega, ?_⟩
    split at h
    · next h1 =>
      injection h with h
      subst h h1
      exact ⟨rfl, fun _ => rfl, fun i _ h2 => by simp at h2⟩
    · next h1 =>
      injection h with h
      subst h
      refine ⟨by simp, ?_, ?_⟩
      · intro h0
        rw [List.getElem?_map, List.getElem?_range (by omega)]
        simp
        intro h'
        omega
      · intro i hi h2
        rw [List.getElem?_map, List.getElem?_range hi]
        simp only [Option.map_some, Option.some.injEq]
        have hcast : ((num.toNat : ℕ) : K) = (num : K) := by
          rw [← Int.cast_natCast, Int.toNat_of_nonneg (by omega)]
        rw [hcast]
        have hne : ((num : K) - 1) ≠ 0 := by
          rw [← hcast]
          have : ((num.toNat : ℕ) : K) - 1 = ((num.toNat - 1 : ℕ) : K) := by
            rw [Nat.cast_sub (by omega)]; simp
          rw [this]
          exact_mod_cast (by omega : num.toNat - 1 ≠ 0)
        split
        · next hi' =>
          have : (i : K) = (num : K) - 1 := by
            have : ((i : ℤ) : K) = ((num - 1 : ℤ) : K) := by rw [hi']
            simpa using this
          rw [this]
          field_simp
          ring
        · ring

/-! ### The index -/

open Geometry

omit [IsStrictOrderedRing K] in
/-- The contract of the spatial index: a query for at most as many neighbours as there are stored points answers with a
correct row for every location (ties are broken in any way). -/
def Lib.Correct (lib : Lib K) : Prop :=
  ∀ m stored locations k, k ≤ stored.length → ∃ rows, lib.query m stored locations k = .ok rows
    ∧ rows.length = locations.length
    ∧ ∀ i (h : i < rows.length) x, locations[i]? = some x →
        NearestRow (fun j => lib.pdist m x (stored.getD j (0, 0))) (List.range stored.length) k rows[i]

omit [Field K] [LinearOrder K] [IsStrictOrderedRing K] in
theorem distancesOf_get (rows : List (List (K × ℕ))) (h : ∀ r ∈ rows, r.length = 1) :
    (distancesOf rows).length = rows.length
    ∧ ∀ i (hi : i < rows.length), ∃ e, rows[i] = [e] ∧ (distancesOf rows)[i]? = some e.1 := by
  induction rows with
  | nil => exact ⟨rfl, fun i hi => by simp at hi⟩
  | cons r l ih =>
    obtain ⟨ih1, ih2⟩ := ih fun r hr => h r (by simp [hr])
    obtain ⟨e, rfl⟩ := List.length_eq_one_iff.1 (h r (by simp))
    have hd : distancesOf ([e] :: l) = e.1 :: distancesOf l := by simp [distancesOf]
    rw [hd]
    refine ⟨by simp [ih1], ?_⟩
    intro i hi
    cases i with
    | zero => exact ⟨e, rfl, rfl⟩
    | succ i =>
      obtain ⟨e', h1, h2⟩ := ih2 i (by simpa using hi)
      exact ⟨e', by simpa using h1, by simpa using h2⟩

omit [Field K] [IsStrictOrderedRing K] in
private theorem nearestRow_one {dist : ℕ → K} {ids : List ℕ} {row : List (K × ℕ)} (h : NearestRow dist ids 1 row) (e : K × ℕ)
    (he : row = [e]) : e.2 ∈ ids ∧ e.1 = dist e.2 ∧ ∀ j ∈ ids, e.1 ≤ dist j := by
  subst he
  refine ⟨h.stored e (by simp), h.true_dist e (by simp), fun j hj => ?_⟩
  by_cases hje : j = e.2
  · rw [hje, ← h.true_dist e (by simp)]
  · exact h.nearest j hj (by simpa using hje) e (by simp)

omit [IsStrictOrderedRing K] in
/-- `_k_neighbors(tree, locations, 1)`: place `i` holds the distance to the nearest stored point at another place than
`i`. -/
theorem treeKNeighbors_one (lib : Lib K) (hc : lib.Correct) (m : Metric) (stored locations : List (K × K))
    (hn : 2 ≤ stored.length) :
    (∀ e, buildBestTree lib.hasSklearn lib.kdMetrics lib.ballMetrics m = .error e →
      treeKNeighbors lib m stored locations 1 = .error e)
    ∧ (∀ t, buildBestTree lib.hasSklearn lib.kdMetrics lib.ballMetrics m = .ok t →
      ∃ rows, treeKNeighbors lib m stored locations 1 = .ok rows ∧ (distancesOf rows).length = locations.length
        ∧ ∀ (i : ℕ) x d, locations[i]? = some x → (distancesOf rows)[i]? = some d →
            NearestExcept (lib.pdist m) stored i x d) := by
  refine ⟨fun e he => by unfold treeKNeighbors; rw [he]; rfl, fun t ht => ?_⟩
  obtain ⟨rows, hq, hlen, hrows⟩ := hc m stored locations 2 hn
  have hk : ∀ r ∈ rows, r.length = 1 + 1 := by
    intro r hr
    obtain ⟨i, hi, rfl⟩ := List.mem_iff_getElem.1 hr
    exact (hrows i hi _ (List.getElem?_eq_getElem (by omega))).length
  set ls := rows.zipIdx.map fun r => maskRow 1 r.2 r.1 with hls
  have hlslen : ls.length = rows.length := by simp [hls]
  have hget : ∀ i (h : i < ls.length) x, locations[i]? = some x →
      NearestRow (fun j => lib.pdist m x (stored.getD j (0, 0))) (others stored.length i) 1 ls[i] := by
    intro i h x hx
    have hi : i < rows.length := by omega
    have : ls[i] = maskRow 1 i rows[i] := by simp [hls]
    rw [this]
    exact maskRow_spec (hrows i hi x hx)
  have hone : ∀ r ∈ ls, r.length = 1 := by
    intro l hl
    obtain ⟨i, hi, rfl⟩ := List.mem_iff_getElem.1 hl
    exact (hget i hi _ (List.getElem?_eq_getElem (by omega))).length
  obtain ⟨d1, d2⟩ := distancesOf_get ls hone
  refine ⟨ls, ?_, by omega, ?_⟩
  · unfold treeKNeighbors
    rw [ht]
    show (do let rows ← lib.query m stored locations 2; kNeighbors 1 rows) = _
    rw [hq]
    show kNeighbors 1 rows = _
    unfold kNeighbors
    rw [if_pos (by simpa using hk), ← hls, ← hlslen]
    exact reshape_flatten _ _ hone
  · intro i x d hx hd
    have hi : i < ls.length := by
      have := (List.getElem?_eq_some_iff.1 hx).1
      omega
    obtain ⟨e, he1, he2⟩ := d2 i hi
    rw [he2] at hd
    injection hd with hd
    obtain ⟨g1, g2, g3⟩ := nearestRow_one (hget i hi x hx) e he1
    rw [mem_others] at g1
    refine ⟨⟨e.2, stored.getD e.2 (0, 0), ?_, g1.2, by rw [← hd]; exact g2⟩, ?_⟩
    · rw [List.getD_eq_getElem?_getD, List.getElem?_eq_getElem g1.1]; rfl
    · intro j q hq' hj
      have hjl := (List.getElem?_eq_some_iff.1 hq').1
      have := g3 j (mem_others.2 ⟨hjl, hj⟩)
      rw [← hd]
      rwa [List.getD_eq_getElem?_getD, hq'] at this

omit [IsStrictOrderedRing K] in
/-- `tree.query(locations, k=1)`: place `i` holds the distance to the nearest stored point. -/
theorem treeNearest_one (lib : Lib K) (hc : lib.Correct) (m : Metric) (stored locations : List (K × K))
    (hn : 1 ≤ stored.length) :
    (∀ e, buildBestTree lib.hasSklearn lib.kdMetrics lib.ballMetrics m = .error e →
      treeNearest lib m stored locations = .error e)
    ∧ (∀ t, buildBestTree lib.hasSklearn lib.kdMetrics lib.ballMetrics m = .ok t →
      ∃ rows, treeNearest lib m stored locations = .ok rows ∧ (distancesOf rows).length = locations.length
        ∧ ∀ (i : ℕ) x d, locations[i]? = some x → (distancesOf rows)[i]? = some d → IsNearest (lib.pdist m) stored x d) := by
  refine ⟨fun e he => by unfold treeNearest; rw [he]; rfl, fun t ht => ?_⟩
  obtain ⟨rows, hq, hlen, hrows⟩ := hc m stored locations 1 hn
  have hone : ∀ r ∈ rows, r.length = 1 := by
    intro r hr
    obtain ⟨i, hi, rfl⟩ := List.mem_iff_getElem.1 hr
    exact (hrows i hi _ (List.getElem?_eq_getElem (by omega))).length
  obtain ⟨d1, d2⟩ := distancesOf_get rows hone
  refine ⟨rows, ?_, by omega, ?_⟩
  · unfold treeNearest
    rw [ht]
    exact hq
  · intro i x d hx hd
    have hi : i < rows.length := by
      have := (List.getElem?_eq_some_iff.1 hx).1
      omega
    obtain ⟨e, he1, he2⟩ := d2 i hi
    rw [he2] at hd
    injection hd with hd
    obtain ⟨g1, g2, g3⟩ := nearestRow_one (hrows i hi x hx) e he1
    rw [List.mem_range] at g1
    refine ⟨⟨stored.getD e.2 (0, 0), ?_, by rw [← hd]; exact g2⟩, ?_⟩
    · rw [List.getD_eq_getElem?_getD, List.getElem?_eq_getElem g1]; exact List.getElem_mem _
    · intro q hq'
      obtain ⟨j, hj⟩ := List.mem_iff_getElem?.1 hq'
      have hjl := (List.getElem?_eq_some_iff.1 hj).1
      have := g3 j (List.mem_range.2 hjl)
      rw [← hd]
      rwa [List.getD_eq_getElem?_getD, hj] at this

omit [IsStrictOrderedRing K] in
theorem treeKNeighbors_ok {lib : Lib K} (hc : lib.Correct) {m : Metric} {stored locations : List (K × K)}
    (hn : 2 ≤ stored.length) {rows : List (List (K × ℕ))} (h : treeKNeighbors lib m stored locations 1 = .ok rows) :
    (distancesOf rows).length = locations.length
    ∧ ∀ (i : ℕ) x d, locations[i]? = some x → (distancesOf rows)[i]? = some d → NearestExcept (lib.pdist m) stored i x d := by
  obtain ⟨h1, h2⟩ := treeKNeighbors_one lib hc m stored locations hn
  cases hb : buildBestTree lib.hasSklearn lib.kdMetrics lib.ballMetrics m with
  | error e => rw [h1 e hb] at h; cases h
  | ok t =>
    obtain ⟨rows', g1, g2⟩ := h2 t hb
    rw [g1] at h
    injection h with h
    rw [← h]
    exact g2

omit [IsStrictOrderedRing K] in
theorem treeNearest_ok {lib : Lib K} (hc : lib.Correct) {m : Metric} {stored locations : List (K × K)}
    (hn : 1 ≤ stored.length) {rows : List (List (K × ℕ))} (h : treeNearest lib m stored locations = .ok rows) :
    (distancesOf rows).length = locations.length
    ∧ ∀ (i : ℕ) x d, locations[i]? = some x → (distancesOf rows)[i]? = some d → IsNearest (lib.pdist m) stored x d := by
  obtain ⟨h1, h2⟩ := treeNearest_one lib hc m stored locations hn
  cases hb : buildBestTree lib.hasSklearn lib.kdMetrics lib.ballMetrics m with
  | error e => rw [h1 e hb] at h; cases h
  | ok t =>
    obtain ⟨rows', g1, g2⟩ := h2 t hb
    rw [g1] at h
    injection h with h
    rw [← h]
    exact g2

end Pointpats.DistStats
