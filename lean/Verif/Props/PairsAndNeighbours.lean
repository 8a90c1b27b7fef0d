import Verif.Props.DistanceJKL
import Mathlib.Tactic.IntervalCases

/-!
# C175: G and K describe the same neighbours
-/

set_option linter.unusedSectionVars false

namespace Pointpats.Props

open Spec Geometry DistStats

variable {K : Type} [Field K] [LinearOrder K] [IsStrictOrderedRing K] [FloorRing K]

/-- The number of other events at distance below `r` from event `i`. -/
def othersBelow (dist : K × K → K × K → K) (events : List (K × K)) (r : K) (i : ℕ) : ℕ :=
  ((List.range events.length).filter fun j =>
    decide (j ≠ i ∧ dist (events.getD i (0, 0)) (events.getD j (0, 0)) < r)).length

private theorem othersBelow_le (dist : K × K → K × K → K) (events : List (K × K)) (r : K) {i : ℕ} (hi : i < events.length) :
    othersBelow dist events r i ≤ events.length - 1 := by
  unfold othersBelow
  have h1 : ((List.range events.length).filter fun j => decide (j ≠ i)).length = events.length - 1 := by
    have hnd : (List.range events.length).Nodup := List.nodup_range
    have : (List.range events.length).filter (fun j => decide (j ≠ i)) = (List.range events.length).erase i := by
      rw [hnd.erase_eq_filter]
      exact List.filter_congr fun j _ => by by_cases h : j = i <;> simp [h]
    rw [this, List.length_erase_of_mem (List.mem_range.2 hi), List.length_range]
  rw [← h1]
  apply List.Sublist.length_le
  apply List.monotone_filter_right
  intro j hj
  simp only [decide_eq_true_eq] at hj ⊢
  exact hj.1

private theorem nearest_below {dist : K × K → K × K → K} {events : List (K × K)} {i : ℕ} {x r : K}
    (h : IsNearestOther dist events i x) : x < r ↔ 0 < othersBelow dist events r i := by
  obtain ⟨p, hp, ⟨j, q, hj, hji, rfl⟩, hmin⟩ := h
  have gi : events.getD i (0, 0) = p := by rw [List.getD_eq_getElem?_getD, hp]; rfl
  unfold othersBelow
  rw [gi, List.length_pos_iff_exists_mem]
  constructor
  · intro hx
    refine ⟨j, List.mem_filter.2 ⟨List.mem_range.2 (List.getElem?_eq_some_iff.1 hj).1, ?_⟩⟩
    have gj : events.getD j (0, 0) = q := by rw [List.getD_eq_getElem?_getD, hj]; rfl
    rw [gj]
    simpa using ⟨hji, hx⟩
  · rintro ⟨l, hl⟩
    obtain ⟨h1, h2⟩ := List.mem_filter.1 hl
    simp only [decide_eq_true_eq] at h2
    refine lt_of_le_of_lt (hmin l _ ?_ h2.1) h2.2
    rw [List.getD_eq_getElem?_getD, List.getElem?_eq_getElem (List.mem_range.1 h1)]
    rfl

private theorem filter_sum (data : List K) (r : K) :
    (data.filter fun x => decide (x < r)).length = ((List.range data.length).map fun i => if data.getD i 0 < r then 1 else 0).sum := by
  induction data with
  | nil => rfl
  | cons a l ih =>
    rw [List.length_cons, List.range_succ_eq_map, List.map_cons, List.sum_cons, List.map_map]
    simp only [Function.comp_def, List.getD_cons_zero, List.getD_cons_succ]
    rw [← ih, List.filter_cons]
    by_cases h : a < r <;> simp [h, Nat.add_comm]

/-- **C175 (partial).** If the support covers the nearest neighbour distances, then at every distance of the support except the last
the mean number of other events that K counts, that is K times the intensity, is at least the value of G and at most `n - 1` times
it; in particular K is zero exactly where G is. Missing: the last distance, where G counts the events at exactly this distance and
K does not, see `C175_between_refuted`. -/
theorem C175_between_partial (lib : Lib K) (hc : lib.Correct) (coordinates : List (K × K)) (hn : 2 ≤ coordinates.length)
    (support : SupportArg K) (m : Metric) (hsym : ∀ p q, lib.pdist m p q = lib.pdist m q p) (s s' : List K) (vg vk : List (XF K))
    (h2 : 2 ≤ s.length) (hg : g lib coordinates support .none (.metric m) false = .ok (s, vg))
    (hk : k lib coordinates support .none (.metric m) false = .ok (s', vk))
    (hcov : ∀ i x, IsNearestOther (lib.pdist m) coordinates i x → s.getD 0 0 ≤ x ∧ x ≤ s.getD (s.length - 1) 0)
    (b : BBox K) (hb : IsSmallestBox coordinates b) (hA : 0 < (b.xmax - b.xmin) * (b.ymax - b.ymin)) :
    s' = s ∧ ∀ i, i + 1 < s.length → ∃ G Kr : K, vg[i]? = some (.fin G) ∧ vk[i]? = some (.fin Kr)
      ∧ G ≤ (coordinates.length : K) / ((b.xmax - b.xmin) * (b.ymax - b.ymin)) * Kr
      ∧ (coordinates.length : K) / ((b.xmax - b.xmin) * (b.ymax - b.ymin)) * Kr ≤ ((coordinates.length : K) - 1) * G
      ∧ (Kr = 0 ↔ G = 0) := by
  have hs : s' = s := by
    obtain ⟨p, d, hp, hd, hsh⟩ := g_ok hg
    have e1 := (shares_support hsh).1
    unfold k at hk
    rw [hp] at hk
    change (do
      let d ← kDistances lib p.metric coordinates .none
      _ : Py _) = _ at hk
    unfold kDistances at hk
    change (if (!p.isArray) = true then _ else _) = _ at hk
    split at hk
    · cases hk
    · injection hk with hk
      have := congrArg Prod.fst hk
      simp only at this e1
      rw [← this, e1]
  subst hs
  refine ⟨rfl, fun i hi => ?_⟩
  obtain ⟨data, d1, d2, d3⟩ := C59_g_partial lib hc coordinates hn support m s' vg h2 hg hcov
  have hkv := C61_k lib coordinates support m false hsym b hb s' vk hk
  have hi' : i < s'.length := by omega
  have hGi := d3 i hi'
  have hf : (data.filter fun x => decide (x < s'.getD i 0 ∨ (i + 1 = s'.length ∧ x = s'.getD i 0)))
      = data.filter fun x => decide (x < s'.getD i 0) := by
    apply List.filter_congr
    intro x _
    rw [decide_eq_decide]
    constructor
    · rintro (h | h)
      · exact h
      · omega
    · exact Or.inl
  rw [hf] at hGi
  obtain ⟨r, hr⟩ : ∃ r, r = s'.getD i 0 := ⟨_, rfl⟩
  rw [← hr] at hGi
  have hKi : vk[i]? = some (.fin (ripleyK (lib.pdist m) coordinates b r)) := by
    rw [hkv, List.getElem?_map, hr, List.getD_eq_getElem?_getD, List.getElem?_eq_getElem hi']
    rfl
  obtain ⟨c, hcdef⟩ : ∃ c, c = (data.filter fun x => decide (x < r)).length := ⟨_, rfl⟩
  obtain ⟨t, ht⟩ : ∃ t, t = orderedPairsBelow (lib.pdist m) coordinates r := ⟨_, rfl⟩
  have hcs : c = ((List.range coordinates.length).map fun i => if data.getD i 0 < r then 1 else 0).sum := by
    rw [hcdef, filter_sum, d1]
  have hts : t = ((List.range coordinates.length).map fun i => othersBelow (lib.pdist m) coordinates r i).sum := by
    rw [ht, orderedPairsBelow, List.length_flatMap]
    rfl
  have hiff : ∀ i < coordinates.length, (data.getD i 0 < r ↔ 0 < othersBelow (lib.pdist m) coordinates r i) := by
    intro i hi
    refine nearest_below (d2 i _ ?_)
    rw [List.getD_eq_getElem?_getD, List.getElem?_eq_getElem (by omega)]
    rfl
  have hct : c ≤ t := by
    rw [hcs, hts]
    apply List.sum_le_sum
    intro i hi
    have := hiff i (List.mem_range.1 hi)
    split
    · next h => exact this.1 h
    · exact Nat.zero_le _
  have htc : t ≤ (coordinates.length - 1) * c := by
    rw [hcs, hts, ← List.sum_map_mul_left]
    apply List.sum_le_sum
    intro i hi
    have h1 := hiff i (List.mem_range.1 hi)
    have h3 := othersBelow_le (lib.pdist m) coordinates r (List.mem_range.1 hi)
    split
    · next h => simpa using h3
    · next h =>
      rw [h1] at h
      omega
  have hnK : (0 : K) < (coordinates.length : K) := by exact_mod_cast (show 0 < coordinates.length by omega)
  have hct' : (c : K) ≤ t := by exact_mod_cast hct
  have htc' : (t : K) ≤ ((coordinates.length : K) - 1) * c := by
    have : ((coordinates.length - 1 : ℕ) : K) = (coordinates.length : K) - 1 := by
      rw [Nat.cast_sub (by omega), Nat.cast_one]
    rw [← this]
    exact_mod_cast htc
  have hKr : (coordinates.length : K) / ((b.xmax - b.xmin) * (b.ymax - b.ymin)) * ripleyK (lib.pdist m) coordinates b r
      = t / coordinates.length := by
    unfold ripleyK
    rw [← ht]
    generalize (b.xmax - b.xmin) * (b.ymax - b.ymin) = A at hA ⊢
    have := hA.ne'
    field_simp
  refine ⟨_, _, hGi, hKi, ?_, ?_, ?_⟩
  · rw [hKr, ← hcdef]
    exact div_le_div_of_nonneg_right hct' hnK.le
  · rw [hKr, ← hcdef, ← mul_div_assoc]
    exact div_le_div_of_nonneg_right htc' hnK.le
  · have hL : (coordinates.length : K) / ((b.xmax - b.xmin) * (b.ymax - b.ymin)) ≠ 0 := (div_pos hnK hA).ne'
    rw [← mul_right_inj' hL, hKr, mul_zero, ← hcdef, div_eq_zero_iff, div_eq_zero_iff]
    simp only [hnK.ne', or_false, Nat.cast_eq_zero]
    constructor
    · intro h; omega
    · intro h; rw [h] at htc; omega

/-- **C175 (refuted).** Two events and the support from 0 to their distance: at this distance G is one and K is zero. -/
theorem C175_between_refuted : ∃ (lib : Lib ℚ) (coordinates : List (ℚ × ℚ)), lib.Correct
    ∧ (∀ m p q, lib.pdist m p q = lib.pdist m q p)
    ∧ g lib coordinates (.array [0, 2]) .none (.metric (.name "euclidean")) false = .ok ([0, 2], [.fin 0, .fin 1])
    ∧ k lib coordinates (.array [0, 2]) .none (.metric (.name "euclidean")) false = .ok ([0, 2], [.fin 0, .fin 0]) :=
  ⟨sortLib, [(0, 0), (1, 1)], sortLib_correct, fun m => (sortLib_isDistance m).1, by decide +kernel, by decide +kernel⟩

/-- Non-vacuity: three events that meet all hypotheses, and at which the values at the inner distance are not zero. -/
example : g sortLib [(0, 0), (1, 1), (4, 0)] (.array [0, 3, 5]) .none (.metric (.name "euclidean")) false
      = .ok ([0, 3, 5], [.fin 0, .fin (2/3), .fin 1])
    ∧ k sortLib [(0, 0), (1, 1), (4, 0)] (.array [0, 3, 5]) .none (.metric (.name "euclidean")) false
      = .ok ([0, 3, 5], [.fin 0, .fin (8/9), .fin (8/3)])
    ∧ IsSmallestBox [((0 : ℚ), (0 : ℚ)), (1, 1), (4, 0)] ⟨0, 0, 4, 1⟩
    ∧ ∀ i x, IsNearestOther (sortLib.pdist (.name "euclidean")) [(0, 0), (1, 1), (4, 0)] i x → 0 ≤ x ∧ x ≤ 5 := by
  refine ⟨by decide +kernel, by decide +kernel, ?_, ?_⟩
  · obtain ⟨b, h1, h2, -⟩ := (C19_bbox_smallest [((0 : ℚ), (0 : ℚ)), (1, 1), (4, 0)]).2 (by simp)
    have : bboxArr (.pts [((0 : ℚ), (0 : ℚ)), (1, 1), (4, 0)]) = .ok ⟨0, 0, 4, 1⟩ := by decide +kernel
    rw [this] at h1
    cases h1
    exact h2
  rintro i x ⟨p, hp, ⟨j, q, -, -, rfl⟩, hmin⟩
  refine ⟨(sortLib_isDistance _).2 _ _, ?_⟩
  have hi : i < 3 := (List.getElem?_eq_some_iff.1 hp).1
  interval_cases i
  · cases hp
    exact (hmin 1 (1, 1) rfl (by decide)).trans (by decide +kernel)
  · cases hp
    exact (hmin 0 (0, 0) rfl (by decide)).trans (by decide +kernel)
  · cases hp
    exact (hmin 0 (0, 0) rfl (by decide)).trans (by decide +kernel)

end Pointpats.Props
