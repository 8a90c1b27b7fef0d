import Verif.Props.DistanceJKL

/-!
# C178: the value of a distance function at a distance and the other distances that are asked for
-/

set_option linter.unusedSectionVars false

namespace Pointpats.Props

open Spec Geometry DistStats

variable {K : Type} [Field K] [LinearOrder K] [IsStrictOrderedRing K] [FloorRing K]

omit [FloorRing K] in
/-- C178 for K: the value at a distance is the same in every support. -/
theorem C178_k (lib : Lib K) (coordinates : List (K × K)) (support support' : SupportArg K) (m : Metric) (edge : Bool)
    (hsym : ∀ p q, lib.pdist m p q = lib.pdist m q p) (s s' : List K) (v v' : List (XF K))
    (h : k lib coordinates support .none (.metric m) edge = .ok (s, v))
    (h' : k lib coordinates support' .none (.metric m) edge = .ok (s', v')) (i i' : ℕ) (d : K)
    (hi : s[i]? = some d) (hi' : s'[i']? = some d) :
    ∃ x, v[i]? = some (.fin x) ∧ v'[i']? = some (.fin x) := by
  obtain ⟨hne, -⟩ := k_value h
  obtain ⟨b, -, hb, -⟩ := (C19_bbox_smallest coordinates).2 hne
  rw [C61_k lib coordinates support m edge hsym b hb s v h, C61_k lib coordinates support' m edge hsym b hb s' v' h',
    List.getElem?_map, List.getElem?_map, hi, hi']
  exact ⟨_, rfl, rfl⟩

/-- C178 for L: the value at a distance is the same in every support. -/
theorem C178_l (lib : Lib ℝ) (coordinates : List (ℝ × ℝ)) (hne : coordinates ≠ []) (support support' : SupportArg ℝ)
    (m : Metric) (edge linearized : Bool) (hdist : IsDistance (lib.pdist m)) (s s' : List ℝ) (v v' : List (XF ℝ))
    (h : l lib Real.sqrt Real.pi coordinates support .none (.metric m) edge linearized = .ok (s, v))
    (h' : l lib Real.sqrt Real.pi coordinates support' .none (.metric m) edge linearized = .ok (s', v')) (i i' : ℕ) (d : ℝ)
    (hi : s[i]? = some d) (hi' : s'[i']? = some d) :
    ∃ x, v[i]? = some (.fin x) ∧ v'[i']? = some (.fin x) := by
  obtain ⟨b, -, hb, -⟩ := (C19_bbox_smallest coordinates).2 hne
  rw [((C62_l lib coordinates support m edge linearized hdist b hb).2 s v h).1,
    ((C62_l lib coordinates support' m edge linearized hdist b hb).2 s' v' h').1,
    List.getElem?_map, List.getElem?_map, hi, hi']
  exact ⟨_, rfl, rfl⟩

omit [FloorRing K] [IsStrictOrderedRing K] in
private theorem nearest_unique {dist : K × K → K × K → K} {events : List (K × K)} {i : ℕ} {x y : K}
    (hx : IsNearestOther dist events i x) (hy : IsNearestOther dist events i y) : x = y := by
  obtain ⟨p, hp, ⟨j, q, hj, hji, rfl⟩, hmin⟩ := hx
  obtain ⟨p', hp', ⟨j', q', hj', hji', rfl⟩, hmin'⟩ := hy
  have hpp : p = p' := by rw [hp] at hp'; exact Option.some.inj hp'
  subst hpp
  exact le_antisymm (hmin j' q' hj' hji') (hmin' j q hj hji)

omit [FloorRing K] [IsStrictOrderedRing K] in
private theorem data_unique {dist : K × K → K × K → K} {events : List (K × K)} {data data' : List K}
    (h1 : data.length = events.length) (h1' : data'.length = events.length)
    (h2 : ∀ (i : ℕ) x, data[i]? = some x → IsNearestOther dist events i x)
    (h2' : ∀ (i : ℕ) x, data'[i]? = some x → IsNearestOther dist events i x) : data = data' := by
  apply List.ext_getElem (by omega)
  intro i hi hi'
  exact nearest_unique (h2 i _ (List.getElem?_eq_getElem hi)) (h2' i _ (List.getElem?_eq_getElem hi'))

omit [FloorRing K] [IsStrictOrderedRing K] in
private theorem countUpTo_same {s s' data : List K} {i i' : ℕ} {d : K} (h0 : s.getD 0 0 = s'.getD 0 0)
    (hi : s[i]? = some d) (hi' : s'[i']? = some d)
    (hlast : (i + 1 = s.length ↔ i' + 1 = s'.length) ∨ ∀ x ∈ data, x ≠ d) :
    countUpTo s i data = countUpTo s' i' data := by
  unfold countUpTo
  have e : s.getD i 0 = d := by rw [List.getD_eq_getElem?_getD, hi]; rfl
  have e' : s'.getD i' 0 = d := by rw [List.getD_eq_getElem?_getD, hi']; rfl
  rw [h0, e, e']
  congr 1
  apply List.filter_congr
  intro x hx
  rw [decide_eq_decide]
  rcases hlast with h | h
  · rw [h]
  · have := h x hx
    tauto

omit [FloorRing K] in
/-- C178 for G, given that the two supports begin at the same distance, and that the common distance is the last of
both supports or of none, or is not itself the distance of an event from its nearest neighbour: the value times the
number of events whose nearest neighbour is within the support is the same in both. If both supports cover all nearest
neighbours, the values are the same. Missing: the same value for every two supports, which is false. -/
theorem C178_g_partial (lib : Lib K) (hc : lib.Correct) (coordinates : List (K × K)) (hn : 2 ≤ coordinates.length)
    (support support' : SupportArg K) (m : Metric) (s s' : List K) (v v' : List (XF K)) (h2 : 2 ≤ s.length)
    (h2' : 2 ≤ s'.length) (h : g lib coordinates support .none (.metric m) false = .ok (s, v))
    (h' : g lib coordinates support' .none (.metric m) false = .ok (s', v')) (h0 : s.getD 0 0 = s'.getD 0 0)
    (i i' : ℕ) (d : K) (hi : s[i]? = some d) (hi' : s'[i']? = some d)
    (hlast : (i + 1 = s.length ↔ i' + 1 = s'.length) ∨ ∀ j x, IsNearestOther (lib.pdist m) coordinates j x → x ≠ d) :
    ∃ data : List K, data.length = coordinates.length
      ∧ (∀ (i : ℕ) x, data[i]? = some x → IsNearestOther (lib.pdist m) coordinates i x)
      ∧ (0 < countWithin s data → 0 < countWithin s' data → ∃ a b : K, v[i]? = some (.fin a) ∧ v'[i']? = some (.fin b)
          ∧ a * countWithin s data = b * countWithin s' data)
      ∧ ((∀ x ∈ data, s.getD 0 0 ≤ x ∧ x ≤ s.getD (s.length - 1) 0 ∧ x ≤ s'.getD (s'.length - 1) 0) →
          ∃ a : K, v[i]? = some (.fin a) ∧ v'[i']? = some (.fin a)) := by
  obtain ⟨-, data, d1, d2, d3, -⟩ := C57_g lib hc coordinates hn support m s v h2 h
  obtain ⟨-, data', d1', d2', d3', -⟩ := C57_g lib hc coordinates hn support' m s' v' h2' h'
  obtain rfl := data_unique d1 d1' d2 d2'
  have hil : i < s.length := (List.getElem?_eq_some_iff.1 hi).1
  have hil' : i' < s'.length := (List.getElem?_eq_some_iff.1 hi').1
  have hcount : countUpTo s i data = countUpTo s' i' data := by
    refine countUpTo_same h0 hi hi' (hlast.imp_right fun hl x hx => ?_)
    obtain ⟨j, hj⟩ := List.mem_iff_getElem?.1 hx
    exact hl j x (d2 j x hj)
  have key : 0 < countWithin s data → 0 < countWithin s' data →
      v[i]? = some (.fin ((countUpTo s i data : K) / (countWithin s data : K)))
      ∧ v'[i']? = some (.fin ((countUpTo s i data : K) / (countWithin s' data : K))) := by
    intro hw hw'
    obtain ⟨w, rfl, hcurve, -⟩ := d3 hw
    obtain ⟨w', rfl, hcurve', -⟩ := d3' hw'
    rw [List.getElem?_map, hcurve.value i hil, List.getElem?_map, hcurve'.value i' hil', hcount]
    exact ⟨rfl, rfl⟩
  refine ⟨data, d1, d2, fun hw hw' => ?_, fun hcov => ?_⟩
  · obtain ⟨k1, k2⟩ := key hw hw'
    have n1 : (countWithin s data : K) ≠ 0 := by exact_mod_cast hw.ne'
    have n2 : (countWithin s' data : K) ≠ 0 := by exact_mod_cast hw'.ne'
    exact ⟨_, _, k1, k2, by rw [div_mul_cancel₀ _ n1, div_mul_cancel₀ _ n2]⟩
  · have w1 : countWithin s data = coordinates.length := by
      unfold countWithin
      rw [List.filter_eq_self.2 fun x hx => by simpa using ⟨(hcov x hx).1, (hcov x hx).2.1⟩, d1]
    have w2 : countWithin s' data = coordinates.length := by
      unfold countWithin
      rw [List.filter_eq_self.2 fun x hx => by
        rw [decide_eq_true_eq, ← h0]; exact ⟨(hcov x hx).1, (hcov x hx).2.2⟩, d1]
    obtain ⟨k1, k2⟩ := key (by omega) (by omega)
    rw [w1] at k1
    rw [w2] at k2
    exact ⟨_, k1, k2⟩

/-- C178 is false for G and for F: at distance 2 the value is 1 in the support 0, 1, 2, and 2/3 in the support
0, 1, 2, 4. -/
theorem C178_g_refuted : ∃ (lib : Lib ℚ) (coordinates : List (ℚ × ℚ)) (data : List ℚ), lib.Correct
    ∧ data.length = coordinates.length
    ∧ g lib coordinates (.array [0, 1, 2]) .none (.metric (.name "euclidean")) false
        = .ok ([0, 1, 2], [.fin 0, .fin 0, .fin 1])
    ∧ g lib coordinates (.array [0, 1, 2, 4]) .none (.metric (.name "euclidean")) false
        = .ok ([0, 1, 2, 4], [.fin 0, .fin 0, .fin (2 / 3), .fin 1])
    ∧ f lib (fun _ => 0) coordinates (.array [0, 1, 2]) (.vec data) (.metric (.name "euclidean")) .none false 0 0
        = some (.ok (([0, 1, 2], [.fin 0, .fin 0, .fin 1]), 0))
    ∧ f lib (fun _ => 0) coordinates (.array [0, 1, 2, 4]) (.vec data) (.metric (.name "euclidean")) .none false 0 0
        = some (.ok (([0, 1, 2, 4], [.fin 0, .fin 0, .fin (2 / 3), .fin 1]), 0)) :=
  ⟨sortLib, line3, [1, 1, 3], sortLib_correct, rfl, by decide +kernel, by decide +kernel, by decide +kernel,
    by decide +kernel⟩

/-- Non-vacuity: two supports that cover all nearest neighbours agree at distance 2. -/
example : g sortLib line3 (.array [0, 2, 5]) .none (.metric (.name "euclidean")) false
      = .ok ([0, 2, 5], [.fin 0, .fin (2 / 3), .fin 1])
    ∧ g sortLib line3 (.array [0, 1, 2, 4]) .none (.metric (.name "euclidean")) false
      = .ok ([0, 1, 2, 4], [.fin 0, .fin 0, .fin (2 / 3), .fin 1]) := by
  constructor <;> decide +kernel

end Pointpats.Props
