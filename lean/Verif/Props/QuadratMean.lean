import Verif.Props.QOwnQuadrats
import Verif.Props.ChiSquare
import Mathlib.Logic.Equiv.Fin.Basic
import Mathlib.Algebra.BigOperators.Fin
import Mathlib.Algebra.BigOperators.Field
import Mathlib.Algebra.Order.Archimedean.Basic

/-!
# C168: the mean of the quadrat statistic and its degrees of freedom
-/

set_option linter.unusedSectionVars false

namespace Pointpats.Props

open Quadrat Spec

variable {K : Type} [Field K] [LinearOrder K] [IsStrictOrderedRing K]

/-- Two different events are in the same cell in one of `m` cases. -/
private theorem same_cell {n m : ℕ} {i i' : Fin n} (h : i' ≠ i) :
    (m : K) * ∑ ω : Fin n → Fin m, (if ω i = ω i' then (1 : K) else 0) = (Fintype.card (Fin n → Fin m) : K) := by
  have e1 : ∑ ω : Fin n → Fin m, (if ω i = ω i' then (1 : K) else 0)
      = ∑ bg : Fin m × ({j // j ≠ i} → Fin m), if bg.1 = bg.2 ⟨i', h⟩ then (1 : K) else 0 :=
    Fintype.sum_equiv (Equiv.funSplitAt i (Fin m)) _ _ fun ω => rfl
  rw [e1, Fintype.sum_prod_type_right, Fintype.card_congr (Equiv.funSplitAt i (Fin m)), Fintype.card_prod, Fintype.card_fin]
  simp

/-- The squares of the counts. -/
private theorem sum_squares {n m : ℕ} (ω : Fin n → Fin m) :
    ∑ j : Fin m, ((Finset.univ.filter fun i => ω i = j).card : K) ^ 2 = ∑ i, ∑ i', if ω i = ω i' then (1 : K) else 0 := by
  have h : ∀ j : Fin m, ((Finset.univ.filter fun i => ω i = j).card : K) ^ 2
      = ∑ i, ∑ i', (if ω i = j then (1 : K) else 0) * (if ω i' = j then (1 : K) else 0) := by
    intro j
    rw [← Finset.sum_boole, sq, Finset.sum_mul_sum]
  simp only [h]
  rw [Finset.sum_comm]
  refine Finset.sum_congr rfl fun i _ => ?_
  rw [Finset.sum_comm]
  refine Finset.sum_congr rfl fun i' _ => ?_
  simp only [ite_mul, one_mul, zero_mul, Finset.sum_ite_eq, Finset.mem_univ, if_true]
  simp only [eq_comm]

/-- **C168, cells given beforehand.** If each of `n` events falls into each of `m` cells with equal probability, independently of
the others, the mean of the statistic is the degrees of freedom `m − 1`. -/
theorem C168_mean_partial (n m : ℕ) (hn : 0 < n) (hm : 0 < m) :
    ∃ c : (Fin n → Fin m) → K,
      (∀ ω, chisquare (List.ofFn fun j => ((Finset.univ.filter fun i => ω i = j).card : K)) = .fin (c ω)
        ∧ df (List.ofFn fun j => ((Finset.univ.filter fun i => ω i = j).card : K)) = (m : ℤ) - 1)
      ∧ (∑ ω, c ω) / (Fintype.card (Fin n → Fin m) : K) = (m : K) - 1 := by
  have hnK : (0 : K) < n := by exact_mod_cast hn
  have hmK : (0 : K) < m := by exact_mod_cast hm
  have hsum : ∀ ω : Fin n → Fin m, (List.ofFn fun j => ((Finset.univ.filter fun i => ω i = j).card : K)).sum = n := by
    intro ω
    rw [List.sum_ofFn, ← Nat.cast_sum, ← Finset.card_eq_sum_card_fiberwise (fun _ _ => Finset.mem_univ _)]
    simp
  have hval : ∀ ω : Fin n → Fin m, chisquare (List.ofFn fun j => ((Finset.univ.filter fun i => ω i = j).card : K))
      = .fin ((m : K) / n * (∑ i, ∑ i', if ω i = ω i' then (1 : K) else 0) - n)
      ∧ df (List.ofFn fun j => ((Finset.univ.filter fun i => ω i = j).card : K)) = (m : ℤ) - 1 := by
    intro ω
    obtain ⟨c, h1, -, -, h4, -, -, -, h8⟩ := C54_chi_square
      (List.ofFn fun j => ((Finset.univ.filter fun i => ω i = j).card : K)) (by
        intro o ho
        obtain ⟨j, rfl⟩ := (List.mem_ofFn' _ _).1 ho
        positivity) (by rw [hsum]; exact hnK)
    rw [h1, h4, hsum, List.map_ofFn, List.sum_ofFn, List.length_ofFn]
    refine ⟨?_, by rw [h8, List.length_ofFn]⟩
    congr 3
    exact sum_squares ω
  refine ⟨_, hval, ?_⟩
  have hcard : (Fintype.card (Fin n → Fin m) : K) ≠ 0 := by
    have : Nonempty (Fin n → Fin m) := ⟨fun _ => ⟨0, hm⟩⟩
    exact_mod_cast Fintype.card_ne_zero
  have hpair : ∀ i i' : Fin n, (∑ ω : Fin n → Fin m, if ω i = ω i' then (1 : K) else 0)
      = if i = i' then (Fintype.card (Fin n → Fin m) : K) else (Fintype.card (Fin n → Fin m) : K) / m := by
    intro i i'
    split_ifs with h
    · subst h
      simp
    · rw [eq_div_iff hmK.ne', mul_comm]
      exact same_cell fun h' => h h'.symm
  have htot : (∑ ω : Fin n → Fin m, ∑ i, ∑ i', if ω i = ω i' then (1 : K) else 0)
      = (Fintype.card (Fin n → Fin m) : K) * (n + n * (n - 1) / m) := by
    rw [Finset.sum_comm]
    have : ∀ i : Fin n, (∑ ω : Fin n → Fin m, ∑ i', if ω i = ω i' then (1 : K) else 0)
        = (Fintype.card (Fin n → Fin m) : K) * (1 + (n - 1) / m) := by
      intro i
      rw [Finset.sum_comm]
      simp only [hpair]
      rw [← Finset.add_sum_erase _ _ (Finset.mem_univ i), if_pos rfl,
        Finset.sum_congr rfl (g := fun _ => (Fintype.card (Fin n → Fin m) : K) / m)
          (fun x hx => if_neg fun h => Finset.ne_of_mem_erase hx h.symm), Finset.sum_const,
        Finset.card_erase_of_mem (Finset.mem_univ i), Finset.card_univ, Fintype.card_fin, nsmul_eq_mul, Nat.cast_sub hn]
      push_cast
      ring
    rw [Finset.sum_congr rfl fun i _ => this i, Finset.sum_const, Finset.card_univ, Fintype.card_fin, nsmul_eq_mul]
    ring
  rw [Finset.sum_sub_distrib, ← Finset.mul_sum, htot, Finset.sum_const, Finset.card_univ, nsmul_eq_mul]
  field_simp
  ring

/-- Non-vacuity: five events and four cells; for instance the counts 2, 1, 1, 1 have the statistic 3/5. -/
example : chisquare (List.ofFn fun j : Fin 4 => ((Finset.univ.filter fun i : Fin 5 => ![0, 1, 2, 3, 0] i = j).card : ℚ))
    = .fin (3 / 5) := by decide +kernel

/-- **C168, refuted.** The cells are not given beforehand: they divide the bounding box of the events, so that no event can leave
the first and the last column empty. With two columns and one row the statistic of `n` events is at most `(n − 2)² / n`, where `n`
would be possible for given cells. For two events it is always 0, and for three always 1/3, although there is one degree of freedom. -/
theorem C168_mean_refuted [FloorRing K] (cos30 : K) (window : Random.Hull K) (u : ℕ → K) (points : List (K × K))
    (hpos : PositiveExtent points) (w h : K) (hwh : w = 0 ∨ h = 0) (fuel pos : ℕ) :
    ∃ q c, qStatistic cos30 window u points (.rectangle 2 1 w h) 0 fuel pos = some (.ok (q, pos))
      ∧ q.chi2 = .fin c ∧ q.df = 1
      ∧ c ≤ ((points.length : K) - 2) ^ 2 / points.length
      ∧ (points.length = 2 → c = 0) ∧ (points.length = 3 → c = 1 / 3) := by
  have hne : points ≠ [] := by
    rintro rfl
    obtain ⟨⟨p, hp, -⟩, -⟩ := hpos
    simp at hp
  obtain ⟨m, d, hm, hd, -, -, -, hsum⟩ := C48_rectangle_counts_conserve points hpos 2 1 w h (Or.inr ⟨hwh, by omega, by omega⟩)
  have hg : gridCounts cos30 points (.rectangle 2 1 w h) = .ok (d, .rectangle m.count_column m.count_row 0 0) := by
    simp only [gridCounts, hm]
    show (m.pointLocationSta >>= fun d => pure (d, GridArg.rectangle m.count_column m.count_row 0 0)) = _
    rw [hd]
    rfl
  obtain ⟨⟨x0, x1, y0, y1, hx0, hx1, hy0, hy1, hx, hy, hlen, hcell⟩, -⟩ := division_counts (c := 2) (r := 1) hne (by omega) (by omega) hwh hg
  obtain ⟨a, b, hab⟩ : ∃ a b, d.values = [a, b] := by
    match hv : d.values, hlen with
    | [a, b], _ => exact ⟨a, b, rfl⟩
  have ha := hcell 0 (by omega) 0 (by omega)
  have hb := hcell 1 (by omega) 0 (by omega)
  rw [hab] at ha hb hsum
  simp only [Nat.zero_mul, Nat.add_zero, List.getElem?_cons_zero, List.getElem?_cons_succ, Option.some.injEq] at ha hb
  have hrow : ∀ p ∈ points, y0 + ((0 : ℕ) : ℤ) * ((y1 - y0) / ((1 : ℕ) : K)) ≤ p.2
      ∧ (p.2 < y0 + (((0 : ℕ) : ℤ) + 1) * ((y1 - y0) / ((1 : ℕ) : K))
        ∨ (((0 : ℕ) : ℤ) = ((1 : ℕ) : ℤ) - 1 ∧ p.2 = y0 + (((0 : ℕ) : ℤ) + 1) * ((y1 - y0) / ((1 : ℕ) : K)))) := by
    intro p hp
    have h1 := hy0.2 ⟨p, hp, rfl⟩
    have h2 := hy1.2 ⟨p, hp, rfl⟩
    simp only [Nat.cast_zero, Int.cast_zero, zero_mul, add_zero, zero_add, Nat.cast_one, div_one, one_mul, sub_self, true_and]
    refine ⟨h1, ?_⟩
    rcases h2.lt_or_eq with h | h
    · left; linarith
    · right; linarith
  have ha1 : 1 ≤ a := by
    obtain ⟨p, hp, hpx⟩ := hx0.1
    rw [ha]
    refine List.length_pos_of_mem (List.mem_filter.2 ⟨hp, ?_⟩)
    rw [decide_eq_true_eq]
    refine ⟨?_, hrow p hp⟩
    rw [hpx]
    push_cast
    refine ⟨by linarith, Or.inl ?_⟩
    linarith
  have hb1 : 1 ≤ b := by
    obtain ⟨p, hp, hpx⟩ := hx1.1
    rw [hb]
    refine List.length_pos_of_mem (List.mem_filter.2 ⟨hp, ?_⟩)
    rw [decide_eq_true_eq]
    refine ⟨?_, hrow p hp⟩
    rw [hpx]
    push_cast
    refine ⟨by linarith, Or.inr ⟨by norm_num, by ring⟩⟩
  have hn : a + b = points.length := by simpa using hsum
  have haK : (1 : K) ≤ a := by exact_mod_cast ha1
  have hbK : (1 : K) ≤ b := by exact_mod_cast hb1
  have hnK : (a : K) + b = points.length := by exact_mod_cast hn
  obtain ⟨c, h1, -, -, h4, -, -, -, h8⟩ := C54_chi_square ([(a : K), (b : K)]) (by
    intro o ho
    simp only [List.mem_cons, List.not_mem_nil, or_false] at ho
    rcases ho with rfl | rfl <;> positivity) (by simp; positivity)
  have hnum : Dict.numbers d = [(a : K), (b : K)] := by simp [Dict.numbers, hab]
  have hc : c = ((a : K) - b) ^ 2 / points.length := by
    rw [h4, ← hnK]
    simp only [List.length_cons, List.length_nil, List.sum_cons, List.sum_nil, List.map_cons, List.map_nil]
    have : (a : K) + b ≠ 0 := by positivity
    push_cast
    field_simp
    ring
  have hnpos : (0 : K) < points.length := by rw [← hnK]; positivity
  refine ⟨{ cell_ids := d.keys, chi2 := chisquare (Dict.numbers d), df := df (Dict.numbers d : List K)
            chi2_contrib := chi2Contrib (Dict.numbers d), simulated := none }, c, ?_, ?_, ?_, ?_, ?_, ?_⟩
  · simp only [qStatistic, asPointsArray, if_neg hne, hg, lt_self_iff_false, if_false]
    rfl
  · simp only [hnum, h1]
  · simp only [hnum, h8]
    simp
  · rw [hc, ← hnK]
    refine div_le_div_of_nonneg_right ?_ (by positivity)
    nlinarith
  · intro h2
    have : a = 1 ∧ b = 1 := by omega
    rw [hc, this.1, this.2]
    simp
  · intro h3
    have hcase : (a = 1 ∧ b = 2) ∨ (a = 2 ∧ b = 1) := by omega
    rw [hc, h3]
    rcases hcase with h | h <;> rw [h.1, h.2] <;> norm_num

/-- Non-vacuity: three events with positive extent. -/
example : PositiveExtent ([(0, 0), (1, 3), (2, 1)] : List (ℚ × ℚ)) := by
  refine ⟨⟨(0, 0), by simp, (2, 1), by simp, by norm_num⟩, ⟨(0, 0), by simp, (2, 1), by simp, by norm_num⟩⟩

/-! ### C171: cells of unequal probability -/

/-- The statistic as a count of pairs of events in the same cell. -/
private theorem chisquare_pairs {n m : ℕ} (hn : 0 < n) (ω : Fin n → Fin m) :
    chisquare (List.ofFn fun j => ((Finset.univ.filter fun i => ω i = j).card : K))
      = .fin ((m : K) / n * (∑ i, ∑ i', if ω i = ω i' then (1 : K) else 0) - n)
    ∧ df (List.ofFn fun j => ((Finset.univ.filter fun i => ω i = j).card : K)) = (m : ℤ) - 1 := by
  have hnK : (0 : K) < n := by exact_mod_cast hn
  have hsum : (List.ofFn fun j => ((Finset.univ.filter fun i => ω i = j).card : K)).sum = n := by
    rw [List.sum_ofFn, ← Nat.cast_sum, ← Finset.card_eq_sum_card_fiberwise (fun _ _ => Finset.mem_univ _)]
    simp
  obtain ⟨c, h1, -, -, h4, -, -, -, h8⟩ := C54_chi_square
    (List.ofFn fun j => ((Finset.univ.filter fun i => ω i = j).card : K)) (by
      intro o ho
      obtain ⟨j, rfl⟩ := (List.mem_ofFn' _ _).1 ho
      positivity) (by rw [hsum]; exact hnK)
  rw [h1, h4, hsum, List.map_ofFn, List.sum_ofFn, List.length_ofFn]
  refine ⟨?_, by rw [h8, List.length_ofFn]⟩
  congr 3
  exact sum_squares ω

/-- Two different events are in the same cell with the sum of the squared probabilities. -/
private theorem same_cell_weighted {n m : ℕ} (p : Fin m → K) (hp : ∑ j, p j = 1) (i i' : Fin n) :
    ∑ ω : Fin n → Fin m, (∏ k, p (ω k)) * (if ω i = ω i' then (1 : K) else 0) = if i = i' then 1 else ∑ j, p j ^ 2 := by
  split_ifs with h
  · subst h
    simp only [if_true, mul_one]
    have := Finset.prod_univ_sum (fun _ : Fin n => (Finset.univ : Finset (Fin m))) (fun _ j => p j)
    rw [Fintype.piFinset_univ] at this
    rw [← this]
    simp [hp]
  · have e : ∀ ω : Fin n → Fin m, (∏ k, p (ω k)) * (if ω i = ω i' then (1 : K) else 0)
        = ∑ c, ∏ k, p (ω k) * (if k = i ∨ k = i' then (if ω k = c then (1 : K) else 0) else 1) := by
      intro ω
      have e1 : ∀ c, ∏ k, p (ω k) * (if k = i ∨ k = i' then (if ω k = c then (1 : K) else 0) else 1)
          = (∏ k, p (ω k)) * ((if ω i = c then (1 : K) else 0) * (if ω i' = c then (1 : K) else 0)) := by
        intro c
        rw [Finset.prod_mul_distrib]
        congr 1
        rw [← Finset.mul_prod_erase _ _ (Finset.mem_univ i),
          ← Finset.mul_prod_erase _ _ (Finset.mem_erase.2 ⟨fun h' => h h'.symm, Finset.mem_univ i'⟩),
          Finset.prod_eq_one (s := (Finset.univ.erase i).erase i')]
        · simp
        · intro k hk
          rw [Finset.mem_erase, Finset.mem_erase] at hk
          rw [if_neg]
          rintro (h1 | h1)
          · exact hk.2.1 h1
          · exact hk.1 h1
      simp only [e1, ← Finset.mul_sum]
      congr 1
      simp only [ite_mul, one_mul, zero_mul, Finset.sum_ite_eq, Finset.mem_univ, if_true]
      simp only [eq_comm]
    simp only [e]
    rw [Finset.sum_comm]
    refine Finset.sum_congr rfl fun c _ => ?_
    have := Finset.prod_univ_sum (fun _ : Fin n => (Finset.univ : Finset (Fin m)))
      (fun k j => p j * (if k = i ∨ k = i' then (if j = c then (1 : K) else 0) else 1))
    rw [Fintype.piFinset_univ] at this
    rw [← this, ← Finset.mul_prod_erase _ _ (Finset.mem_univ i),
      ← Finset.mul_prod_erase _ _ (Finset.mem_erase.2 ⟨fun h' => h h'.symm, Finset.mem_univ i'⟩),
      Finset.prod_eq_one (s := (Finset.univ.erase i).erase i')]
    · simp [sq]
    · intro k hk
      rw [Finset.mem_erase, Finset.mem_erase] at hk
      have : ¬(k = i ∨ k = i') := by
        rintro (h1 | h1)
        · exact hk.2.1 h1
        · exact hk.1 h1
      simp [this, hp]

/-- The mean of the statistic if each of `n` events falls into cell `j` with probability `p j`, independently of the others. -/
def meanChisquare {n m : ℕ} (p : Fin m → K) (c : (Fin n → Fin m) → K) : K := ∑ ω, (∏ k, p (ω k)) * c ω

/-- **C171, exact mean.** If each of `n` events falls into cell `j` with probability `p j`, independently of the others, the mean
of the statistic is the degrees of freedom `m − 1` plus `(n − 1)(m ∑ p² − 1)`. -/
theorem C171_mean (n m : ℕ) (hn : 0 < n) (p : Fin m → K) (hp : ∑ j, p j = 1) :
    ∃ c : (Fin n → Fin m) → K,
      (∀ ω, chisquare (List.ofFn fun j => ((Finset.univ.filter fun i => ω i = j).card : K)) = .fin (c ω)
        ∧ df (List.ofFn fun j => ((Finset.univ.filter fun i => ω i = j).card : K)) = (m : ℤ) - 1)
      ∧ meanChisquare p c = ((m : K) - 1) + ((n : K) - 1) * (m * ∑ j, p j ^ 2 - 1) := by
  have hnK : (0 : K) < n := by exact_mod_cast hn
  refine ⟨_, fun ω => chisquare_pairs hn ω, ?_⟩
  unfold meanChisquare
  have htot : ∑ ω : Fin n → Fin m, (∏ k, p (ω k)) = 1 := by
    have := same_cell_weighted p hp (⟨0, hn⟩ : Fin n) ⟨0, hn⟩
    simpa using this
  have hpair : ∑ ω : Fin n → Fin m, (∏ k, p (ω k)) * (∑ i, ∑ i', if ω i = ω i' then (1 : K) else 0)
      = n * (1 + (n - 1) * ∑ j, p j ^ 2) := by
    simp only [Finset.mul_sum]
    rw [Finset.sum_comm]
    have : ∀ i : Fin n, (∑ ω : Fin n → Fin m, ∑ i', (∏ k, p (ω k)) * (if ω i = ω i' then (1 : K) else 0))
        = 1 + (n - 1) * ∑ j, p j ^ 2 := by
      intro i
      rw [Finset.sum_comm]
      simp only [same_cell_weighted p hp]
      rw [← Finset.add_sum_erase _ _ (Finset.mem_univ i), if_pos rfl,
        Finset.sum_congr rfl (g := fun _ => ∑ j, p j ^ 2)
          (fun x hx => if_neg fun h => Finset.ne_of_mem_erase hx h.symm), Finset.sum_const,
        Finset.card_erase_of_mem (Finset.mem_univ i), Finset.card_univ, Fintype.card_fin, nsmul_eq_mul, Nat.cast_sub hn]
      push_cast
      ring
    rw [Finset.sum_congr rfl fun i _ => this i, Finset.sum_const, Finset.card_univ, Fintype.card_fin, nsmul_eq_mul]
    simp only [Finset.mul_sum]
  have e : ∀ ω : Fin n → Fin m, (∏ k, p (ω k)) * ((m : K) / n * (∑ i, ∑ i', if ω i = ω i' then (1 : K) else 0) - n)
      = (m : K) / n * ((∏ k, p (ω k)) * (∑ i, ∑ i', if ω i = ω i' then (1 : K) else 0)) - n * ∏ k, p (ω k) := by
    intro ω; ring
  rw [Finset.sum_congr rfl fun ω _ => e ω, Finset.sum_sub_distrib, ← Finset.mul_sum, ← Finset.mul_sum, hpair, htot]
  field_simp
  ring

/-- **C171, what holds: the reference is centred exactly for equal cells.** For two or more events the mean is the degrees of
freedom if and only if every cell has the same probability. -/
theorem C171_centred_partial (n m : ℕ) (hn : 2 ≤ n) (p : Fin m → K) (hp : ∑ j, p j = 1) :
    ∃ c : (Fin n → Fin m) → K,
      (∀ ω, chisquare (List.ofFn fun j => ((Finset.univ.filter fun i => ω i = j).card : K)) = .fin (c ω)
        ∧ df (List.ofFn fun j => ((Finset.univ.filter fun i => ω i = j).card : K)) = (m : ℤ) - 1)
      ∧ ((m : K) - 1 ≤ meanChisquare p c) ∧ (meanChisquare p c = (m : K) - 1 ↔ ∀ j, p j = 1 / m) := by
  obtain ⟨c, h1, h2⟩ := C171_mean n m (by omega) p hp
  have hm : (m : K) ≠ 0 := by
    rintro h
    have : m = 0 := by exact_mod_cast h
    subst this
    simp at hp
  have hmp : (0 : K) < m := lt_of_le_of_ne (Nat.cast_nonneg m) (Ne.symm hm)
  have hn1 : (0 : K) < (n : K) - 1 := by
    have : (2 : K) ≤ n := by exact_mod_cast hn
    linarith
  have hvar : m * ∑ j, p j ^ 2 - 1 = m * ∑ j, (p j - 1 / m) ^ 2 := by
    have : ∀ j, (p j - 1 / m) ^ 2 = p j ^ 2 - 2 / m * p j + 1 / m ^ 2 := fun j => by field_simp; ring
    simp only [this, Finset.sum_add_distrib, Finset.sum_sub_distrib, ← Finset.mul_sum, hp, Finset.sum_const, Finset.card_univ,
      Fintype.card_fin, nsmul_eq_mul]
    field_simp
    ring
  have hs : 0 ≤ ∑ j, (p j - 1 / m) ^ 2 := Finset.sum_nonneg fun j _ => sq_nonneg _
  refine ⟨c, h1, ?_, ?_⟩
  · rw [h2, hvar]
    have := mul_nonneg hn1.le (mul_nonneg hmp.le hs)
    linarith
  · rw [h2, hvar]
    constructor
    · intro h j
      have h0 : ((n : K) - 1) * (m * ∑ j, (p j - 1 / m) ^ 2) = 0 := by linarith
      rcases mul_eq_zero.1 h0 with h | h
      · exact absurd h hn1.ne'
      · have := (Finset.sum_eq_zero_iff_of_nonneg fun j _ => sq_nonneg (p j - 1 / (m : K))).1
          ((mul_eq_zero.1 h).resolve_left hm) j (Finset.mem_univ j)
        have := pow_eq_zero_iff (two_ne_zero) |>.1 this
        linarith
    · intro h
      simp [h]

/-- **C171, refuted.** If some cell has not its equal share of the window, for instance because the window does not reach into it,
the mean exceeds the degrees of freedom, and by as much as one likes for sufficiently many events, although the events are
completely random. -/
theorem C171_centred_refuted [Archimedean K] (m : ℕ) (p : Fin m → K) (hp : ∑ j, p j = 1) (j : Fin m) (hj : p j ≠ 1 / m) (bound : K) :
    ∃ N, ∀ n : ℕ, N ≤ n → ∃ c : (Fin n → Fin m) → K,
      (∀ ω, chisquare (List.ofFn fun j => ((Finset.univ.filter fun i => ω i = j).card : K)) = .fin (c ω)
        ∧ df (List.ofFn fun j => ((Finset.univ.filter fun i => ω i = j).card : K)) = (m : ℤ) - 1)
      ∧ ((m : K) - 1) + bound < meanChisquare p c := by
  obtain ⟨c2, h1, h2⟩ := C171_mean 2 m (by omega) p hp
  obtain ⟨c2', h1', h3, h4⟩ := C171_centred_partial 2 m le_rfl p hp
  have hc : c2 = c2' := by
    funext ω
    have := (h1 ω).1.symm.trans (h1' ω).1
    injection this
  rw [← hc] at h3 h4
  have hpos : 0 < m * ∑ j, p j ^ 2 - 1 := by
    have hne : meanChisquare p c2 ≠ (m : K) - 1 := fun h => hj (h4.1 h j)
    have := lt_of_le_of_ne h3 (Ne.symm hne)
    rw [h2] at this
    push_cast at this
    linarith
  obtain ⟨N, hN⟩ := Archimedean.arch bound hpos
  refine ⟨N + 2, fun n hn => ?_⟩
  obtain ⟨c, g1, g2⟩ := C171_mean n m (by omega) p hp
  refine ⟨c, g1, ?_⟩
  rw [g2]
  rw [nsmul_eq_mul] at hN
  have hnN : (N : K) < (n : K) - 1 := by
    have : ((N + 2 : ℕ) : K) ≤ n := by exact_mod_cast hn
    push_cast at this
    linarith
  have := mul_lt_mul_of_pos_right hnN hpos
  linarith

/-- Non-vacuity: an L-shaped window that reaches into three of four equal cells. -/
example : ∑ j, (![1 / 3, 1 / 3, 1 / 3, 0] : Fin 4 → ℚ) j = 1 ∧ (![1 / 3, 1 / 3, 1 / 3, 0] : Fin 4 → ℚ) 3 ≠ 1 / (4 : ℕ) := by
  constructor <;> decide +kernel

end Pointpats.Props
