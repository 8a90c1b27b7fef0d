import Verif.Lemmas.Float64
import Verif.Model.FloatCurves
import Verif.Props.DistanceStats
import Verif.Spec.FloatCurves

/-!
# C157: the distance functions in floating point arithmetic
-/

namespace Pointpats.Props

open Float64 Spec DistStats Geometry

set_option linter.unusedSectionVars false

private theorem fl_between {x : ℚ} (h : 0 ≤ x) : (1 - 1 / 2 ^ 53) * x ≤ fl x ∧ fl x ≤ (1 + 1 / 2 ^ 53) * x := by
  have := abs_le.1 (fl_near x)
  rw [abs_of_nonneg h] at this
  constructor <;> linarith [this.1, this.2]

private theorem fl_lt {x y : ℚ} (hx : 0 ≤ x) (h : (1 + 1 / 2 ^ 53) * x < (1 - 1 / 2 ^ 53) * y) (hy : 0 ≤ y) : fl x < fl y :=
  ((fl_between hx).2.trans_lt h).trans_le (fl_between hy).1

/-- A share and the computed share. -/
private def Share (B : ℕ) (w v : XF ℚ) : Prop :=
  (∃ c N : ℕ, c ≤ N ∧ 0 < N ∧ N ≤ B ∧ v = .fin ((c : ℚ) / N) ∧ w = .fin (fl ((c : ℚ) / N))) ∨ (v = .nan ∧ w = .nan)

private theorem share_div {c N B : ℕ} (h : c ≤ N) (hB : N ≤ B) :
    Share B (fdivX (c : ℚ) (N : ℚ)) (XF.div (.fin (c : ℚ)) (.fin (N : ℚ))) := by
  rcases Nat.eq_zero_or_pos N with rfl | hN
  · right
    obtain rfl : c = 0 := by omega
    simp [fdivX, XF.div]
  · left
    have hN' : (N : ℚ) ≠ 0 := by exact_mod_cast hN.ne'
    exact ⟨c, N, h, hN, hB, by simp [XF.div, hN'], by simp [fdivX, fdiv, hN']⟩

private theorem cumsum_le (l : List ℕ) : ∀ (s : ℕ), ∀ c ∈ cumsum s l, c ≤ s + l.sum := by
  induction l with
  | nil => intro s c h; simp [cumsum] at h
  | cons a l ih =>
    intro s c h
    rw [cumsum, List.mem_cons] at h
    rw [List.sum_cons]
    rcases h with rfl | h
    · omega
    · have := ih _ _ h; omega

private theorem total_le (data bins : List ℚ) (hs : bins.Pairwise (· ≤ ·)) :
    (diffs (cumCounts data bins)).sum ≤ data.length := by
  cases hc : cumCounts data bins with
  | nil => simp [diffs]
  | cons a l =>
    have hm := cumCounts_mono data bins hs
    rw [hc] at hm
    rw [sum_diffs a l hm]
    have hmem : (a :: l).getLast (by simp) ∈ cumCounts data bins := by rw [hc]; exact List.getLast_mem _
    obtain ⟨i, hi⟩ := List.mem_iff_getElem?.1 hmem
    have hib : i < bins.length := by
      have := (List.getElem?_eq_some_iff.1 hi).1
      rwa [length_cumCounts] at this
    have := cumCounts_get data bins i _ (List.getElem?_eq_getElem hib)
    rw [hi] at this
    injection this with this
    have h1 : (a :: l).getLast (by simp) ≤ data.length := by
      rw [this]
      split <;> exact List.length_filter_le _ _
    omega

private theorem shares_share {data bins : List ℚ} {r : List ℚ × List (XF ℚ)} (h : shares data bins = .ok r) {B : ℕ}
    (h1 : 1 ≤ B) (hB : data.length ≤ B) :
    ∃ w, fshares data bins = .ok (r.1, w) ∧ List.Forall₂ (Share B) w r.2 := by
  unfold shares histogram at h
  unfold fshares histogram
  split at h
  · next hm =>
    rw [if_pos hm]
    change Except.ok _ = Except.ok _ at h
    injection h with h
    subst h
    refine ⟨_, rfl, List.Forall₂.cons ?_ ?_⟩
    · left
      exact ⟨0, 1, by omega, by omega, h1, by simp, by simp⟩
    · rw [List.forall₂_map_left_iff, List.forall₂_map_right_iff, List.forall₂_same]
      intro c hc
      have := cumsum_le _ _ _ hc
      exact share_div (by omega) ((total_le data bins ((monotoneBins_iff _).1 hm)).trans hB)
  · cases h

private theorem share_agrees {B : ℕ} {w v : XF ℚ} (h : Share B w v) : AgreesUpTo (1 / 2 ^ 53) w v := by
  rcases h with ⟨c, N, _, _, _, rfl, rfl⟩ | ⟨rfl, rfl⟩
  · have := fl_near ((c : ℚ) / N)
    change |_| ≤ _
    linarith
  · trivial

private theorem share_one {c N : ℕ} (h : c ≤ N) (h0 : 0 < N) (hN : N ≤ 2 ^ 53) :
    0 ≤ fl ((c : ℚ) / N) ∧ fl ((c : ℚ) / N) ≤ 1 ∧ (fl ((c : ℚ) / N) = 1 ↔ (c : ℚ) / N = 1) := by
  have hp : (0 : ℚ) < N := by exact_mod_cast h0
  have hc : (c : ℚ) ≤ N := by exact_mod_cast h
  have one : IsFloat 1 := isFloat_nat (n := 1) (by norm_num)
  refine ⟨fl_nonneg (by positivity), fl_le one (by rwa [div_le_one hp]), ?_, ?_⟩
  · intro he
    by_contra hne
    have hlt : c + 1 ≤ N := by
      rcases Nat.lt_or_ge c N with h' | h'
      · exact h'
      · obtain rfl : c = N := le_antisymm h h'
        exact absurd (div_self hp.ne') hne
    have hlt' : (c : ℚ) + 1 ≤ N := by exact_mod_cast hlt
    have hb' : (N : ℚ) ≤ 2 ^ 53 := by exact_mod_cast hN
    have hq : (c : ℚ) / N ≤ 1 - 1 / 2 ^ 53 := by
      rw [div_le_iff₀ hp]
      have : (N : ℚ) / 2 ^ 53 ≤ 1 := by rw [div_le_one (by norm_num)]; exact hb'
      linarith
    have hf : IsFloat (1 - 1 / 2 ^ 53) := ⟨2 ^ 53 - 1, -53, by norm_num, by norm_num⟩
    have := fl_le hf hq
    rw [he] at this
    norm_num at this
  · intro he
    rw [he, one.fl_eq]

private theorem share_lt {a M b N : ℕ} (hM0 : 0 < M) (hM : M ≤ 2 ^ 26) (hb : b ≤ N) (hN0 : 0 < N)
    (hN : N ≤ 2 ^ 26) (h : (a : ℚ) / M < (b : ℚ) / N) : fl ((a : ℚ) / M) < fl ((b : ℚ) / N) := by
  have hMq : (0 : ℚ) < M := by exact_mod_cast hM0
  have hNq : (0 : ℚ) < N := by exact_mod_cast hN0
  apply fl_lt (by positivity) _ (by positivity)
  rw [div_lt_div_iff₀ hMq hNq] at h
  have h' : (a : ℚ) * N + 1 ≤ b * M := by exact_mod_cast h
  rw [mul_div_assoc', mul_div_assoc', div_lt_div_iff₀ hMq hNq]
  have hbM : (b : ℚ) * M ≤ 2 ^ 52 := by
    have : b * M ≤ 2 ^ 26 * 2 ^ 26 := Nat.mul_le_mul (hb.trans hN) hM
    calc (b : ℚ) * M ≤ ((2 ^ 26 * 2 ^ 26 : ℕ) : ℚ) := by exact_mod_cast this
      _ = 2 ^ 52 := by norm_num
  nlinarith

private theorem share_le_iff {a M b N : ℕ} (ha : a ≤ M) (hM0 : 0 < M) (hM : M ≤ 2 ^ 26) (hN0 : 0 < N)
    (hN : N ≤ 2 ^ 26) : fl ((a : ℚ) / M) ≤ fl ((b : ℚ) / N) ↔ (a : ℚ) / M ≤ (b : ℚ) / N := by
  constructor
  · intro h
    by_contra hn
    exact absurd h (not_le.2 (share_lt hN0 hN ha hM0 hM (not_le.1 hn)))
  · exact fun h => fl_mono h

private theorem share_ge {w v w' v' : XF ℚ} (h : Share (2 ^ 26) w v) (h' : Share (2 ^ 26) w' v') :
    XF.ge w w' = XF.ge v v' := by
  rcases h with ⟨c, N, h1, h2, h3, rfl, rfl⟩ | ⟨rfl, rfl⟩
  · rcases h' with ⟨c', N', h1', h2', h3', rfl, rfl⟩ | ⟨rfl, rfl⟩
    · simp only [XF.ge, share_le_iff h1' h2' h3' h2 h3]
    · rfl
  · rcases h' with ⟨c', N', h1', h2', h3', rfl, rfl⟩ | ⟨rfl, rfl⟩ <;> rfl

/-- **C157.** The computed curve of `f` and of `g` is the exact curve of shares, each value with a relative error of at most
`2⁻⁵³`: it exists for the same arguments, it is `nan` exactly where the exact curve is, its values are in `[0, 1]`, and it
reaches one exactly where the exact curve does. -/
theorem C157_shares (data bins : List ℚ) (hn : data.length ≤ 2 ^ 53) (s : List ℚ) (v : List (XF ℚ))
    (h : shares data bins = .ok (s, v)) :
    ∃ w, fshares data bins = .ok (s, w) ∧ List.Forall₂ (AgreesUpTo (1 / 2 ^ 53)) w v
    ∧ (∀ y, XF.fin y ∈ w → 0 ≤ y ∧ y ≤ 1)
    ∧ ∀ i : ℕ, w[i]? = some (.fin 1) ↔ v[i]? = some (.fin 1) := by
  obtain ⟨w, h1, h2⟩ := shares_share h (B := 2 ^ 53) (by norm_num) hn
  refine ⟨w, h1, h2.imp fun _ _ => share_agrees, ?_, ?_⟩
  · intro y hy
    obtain ⟨i, hi, hy⟩ := List.mem_iff_getElem.1 hy
    have := h2.get (i := i) hi (h2.length_eq ▸ hi)
    rcases this with ⟨c, N, g1, g2, g3, _, g5⟩ | ⟨_, g⟩
    · rw [List.get_eq_getElem, hy] at g5
      injection g5 with g5
      rw [g5]
      exact ⟨(share_one g1 g2 g3).1, (share_one g1 g2 g3).2.1⟩
    · rw [List.get_eq_getElem, hy] at g
      cases g
  · intro i
    have hl := h2.length_eq
    simp only at hl
    by_cases hi : i < w.length
    · have hi' : i < v.length := by omega
      have := h2.get (i := i) hi hi'
      rw [List.getElem?_eq_getElem hi, List.getElem?_eq_getElem hi']
      rcases this with ⟨c, N, g1, g2, g3, g4, g5⟩ | ⟨g4, g5⟩
      · rw [List.get_eq_getElem] at g4 g5
        simp only at g4
        rw [g4, g5]
        simpa using (share_one g1 g2 g3).2.2
      · rw [List.get_eq_getElem] at g4 g5
        simp only at g4
        rw [g4, g5]
    · rw [List.getElem?_eq_none (by omega), List.getElem?_eq_none (by omega)]

/-- **C157.** The comparisons of computed shares, with those of the same or of another pattern, give the answers of exact
arithmetic, for up to `2²⁶` distances in each pattern: the curve does not decrease, and rounding does not change which
simulations `f_test` and `g_test` count. -/
theorem C157_compare (data data' bins bins' : List ℚ) (hn : data.length ≤ 2 ^ 26) (hn' : data'.length ≤ 2 ^ 26)
    (s s' : List ℚ) (v v' w w' : List (XF ℚ)) (h : shares data bins = .ok (s, v)) (h' : shares data' bins' = .ok (s', v'))
    (hw : fshares data bins = .ok (s, w)) (hw' : fshares data' bins' = .ok (s', w')) :
    w.length = v.length
    ∧ ∀ (i j : ℕ) (a b x y : XF ℚ), w[i]? = some a → w'[j]? = some b → v[i]? = some x → v'[j]? = some y →
      XF.ge a b = XF.ge x y := by
  obtain ⟨w1, h1, h2⟩ := shares_share h (B := 2 ^ 26) (by norm_num) hn
  obtain ⟨w2, h3, h4⟩ := shares_share h' (B := 2 ^ 26) (by norm_num) hn'
  rw [hw] at h1
  rw [hw'] at h3
  injection h1 with h1
  injection h3 with h3
  injection h1 with _ h1
  injection h3 with _ h3
  subst h1 h3
  refine ⟨h2.length_eq, ?_⟩
  intro i j a b x y ha hb hx hy
  obtain ⟨i1, ha⟩ := List.getElem?_eq_some_iff.1 ha
  obtain ⟨j1, hb⟩ := List.getElem?_eq_some_iff.1 hb
  obtain ⟨i2, hx⟩ := List.getElem?_eq_some_iff.1 hx
  obtain ⟨j2, hy⟩ := List.getElem?_eq_some_iff.1 hy
  subst ha hb hx hy
  exact share_ge (h2.get i1 i2) (h4.get j1 j2)

/-- **C157.** `g` itself, with an array of distances as support: for an exact index, the computed curve is defined for the
same patterns as the exact one, on the same support, and is equal to it up to the relative error `2⁻⁵³`. -/
theorem C157_g (lib : Lib ℚ) (hc : lib.Correct) (events : List (ℚ × ℚ)) (hn : 2 ≤ events.length) (hn' : events.length ≤ 2 ^ 53)
    (support : List ℚ) (distances : DistArg ℚ) (metric : MetricArg) (edge : Bool) (s : List ℚ) (v : List (XF ℚ))
    (h : g lib events (.array support) distances metric edge = .ok (s, v)) :
    ∃ w, fg lib events support distances metric edge = .ok (s, w) ∧ List.Forall₂ (AgreesUpTo (1 / 2 ^ 53)) w v
    ∧ (∀ y, XF.fin y ∈ w → 0 ≤ y ∧ y ≤ 1)
    ∧ ∀ i : ℕ, w[i]? = some (.fin 1) ↔ v[i]? = some (.fin 1) := by
  obtain ⟨p, d, hp, hd, hs⟩ := g_ok h
  have hlen : d.length = events.length := by
    unfold gDistances at hd
    split at hd
    · cases hr : treeKNeighbors lib p.metric events events 1 with
      | error e => rw [hr] at hd; cases hd
      | ok rows =>
        rw [hr] at hd
        change Except.ok _ = Except.ok _ at hd
        injection hd with hd
        subst hd
        exact (treeKNeighbors_ok hc hn hr).1
    · split at hd
      · next hl => injection hd with hd; subst hd; exact hl
      · cases hd
    · split at hd
      · next hl =>
        have : ∀ (l : List (List ℚ)) (d : List ℚ), rowMins l = .ok d → d.length = l.length := by
          intro l
          induction l with
          | nil => intro d hd; cases hd; rfl
          | cons r l ih =>
            intro d hd
            unfold rowMins at hd
            rw [List.mapM_cons] at hd
            cases r with
            | nil => cases hd
            | cons a r =>
              change (do let t ← rowMins l; pure _ : Py (List ℚ)) = _ at hd
              cases hr : rowMins l with
              | error e => rw [hr] at hd; cases hd
              | ok t =>
                rw [hr] at hd
                cases hd
                rw [List.length_cons, List.length_cons, ih t hr]
        rw [this _ _ hd]
        omega
      · cases hd
  obtain ⟨w, h1, h2⟩ := C157_shares d p.support (hlen ▸ hn') s v hs
  refine ⟨w, ?_, h2⟩
  unfold fg
  rw [hp]
  change (do let d ← gDistances lib p.metric events distances; fshares d p.support) = _
  rw [hd]
  exact h1

/-! ### J -/

private theorem one_sub_fl {c N : ℕ} (h : c ≤ N) (h0 : 0 < N) (hN : N ≤ 2 ^ 53) :
    0 ≤ fsub 1 (fl ((c : ℚ) / N)) ∧ (fsub 1 (fl ((c : ℚ) / N)) = 0 ↔ 1 - (c : ℚ) / N = 0) := by
  obtain ⟨_, h2, h3⟩ := share_one h h0 hN
  refine ⟨fl_nonneg (by linarith), ?_⟩
  unfold fsub
  rw [fl_eq_zero, sub_eq_zero, sub_eq_zero, eq_comm, h3, eq_comm]

private theorem hazard_kind {gw gv fw fv : XF ℚ} (hg : Share (2 ^ 53) gw gv) (hf : Share (2 ^ 53) fw fv) :
    SameKind (fhazard gw fw) (hazard gv fv) := by
  rcases hg with ⟨c, N, g1, g2, g3, rfl, rfl⟩ | ⟨rfl, rfl⟩
  · rcases hf with ⟨d, M, f1, f2, f3, rfl, rfl⟩ | ⟨rfl, rfl⟩
    · obtain ⟨a1, a2⟩ := one_sub_fl g1 g2 g3
      obtain ⟨b1, b2⟩ := one_sub_fl f1 f2 f3
      have ga := (share_one g1 g2 g3).2.2
      have fa := (share_one f1 f2 f3).2.2
      have hN : (0 : ℚ) < N := by exact_mod_cast g2
      have hle : 0 ≤ 1 - (c : ℚ) / N := by
        rw [sub_nonneg, div_le_one hN]; exact_mod_cast g1
      unfold fhazard hazard
      have e1 : XF.eq (.fin (fl ((c : ℚ) / N))) (.fin 1) = XF.eq (.fin ((c : ℚ) / N)) (.fin 1) := by simp only [XF.eq, ga]
      have e2 : XF.eq (.fin (fl ((d : ℚ) / M))) (.fin 1) = XF.eq (.fin ((d : ℚ) / M)) (.fin 1) := by simp only [XF.eq, fa]
      rw [e1, e2]
      by_cases hne : (XF.eq (.fin ((c : ℚ) / N)) (.fin 1) && XF.eq (.fin ((d : ℚ) / M)) (.fin 1)) = true
      · rw [if_pos hne, if_pos hne]
        trivial
      · rw [if_neg hne, if_neg hne]
        simp only [XF.sub, xsub, XF.div, xdiv, fdivX]
        by_cases hz : 1 - (d : ℚ) / M = 0
        · rw [if_pos (b2.2 hz), if_pos hz]
          have hd1 : (d : ℚ) / M = 1 := by linarith
          have hc1 : ¬ ((c : ℚ) / N = 1) := by
            intro hc
            simp [XF.eq, hc, hd1] at hne
          have hpos : 0 < 1 - (c : ℚ) / N := lt_of_le_of_ne hle fun he => hc1 (by linarith)
          have hpos' : 0 < fsub 1 (fl ((c : ℚ) / N)) := lt_of_le_of_ne a1 fun he => hpos.ne' (a2.1 he.symm)
          rw [if_pos hpos]
          simp [hpos', SameKind]
        · rw [if_neg (fun he => hz (b2.1 he)), if_neg hz]
          have hb : fsub 1 (fl ((d : ℚ) / M)) ≠ 0 := fun he => hz (b2.1 he)
          refine ⟨fl_nonneg (div_nonneg a1 b1), ?_⟩
          unfold fdiv
          rw [fl_eq_zero, div_eq_zero_iff, div_eq_zero_iff, or_iff_left hb, or_iff_left hz, a2]
    · simp [fhazard, hazard, XF.eq, xsub, xdiv, XF.sub, XF.div, SameKind]
  · rcases hf with ⟨d, M, f1, f2, f3, rfl, rfl⟩ | ⟨rfl, rfl⟩ <;>
      simp [fhazard, hazard, XF.eq, xsub, xdiv, XF.sub, XF.div, SameKind]

private theorem hazard_zip {gw gv : List (XF ℚ)} (hg : List.Forall₂ (Share (2 ^ 53)) gw gv) {fw fv : List (XF ℚ)}
    (hf : List.Forall₂ (Share (2 ^ 53)) fw fv) :
    List.Forall₂ SameKind (List.zipWith fhazard gw fw) (List.zipWith hazard gv fv) := by
  induction hg generalizing fw fv with
  | nil => simp
  | cons hh _ ih =>
    cases hf with
    | nil => simp
    | cons hh' hf => exact List.Forall₂.cons (hazard_kind hh hh') (ih hf)

private theorem kind_finite {y x : XF ℚ} (h : SameKind y x) : y.isfinite = x.isfinite := by
  cases y <;> cases x <;> first | rfl | exact absurd h (by simp [SameKind])

private theorem kind_finite_map {y x : List (XF ℚ)} (h : List.Forall₂ SameKind y x) :
    y.map XF.isfinite = x.map XF.isfinite := by
  induction h with
  | nil => rfl
  | cons h _ ih => rw [List.map_cons, List.map_cons, kind_finite h, ih]

private theorem firstInvalid_map (y : List (XF ℚ)) :
    firstInvalid y = (if (y.map XF.isfinite).any (! ·) then (y.map XF.isfinite).findIdx (! ·) else 0) := by
  unfold firstInvalid
  rw [List.any_map, List.findIdx_map]
  rfl

private theorem truncate2_kind (s : List ℚ) {y x : List (XF ℚ)} (h : List.Forall₂ SameKind y x) :
    (truncate2 s y).1 = (truncate2 s x).1 ∧ List.Forall₂ SameKind (truncate2 s y).2 (truncate2 s x).2 := by
  have hm := kind_finite_map h
  have hi : firstInvalid y = firstInvalid x := by rw [firstInvalid_map, firstInvalid_map, hm]
  have ha : y.any (fun v => !v.isfinite) = x.any (fun v => !v.isfinite) := by
    have e : ∀ l : List (XF ℚ), l.any (fun v => !v.isfinite) = (l.map XF.isfinite).any (! ·) := by
      intro l; rw [List.any_map]; rfl
    rw [e, e, hm]
  unfold truncate2
  rw [hi, ha]
  split
  · exact ⟨rfl, List.forall₂_take _ h⟩
  · exact ⟨rfl, h⟩

/-- **C157.** Rounding does not change where `j` is defined: computed from the computed curves of `g` and `f`, it has the same
support, also after truncation, as computed exactly from the exact curves, and at each distance it is `nan`, infinite or
zero exactly if the exact value is, and never negative. -/
theorem C157_j (gdata fdata bins bins' : List ℚ) (hg : gdata.length ≤ 2 ^ 53) (hf : fdata.length ≤ 2 ^ 53)
    (gs fs : List ℚ) (gv fv gw fw : List (XF ℚ)) (h1 : shares gdata bins = .ok (gs, gv)) (h2 : shares fdata bins' = .ok (fs, fv))
    (h3 : fshares gdata bins = .ok (gs, gw)) (h4 : fshares fdata bins' = .ok (fs, fw)) (truncate : Bool) :
    (∀ e, jEnd truncate (gs, gv) (fs, fv) = .error e → fjEnd truncate (gs, gw) (fs, fw) = .error e)
    ∧ ∀ s x, jEnd truncate (gs, gv) (fs, fv) = .ok (s, x) →
      ∃ y, fjEnd truncate (gs, gw) (fs, fw) = .ok (s, y) ∧ List.Forall₂ SameKind y x := by
  obtain ⟨w1, k1, k2⟩ := shares_share h1 (B := 2 ^ 53) (by norm_num) hg
  obtain ⟨w2, k3, k4⟩ := shares_share h2 (B := 2 ^ 53) (by norm_num) hf
  rw [h3] at k1
  rw [h4] at k3
  injection k1 with k1
  injection k3 with k3
  injection k1 with _ k1
  injection k3 with _ k3
  subst k1 k3
  have hz := hazard_zip k2 k4
  simp only at hz
  obtain ⟨t1, t2⟩ := truncate2_kind gs hz
  unfold jEnd fjEnd
  simp only
  cases truncate with
  | false =>
    refine ⟨fun e he => by simp at he, fun s x hx => ?_⟩
    simp only [Bool.false_eq_true, if_false, Except.ok.injEq, Prod.mk.injEq] at hx ⊢
    obtain ⟨rfl, rfl⟩ := hx
    exact ⟨_, ⟨rfl, rfl⟩, hz⟩
  | true =>
    simp only [if_true]
    rw [t1, t2.length_eq, hz.length_eq]
    split
    · exact ⟨fun e he => he, fun s x hx => by cases hx⟩
    · refine ⟨fun e he => (by cases he), fun s x hx => ?_⟩
      injection hx with hx
      rw [Prod.ext_iff] at hx
      obtain ⟨rfl, rfl⟩ := hx
      exact ⟨_, by rw [← t1], t2⟩

/-! ### K -/

private theorem abs_fl (x : ℚ) : |fl x| = fl |x| := by
  rcases le_total 0 x with h | h
  · rw [abs_of_nonneg h, abs_of_nonneg (fl_nonneg h)]
  · have : 0 ≤ fl (-x) := fl_nonneg (by linarith)
    rw [fl_neg] at this
    rw [abs_of_nonpos h, abs_of_nonpos (by linarith), fl_neg]

private theorem farea_zero (b : BBox ℚ) : farea b = 0 ↔ areaBBox b = 0 := by
  unfold farea areaBBox fmul fsub
  rw [abs_eq_zero, abs_eq_zero, fl_eq_zero, mul_eq_zero, mul_eq_zero, fl_eq_zero, fl_eq_zero]

private theorem farea_between (b : BBox ℚ) :
    (1 - 1 / 2 ^ 53) ^ 3 * areaBBox b ≤ farea b ∧ farea b ≤ (1 + 1 / 2 ^ 53) ^ 3 * areaBBox b := by
  unfold farea areaBBox fmul fsub
  rw [abs_fl, abs_mul, abs_mul, abs_fl, abs_fl]
  have hx := abs_nonneg (b.xmax - b.xmin)
  have hy := abs_nonneg (b.ymax - b.ymin)
  generalize |b.xmax - b.xmin| = X at *
  generalize |b.ymax - b.ymin| = Y at *
  obtain ⟨x1, x2⟩ := fl_between hx
  obtain ⟨y1, y2⟩ := fl_between hy
  have hx' := fl_nonneg hx
  have hy' := fl_nonneg hy
  obtain ⟨z1, z2⟩ := fl_between (mul_nonneg hx' hy')
  have lo : (0 : ℚ) < 1 - 1 / 2 ^ 53 := by norm_num
  have hi : (0 : ℚ) < 1 + 1 / 2 ^ 53 := by norm_num
  constructor
  · refine le_trans ?_ z1
    calc (1 - 1 / 2 ^ 53) ^ 3 * (X * Y) = (1 - 1 / 2 ^ 53) * (((1 - 1 / 2 ^ 53) * X) * ((1 - 1 / 2 ^ 53) * Y)) := by ring
      _ ≤ _ := mul_le_mul_of_nonneg_left (mul_le_mul x1 y1 (mul_nonneg lo.le hy) hx') lo.le
  · refine z2.trans ?_
    calc _ ≤ (1 + 1 / 2 ^ 53) * (((1 + 1 / 2 ^ 53) * X) * ((1 + 1 / 2 ^ 53) * Y)) :=
          mul_le_mul_of_nonneg_left (mul_le_mul x2 y2 hy' (mul_nonneg hi.le hx)) hi.le
      _ = _ := by ring

/-- The computed value of `k` for `c` pairs, and the exact one. -/
private theorem k_value {n : ℕ} (hn : 0 < n) (b : BBox ℚ) (hA : areaBBox b ≠ 0) :
    ∃ J : ℚ, 0 < J ∧ (∀ c : ℕ, xdiv (.fin (fdiv ((c : ℚ) * 2) (n : ℚ))) (fdivX (n : ℚ) (farea b))
        = .fin (fl (fl ((c : ℚ) * 2 / n) / J)))
      ∧ (1 - 1 / 2 ^ 53) * n ≤ J * ((1 + 1 / 2 ^ 53) ^ 3 * areaBBox b)
      ∧ J * ((1 - 1 / 2 ^ 53) ^ 3 * areaBBox b) ≤ (1 + 1 / 2 ^ 53) * n := by
  have hn' : (0 : ℚ) < n := by exact_mod_cast hn
  have hA' : farea b ≠ 0 := fun h => hA ((farea_zero b).1 h)
  have hpos : 0 < farea b := lt_of_le_of_ne (abs_nonneg _) (Ne.symm hA')
  obtain ⟨a1, a2⟩ := farea_between b
  have hq : 0 < (n : ℚ) / farea b := div_pos hn' hpos
  obtain ⟨j1, j2⟩ := fl_between hq.le
  refine ⟨fl ((n : ℚ) / farea b), fl_pos hq, ?_, ?_, ?_⟩
  · intro c
    simp only [fdivX, if_neg hA', xdiv, fdiv, if_neg (fl_pos hq).ne']
  · calc (1 - 1 / 2 ^ 53) * (n : ℚ) = ((1 - 1 / 2 ^ 53) * ((n : ℚ) / farea b)) * farea b := by field_simp
      _ ≤ _ := mul_le_mul j1 a2 hpos.le (fl_pos hq).le
  · calc fl ((n : ℚ) / farea b) * ((1 - 1 / 2 ^ 53) ^ 3 * areaBBox b)
        ≤ ((1 + 1 / 2 ^ 53) * ((n : ℚ) / farea b)) * farea b :=
          mul_le_mul j2 a1 (mul_nonneg (by norm_num) (abs_nonneg _)) (mul_nonneg (by norm_num) hq.le)
      _ = _ := by field_simp

private theorem k_exact {n : ℕ} (hn : 0 < n) (A : ℚ) (hA : A ≠ 0) (c : ℕ) :
    XF.div (.fin ((c : ℚ) * 2 / n)) (XF.div (.fin (n : ℚ)) (.fin A)) = .fin ((c : ℚ) * 2 / n * A / n) := by
  have hn' : (0 : ℚ) < n := by exact_mod_cast hn
  simp only [XF.div, if_neg hA, if_neg (div_ne_zero hn'.ne' hA)]
  rw [div_div_eq_mul_div]

private theorem k_zero {n : ℕ} (hn : 0 < n) (b : BBox ℚ) (hA : areaBBox b = 0) (c : ℕ) :
    xdiv (.fin (fdiv ((c : ℚ) * 2) (n : ℚ))) (fdivX (n : ℚ) (farea b)) = .fin 0
    ∧ XF.div (.fin ((c : ℚ) * 2 / n)) (XF.div (.fin (n : ℚ)) (.fin (areaBBox b))) = .fin 0 := by
  have hn' : (0 : ℚ) < n := by exact_mod_cast hn
  have hA' := (farea_zero b).2 hA
  rw [hA, hA']
  simp [fdivX, XF.div, xdiv, hn]

private theorem k_agrees {n : ℕ} (hn : 0 < n) (b : BBox ℚ) (c : ℕ) :
    AgreesUpTo (1 / 2 ^ 50) (xdiv (.fin (fdiv ((c : ℚ) * 2) (n : ℚ))) (fdivX (n : ℚ) (farea b)))
      (XF.div (.fin ((c : ℚ) * 2 / n)) (XF.div (.fin (n : ℚ)) (.fin (areaBBox b)))) := by
  by_cases hA : areaBBox b = 0
  · rw [(k_zero hn b hA c).1, (k_zero hn b hA c).2]
    simp [AgreesUpTo]
  · have hn' : (0 : ℚ) < n := by exact_mod_cast hn
    have hApos : 0 < areaBBox b := lt_of_le_of_ne (abs_nonneg _) (Ne.symm hA)
    obtain ⟨J, hJ, h1, h2, h3⟩ := k_value hn b hA
    rw [h1 c, k_exact hn _ hA c]
    change |_| ≤ _
    have ha : 0 ≤ (c : ℚ) * 2 / n := by positivity
    generalize (c : ℚ) * 2 / n = a at *
    generalize areaBBox b = A at *
    obtain ⟨a1, a2⟩ := fl_between ha
    have hq : 0 ≤ fl a / J := div_nonneg (fl_nonneg ha) hJ.le
    obtain ⟨q1, q2⟩ := fl_between hq
    have hT : 0 ≤ a * A / n := div_nonneg (mul_nonneg ha hApos.le) hn'.le
    rw [abs_of_nonneg hT]
    -- bounds of `fl a / J`
    have up : fl a / J ≤ (1 + 1 / 2 ^ 53) ^ 4 / (1 - 1 / 2 ^ 53) * (a * A / n) := by
      rw [div_le_iff₀ hJ]
      refine a2.trans ?_
      have : (1 + 1 / 2 ^ 53) ^ 4 / (1 - 1 / 2 ^ 53) * (a * A / n) * J
          = ((1 + 1 / 2 ^ 53) * a) * ((J * ((1 + 1 / 2 ^ 53) ^ 3 * A)) / ((1 - 1 / 2 ^ 53) * n)) := by
        field_simp
      rw [this]
      apply le_mul_of_one_le_right (mul_nonneg (by norm_num) ha)
      rw [le_div_iff₀ (mul_pos (by norm_num) hn'), one_mul]
      exact h2
    have dn : (1 - 1 / 2 ^ 53) ^ 4 / (1 + 1 / 2 ^ 53) * (a * A / n) ≤ fl a / J := by
      rw [le_div_iff₀ hJ]
      refine le_trans ?_ a1
      have : (1 - 1 / 2 ^ 53) ^ 4 / (1 + 1 / 2 ^ 53) * (a * A / n) * J
          = ((1 - 1 / 2 ^ 53) * a) * ((J * ((1 - 1 / 2 ^ 53) ^ 3 * A)) / ((1 + 1 / 2 ^ 53) * n)) := by
        field_simp
      rw [this]
      apply mul_le_of_le_one_right (mul_nonneg (by norm_num) ha)
      rw [div_le_one (mul_pos (by norm_num) hn')]
      exact h3
    generalize a * A / n = T at *
    generalize fl a / J = Q at *
    rw [abs_le]
    have e1 : (1 + 1 / 2 ^ 53) * ((1 + 1 / 2 ^ 53) ^ 4 / (1 - 1 / 2 ^ 53)) ≤ (1 + 1 / 2 ^ 50 : ℚ) := by norm_num
    have e2 : (1 - 1 / 2 ^ 50 : ℚ) ≤ (1 - 1 / 2 ^ 53) * ((1 - 1 / 2 ^ 53) ^ 4 / (1 + 1 / 2 ^ 53)) := by norm_num
    have f1 : fl Q ≤ (1 + 1 / 2 ^ 50) * T := by
      refine q2.trans ((mul_le_mul_of_nonneg_left up (by norm_num)).trans ?_)
      rw [← mul_assoc]
      exact mul_le_mul_of_nonneg_right e1 hT
    have f2 : (1 - 1 / 2 ^ 50) * T ≤ fl Q := by
      refine le_trans ?_ ((mul_le_mul_of_nonneg_left dn (by norm_num)).trans q1)
      rw [← mul_assoc]
      exact mul_le_mul_of_nonneg_right e2 hT
    constructor <;> linarith

private theorem k_le_iff {n : ℕ} (hn : 0 < n) {J : ℚ} (hJ : 0 < J) (c c' : ℕ) (hc : c' ≤ 2 ^ 49) :
    fl (fl ((c : ℚ) * 2 / n) / J) ≤ fl (fl ((c' : ℚ) * 2 / n) / J) ↔ c ≤ c' := by
  have hn' : (0 : ℚ) < n := by exact_mod_cast hn
  constructor
  · intro h
    by_contra hlt
    have hlt : c' + 1 ≤ c := by omega
    have hlt' : (c' : ℚ) + 1 ≤ c := by exact_mod_cast hlt
    have hc' : (c' : ℚ) ≤ 2 ^ 49 := by exact_mod_cast hc
    have p1 : 0 ≤ (c : ℚ) * 2 / n := by positivity
    have p2 : 0 ≤ (c' : ℚ) * 2 / n := by positivity
    refine absurd h (not_le.2 (fl_lt (div_nonneg (fl_nonneg p2) hJ.le) ?_ (div_nonneg (fl_nonneg p1) hJ.le)))
    rw [mul_div_assoc', mul_div_assoc', div_lt_div_iff_of_pos_right hJ]
    calc (1 + 1 / 2 ^ 53) * fl ((c' : ℚ) * 2 / n) ≤ (1 + 1 / 2 ^ 53) * ((1 + 1 / 2 ^ 53) * ((c' : ℚ) * 2 / n)) :=
          mul_le_mul_of_nonneg_left (fl_between p2).2 (by norm_num)
      _ = (1 + 1 / 2 ^ 53) ^ 2 * c' * (2 / n) := by ring
      _ < (1 - 1 / 2 ^ 53) ^ 2 * c * (2 / n) := by
          apply mul_lt_mul_of_pos_right _ (by positivity)
          have h0 : (0 : ℚ) ≤ c' := by positivity
          nlinarith
      _ = (1 - 1 / 2 ^ 53) * ((1 - 1 / 2 ^ 53) * ((c : ℚ) * 2 / n)) := by ring
      _ ≤ _ := mul_le_mul_of_nonneg_left (fl_between p1).1 (by norm_num)
  · intro h
    have : (c : ℚ) ≤ c' := by exact_mod_cast h
    apply fl_mono
    apply div_le_div_of_nonneg_right _ hJ.le
    apply fl_mono
    gcongr

/-- **C157.** `k` with an array of distances as support: the computed curve is defined for the same arguments as the exact
one, on the same support, and is equal to it up to the relative error `2⁻⁵⁰`; comparing two of its values gives the answer of
exact arithmetic, so that it does not decrease, and grows wherever the exact curve grows (for up to `2⁴⁹` pairs). -/
theorem C157_k (lib : Lib ℚ) (events : List (ℚ × ℚ)) (support : List ℚ) (distances : DistArg ℚ) (metric : MetricArg)
    (edge : Bool) (hd : ∀ m d, kDistances lib m events distances = .ok d → d.length ≤ 2 ^ 49) (s : List ℚ) (v : List (XF ℚ))
    (h : k lib events (.array support) distances metric edge = .ok (s, v)) :
    ∃ w, fk lib events support distances metric edge = .ok (s, w) ∧ List.Forall₂ (AgreesUpTo (1 / 2 ^ 50)) w v
    ∧ ∀ (i j : ℕ) (a b x y : XF ℚ), w[i]? = some a → w[j]? = some b → v[i]? = some x → v[j]? = some y →
      XF.ge a b = XF.ge x y := by
  obtain ⟨p, d, hp, hk, ha, h1, h2⟩ := k_ok h
  obtain ⟨b, hb, hn⟩ : ∃ b, p.hull = .bboxOf b ∧ 0 < events.length := by
    unfold prepare at hp
    split at hp
    · cases hp
    · cases events with
      | nil => cases hp
      | cons e es =>
        obtain ⟨b, hb⟩ : ∃ b, bboxPts (e :: es) = .ok b := ⟨_, rfl⟩
        have hh : prepareHull (e :: es) .none = .ok (.bboxOf b) := by
          unfold prepareHull
          rw [hb]
          rfl
        rw [hh] at hp
        refine ⟨b, ?_, by simp⟩
        change (if _ then _ else _) = _ at hp
        split at hp
        · cases hp
        · split at hp
          · cases hp
          · change Except.ok _ = Except.ok _ at hp
            injection hp with hp
            rw [← hp]
  simp only at h1 h2
  have hdl := hd _ _ hk
  rw [hb] at h2
  change v = p.support.map fun t => XF.div (.fin (((d.filter fun x => decide (x < t)).length : ℚ) * 2
          / (events.length : ℚ))) (XF.div (.fin (events.length : ℚ)) (.fin (areaBBox b))) at h2
  refine ⟨p.support.map fun t => xdiv (.fin (fdiv (((d.filter fun x => decide (x < t)).length : ℚ) * 2) (events.length : ℚ)))
    (fdivX (events.length : ℚ) (farea b)), ?_, ?_, ?_⟩
  · unfold fk
    rw [hp]
    change (do let d ← kDistances lib p.metric events distances; _) = _
    rw [hk, hb, h1]
    rfl
  · rw [h2, List.forall₂_map_left_iff, List.forall₂_map_right_iff, List.forall₂_same]
    intro t _
    exact k_agrees hn b _
  · subst h2
    intro i j a a' x y hi hj hx hy
    rw [List.getElem?_map] at hi hj hx hy
    obtain ⟨t, ht, rfl⟩ := Option.map_eq_some_iff.1 hi
    obtain ⟨t', ht', rfl⟩ := Option.map_eq_some_iff.1 hj
    rw [ht] at hx
    rw [ht'] at hy
    injection hx with hx
    injection hy with hy
    rw [← hx, ← hy]
    clear hi hj hx hy
    beta_reduce
    have l1 : (d.filter fun x => decide (x < t)).length ≤ 2 ^ 49 := (List.length_filter_le _ _).trans hdl
    generalize (d.filter fun x => decide (x < t)).length = c at *
    generalize (d.filter fun x => decide (x < t')).length = c' at *
    by_cases hA : areaBBox b = 0
    · rw [(k_zero hn b hA c).1, (k_zero hn b hA c).2, (k_zero hn b hA c').1, (k_zero hn b hA c').2]
    · obtain ⟨J, hJ, g1, _⟩ := k_value hn b hA
      rw [g1, g1, k_exact hn _ hA, k_exact hn _ hA]
      have hn' : (0 : ℚ) < events.length := by exact_mod_cast hn
      have hApos : 0 < areaBBox b := lt_of_le_of_ne (abs_nonneg _) (Ne.symm hA)
      simp only [XF.ge, k_le_iff hn hJ c' c l1]
      apply decide_eq_decide.2
      rw [div_le_div_iff_of_pos_right hn', mul_le_mul_iff_left₀ hApos, div_le_div_iff_of_pos_right hn',
        mul_le_mul_iff_left₀ (by norm_num : (0 : ℚ) < 2), Nat.cast_le]

/-- Three events a tenth of a unit apart, in floating point numbers. -/
example : fshares [fl (1 / 10), fl (1 / 10), fl (3 / 10)] [0, fl (2 / 10), 1]
      = .ok ([0, fl (2 / 10), 1], [.fin 0, .fin (fl (2 / 3)), .fin 1])
    ∧ shares [fl (1 / 10), fl (1 / 10), fl (3 / 10)] [0, fl (2 / 10), 1]
      = .ok ([0, fl (2 / 10), 1], [.fin 0, .fin (2 / 3), .fin 1])
    ∧ fl (2 / 3) ≠ 2 / 3
    ∧ jEnd true ([(0 : ℚ), 1, 2], [.fin 0, .fin (1 / 3), .fin (2 / 3)]) ([0, 1, 2], [.fin 0, .fin (1 / 2), .fin 1])
      = .ok ([0, 1], [.fin 1, .fin (4 / 3)])
    ∧ (fg sortLib [(0, 0), (1, 0), (3, 0)] [0, 1, 2] .none (.metric (.name "euclidean")) false).map Prod.fst = .ok [0, 1, 2]
    ∧ k sortLib [(0, 0), (fl (1 / 10), 0), (1, 1)] (.array [0, 1, 2]) (.vec [1 / 2, 1, 1]) (.metric (.name "euclidean")) false
      = .ok ([0, 1, 2], [.fin 0, .fin (2 / 9), .fin (2 / 3)])
    ∧ fk sortLib [(0, 0), (fl (1 / 10), 0), (1, 1)] [0, 1, 2] (.vec [1 / 2, 1, 1]) (.metric (.name "euclidean")) false
      = .ok ([0, 1, 2], [.fin 0, .fin (fl (fl (2 / 3) / 3)), .fin (fl (2 / 3))]) := by
  decide +kernel

end Pointpats.Props
