import Verif.Props.Skyum
import Verif.Props.Similarity
import Verif.Props.RotatedRectangle
import Verif.Lemmas.DistanceMotion

/-!
# The smallest enclosing circle after a change of unit, a rotation, a reflection or a translation
-/

namespace Pointpats.Props

open Pointpats Pointpats.Skyum Pointpats.Spec

set_option linter.unusedSectionVars false

theorem sim_planeSqDist {r : ℝ} {f : ℝ × ℝ → ℝ × ℝ} (hf : IsSimilarity r f) (p q : ℝ × ℝ) :
    planeSqDist (f p) (f q) = r ^ 2 * planeSqDist p q := by
  have h := IsSimilarity.sqDist hf p q
  simpa [sqDist, planeSqDist] using h

/-- Heron: four times the squared area of a triangle, from its squared sides. -/
theorem turn_sq (x y z : ℝ × ℝ) :
    4 * clockwiseTurn x y z ^ 2 =
      4 * (planeSqDist y x * planeSqDist y z) - (planeSqDist y x + planeSqDist y z - planeSqDist x z) ^ 2 := by
  unfold clockwiseTurn planeSqDist
  ring

theorem sim_turn_sq {r : ℝ} {f : ℝ × ℝ → ℝ × ℝ} (hf : IsSimilarity r f) (x y z : ℝ × ℝ) :
    clockwiseTurn (f x) (f y) (f z) ^ 2 = (r ^ 2) ^ 2 * clockwiseTurn x y z ^ 2 := by
  have h1 := turn_sq (f x) (f y) (f z)
  have h2 := turn_sq x y z
  rw [sim_planeSqDist hf, sim_planeSqDist hf, sim_planeSqDist hf] at h1
  linear_combination h1 / 4 - (r ^ 2) ^ 2 * h2 / 4

theorem sim_spreadOut {r : ℝ} {f : ℝ × ℝ → ℝ × ℝ} (hf : IsSimilarity r f) {x y z : ℝ × ℝ} (h : SpreadOut x y z) :
    SpreadOut (f x) (f y) (f z) := by
  have hr := pow_pos hf.pos 2
  obtain ⟨h1, h2, h3⟩ := h
  refine ⟨by rw [sim_planeSqDist hf]; positivity, by rw [sim_planeSqDist hf]; positivity, ?_⟩
  rw [sim_planeSqDist hf, sim_planeSqDist hf, sim_turn_sq hf]
  calc _ = (r ^ 2) ^ 2 * ((1 / 100000) ^ 2 * (planeSqDist y x * planeSqDist y z)) := by ring
    _ ≤ _ := mul_le_mul_of_nonneg_left h3 (by positivity)

theorem sim_smallestDisc {r : ℝ} {f : ℝ × ℝ → ℝ × ℝ} (hf : IsSimilarity r f) {c : ℝ × ℝ} {ρ : ℝ} {S : List (ℝ × ℝ)}
    (h : IsSmallestDisc c ρ S) : IsSmallestDisc (f c) (r * ρ) (S.map f) := by
  have hr := hf.pos
  refine ⟨?_, ?_⟩
  · intro p hp
    obtain ⟨q, hq, rfl⟩ := List.mem_map.1 hp
    have := h.1 q hq
    refine ⟨mul_nonneg hr.le this.1, ?_⟩
    rw [sim_planeSqDist hf, mul_pow]
    exact mul_le_mul_of_nonneg_left this.2 (by positivity)
  · intro c' r' hc
    obtain ⟨d, rfl⟩ := hf.onto c'
    have := h.2 d (r' / r) fun p hp => by
      have h1 := hc (f p) (List.mem_map_of_mem hp)
      refine ⟨div_nonneg h1.1 hr.le, ?_⟩
      have h2 := h1.2
      rw [sim_planeSqDist hf] at h2
      rw [div_pow, le_div_iff₀ (by positivity)]
      linarith
    rw [le_div_iff₀ hr] at this
    linarith

theorem smallestDisc_set {c : ℝ × ℝ} {ρ : ℝ} {S T : List (ℝ × ℝ)} (h : IsSmallestDisc c ρ S) (hST : ∀ p, p ∈ S ↔ p ∈ T) :
    IsSmallestDisc c ρ T :=
  ⟨fun p hp => h.1 p ((hST p).2 hp), fun c' r' hc => h.2 c' r' fun p hp => hc p ((hST p).1 hp)⟩

theorem turn_cycle (x y z : ℝ × ℝ) : clockwiseTurn x y z = clockwiseTurn y z x := by unfold clockwiseTurn; ring

/-- No vertex is on the outer side of an edge, and only its ends are on it. -/
theorem edge_side {l : List (ℝ × ℝ)} {e : List (ℝ × ℝ)} (hh : IsHullOf l e) {i j : ℕ} (hi : i < l.length) (hj : j < l.length)
    (h1 : j ≠ i) (h2 : j ≠ if i + 1 < l.length then i + 1 else 0) :
    clockwiseTurn (l.getD i (0, 0)) (l.getD (if i + 1 < l.length then i + 1 else 0) (0, 0)) (l.getD j (0, 0)) < 0 := by
  have := hh.three
  split_ifs at h2 ⊢ with h
  · rcases lt_or_gt_of_ne h1 with h3 | h3
    · rw [← turn_cycle]
      exact hh.ring _ _ _ h3 (by omega) h
    · exact hh.ring _ _ _ (by omega) (by omega) hj
  · rw [turn_cycle]
    exact hh.ring _ _ _ (by omega) (by omega) hi

theorem turn_self_left (x z : ℝ × ℝ) : clockwiseTurn x z x = 0 := by unfold clockwiseTurn; ring

theorem turn_self_right (x z : ℝ × ℝ) : clockwiseTurn x z z = 0 := by unfold clockwiseTurn; ring

/-- Every vertex of a hull is the only point of the hull where some affine function is largest. -/
theorem vertex_exposed {l : List (ℝ × ℝ)} {e : List (ℝ × ℝ)} (hh : IsHullOf l e) {i : ℕ} (hi : i < l.length) :
    ∃ a b c : ℝ, a * (l.getD i (0, 0)).1 + b * (l.getD i (0, 0)).2 = c ∧
      ∀ j < l.length, j ≠ i → a * (l.getD j (0, 0)).1 + b * (l.getD j (0, 0)).2 < c := by
  have h3 := hh.three
  obtain ⟨k, hk, hki, hnext⟩ : ∃ k < l.length, k ≠ i ∧ (if k + 1 < l.length then k + 1 else 0) = i := by
    by_cases h0 : i = 0
    · exact ⟨l.length - 1, by omega, by omega, by rw [if_neg (by omega), h0]⟩
    · exact ⟨i - 1, by omega, by omega, by rw [if_pos (by omega)]; omega⟩
  set n := if i + 1 < l.length then i + 1 else 0 with hn
  have hnl : n < l.length := by rw [hn]; split_ifs <;> omega
  have hni : n ≠ i := by rw [hn]; split_ifs <;> omega
  have hnk : n ≠ k := by rw [hn]; split_ifs at hnext ⊢ <;> omega
  set v := l.getD i (0, 0) with hv
  set w := l.getD n (0, 0) with hw
  set u := l.getD k (0, 0) with hu
  have key : ∀ j < l.length, j ≠ i → clockwiseTurn v w (l.getD j (0, 0)) + clockwiseTurn u v (l.getD j (0, 0)) < 0 := by
    intro j hj hji
    have e1 := fun h : j ≠ n => edge_side hh hi hj hji h
    have e2 := fun h : j ≠ k => edge_side hh hk hj h (by rw [hnext]; exact hji)
    rw [hnext] at e2
    rw [← hn] at e1
    rcases eq_or_ne j n with rfl | h
    · have := e2 hnk
      have h0 : clockwiseTurn v w (l.getD n (0, 0)) = 0 := turn_self_right _ _
      linarith
    · have h1 := e1 h
      rcases eq_or_ne j k with rfl | h'
      · have h0 : clockwiseTurn u v (l.getD j (0, 0)) = 0 := turn_self_left _ _
        linarith
      · linarith [e2 h']
  refine ⟨(w.2 - v.2) + (v.2 - u.2), -((w.1 - v.1) + (v.1 - u.1)),
    ((w.2 - v.2) + (v.2 - u.2)) * v.1 + -((w.1 - v.1) + (v.1 - u.1)) * v.2, rfl, fun j hj hji => ?_⟩
  have := key j hj hji
  unfold clockwiseTurn at this
  nlinarith

/-- A map that keeps ratios of distances keeps weighted means. -/
theorem sim_combine {r : ℝ} {f : ℝ × ℝ → ℝ × ℝ} (hf : IsSimilarity r f) (y z : ℝ × ℝ) {s t : ℝ} (hst : s + t = 1) :
    f (s • y + t • z) = s • f y + t • f z := by
  have stewart : ∀ w a b : ℝ × ℝ, planeSqDist w (s • a + t • b) =
      s * planeSqDist w a + t * planeSqDist w b - s * t * planeSqDist a b := by
    intro w a b
    obtain rfl : t = 1 - s := by linarith
    simp only [planeSqDist, Prod.fst_add, Prod.snd_add, Prod.smul_fst, Prod.smul_snd, smul_eq_mul]
    ring
  have h0 := stewart (s • y + t • z) y z
  have h1 := stewart (f (s • y + t • z)) (f y) (f z)
  rw [sim_planeSqDist hf, sim_planeSqDist hf, sim_planeSqDist hf] at h1
  have hz : planeSqDist (s • y + t • z) (s • y + t • z) = 0 := by simp [planeSqDist]
  rw [hz] at h0
  have : planeSqDist (f (s • y + t • z)) (s • f y + t • f z) = 0 := by
    rw [h1]
    linear_combination -(r ^ 2) * h0
  by_contra hne
  exact (sqDist_pos hne).ne' this

theorem sim_injective {r : ℝ} {f : ℝ × ℝ → ℝ × ℝ} (hf : IsSimilarity r f) : Function.Injective f := by
  intro x y h
  by_contra hne
  have h1 := sim_planeSqDist hf x y
  rw [h] at h1
  have h2 : planeSqDist (f y) (f y) = 0 := by simp [planeSqDist]
  have := mul_pos (pow_pos hf.pos 2) (sqDist_pos hne)
  linarith

theorem id_isSimilarity : IsSimilarity 1 id := ⟨one_pos, fun p q => by simp, Function.surjective_id⟩

/-- The vertices of the hull of the moved events are the moved vertices. -/
theorem hull_vertex_mem {l l' e e' : List (ℝ × ℝ)} {r : ℝ} {f : ℝ × ℝ → ℝ × ℝ} (hf : IsSimilarity r f) (hh' : IsHullOf l' e')
    (hh : IsHullOf l e) (he : ∀ x, x ∈ e ↔ x ∈ e'.map f) {x : ℝ × ℝ} (hx : x ∈ l) : ∃ y ∈ l', f y = x := by
  obtain ⟨w, hw, hwx⟩ := List.mem_map.1 ((he x).1 (hh.sub x hx))
  refine ⟨w, ?_, hwx⟩
  obtain ⟨i, hi, rfl⟩ := List.getElem_of_mem hx
  obtain ⟨a, b, c, h1, h2⟩ := vertex_exposed hh hi
  have hg : l.getD i (0, 0) = l[i] := by simp [hi]
  rw [hg] at h1
  -- all of the hull is in the half plane, and only the vertex is on its line
  have hside : ∀ y ∈ convexHull ℝ {v | v ∈ l}, a * y.1 + b * y.2 < c ∨ y = l[i] := by
    have hc : Convex ℝ {y : ℝ × ℝ | a * y.1 + b * y.2 < c ∨ y = l[i]} := by
      intro y hy z hz s t hs ht hst
      simp only [Set.mem_ofPred_eq] at hy hz ⊢
      rcases eq_or_lt_of_le hs with rfl | hs
      · have : t = 1 := by linarith
        subst this
        simpa using hz
      rcases eq_or_lt_of_le ht with rfl | ht
      · have : s = 1 := by linarith
        subst this
        simpa using hy
      have hle : ∀ y : ℝ × ℝ, (a * y.1 + b * y.2 < c ∨ y = l[i]) → a * y.1 + b * y.2 ≤ c := by
        rintro y (h | rfl)
        · exact h.le
        · exact h1.le
      have hy' := hle y hy
      have hz' := hle z hz
      by_cases hyy : y = l[i]
      · by_cases hzz : z = l[i]
        · right
          rw [hyy, hzz, ← add_smul, hst, one_smul]
        · left
          have := hz.resolve_right hzz
          simp only [Prod.fst_add, Prod.snd_add, Prod.smul_fst, Prod.smul_snd, smul_eq_mul]
          have hcc : s * c + t * c = c := by rw [← add_mul, hst, one_mul]
          nlinarith [mul_le_mul_of_nonneg_left hy' hs.le, mul_lt_mul_of_pos_left this ht]
      · left
        have := hy.resolve_right hyy
        simp only [Prod.fst_add, Prod.snd_add, Prod.smul_fst, Prod.smul_snd, smul_eq_mul]
        have hcc : s * c + t * c = c := by rw [← add_mul, hst, one_mul]
        nlinarith [mul_lt_mul_of_pos_left this hs, mul_le_mul_of_nonneg_left hz' ht.le]
    refine convexHull_min ?_ hc
    intro y hy
    obtain ⟨j, hj, rfl⟩ := List.getElem_of_mem hy
    by_cases hji : j = i
    · right
      subst hji
      rfl
    · left
      have := h2 j hj hji
      simpa [hj] using this
  have hv : w ∈ convexHull ℝ {v | v ∈ l'} := hh'.contains _ hw
  by_contra hno
  have hc : convexHull ℝ {v | v ∈ l'} ⊆ {y : ℝ × ℝ | a * (f y).1 + b * (f y).2 < c} := by
    refine convexHull_min ?_ ?_
    · intro y hy
      refine (hside (f y) (hh.contains _ ((he _).2 (List.mem_map_of_mem (hh'.sub _ hy))))).resolve_right ?_
      intro h
      rw [← hwx] at h
      exact hno (sim_injective hf h ▸ hy)
    · intro y hy z hz s t hs ht hst
      simp only [Set.mem_ofPred_eq] at hy hz ⊢
      rw [sim_combine hf y z hst]
      simp only [Prod.fst_add, Prod.snd_add, Prod.smul_fst, Prod.smul_snd, smul_eq_mul]
      rcases eq_or_lt_of_le hs with rfl | hs
      · have : t = 1 := by linarith
        subst this
        linarith
      · have hcc : s * c + t * c = c := by rw [← add_mul, hst, one_mul]
        nlinarith [mul_lt_mul_of_pos_left hy hs, mul_le_mul_of_nonneg_left hz.le ht]
  have := hc hv
  simp only [Set.mem_ofPred_eq] at this
  rw [hwx] at this
  linarith

theorem circle_moved {s : ℝ} {f : ℝ × ℝ → ℝ × ℝ} (hf : IsSimilarity s f) (hasNumba hasNumba' : Bool)
    (rounds rounds' : ℕ) (hull hull' events events' : List (ℝ × ℝ)) (hh : IsHullOf hull events) (hh' : IsHullOf hull' events')
    (he : ∀ e, e ∈ events' ↔ e ∈ events.map f)
    (hs : ∀ x ∈ hull, ∀ y ∈ hull, ∀ z ∈ hull, x ≠ y → y ≠ z → x ≠ z → SpreadOut x y z)
    (hr : hull.length - 1 ≤ rounds) (hr' : hull'.length - 1 ≤ rounds') :
    ∃ centre radius, minimumBoundingCircle hasNumba rounds hull = some (.ok (centre, radius)) ∧
      minimumBoundingCircle hasNumba' rounds' hull' = some (.ok (f centre, s * radius)) := by
  have hsub := fun x (hx : x ∈ hull') => hull_vertex_mem hf hh hh' he hx
  obtain ⟨c, ρ, h1, h2⟩ := C33_smallest_circle_partial hasNumba rounds hull events hh hs hr
  obtain ⟨c', ρ', h1', h2'⟩ := C33_smallest_circle_partial hasNumba' rounds' hull' events' hh' (by
    intro x hx y hy z hz
    obtain ⟨x, mx, rfl⟩ := hsub x hx
    obtain ⟨y, my, rfl⟩ := hsub y hy
    obtain ⟨z, mz, rfl⟩ := hsub z hz
    intro n1 n2 n3
    exact sim_spreadOut hf (hs x mx y my z mz (fun h => n1 (h ▸ rfl)) (fun h => n2 (h ▸ rfl)) (fun h => n3 (h ▸ rfl)))) hr'
  have hne : events' ≠ [] := by
    have := hh'.three
    obtain ⟨a, t, rfl⟩ := List.exists_cons_of_ne_nil (l := hull') (by rintro rfl; simp at this)
    exact List.ne_nil_of_mem (hh'.sub a (by simp))
  obtain ⟨rfl, rfl⟩ := smallestDisc_unique hne (smallestDisc_set (sim_smallestDisc hf h2) fun e => (he e).symm) h2'
  exact ⟨c, ρ, h1, h1'⟩

/-- **C130.** The circle depends only on which places have events: not on the order of the events, on how often a place has
an event, on where the ring of hull vertices begins, and not on whether numba is installed. -/
theorem C130_order_partial (hasNumba hasNumba' : Bool) (rounds rounds' : ℕ) (hull hull' events events' : List (ℝ × ℝ))
    (hh : IsHullOf hull events) (hh' : IsHullOf hull' events') (he : ∀ e, e ∈ events ↔ e ∈ events')
    (hs : ∀ x ∈ hull, ∀ y ∈ hull, ∀ z ∈ hull, x ≠ y → y ≠ z → x ≠ z → SpreadOut x y z)
    (hr : hull.length - 1 ≤ rounds) (hr' : hull'.length - 1 ≤ rounds') :
    minimumBoundingCircle hasNumba rounds hull = minimumBoundingCircle hasNumba' rounds' hull' := by
  obtain ⟨c, ρ, h1, h2⟩ := circle_moved id_isSimilarity hasNumba hasNumba' rounds rounds' hull hull' events events' hh hh'
    (fun e => by rw [List.map_id]; exact (he e).symm) hs hr hr'
  rw [h1, h2, one_mul]
  rfl

/-- **C130.** Turned, reflected, moved and in another unit: the centre moves along and the radius is in the new unit. -/
theorem C130_similarity_partial {s : ℝ} {f : ℝ × ℝ → ℝ × ℝ} (hf : IsSimilarity s f) (hasNumba hasNumba' : Bool)
    (rounds rounds' : ℕ) (hull hull' events : List (ℝ × ℝ)) (hh : IsHullOf hull events) (hh' : IsHullOf hull' (events.map f))
    (hs : ∀ x ∈ hull, ∀ y ∈ hull, ∀ z ∈ hull, x ≠ y → y ≠ z → x ≠ z → SpreadOut x y z)
    (hr : hull.length - 1 ≤ rounds) (hr' : hull'.length - 1 ≤ rounds') :
    ∃ centre radius, minimumBoundingCircle hasNumba rounds hull = some (.ok (centre, radius)) ∧
      minimumBoundingCircle hasNumba' rounds' hull' = some (.ok (f centre, s * radius)) :=
  circle_moved hf hasNumba hasNumba' rounds rounds' hull hull' events _ hh hh' (fun _ => Iff.rfl) hs hr hr'

/-! ### Every ring of vertices, also one with vertices nearly on a line -/

open Circ

theorem sim_dotAt {r : ℝ} {f : ℝ × ℝ → ℝ × ℝ} (hf : IsSimilarity r f) (q x z : ℝ × ℝ) :
    dotAt (f q) (f x) (f z) = r ^ 2 * dotAt q x z := by
  have polar : ∀ q x z : ℝ × ℝ, dotAt q x z = (planeSqDist q x + planeSqDist q z - planeSqDist x z) / 2 := by
    intro q x z
    unfold dotAt planeSqDist
    ring
  rw [polar, polar, sim_planeSqDist hf, sim_planeSqDist hf, sim_planeSqDist hf]
  ring

theorem sqrt_moved {r : ℝ} {f : ℝ × ℝ → ℝ × ℝ} (hf : IsSimilarity r f) (p q : ℝ × ℝ) :
    Real.sqrt (planeSqDist (f p) (f q)) = r * Real.sqrt (planeSqDist p q) := by
  rw [sim_planeSqDist hf, Real.sqrt_mul (by positivity), Real.sqrt_sq hf.pos.le]

theorem sim_angle {r : ℝ} {f : ℝ × ℝ → ℝ × ℝ} (hf : IsSimilarity r f) (p q z : ℝ × ℝ) :
    angle (f p) (f q) (f z) = angle p q z := by
  have hr := hf.pos
  rw [angle_eq, angle_eq, sim_dotAt hf, sqrt_moved hf, sqrt_moved hf,
    show r * Real.sqrt (planeSqDist q p) * (r * Real.sqrt (planeSqDist q z)) =
      r ^ 2 * (Real.sqrt (planeSqDist q p) * Real.sqrt (planeSqDist q z)) by ring, mul_div_mul_left _ _ (by positivity)]

theorem sim_half {r : ℝ} {f : ℝ × ℝ → ℝ × ℝ} (hf : IsSimilarity r f) (p q : ℝ × ℝ) :
    f ((p.1 + q.1) / 2, (p.2 + q.2) / 2) = (((f p).1 + (f q).1) / 2, ((f p).2 + (f q).2) / 2) := by
  have h := sim_combine hf p q (s := 1 / 2) (t := 1 / 2) (by norm_num)
  have e1 : ((p.1 + q.1) / 2, (p.2 + q.2) / 2) = (1 / 2 : ℝ) • p + (1 / 2 : ℝ) • q := by
    ext <;> simp <;> ring
  rw [e1, h]
  ext <;> simp <;> ring

theorem euclid_eq (p q : ℝ × ℝ) : euclideanDistance p.1 p.2 q.1 q.2 = Real.sqrt (planeSqDist p q) := rfl

theorem cc_unique {x y z c : ℝ × ℝ} (h : clockwiseTurn x y z ≠ 0) (h1 : planeSqDist c x = planeSqDist c y)
    (h2 : planeSqDist c x = planeSqDist c z) : c = cc x y z := by
  unfold planeSqDist at h1 h2
  have h' : -2 * clockwiseTurn x y z ≠ 0 := mul_ne_zero (by norm_num) h
  unfold cc
  refine Prod.ext ?_ ?_
  · simp only
    rw [eq_div_iff h']
    unfold clockwiseTurn
    linear_combination (z.2 - x.2) * h1 + (x.2 - y.2) * h2
  · simp only
    rw [eq_div_iff h']
    unfold clockwiseTurn
    linear_combination (x.1 - z.1) * h1 + (y.1 - x.1) * h2

theorem circle_cases {p q z : ℝ × ℝ} (h1 : p ≠ q) (h2 : z ≠ q) :
    circle p q z = if |angle p q z - Real.pi| < 1 / 100000 then
        (Real.sqrt (planeSqDist p z) / 2, (p.1 + z.1) / 2, (p.2 + z.2) / 2)
      else if angle p q z < 1 / 100000 then (Real.sqrt (planeSqDist p q) / 2, (p.1 + q.1) / 2, (p.2 + q.2) / 2)
      else (Real.sqrt (planeSqDist (cc p q z) p), cc p q z) := by
  have ha := abs_of_nonneg (angle_nonneg p q z)
  by_cases c1 : |angle p q z - Real.pi| < 1 / 100000
  · simp only [circle, ha, if_pos c1, euclid_eq]
  · by_cases c2 : angle p q z < 1 / 100000
    · simp only [circle, ha, if_neg c1, if_pos c2, euclid_eq]
    · have hn : NotFlat p q z := by
        refine ⟨not_lt.1 c2, ?_⟩
        rw [abs_of_nonpos (by linarith [angle_le_pi p q z])] at c1
        linarith
      rw [circle_eq hn h1 h2, if_neg c1, if_neg c2, sq_cc (hn.turn h1 h2)]

theorem sim_circle {r : ℝ} {f : ℝ × ℝ → ℝ × ℝ} (hf : IsSimilarity r f) {p q z : ℝ × ℝ} (h1 : p ≠ q) (h2 : z ≠ q) :
    circle (f p) (f q) (f z) = (r * (circle p q z).1, f (circle p q z).2) := by
  have hi := sim_injective hf
  rw [circle_cases h1 h2, circle_cases (hi.ne h1) (hi.ne h2), sim_angle hf]
  by_cases c1 : |angle p q z - Real.pi| < 1 / 100000
  · simp only [if_pos c1]
    rw [sqrt_moved hf, ← sim_half hf, mul_div_assoc]
  · by_cases c2 : angle p q z < 1 / 100000
    · simp only [if_neg c1, if_pos c2]
      rw [sqrt_moved hf, ← sim_half hf, mul_div_assoc]
    · simp only [if_neg c1, if_neg c2]
      have hn : NotFlat p q z := by
        refine ⟨not_lt.1 c2, ?_⟩
        rw [abs_of_nonpos (by linarith [angle_le_pi p q z])] at c1
        linarith
      have ht := hn.turn h1 h2
      have ht' : clockwiseTurn (f p) (f q) (f z) ≠ 0 := by
        have := sim_turn_sq hf p q z
        intro h0
        rw [h0] at this
        have h3 : 0 < (r ^ 2) ^ 2 * clockwiseTurn p q z ^ 2 := by have := hf.pos; positivity
        rw [← this] at h3
        simp at h3
      obtain ⟨e1, e2, e3⟩ := on_circle ht
      have hcc : f (cc p q z) = cc (f p) (f q) (f z) := by
        refine cc_unique ht' ?_ ?_
        · rw [sim_planeSqDist hf, sim_planeSqDist hf, e1, e2]
        · rw [sim_planeSqDist hf, sim_planeSqDist hf, e1, e3]
      rw [← hcc, sqrt_moved hf]

theorem getD_map_pt {f : ℝ × ℝ → ℝ × ℝ} {l : List (ℝ × ℝ)} {i : ℕ} (hi : i < l.length) :
    (l.map f).getD i (0, 0) = f (l.getD i (0, 0)) := by
  simp [List.getD_eq_getElem?_getD, hi]

theorem getD_inj {l : List (ℝ × ℝ)} (hl : l.Nodup) {i j : ℕ} (hi : i < l.length) (hj : j < l.length) (h : i ≠ j) :
    l.getD i (0, 0) ≠ l.getD j (0, 0) := by
  intro he
  apply h
  rw [← idxOf_getD hl hi, he, idxOf_getD hl hj]

theorem angleAt_moved {r : ℝ} {f : ℝ × ℝ → ℝ × ℝ} (hf : IsSimilarity r f) {l : List (ℝ × ℝ)} {i : ℕ} (hi : i < l.length) :
    angleAt (l.map f) i = angleAt l i := by
  unfold angleAt
  rw [List.length_map, getD_map_pt (prv_lt hi), getD_map_pt hi, getD_map_pt (nxt_lt hi), sim_angle hf]

theorem circleAt_moved {r : ℝ} {f : ℝ × ℝ → ℝ × ℝ} (hf : IsSimilarity r f) {l : List (ℝ × ℝ)} (hl : l.Nodup)
    (h2 : 2 ≤ l.length) {i : ℕ} (hi : i < l.length) :
    circleAt (l.map f) i = (r * (circleAt l i).1, f (circleAt l i).2) := by
  unfold circleAt
  rw [List.length_map, getD_map_pt (prv_lt hi), getD_map_pt hi, getD_map_pt (nxt_lt hi), sim_circle hf]
  · exact getD_inj hl (prv_lt hi) hi (by unfold prv; split_ifs <;> omega)
  · exact getD_inj hl (nxt_lt hi) hi (by unfold nxt; split_ifs <;> omega)

theorem angles_moved {r : ℝ} {f : ℝ × ℝ → ℝ × ℝ} (hf : IsSimilarity r f) (l : List (ℝ × ℝ)) :
    (List.range (l.map f).length).map (angleAt (l.map f)) = (List.range l.length).map (angleAt l) := by
  rw [List.length_map]
  exact List.map_congr_left fun i hi => angleAt_moved hf (List.mem_range.1 hi)

theorem radii_moved {r : ℝ} {f : ℝ × ℝ → ℝ × ℝ} (hf : IsSimilarity r f) {l : List (ℝ × ℝ)} (hl : l.Nodup) (h2 : 2 ≤ l.length) :
    ((List.range (l.map f).length).map fun i => (circleAt (l.map f) i).1) =
      ((List.range l.length).map fun i => (circleAt l i).1).map (r * ·) := by
  rw [List.length_map, List.map_map]
  exact List.map_congr_left fun i hi => by rw [circleAt_moved hf hl h2 (List.mem_range.1 hi)]; rfl

theorem getD_mul (r : ℝ) (R : List ℝ) (i : ℕ) : (R.map (r * ·)).getD i 0 = r * R.getD i 0 := by
  by_cases h : i < R.length
  · simp [List.getD_eq_getElem?_getD, h]
  · simp [List.getD_eq_getElem?_getD, not_lt.1 h]

theorem lexsortLast_mul {r : ℝ} (hr : 0 < r) (A R : List ℝ) : lexsortLast A (R.map (r * ·)) = lexsortLast A R := by
  unfold lexsortLast
  simp only [getD_mul, List.length_map, mul_lt_mul_iff_right₀ hr, mul_right_inj' hr.ne']

theorem idxOf_mul {r : ℝ} (hr : 0 < r) (x : ℝ) (l : List ℝ) : (l.map (r * ·)).idxOf (r * x) = l.idxOf x := by
  induction l with
  | nil => rfl
  | cons a l ih =>
    simp only [List.map_cons, List.idxOf_cons, ih]
    by_cases h : a = x
    · simp [h]
    · have h' : (r * a == r * x) = false := by simpa [hr.ne'] using h
      have h'' : (a == x) = false := by simpa using h
      rw [h', h'']

theorem argmax_mul {r : ℝ} (hr : 0 < r) (l : List ℝ) : argmax (l.map (r * ·)) = argmax l := by
  cases l with
  | nil => rfl
  | cons a l =>
    have h := DistMotion.listMax_scale hr a l
    have hi := idxOf_mul hr (listMax a l) (a :: l)
    simp only [argmax, List.map_cons] at hi ⊢
    rw [h, hi]

theorem pickLists_moved {r : ℝ} {f : ℝ × ℝ → ℝ × ℝ} (hf : IsSimilarity r f) {l : List (ℝ × ℝ)} (hl : l.Nodup)
    (h2 : 2 ≤ l.length) : pickLists (l.map f) = pickLists l := by
  unfold pickLists
  rw [angles_moved hf, radii_moved hf hl h2, lexsortLast_mul hf.pos]

theorem pickNumba_moved {r : ℝ} {f : ℝ × ℝ → ℝ × ℝ} (hf : IsSimilarity r f) {l : List (ℝ × ℝ)} (hl : l.Nodup)
    (h2 : 2 ≤ l.length) : pickNumba (l.map f) = pickNumba l := by
  unfold pickNumba
  simp only
  rw [angles_moved hf, radii_moved hf hl h2, argmax_mul hf.pos, getD_mul]
  rw [List.zipWith_map_right]
  simp only [mul_right_inj' hf.pos.ne']

theorem loop_moved {r : ℝ} {f : ℝ × ℝ → ℝ × ℝ} (hf : IsSimilarity r f) {pick : List Pt → ℕ}
    (hp : ∀ l, l ≠ [] → pick l < l.length) (hpf : ∀ l : List Pt, l.Nodup → 2 ≤ l.length → pick (l.map f) = pick l)
    (k : ℕ) (l : List (ℝ × ℝ)) (hl : l.Nodup) (h2 : 2 ≤ l.length) :
    loop pick k (l.map f) = (loop pick k l).map fun t => (t.1, t.2.1.map f, t.2.2.map f) := by
  induction k generalizing l with
  | zero => rfl
  | succ k ih =>
    have hi := hp l (by rintro rfl; simp at h2)
    unfold loop
    rw [hpf l hl h2, angleAt_moved hf hi]
    split_ifs with h
    · rfl
    · have h3 := three_of_not_le hl h2 hi h
      rw [List.eraseIdx_map, ih _ (nodup_eraseIdx hl _) (by rw [length_erase hi]; omega), Option.map_map, Option.map_map,
        getD_map_pt hi]
      rfl

/-- Twice the signed area of a path, after a rotation, a change of unit and a translation. -/
theorem edgeSum_turn (r ρ a b : ℝ) (x : ℝ × ℝ) (l : List (ℝ × ℝ)) :
    edgeSum ((x :: l).map (turn r ρ a b)) = r ^ 2 * edgeSum (x :: l) +
      ((a * (turn r ρ a b (l.getLastD x)).2 - b * (turn r ρ a b (l.getLastD x)).1) -
        (a * (turn r ρ a b x).2 - b * (turn r ρ a b x).1)) := by
  induction l generalizing x with
  | nil => simp [edgeSum]
  | cons y l ih =>
    have h := ih y
    simp only [List.map_cons, edgeSum] at h ⊢
    rw [h]
    have hl : (y :: l).getLastD x = l.getLastD y := by cases l <;> rfl
    rw [hl]
    have hcs := Real.sin_sq_add_cos_sq ρ
    simp only [turn]
    linear_combination r ^ 2 * (x.1 * y.2 - x.2 * y.1) * hcs

theorem isClockwise_turn {r : ℝ} (hr : 0 < r) (ρ a b : ℝ) (l : List (ℝ × ℝ)) :
    isClockwise (l.map (turn r ρ a b)) = isClockwise l := by
  unfold isClockwise
  rw [List.length_map]
  split_ifs with h
  · rfl
  · obtain ⟨x, t, rfl⟩ := List.exists_cons_of_ne_nil (l := l) (by rintro rfl; simp at h)
    have e : (x :: t).map (turn r ρ a b) ++ ((x :: t).map (turn r ρ a b)).take 1 = (x :: (t ++ [x])).map (turn r ρ a b) := by
      simp
    have hl : (t ++ [x]).getLastD x = x := by simp [List.getLastD_eq_getLast?]
    rw [e, edgeSum_turn, hl, sub_self, add_zero]
    have : (x :: t) ++ (x :: t).take 1 = x :: (t ++ [x]) := by simp
    rw [this]
    congr 1
    rw [eq_iff_iff]
    have := pow_pos hr 2
    constructor
    · intro h; nlinarith
    · intro h; nlinarith

/-- **C130**, for every ring of different vertices, also if some are nearly on a line, convex or not, and also for a loop that
is still running: after a rotation, a change of unit and a translation of the ring the call does the same, with the centre moved
along and the radius in the new unit. -/
theorem C130_turned {r : ℝ} (hr : 0 < r) (ρ a b : ℝ) (hasNumba : Bool) (rounds : ℕ) (hull : List (ℝ × ℝ)) (hd : hull.Nodup)
    (h2 : 2 ≤ hull.length) :
    minimumBoundingCircle hasNumba rounds (hull.map (turn r ρ a b)) =
      (minimumBoundingCircle hasNumba rounds hull).map fun answer => answer.map fun c => (turn r ρ a b c.1, r * c.2) := by
  have hf := turn_isSimilarity hr ρ a b
  have hinj := sim_injective hf
  have main : ∀ l : List (ℝ × ℝ), l.Nodup → 2 ≤ l.length →
      (if hasNumba then
        (skyumNumba rounds (l.map (turn r ρ a b))).map fun r => r.map fun x => ((x.1.2.1, x.1.2.2), x.1.1)
      else (skyumLists rounds 0 (l.map (turn r ρ a b)) []).map fun r => r.map fun x => ((x.circle.2.1, x.circle.2.2), x.circle.1)) =
      (if hasNumba then (skyumNumba rounds l).map fun r => r.map fun x => ((x.1.2.1, x.1.2.2), x.1.1)
      else (skyumLists rounds 0 l []).map fun r => r.map fun x => ((x.circle.2.1, x.circle.2.2), x.circle.1)).map
        fun answer => answer.map fun c => (turn r ρ a b c.1, r * c.2) := by
    intro l hl h2
    have hl' : (l.map (turn r ρ a b)).Nodup := hl.map hinj
    have h2' : 2 ≤ (l.map (turn r ρ a b)).length := by rwa [List.length_map]
    cases hasNumba with
    | true =>
      have hp : ∀ l : List Pt, l ≠ [] → pickNumba l < l.length := fun l hne => (skyumIteration_eq hne).1
      simp only [if_true]
      rw [skyumNumba_loop _ _ hl' h2', skyumNumba_loop _ _ hl h2,
        loop_moved hf hp (fun l hl h2 => pickNumba_moved hf hl h2) rounds l hl h2]
      cases hloop : loop pickNumba rounds l with
      | none => rfl
      | some t =>
        obtain ⟨i1, i2, -, -, i5⟩ := loop_perm hp rounds l hl h2 (m := t.1) (pts := t.2.1) (rm := t.2.2) hloop
        simp only [Option.map_some, Except.map, circleAt_moved hf i5 i2 i1]
    | false =>
      have hp : ∀ l : List Pt, l ≠ [] → pickLists l < l.length := fun l hne => (pickLists_spec hne).2.1
      simp only [Bool.false_eq_true, if_false]
      rw [skyumLists_loop _ _ _ _ hl' h2', skyumLists_loop _ _ _ _ hl h2,
        loop_moved hf hp (fun l hl h2 => pickLists_moved hf hl h2) rounds l hl h2]
      cases hloop : loop pickLists rounds l with
      | none => rfl
      | some t =>
        obtain ⟨i1, i2, -, -, i5⟩ := loop_perm hp rounds l hl h2 (m := t.1) (pts := t.2.1) (rm := t.2.2) hloop
        simp only [Option.map_some, Except.map, circleAt_moved hf i5 i2 i1]
  unfold minimumBoundingCircle
  simp only [isClockwise_turn hr, ← List.map_reverse]
  by_cases hc : isClockwise hull = true
  · simp only [hc, if_true, isClockwise_turn hr, Bool.true_eq_false, if_false]
    exact main hull hd h2
  · simp only [hc, if_false, Bool.false_eq_true, isClockwise_turn hr]
    by_cases hc' : isClockwise hull.reverse = false
    · rw [if_pos hc', if_pos hc']
      rfl
    · rw [if_neg hc', if_neg hc']
      exact main hull.reverse (List.nodup_reverse.2 hd) (by rwa [List.length_reverse])

/-- The quadrilateral with an event inside and its mirror image, with a hull that begins at another vertex. -/
example : IsSimilarity 3 (turn 3 (Real.pi / 2) 1 2) ∧ IsSimilarity 1 mirror ∧
    IsHullOf [(4, -4), (4, 0), (0, 0), (0, -3)] ([(1, 1), (0, 0), (4, 0), (4, 4), (0, 3)].map mirror) := by
  refine ⟨turn_isSimilarity (by norm_num) _ _ _, mirror_isSimilarity, by simp, ?_, ?_, ?_⟩
  · intro v hv
    simp only [List.mem_cons, List.not_mem_nil, or_false] at hv
    rcases hv with rfl | rfl | rfl | rfl <;> simp [mirror]
  · intro i j k hij hjk hk
    simp only [List.length_cons, List.length_nil] at hk
    have : i ≤ 1 := by omega
    have : j ≤ 2 := by omega
    have : k ≤ 3 := by omega
    interval_cases i <;> interval_cases j <;> interval_cases k <;> first | omega | norm_num [clockwiseTurn]
  · intro e he
    simp only [mirror, List.map_cons, List.map_nil, List.mem_cons, List.not_mem_nil, or_false, neg_zero] at he
    rcases he with rfl | rfl | rfl | rfl | rfl
    · refine segment_subset_convexHull (x := (0, 0)) (y := (4, -4)) (by simp) (by simp) ?_
      exact ⟨3 / 4, 1 / 4, by norm_num, by norm_num, by norm_num, by ext <;> norm_num⟩
    all_goals exact subset_convexHull ℝ _ (by simp)

/-! ### The rotated rectangle -/

open Centrography

/-- **C130.** If the rectangle is turned by `ρ`, moved and given in another unit, its corners are returned moved along and its
angle grows by `ρ`, modulo a right angle. -/
theorem C130_rectangle_turned {r : ℝ} (hr : 0 < r) (ρ x y : ℝ) (a b c d : ℝ × ℝ) (h : IsRectangle a b c d) :
    ∃ angle angle', rotatedRectangle [a, b, c, d, a] = .ok ([d, c, b, a], angle) ∧
      rotatedRectangle ([a, b, c, d, a].map (turn r ρ x y)) = .ok ([d, c, b, a].map (turn r ρ x y), angle') ∧
      0 ≤ angle' ∧ angle' < 90 ∧ ∃ k : ℤ, angle' = angle + ρ * (180 / Real.pi) - 90 * k := by
  obtain ⟨-, -, k, hx, hy⟩ := mrr_spec a b
  have hab := h.1
  have hpi := Real.pi_ne_zero
  have hd : eucl a b ≠ 0 := by
    intro h0
    rw [h0, zero_mul, sub_eq_zero] at hx hy
    exact hab (Prod.ext hx.symm hy.symm)
  set t := getMrrAngle a b with ht
  set m : ℤ := ⌊(t + ρ * (180 / Real.pi)) / 90⌋ with hm
  have hb := mod90 (t + ρ * (180 / Real.pi))
  have e : (t + ρ * (180 / Real.pi) - 90 * (m : ℝ)) * (Real.pi / 180) + ((k + m : ℤ) : ℝ) * (Real.pi / 2) =
      (t * (Real.pi / 180) + k * (Real.pi / 2)) + ρ := by
    push_cast
    field_simp
    ring
  have hang := mrr_unique (turn r ρ x y a) (turn r ρ x y b) ((sim_injective (turn_isSimilarity hr ρ x y)).ne hab)
    (t + ρ * (180 / Real.pi) - 90 * m) hb (r * eucl a b) (mul_ne_zero hr.ne' hd) (k + m) (by
      rw [e, Real.cos_add]
      simp only [turn]
      linear_combination r * Real.cos ρ * hx - r * Real.sin ρ * hy) (by
      rw [e, Real.sin_add]
      simp only [turn]
      linear_combination r * Real.sin ρ * hx + r * Real.cos ρ * hy)
  exact ⟨t, _, rfl, rfl, by rw [hang]; exact hb.1, by rw [hang]; exact hb.2, m, hang⟩

/-- **C130.** If the rectangle is reflected in the x axis, the angle changes its sign, modulo a right angle. -/
theorem C130_rectangle_mirrored (a b c d : ℝ × ℝ) (h : IsRectangle a b c d) :
    ∃ angle angle', rotatedRectangle [a, b, c, d, a] = .ok ([d, c, b, a], angle) ∧
      rotatedRectangle ([a, b, c, d, a].map mirror) = .ok ([d, c, b, a].map mirror, angle') ∧
      0 ≤ angle' ∧ angle' < 90 ∧ ∃ k : ℤ, angle' = -angle - 90 * k := by
  obtain ⟨-, -, k, hx, hy⟩ := mrr_spec a b
  have hab := h.1
  have hd : eucl a b ≠ 0 := by
    intro h0
    rw [h0, zero_mul, sub_eq_zero] at hx hy
    exact hab (Prod.ext hx.symm hy.symm)
  set t := getMrrAngle a b with ht
  set m : ℤ := ⌊(-t) / 90⌋ with hm
  have hb := mod90 (-t)
  have e : (-t - 90 * (m : ℝ)) * (Real.pi / 180) + ((m - k : ℤ) : ℝ) * (Real.pi / 2) =
      -(t * (Real.pi / 180) + k * (Real.pi / 2)) := by
    push_cast
    ring
  have hang := mrr_unique (mirror a) (mirror b) ((sim_injective mirror_isSimilarity).ne hab)
    (-t - 90 * m) hb (eucl a b) hd (m - k) (by
      rw [e, Real.cos_neg]
      simp only [mirror]
      exact hx) (by
      rw [e, Real.sin_neg]
      simp only [mirror]
      linear_combination -hy)
  exact ⟨t, _, rfl, rfl, by rw [hang]; exact hb.1, by rw [hang]; exact hb.2, m, hang⟩

example : IsRectangle (0, 0) (3, 4) (-5, 10) (-8, 6) := by
  unfold IsRectangle
  norm_num

end Pointpats.Props
