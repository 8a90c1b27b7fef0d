import Verif.Lemmas.Motion
import Verif.Props.Regions
import Mathlib.Data.Rat.Floor

/-!
# C124: quadrat counts and the quadrat test in other units, from another origin, in another order
-/

namespace Pointpats.Props

set_option linter.unusedSectionVars false

open Spec Quadrat Random Geometry Motion

variable {K : Type} [Field K] [LinearOrder K] [IsStrictOrderedRing K] [FloorRing K]

/-- **C124, rectangles.** The counts of a grid of rectangles, and the exception if there is one, are the same when the points
and the cell size are given in other units and the points from another origin. -/
theorem C124_rectangles {s t : K} (hs : 0 < s) (ht : 0 < t) (a b : K) (points : List (K × K)) (nx ny : ℤ) (w h : K) :
    ((RectangleM.init (points.map (rescale s t a b)) nx ny (s * w) (t * h)).bind fun m => m.pointLocationSta)
      = (RectangleM.init points nx ny w h).bind fun m => m.pointLocationSta := by
  have key := rect_counts_rescale hs ht a b points nx ny w h (1 : K)
  simp only [gridCounts, rescaleGrid] at key
  have hfst := congrArg (Except.map Prod.fst) key
  revert hfst
  clear key
  generalize RectangleM.init (points.map (rescale s t a b)) nx ny (s * w) (t * h) = r1
  generalize RectangleM.init points nx ny w h = r2
  intro hfst
  cases r1 with
  | error e =>
    cases r2 with
    | error e' => simpa [Except.map, bind, Except.bind] using hfst
    | ok m =>
      simp only [Except.map, bind, Except.bind, pure, Except.pure] at hfst ⊢
      cases hm : m.pointLocationSta <;> simp [hm] at hfst ⊢
      exact hfst
  | ok m' =>
    cases r2 with
    | error e' =>
      simp only [Except.map, bind, Except.bind, pure, Except.pure] at hfst ⊢
      cases hm : m'.pointLocationSta <;> simp [hm] at hfst ⊢
      exact hfst
    | ok m =>
      simp only [Except.map, bind, Except.bind, pure, Except.pure] at hfst ⊢
      cases hm : m.pointLocationSta <;> cases hm' : m'.pointLocationSta <;> simp [hm, hm'] at hfst ⊢ <;> exact hfst

/-- **C124, hexagons.** The counts of a grid of hexagons, and the exception if there is one, are the same when the points and
the side of the hexagons are given in another unit and the points from another origin. -/
theorem C124_hexagons {s : K} (hs : 0 < s) (a b : K) (cos30 : K) (points : List (K × K)) (lh : K) :
    ((HexagonM.init cos30 (points.map (rescale s s a b)) (s * lh)).bind fun m => m.pointLocationSta)
      = (HexagonM.init cos30 points lh).bind fun m => m.pointLocationSta := by
  have key := hex_counts_rescale hs a b points lh cos30
  simp only [gridCounts, rescaleGrid] at key
  have hfst := congrArg (Except.map Prod.fst) key
  revert hfst
  clear key
  generalize HexagonM.init cos30 (points.map (rescale s s a b)) (s * lh) = r1
  generalize HexagonM.init cos30 points lh = r2
  intro hfst
  cases r1 with
  | error e =>
    cases r2 with
    | error e' => simpa [Except.map, bind, Except.bind] using hfst
    | ok m =>
      simp only [Except.map, bind, Except.bind, pure, Except.pure] at hfst ⊢
      cases hm : m.pointLocationSta <;> simp [hm] at hfst ⊢
      exact hfst
  | ok m' =>
    cases r2 with
    | error e' =>
      simp only [Except.map, bind, Except.bind, pure, Except.pure] at hfst ⊢
      cases hm : m'.pointLocationSta <;> simp [hm] at hfst ⊢
      exact hfst
    | ok m =>
      simp only [Except.map, bind, Except.bind, pure, Except.pure] at hfst ⊢
      cases hm : m.pointLocationSta <;> cases hm' : m'.pointLocationSta <;> simp [hm, hm'] at hfst ⊢ <;> exact hfst

/-! ### The quadrat test -/

/-- The array with every point moved. -/
def mapSqueezed (f : K × K → K × K) : Squeezed K → Squeezed K
  | .point p => .point (f p)
  | .rows l => .rows (l.map f)
  | .cube n l => .cube n (l.map (List.map f))

theorem rejection_map (f : K × K → K × K) (cand cand' : ℕ → K × K) (accept accept' : K × K → Bool)
    (hc : ∀ pos, cand' pos = f (cand pos)) (ha : ∀ p, accept' (f p) = accept p) (fuel pos n : ℕ) :
    rejection cand' accept' fuel pos n
      = (rejection cand accept fuel pos n).andThen fun l pos => Run.ret (l.map f) pos := by
  induction fuel generalizing pos n with
  | zero => cases n <;> simp [rejection, Run.andThen, Run.ret]
  | succ fuel ih =>
    cases n with
    | zero => simp [rejection, Run.andThen, Run.ret]
    | succ n =>
      rw [rejection, rejection]
      simp only [hc, ha]
      split
      · rw [ih]
        rcases rejection cand accept fuel (pos + 2) n with _ | (_ | ⟨l, q⟩) <;> rfl
      · rw [ih]

theorem replications_map {α β : Type} (g : α → β) (body : ℕ → ℕ → Run α) (body' : ℕ → ℕ → Run β)
    (hb : ∀ i pos, body' i pos = (body i pos).andThen fun x pos => Run.ret (g x) pos) (i s pos : ℕ) :
    replications body' i s pos = (replications body i s pos).andThen fun l pos => Run.ret (l.map g) pos := by
  induction s generalizing i pos with
  | zero => rfl
  | succ s ih =>
    rw [replications, replications, hb]
    rcases body i pos with _ | (_ | ⟨x, q⟩)
    · rfl
    · rfl
    · simp only [Run.andThen, Run.ret]
      rw [ih]
      rcases replications body (i + 1) s q with _ | (_ | ⟨l, q'⟩) <;> rfl

theorem poissonReps_rescale {s t a b : K} {w w' : Hull K} (hw : RescaledWindow s t a b w w') (u : ℕ → K) (n k fuel pos : ℕ) :
    poissonReps w' u n k fuel pos
      = (poissonReps w u n k fuel pos).andThen fun l pos => Run.ret (l.map (List.map (rescale s t a b))) pos := by
  refine replications_map _ _ _ (fun _ pos => rejection_map (rescale s t a b) _ _ _ _ ?_ ?_ _ _ _) _ _ _
  · intro pos
    have hl := Prod.ext_iff.1 hw.lower
    have hu := Prod.ext_iff.1 hw.upper
    simp only [rescale] at hl hu
    simp only [boxCandidate, uniform, hl.1, hl.2, hu.1, hu.2, rescale]
    congr 1 <;> ring
  · exact hw.inside

theorem squeeze_map (f : K × K → K × K) (s n : ℕ) (reps : List (List (K × K))) (hf : s = 1 → n = 1 → reps.flatten ≠ []) :
    squeeze s n (reps.map (List.map f)) = mapSqueezed f (squeeze s n reps) := by
  have e : (reps.map (List.map f)).flatten = reps.flatten.map f := by
    rw [List.map_flatten]
  unfold squeeze
  by_cases hs : s = 1
  · by_cases hn : n = 1
    · have := hf hs hn
      simp only [hs, hn, if_true, mapSqueezed, e]
      cases h : reps.flatten with
      | nil => exact absurd h this
      | cons p l => simp
    · rw [if_pos hs, if_pos hs, if_neg hn, if_neg hn, e]
      rfl
  · by_cases hn : n = 1
    · rw [if_neg hs, if_neg hs, if_pos hn, if_pos hn, e]
      rfl
    · rw [if_neg hs, if_neg hs, if_neg hn, if_neg hn]
      rfl

theorem rejection_length (cand : ℕ → K × K) (accept : K × K → Bool) (fuel pos n : ℕ) {l : List (K × K)} {q : ℕ}
    (h : rejection cand accept fuel pos n = some (.ok (l, q))) : l.length = n := by
  induction fuel generalizing pos n l q with
  | zero => cases n <;> simp [rejection, Run.ret] at h; simp [h.1.symm]
  | succ fuel ih =>
    cases n with
    | zero => simp [rejection, Run.ret] at h; simp [h.1.symm]
    | succ n =>
      rw [rejection] at h
      split at h
      · rcases hr : rejection cand accept fuel (pos + 2) n with _ | (_ | ⟨l', q'⟩)
        · simp [hr, Run.andThen] at h
        · simp [hr, Run.andThen] at h
        · simp only [hr, Run.andThen, Run.ret, Option.some.injEq, Except.ok.injEq, Prod.mk.injEq] at h
          rw [← h.1, List.length_cons, ih _ _ hr]
      · exact ih _ _ h

theorem poissonReps_one {w : Hull K} {u : ℕ → K} {fuel pos : ℕ} {reps : List (List (K × K))} {q : ℕ}
    (h : poissonReps w u 1 1 fuel pos = some (.ok (reps, q))) : reps.flatten ≠ [] := by
  simp only [poissonReps, replications] at h
  rcases hr : rejection (boxCandidate w u) (fun p => w.contains p.1 p.2) fuel pos 1 with _ | (_ | ⟨l', q'⟩)
  · simp [hr, Run.andThen] at h
  · simp [hr, Run.andThen] at h
  · have hl := rejection_length _ _ _ _ _ hr
    simp only [hr, Run.andThen, Run.ret, Option.some.injEq, Except.ok.injEq, Prod.mk.injEq] at h
    rw [← h.1]
    rintro he
    simp at he
    simp [he] at hl

theorem poisson_rescale {s t a b : K} (hs : 0 < s) (ht : 0 < t) {w w' : Hull K} (hw : RescaledWindow s t a b w w')
    (h0 : w.area ≠ 0) (u : ℕ → K) (n : K) (k : ℤ) (fuel pos : ℕ) :
    poisson w' u (some (n / w'.area)) (.int k) fuel pos
      = (poisson w u (some (n / w.area)) (.int k) fuel pos).andThen fun r pos =>
          Run.ret (mapSqueezed (rescale s t a b) r) pos := by
  have h0' : w'.area ≠ 0 := by rw [hw.area]; exact mul_ne_zero (mul_ne_zero hs.ne' ht.ne') h0
  simp only [poisson, parseSizeAndIntensity, div_mul_cancel₀ _ h0, div_mul_cancel₀ _ h0', XF.toInt, bind, Except.bind, pure,
    Except.pure]
  generalize (if 0 ≤ n then ⌊n⌋ else ⌈n⌉) = m
  split
  · rfl
  · rw [poissonReps_rescale hw]
    rcases hr : poissonReps w u m.toNat k.toNat fuel pos with _ | (_ | ⟨reps, q⟩)
    · rfl
    · rfl
    · simp only [Run.andThen, Run.ret]
      rw [squeeze_map]
      intro hk hm
      rw [hk, hm] at hr
      exact poissonReps_one hr

theorem simPoints_map (f : K × K → K × K) (r : Squeezed K) (i : ℕ) :
    simPoints (mapSqueezed f r) i = (simPoints r i).map (List.map f) := by
  cases r with
  | point p => simp only [mapSqueezed, simPoints]; split <;> rfl
  | rows l => simp only [mapSqueezed, simPoints, List.length_map]; split <;> rfl
  | cube n l =>
    simp only [mapSqueezed, simPoints, List.getElem?_map]
    cases l[i]? with
    | none => rfl
    | some r =>
      simp only [Option.map_some, asPointsArray, List.map_eq_nil_iff]
      split <;> rfl

theorem gridCounts_kind {cos30 : K} {points : List (K × K)} {grid : GridArg K} {d : Dict} {g : GridArg K}
    (h : gridCounts cos30 points grid = .ok (d, g)) : (∃ lh, g = .hexagon lh) → ∃ lh, grid = .hexagon lh := by
  cases grid with
  | hexagon lh => exact fun _ => ⟨lh, rfl⟩
  | other => simp [gridCounts] at h
  | rectangle nx ny wd ht =>
    simp only [gridCounts, bind, Except.bind, pure, Except.pure] at h
    rintro ⟨lh, rfl⟩
    cases hm : RectangleM.init points nx ny wd ht with
    | error e => simp [hm] at h
    | ok m =>
      simp only [hm] at h
      cases hp : m.pointLocationSta with
      | error e => simp [hp] at h
      | ok d' => simp [hp] at h

theorem simChi2_rescale {s t : K} (hs : 0 < s) (ht : 0 < t) (a b : K) (cos30 : K) (grid : GridArg K)
    (hg : (∃ lh, grid = .hexagon lh) → s = t) (r : Squeezed K) (i : ℕ) :
    simChi2 cos30 (rescaleGrid s t grid) (mapSqueezed (rescale s t a b) r) i = simChi2 cos30 grid r i := by
  simp only [simChi2, simPoints_map]
  cases simPoints r i with
  | error e => rfl
  | ok pts =>
    simp only [Except.map, bind, Except.bind]
    rw [gridCounts_rescale hs ht a b pts grid cos30 hg]
    cases gridCounts cos30 pts grid <;> rfl

/-- **C124, the test.** `QStatistic` gives the same cell ids, statistic, degrees of freedom, contributions, simulated statistics
and p-value, or the same exception, when points, cell size and window are given in other units from another origin and the
random numbers are the same. For hexagons the two axes have the same unit. -/
theorem C124_quadrat_test {s t : K} (hs : 0 < s) (ht : 0 < t) (a b : K) (cos30 : K) (window window' : Hull K)
    (hw : RescaledWindow s t a b window window') (u : ℕ → K) (points : List (K × K)) (grid : GridArg K)
    (hg : (∃ lh, grid = .hexagon lh) → s = t) (realizations : ℤ) (fuel pos : ℕ) :
    qStatistic cos30 window' u (points.map (rescale s t a b)) (rescaleGrid s t grid) realizations fuel pos
      = qStatistic cos30 window u points grid realizations fuel pos := by
  unfold qStatistic
  by_cases hp : points = []
  · simp [hp, asPointsArray]
  · simp only [asPointsArray, List.map_eq_nil_iff, hp, if_false]
    rw [gridCounts_rescale hs ht a b points grid cos30 hg]
    rcases hd : gridCounts cos30 points grid with e | ⟨d, g⟩
    · rfl
    · have hz : window'.area = 0 ↔ window.area = 0 := by rw [hw.area]; simp [hs.ne', ht.ne']
      simp only [Except.map, hz, List.length_map]
      split
      · split
        · rfl
        · rename_i h0
          rw [poisson_rescale hs ht hw h0]
          rcases poisson window u (some ((points.length : K) / window.area)) (.int realizations) fuel pos with _ | (_ | ⟨r, q⟩)
          · rfl
          · rfl
          · simp only [Run.andThen, Run.ret]
            have e : simChi2 cos30 (rescaleGrid s t g) (mapSqueezed (rescale s t a b) r) = simChi2 cos30 g r := by
              funext i
              exact simChi2_rescale hs ht a b cos30 g (fun h => hg (gridCounts_kind hd h)) r i
            rw [e]
      · rfl

/-! ### Order -/

theorem incr_comm {i j : ℤ} : ∀ {d d1 d2 : Dict}, Dict.incr i d = .ok d1 → Dict.incr j d1 = .ok d2 →
    ∃ d1', Dict.incr j d = .ok d1' ∧ Dict.incr i d1' = .ok d2
  | [], _, _, h, _ => by simp [Dict.incr] at h
  | (k, v) :: d, d1, d2, h1, h2 => by
    by_cases hki : k = i
    · simp only [Dict.incr, hki, if_true, Except.ok.injEq] at h1
      subst h1
      by_cases hij : i = j
      · simp only [Dict.incr, hij, if_true, Except.ok.injEq] at h2
        subst h2
        exact ⟨(j, v + 1) :: d, by simp [Dict.incr, hki, hij], by simp [Dict.incr, hij]⟩
      · simp only [Dict.incr, hij, if_false] at h2
        cases hj : Dict.incr j d with
        | error e => simp [hj] at h2
        | ok d' =>
          simp only [hj, Except.ok.injEq] at h2
          subst h2
          exact ⟨(k, v) :: d', by simp [Dict.incr, hki, hij, hj], by simp [Dict.incr, hki]⟩
    · simp only [Dict.incr, hki, if_false] at h1
      cases hi : Dict.incr i d with
      | error e => simp [hi] at h1
      | ok d' =>
        simp only [hi, Except.ok.injEq] at h1
        subst h1
        by_cases hkj : k = j
        · simp only [Dict.incr, hkj, if_true, Except.ok.injEq] at h2
          subst h2
          refine ⟨(j, v + 1) :: d, by simp [Dict.incr, hkj], ?_⟩
          have : j ≠ i := fun h => hki (hkj.trans h)
          simp [Dict.incr, this, hi]
        · simp only [Dict.incr, hkj, if_false] at h2
          cases hj : Dict.incr j d' with
          | error e => simp [hj] at h2
          | ok d'' =>
            simp only [hj, Except.ok.injEq] at h2
            subst h2
            obtain ⟨e1, he1, he2⟩ := incr_comm hi hj
            exact ⟨(k, v) :: e1, by simp [Dict.incr, hkj, he1], by simp [Dict.incr, hki, he2]⟩

theorem foldlM_incr_perm {α : Type} (f : α → Py ℤ) {l l' : List α} (h : l.Perm l') {d d' : Dict}
    (hok : l.foldlM (fun d a => do let c ← f a; Dict.incr c d) d = .ok d') :
    l'.foldlM (fun d a => do let c ← f a; Dict.incr c d) d = .ok d' := by
  induction h generalizing d d' with
  | nil => exact hok
  | cons x _ ih =>
    simp only [List.foldlM_cons, bind, Except.bind] at hok ⊢
    cases hx : f x with
    | error e => simp [hx] at hok
    | ok c =>
      simp only [hx] at hok ⊢
      cases hi : Dict.incr c d with
      | error e => simp [hi] at hok
      | ok d1 =>
        simp only [hi] at hok ⊢
        exact ih hok
  | swap x y l =>
    simp only [List.foldlM_cons, bind, Except.bind] at hok ⊢
    cases hx : f x with
    | error e => cases hy : f y with
      | error e => simp [hy] at hok
      | ok c => cases hi : Dict.incr c d <;> simp [hx, hy, hi] at hok
    | ok c =>
      cases hy : f y with
      | error e => simp [hy] at hok
      | ok c' =>
        cases hi : Dict.incr c' d with
        | error e => simp [hy, hi] at hok
        | ok d1 =>
          cases hj : Dict.incr c d1 with
          | error e => simp [hx, hy, hi, hj] at hok
          | ok d2 =>
            obtain ⟨d1', h1, h2⟩ := incr_comm hi hj
            simp only [hx, hy, hi, hj] at hok
            simp only [h1, h2]
            exact hok
  | trans _ _ ih1 ih2 => exact ih2 (ih1 hok)

/-- **C124, order, rectangles.** The counts do not depend on the order of the points. -/
theorem C124_order_rectangles {points points' : List (K × K)} (h : points.Perm points') (nx ny : ℤ) (w ht : K) {d : Dict}
    (hok : ((RectangleM.init points nx ny w ht).bind fun m => m.pointLocationSta) = .ok d) :
    ((RectangleM.init points' nx ny w ht).bind fun m => m.pointLocationSta) = .ok d := by
  simp only [RectangleM.init, computeMbb, ← bboxPts_perm h] at hok ⊢
  cases hb : bboxPts points with
  | error e => simp [hb, bind, Except.bind] at hok
  | ok m =>
    simp only [hb, bind, Except.bind, pure, Except.pure] at hok ⊢
    split at hok
    · rename_i e he
      split at he <;> simp at he
    · rename_i v hv
      by_cases hc : w ≠ 0 ∧ ht ≠ 0
      · rw [if_pos hc] at hv ⊢
        simp only [Except.ok.injEq] at hv
        subst hv
        exact foldlM_incr_perm _ h hok
      · rw [if_neg hc] at hv ⊢
        simp only [Except.ok.injEq] at hv
        subst hv
        exact foldlM_incr_perm _ h hok

/-- **C124, order, hexagons.** The counts do not depend on the order of the points. -/
theorem C124_order_hexagons {points points' : List (K × K)} (h : points.Perm points') (cos30 lh : K) {d : Dict}
    (hok : ((HexagonM.init cos30 points lh).bind fun m => m.pointLocationSta) = .ok d) :
    ((HexagonM.init cos30 points' lh).bind fun m => m.pointLocationSta) = .ok d := by
  simp only [HexagonM.init, computeMbb, ← bboxPts_perm h] at hok ⊢
  cases hb : bboxPts points with
  | error e => simp [hb, bind, Except.bind] at hok
  | ok m =>
    simp only [hb, bind, Except.bind, pure, Except.pure] at hok ⊢
    cases h1 : hexCountColumn lh (m.xmax - m.xmin) with
    | error e => simp [h1] at hok
    | ok cc =>
      cases h2 : hexCountRowEven (lh * cos30) (m.ymax - m.ymin) with
      | error e => simp [h1, h2] at hok
      | ok ce =>
        cases h3 : hexCountRowOdd (lh * cos30) (m.ymax - m.ymin) with
        | error e => simp [h1, h2, h3] at hok
        | ok co =>
          simp only [h1, h2, h3] at hok ⊢
          have := foldlM_incr_perm (fun p => .ok (HexagonM.cellId
            (⟨points, m, lh, lh * cos30, cc, ce, co, co * (cc / 2 + cc % 2) + ce * (cc / 2)⟩ : HexagonM K) p)) h hok
          exact this

theorem gridCounts_perm {points points' : List (K × K)} (h : points.Perm points') {cos30 : K} {grid : GridArg K}
    {r : Dict × GridArg K} (hok : gridCounts cos30 points grid = .ok r) : gridCounts cos30 points' grid = .ok r := by
  cases grid with
  | other => exact hok
  | rectangle nx ny w ht =>
    simp only [gridCounts, RectangleM.init, computeMbb, ← bboxPts_perm h] at hok ⊢
    cases hb : bboxPts points with
    | error e => simp [hb, bind, Except.bind] at hok
    | ok m =>
      simp only [hb, bind, Except.bind, pure, Except.pure] at hok ⊢
      by_cases hc : w ≠ 0 ∧ ht ≠ 0
      · rw [if_pos hc] at hok ⊢
        simp only at hok ⊢
        split at hok
        · simp at hok
        · rename_i d hd
          have := foldlM_incr_perm _ h hd
          simp only [RectangleM.pointLocationSta]
          erw [this]
          exact hok
      · rw [if_neg hc] at hok ⊢
        simp only at hok ⊢
        split at hok
        · simp at hok
        · rename_i d hd
          have := foldlM_incr_perm _ h hd
          simp only [RectangleM.pointLocationSta]
          erw [this]
          exact hok
  | hexagon lh =>
    have hd : ∃ d, ((HexagonM.init cos30 points lh).bind fun m => m.pointLocationSta) = .ok d ∧ r = (d, .hexagon lh) := by
      simp only [gridCounts, HexagonM.init, computeMbb] at hok ⊢
      cases hb : bboxPts points with
      | error e => simp [hb, bind, Except.bind] at hok
      | ok m =>
        simp only [hb, bind, Except.bind, pure, Except.pure] at hok ⊢
        cases h1 : hexCountColumn lh (m.xmax - m.xmin) with
        | error e => simp [h1] at hok
        | ok cc =>
          cases h2 : hexCountRowEven (lh * cos30) (m.ymax - m.ymin) with
          | error e => simp [h1, h2] at hok
          | ok ce =>
            cases h3 : hexCountRowOdd (lh * cos30) (m.ymax - m.ymin) with
            | error e => simp [h1, h2, h3] at hok
            | ok co =>
              simp only [h1, h2, h3] at hok ⊢
              split at hok
              · simp at hok
              · rename_i d hd
                exact ⟨d, hd, by simpa using hok.symm⟩
    obtain ⟨d, hd, rfl⟩ := hd
    have hd' := C124_order_hexagons h cos30 lh hd
    simp only [gridCounts, bind]
    cases hm : HexagonM.init cos30 points' lh with
    | error e => simp [hm, Except.bind] at hd'
    | ok m =>
      have hl : m.h_length = lh := by
        simp only [HexagonM.init, bind, Except.bind, pure, Except.pure] at hm
        split at hm
        · simp at hm
        · split at hm
          · simp at hm
          · split at hm
            · simp at hm
            · split at hm
              · simp at hm
              · simp only [Except.ok.injEq] at hm
                rw [← hm]
      simp only [hm, Except.bind] at hd' ⊢
      simp only [hd', hl, pure, Except.pure]

/-- **C124, order, the test.** What `QStatistic` computes does not depend on the order of the points. -/
theorem C124_order_test {points points' : List (K × K)} (h : points.Perm points') (cos30 : K) (window : Hull K) (u : ℕ → K)
    (grid : GridArg K) (realizations : ℤ) (fuel pos : ℕ) {q : QStat K} {pos' : ℕ}
    (hok : qStatistic cos30 window u points grid realizations fuel pos = some (.ok (q, pos'))) :
    qStatistic cos30 window u points' grid realizations fuel pos = some (.ok (q, pos')) := by
  by_cases hp : points = []
  · simp [qStatistic, asPointsArray, hp, Run.fail] at hok
  have hp' : points' ≠ [] := by
    rintro rfl
    exact hp h.eq_nil
  simp only [qStatistic, asPointsArray, hp, hp', if_false] at hok ⊢
  cases hd : gridCounts cos30 points grid with
  | error e => simp [hd, Run.fail] at hok
  | ok r =>
    rw [hd] at hok
    rw [gridCounts_perm h hd, ← h.length_eq]
    exact hok

/-! ### The hypotheses are met -/

/-- Five points, counted in a grid of two columns and two rows. -/
example : ((RectangleM.init [((0 : ℚ), (0 : ℚ)), (3, 1), (1, 2), (4, 4), (4, 3)] 2 2 0 0).bind fun m => m.pointLocationSta)
    = .ok [(0, 1), (1, 1), (2, 1), (3, 2)] := by decide +kernel

/-- The same five points, metres for kilometres on the first axis, from another origin. -/
example : ((RectangleM.init ([((0 : ℚ), (0 : ℚ)), (3, 1), (1, 2), (4, 4), (4, 3)].map (rescale 1000 3 7 (-5))) 2 2 0 0).bind
    fun m => m.pointLocationSta) = .ok [(0, 1), (1, 1), (2, 1), (3, 2)] := by decide +kernel

/-- A window in other units. -/
example : RescaledWindow (2 : ℚ) 3 1 (-1) (Hull.ofBBox ⟨0, 0, 4, 4⟩) (Hull.ofBBox ⟨1, -1, 9, 11⟩) where
  lower := by decide +kernel
  upper := by decide +kernel
  inside := by
    intro p
    simp only [Hull.ofBBox, containsBBox, rescale]
    rw [Bool.eq_iff_iff]
    simp only [decide_eq_true_eq, Bool.and_eq_true]
    constructor <;> intro h <;> refine ⟨?_, ?_⟩ <;> constructor <;> linarith [h.1.1, h.1.2, h.2.1, h.2.2]
  area := by decide +kernel

/-- The test returns in the other order, too. -/
example : ((qStatistic (7 / 8 : ℚ) (Hull.ofBBox ⟨0, 0, 4, 4⟩) (fun i => if i % 3 = 0 then 1 / 4 else 3 / 4)
      [(0, 0), (3, 1), (1, 2), (4, 4)] (.rectangle 2 2 0 0) 2 20 0).map fun r => r.toOption.isSome) = some true ∧
    [((0 : ℚ), (0 : ℚ)), (3, 1), (1, 2), (4, 4)].Perm [(4, 4), (3, 1), (1, 2), (0, 0)] := by
  refine ⟨by decide +kernel, by decide +kernel⟩

end Pointpats.Props
