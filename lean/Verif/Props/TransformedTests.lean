import Verif.Props.DistanceTests
import Verif.Props.DistanceJKL
import Verif.Spec.LCurve

/-!
# C160: `k_test` and `l_test` give the same p-values
-/

namespace Pointpats.Props

open DistStats Random Geometry Spec

variable {K : Type} [Field K] [LinearOrder K] [IsStrictOrderedRing K] [FloorRing K]

set_option linter.unusedSectionVars false

/-- The curve of `l` from the curve of `k`. -/
private def toL (num : Num K) (linearized : Bool) (s : List K) (v : List (XF K)) : List (XF K) :=
  let lv := v.map (lTransform num.root num.pi)
  if linearized then List.zipWith (fun x d => XF.sub x (.fin d)) lv s else lv

private theorem andThen_assoc {α β γ : Type} (x : Run α) (f : α → ℕ → Run β) (g : β → ℕ → Run γ) :
    (x.andThen f).andThen g = x.andThen fun a pos => (f a pos).andThen g := by
  unfold Run.andThen
  rcases x with _ | _ | ⟨a, p⟩ <;> rfl

private theorem andThen_congr {α β : Type} {x : Run α} {f g : α → ℕ → Run β}
    (h : ∀ a pos, x = some (.ok (a, pos)) → f a pos = g a pos) : x.andThen f = x.andThen g := by
  unfold Run.andThen
  rcases x with _ | _ | ⟨a, p⟩
  · rfl
  · rfl
  · exact h a p rfl

private theorem ret_andThen {α β : Type} (a : α) (pos : ℕ) (f : α → ℕ → Run β) : (Run.ret a pos).andThen f = f a pos := rfl

private theorem callStat_L (lib : Lib K) (num : Num K) (lin : Bool) (u : ℕ → K) (c : List (K × K)) (s : SupportArg K)
    (d : TestDist K) (metric : MetricArg) (hull : HullArg K) (edge : Bool) (fuel pos : ℕ) :
    callStat lib num (.L lin) u c s d metric hull edge fuel pos
      = (callStat lib num .K u c s d metric hull edge fuel pos).andThen fun r pos => Run.ret (r.1, toL num lin r.1 r.2) pos := by
  have key : ∀ d, liftPy (l lib num.root num.pi c s d metric edge lin) pos
      = (liftPy (k lib c s d metric edge) pos).andThen fun r pos => Run.ret (r.1, toL num lin r.1 r.2) pos := by
    intro d
    unfold l liftPy
    cases k lib c s d metric edge <;> rfl
  cases d with
  | none => exact key _
  | single d => exact key d
  | pair a b => rfl

/-- The values of `k` are numbers, not negative, one for every distance of the support. -/
private theorem callStat_K {lib : Lib K} {num : Num K} {u : ℕ → K} {c : List (K × K)} {s : SupportArg K}
    {d : TestDist K} {m : Metric} {hull : HullArg K} {edge : Bool} {fuel pos pos' : ℕ} {r : List K × List (XF K)}
    (h : callStat lib num .K u c s d (.metric m) hull edge fuel pos = some (.ok (r, pos'))) :
    r.2.length = r.1.length ∧ (∀ v ∈ r.2, ∃ x : K, 0 ≤ x ∧ v = .fin x) ∧ (∀ a, s = .array a → r.1 = a) := by
  have key : ∀ d, k lib c s d (.metric m) edge = .ok r →
      r.2.length = r.1.length ∧ (∀ v ∈ r.2, ∃ x : K, 0 ≤ x ∧ v = .fin x) ∧ (∀ a, s = .array a → r.1 = a) := by
    intro d h
    obtain ⟨hne, -, hs, d', -, hv⟩ := k_value (s := r.1) (v := r.2) h
    obtain ⟨b, -, hb, -⟩ := (C19_bbox_smallest c).2 hne
    have hv := hv b hb
    refine ⟨by rw [hv, List.length_map], ?_, ?_⟩
    · intro v hvm
      rw [hv] at hvm
      obtain ⟨t, -, rfl⟩ := List.mem_map.1 hvm
      obtain ⟨p, hp⟩ := List.exists_mem_of_ne_nil _ hne
      have hx := hb.1 p hp
      simp only [Spec.InBox] at hx
      refine ⟨_, mul_nonneg (div_nonneg (mul_nonneg ?_ ?_) (sq_nonneg _)) (Nat.cast_nonneg _), rfl⟩
      · linarith [hx.1, hx.2.1, hx.2.2.1, hx.2.2.2]
      · linarith [hx.1, hx.2.1, hx.2.2.1, hx.2.2.2]
    · rintro a rfl
      exact ((Prod.mk.inj (Except.ok.inj hs)).1).symm
  cases d with
  | none =>
    simp only [callStat, liftPy, bind, Except.bind] at h
    cases hk : k lib c s .none (.metric m) edge with
    | error e => rw [hk] at h; cases h
    | ok r' =>
      rw [hk] at h
      have : r' = r := by injection h with h; injection h with h; exact (Prod.mk.inj h).1
      exact key _ (this ▸ hk)
  | single d =>
    simp only [callStat, liftPy, bind, Except.bind] at h
    cases hk : k lib c s d (.metric m) edge with
    | error e => rw [hk] at h; cases h
    | ok r' =>
      rw [hk] at h
      have : r' = r := by injection h with h; injection h with h; exact (Prod.mk.inj h).1
      exact key _ (this ▸ hk)
  | pair a b => cases h

private theorem oneSimulation_L (lib : Lib K) (num : Num K) (lin : Bool) (u : ℕ → K) (n : ℕ) (H : HullRes K) (hull : HullArg K)
    (m : Metric) (empty : List (K × K)) (s : List K) (edge : Bool) (fuel : ℕ) :
    oneSimulation lib num (.L lin) u n H hull (.metric m) empty s edge fuel
      = (oneSimulation lib num .K u n H hull (.metric m) empty s edge fuel).andThen fun v pos => Run.ret (toL num lin s v) pos := by
  unfold oneSimulation
  rw [andThen_assoc]
  apply andThen_congr
  intro a pos _
  have hrows : simRows (.L lin) a = simRows .K a := by cases a <;> rfl
  rw [hrows]
  cases simRows .K a with
  | error e => rfl
  | ok pts =>
    simp only [andThen_assoc, callStat_L, ret_andThen]
    apply andThen_congr
    intro r pos' h
    rw [(callStat_K h).2.2 _ rfl]

private theorem oneSimulation_K {lib : Lib K} {num : Num K} {u : ℕ → K} {n : ℕ} {H : HullRes K} {hull : HullArg K}
    {m : Metric} {empty : List (K × K)} {s : List K} {edge : Bool} {fuel pos : ℕ} {v : List (XF K)}
    (h : oneSimulation lib num .K u n H hull (.metric m) empty s edge fuel = some (.ok (v, pos))) :
    v.length = s.length ∧ ∀ x ∈ v, ∃ y : K, 0 ≤ y ∧ x = .fin y := by
  unfold oneSimulation at h
  obtain ⟨a, p, -, h⟩ := Run.andThen_ok.1 h
  cases hr : simRows Call.K a with
  | error e => rw [hr] at h; cases h
  | ok pts =>
    rw [hr] at h
    obtain ⟨r, p', hc, h'⟩ := Run.andThen_ok.1 h
    rw [Run.ret_ok] at h'
    obtain ⟨rfl, -⟩ := h'
    obtain ⟨h1, h2, h3⟩ := callStat_K hc
    exact ⟨by rw [h1, h3 _ rfl], h2⟩

private theorem replications_map {α β : Type} (body : ℕ → ℕ → Run α) (g : α → β) (i s pos : ℕ) :
    replications (fun i pos => (body i pos).andThen fun a pos => Run.ret (g a) pos) i s pos
      = (replications body i s pos).andThen fun l pos => Run.ret (l.map g) pos := by
  induction s generalizing i pos with
  | zero => rfl
  | succ s ih =>
    simp only [replications, andThen_assoc, ret_andThen, ih, List.map_cons]

private theorem toL_getElem {num : Num K} {lin : Bool} {s : List K} {v : List (XF K)} (hl : v.length = s.length)
    (hv : ∀ x ∈ v, ∃ y : K, 0 ≤ y ∧ x = .fin y) :
    (toL num lin s v).length = v.length ∧ ∀ i, (hi : i < v.length) → ∃ y d : K, 0 ≤ y ∧ s[i]? = some d ∧ v[i]? = some (.fin y)
      ∧ (toL num lin s v)[i]? = some (.fin (num.root (y / num.pi) - if lin then d else 0)) := by
  constructor
  · cases lin <;> simp [toL, hl]
  · intro i hi
    obtain ⟨y, h0, hy⟩ := hv _ (List.getElem_mem hi)
    refine ⟨y, s[i]'(hl ▸ hi), h0, by simp, by rw [List.getElem?_eq_getElem hi, hy], ?_⟩
    cases lin
    · simp [toL, List.getElem?_eq_getElem hi, hy, lTransform]
    · simp [toL, List.getElem?_zipWith, List.getElem?_eq_getElem hi, List.getElem?_eq_getElem (hl ▸ hi), hy, lTransform, XF.sub]

private theorem pvalues_L {num : Num K} (hroot : ∀ x y, 0 ≤ x → 0 ≤ y → (num.root x ≤ num.root y ↔ x ≤ y)) (hpi : 0 < num.pi)
    (lin : Bool) (s : List K) (o : List (XF K)) (ho : o.length = s.length) (ho' : ∀ x ∈ o, ∃ y : K, 0 ≤ y ∧ x = .fin y)
    (sims : List (List (XF K))) (hs : ∀ v ∈ sims, v.length = s.length ∧ ∀ x ∈ v, ∃ y : K, 0 ≤ y ∧ x = .fin y) (n : ℤ) :
    pvalues s (toL num lin s o) (sims.map (toL num lin s)) n = pvalues s o sims n := by
  unfold pvalues
  by_cases h : sims = []
  · simp [h]
  · rw [if_neg h, if_neg (by simpa using h)]
    obtain ⟨hl, hval⟩ := toL_getElem (num := num) (lin := lin) ho ho'
    apply List.ext_getElem?
    intro i
    rw [List.getElem?_map, List.getElem?_map, List.getElem?_zipIdx, List.getElem?_zipIdx]
    by_cases hi : i < o.length
    · obtain ⟨y, d, hy, hd, h1, h2⟩ := hval i hi
      rw [h1, h2]
      simp only [Option.map_some, Option.some.injEq, XF.fin.injEq, Nat.zero_add]
      unfold columnP
      rw [← List.countP_eq_length_filter, ← List.countP_eq_length_filter, List.map_map, List.countP_map, List.countP_map]
      rw [List.countP_congr (q := fun v => XF.ge (v.getD i .nan) (.fin y))]
      · rfl
      · intro v hv
        obtain ⟨k1, k2⟩ := hs v hv
        obtain ⟨y', d', hy', hd', e1, e2⟩ := (toL_getElem (num := num) (lin := lin) k1 k2).2 i (by omega)
        rw [hd] at hd'
        obtain rfl := Option.some.inj hd'
        simp only [Function.comp_apply, List.getD_eq_getElem?_getD, e1, e2, Option.getD_some, XF.ge, decide_eq_true_eq,
          sub_le_sub_iff_right]
        rw [hroot _ _ (div_nonneg hy hpi.le) (div_nonneg hy' hpi.le), div_le_div_iff_of_pos_right hpi]
    · rw [List.getElem?_eq_none (by omega), List.getElem?_eq_none (by omega)]
      rfl

/-- `l_test` does what `k_test` does, and transforms the curves. -/
private theorem lTest_eq {lib : Lib K} {num : Num K} (hroot : ∀ x y, 0 ≤ x → 0 ≤ y → (num.root x ≤ num.root y ↔ x ≤ y))
    (hpi : 0 < num.pi) (u : ℕ → K) (gen : ℕ → ℕ → K) (c : List (K × K)) (s : SupportArg K) (d : TestDist K) (metric : MetricArg)
    (hull : HullArg K) (edge lin keep : Bool) (n : ℤ) (fuel : ℕ) :
    lTest lib num u gen c s d metric hull edge lin keep n fuel
      = (kTest lib num u gen c s d metric hull edge keep n fuel).andThen fun r pos => Run.ret
          { support := r.support, statistic := toL num lin r.support r.statistic, pvalue := r.pvalue
            simulations := r.simulations.map fun l => l.map (toL num lin r.support) } pos := by
  unfold lTest kTest ripleyTest
  cases metric with
  | other => rfl
  | metric m =>
    simp only
    cases buildBestTree lib.hasSklearn lib.kdMetrics lib.ballMetrics m with
    | error e => rfl
    | ok t =>
      simp only
      cases prepareHull c hull with
      | error e => rfl
      | ok H =>
        simp only
        have he : emptyLocations (.L lin) u c fuel = emptyLocations .K u c fuel := rfl
        rw [he, andThen_assoc]
        apply andThen_congr
        intro empty pos _
        have ht : testDistances lib (.L lin) m c empty d = testDistances lib .K m c empty d := by cases d <;> rfl
        rw [ht]
        cases testDistances lib .K m c empty d with
        | error e => rfl
        | ok d' =>
          simp only [andThen_assoc, callStat_L, ret_andThen, oneSimulation_L]
          apply andThen_congr
          intro obs pos' hobs
          obtain ⟨o1, o2, -⟩ := callStat_K hobs
          rw [replications_map (fun i _ => oneSimulation lib num .K (gen i) c.length H (rehull H) (.metric m) empty obs.1 edge fuel)
            (toL num lin obs.1), andThen_assoc]
          apply andThen_congr
          intro sims pos'' hsims
          have hs : ∀ v ∈ sims, v.length = obs.1.length ∧ ∀ x ∈ v, ∃ y : K, 0 ≤ y ∧ x = .fin y := by
            intro v hv
            obtain ⟨j, p, p', -, hj⟩ := (replications_spec _ _ _ _ _ _ hsims).2 v hv
            exact oneSimulation_K hj
          rw [ret_andThen, pvalues_L hroot hpi lin obs.1 obs.2 o1 o2 sims hs]
          cases keep <;> rfl

private theorem toL_isLCurve {num : Num K} {lin : Bool} {s : List K} {v : List (XF K)} (hl : v.length = s.length)
    (hv : ∀ x ∈ v, ∃ y : K, 0 ≤ y ∧ x = .fin y) : IsLCurve num.root num.pi lin s v (toL num lin s v) := by
  obtain ⟨h1, h2⟩ := toL_getElem (num := num) (lin := lin) hl hv
  refine ⟨⟨hl, h1.trans hl⟩, ?_⟩
  intro i d hd
  obtain ⟨hi, -⟩ := List.getElem?_eq_some_iff.1 hd
  obtain ⟨y, d', hy, hd', e1, e2⟩ := h2 i (by omega)
  rw [hd] at hd'
  obtain rfl := Option.some.inj hd'
  exact ⟨y, hy, e1, e2⟩

private theorem isLCurve_unique {root : K → K} {pi : K} {lin : Bool} {s : List K} {v w w' : List (XF K)}
    (h : IsLCurve root pi lin s v w) (h' : IsLCurve root pi lin s v w') : w = w' := by
  apply List.ext_getElem?
  intro i
  cases hd : s[i]? with
  | none =>
    have := List.getElem?_eq_none_iff.1 hd
    rw [List.getElem?_eq_none (by rw [h.lengths.2]; exact this), List.getElem?_eq_none (by rw [h'.lengths.2]; exact this)]
  | some d =>
    obtain ⟨x, -, e1, e2⟩ := h.values i d hd
    obtain ⟨x', -, e1', e2'⟩ := h'.values i d hd
    rw [e1] at e1'
    injection e1' with e1'
    injection e1' with e1'
    rw [e2, e2', e1']

private theorem kTest_facts {lib : Lib K} {num : Num K} {u : ℕ → K} {gen : ℕ → ℕ → K} {c : List (K × K)} {s : SupportArg K}
    {d : TestDist K} {metric : MetricArg} {hull : HullArg K} {edge keep : Bool} {n : ℤ} {fuel pos : ℕ} {r : TestResult K}
    (h : kTest lib num u gen c s d metric hull edge keep n fuel = some (.ok (r, pos))) :
    (r.statistic.length = r.support.length ∧ ∀ x ∈ r.statistic, ∃ y : K, 0 ≤ y ∧ x = .fin y)
    ∧ ∀ l, r.simulations = some l → ∀ v ∈ l, v.length = r.support.length ∧ ∀ x ∈ v, ∃ y : K, 0 ≤ y ∧ x = .fin y := by
  obtain ⟨m, t, H, empty, pos0, d, obs, pos1, sims, rfl, -, -, -, -, ho, hs, rfl⟩ := ripleyTest_ok.1 h
  obtain ⟨o1, o2, -⟩ := callStat_K ho
  refine ⟨⟨o1, o2⟩, ?_⟩
  intro l hl v hv
  cases keep with
  | false => cases hl
  | true =>
    obtain rfl := Option.some.inj hl
    obtain ⟨j, p, p', -, hj⟩ := (replications_spec _ _ _ _ _ _ hs).2 v hv
    exact oneSimulation_K hj

/-- **C160.** For the same arguments and the same random numbers `l_test`, linearized or not, fails exactly if `k_test` does, with
the same error; if they return, they report the same distances and the same p-values, and at every distance the statistic, and
every simulated value, of `l_test` is the square root transform of the one of `k_test`. `hroot` says that the square root is
increasing. -/
theorem C160_k_l_tests {lib : Lib K} {num : Num K} (hroot : ∀ x y, 0 ≤ x → 0 ≤ y → (num.root x ≤ num.root y ↔ x ≤ y))
    (hpi : 0 < num.pi) (u : ℕ → K) (gen : ℕ → ℕ → K) (coordinates : List (K × K)) (support : SupportArg K)
    (distances : TestDist K) (metric : MetricArg) (hull : HullArg K) (edge linearized keep : Bool) (nsim : ℤ) :
    (∀ e, Returns (fun fuel => lTest lib num u gen coordinates support distances metric hull edge linearized keep nsim fuel)
          (.error e)
        ↔ Returns (fun fuel => kTest lib num u gen coordinates support distances metric hull edge keep nsim fuel) (.error e))
    ∧ ∀ (r' : TestResult K) (pos : ℕ),
        Returns (fun fuel => lTest lib num u gen coordinates support distances metric hull edge linearized keep nsim fuel)
          (.ok (r', pos))
        ↔ ∃ r, Returns (fun fuel => kTest lib num u gen coordinates support distances metric hull edge keep nsim fuel)
            (.ok (r, pos))
          ∧ r'.support = r.support ∧ r'.pvalue = r.pvalue
          ∧ IsLCurve num.root num.pi linearized r.support r.statistic r'.statistic
          ∧ (match r.simulations, r'.simulations with
            | none, none => True
            | some a, some b => List.Forall₂ (IsLCurve num.root num.pi linearized r.support) a b
            | _, _ => False) := by
  constructor
  · intro e
    constructor
    · rintro ⟨fuel, h⟩
      refine ⟨fuel, ?_⟩
      beta_reduce at h
      rw [lTest_eq hroot hpi] at h
      rcases Run.andThen_error.1 h with h | ⟨a, p, -, h⟩
      · exact h
      · cases h
    · rintro ⟨fuel, h⟩
      refine ⟨fuel, ?_⟩
      beta_reduce
      rw [lTest_eq hroot hpi]
      exact Run.andThen_error.2 (Or.inl h)
  · intro r' pos
    constructor
    · rintro ⟨fuel, h⟩
      beta_reduce at h
      rw [lTest_eq hroot hpi] at h
      obtain ⟨r, p, hr, h⟩ := Run.andThen_ok.1 h
      rw [Run.ret_ok] at h
      obtain ⟨rfl, rfl⟩ := h
      obtain ⟨f1, f2⟩ := kTest_facts hr
      refine ⟨r, ⟨fuel, hr⟩, rfl, rfl, toL_isLCurve f1.1 f1.2, ?_⟩
      cases hsim : r.simulations with
      | none => trivial
      | some l =>
        simp only [Option.map_some]
        rw [List.forall₂_map_right_iff, List.forall₂_same]
        intro v hv
        exact toL_isLCurve (f2 l hsim v hv).1 (f2 l hsim v hv).2
    · rintro ⟨r, ⟨fuel, hr⟩, h1, h2, h3, h4⟩
      refine ⟨fuel, ?_⟩
      beta_reduce
      rw [lTest_eq hroot hpi]
      refine Run.andThen_ok.2 ⟨r, pos, hr, ?_⟩
      obtain ⟨f1, f2⟩ := kTest_facts hr
      rw [Run.ret_ok]
      refine ⟨?_, rfl⟩
      obtain ⟨s', t', p', l'⟩ := r'
      simp only at h1 h2 h3 h4
      subst h1 h2
      have e1 := isLCurve_unique h3 (toL_isLCurve f1.1 f1.2)
      rw [TestResult.mk.injEq]
      refine ⟨rfl, e1.symm, rfl, ?_⟩
      cases hsim : r.simulations with
      | none =>
        rw [hsim] at h4
        cases l' with
        | none => rfl
        | some b => exact h4.elim
      | some l =>
        rw [hsim] at h4
        cases l' with
        | none => exact h4.elim
        | some b =>
          simp only [Option.map_some, Option.some.injEq]
          simp only at h4
          have key : ∀ (l b : List (List (XF K))), List.Forall₂ (IsLCurve num.root num.pi linearized r.support) l b →
              l.map (toL num linearized r.support) = b ∨ ∃ v ∈ l, ¬ IsLCurve num.root num.pi linearized r.support v
                (toL num linearized r.support v) := by
            intro l b h
            induction h with
            | nil => left; rfl
            | @cons a b l m hab _ ih =>
              by_cases ha : IsLCurve num.root num.pi linearized r.support a (toL num linearized r.support a)
              · rcases ih with ih | ⟨v, hv, hv'⟩
                · left
                  rw [List.map_cons, ih, isLCurve_unique ha hab]
                · exact Or.inr ⟨v, by simp [hv], hv'⟩
              · exact Or.inr ⟨a, by simp, ha⟩
          rcases key l b h4 with h | ⟨v, hv, hv'⟩
          · exact h
          · exact absurd (toL_isLCurve (f2 l hsim v hv).1 (f2 l hsim v hv).2) hv'

/-- The hypotheses are met, by a test with two simulations whose p-values are not all the same; the square root of the real
numbers is increasing. -/
example : checkRun (kTest sortLib ratNum (fun _ => 0) (fun i j => ((i + 3 * j + j ^ 2) % 7 : ℕ) / 7) triangle3
      (.array [0, 2, 5]) .none (.metric (.name "euclidean")) .none false true 2 100)
      (fun r => decide (r.pvalue = [.fin 0, .fin (1/3), .fin (1/3)])) = true
    ∧ (∀ x y : ℚ, 0 ≤ x → 0 ≤ y → (ratNum.root x ≤ ratNum.root y ↔ x ≤ y)) ∧ 0 < ratNum.pi :=
  ⟨by decide +kernel, fun _ _ _ _ => Iff.rfl, by norm_num [ratNum]⟩

example : (∀ x y : ℝ, 0 ≤ x → 0 ≤ y → (Real.sqrt x ≤ Real.sqrt y ↔ x ≤ y)) ∧ 0 < Real.pi :=
  ⟨fun _ _ _ hy => Real.sqrt_le_sqrt_iff hy, Real.pi_pos⟩

end Pointpats.Props
