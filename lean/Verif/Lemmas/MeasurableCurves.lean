import Verif.Lemmas.MeasurableCounts
import Verif.Props.DistanceTests
import Mathlib.MeasureTheory.Constructions.BorelSpace.Order
import Mathlib.MeasureTheory.Constructions.BorelSpace.Real
import Mathlib.MeasureTheory.Order.Lattice

/-!
# The values of the G, K and L curves of random points are random variables
-/

set_option linter.unusedSectionVars false

namespace Pointpats.MeasurableCurves

open DistStats Geometry Random Spec MeasureTheory MeasurableCounts Pointpats.Props

variable {X β : Type} [MeasurableSpace X]

theorem _root_.Pointpats.MeasurableCounts.Disc.measurable [Countable β] {f : X → β} (hf : Disc f) {γ : Type} [MeasurableSpace γ]
    (g : β → γ) : Measurable fun x => g (f x) := by
  intro S _
  have : (fun x => g (f x)) ⁻¹' S = ⋃ b ∈ g ⁻¹' S, {x | f x = b} := by
    ext x
    simp
  rw [this]
  exact MeasurableSet.biUnion (Set.to_countable _) fun b _ => hf b

/-- How many random numbers meet a condition. -/
private theorem count_disc (q : ℝ → Prop) [DecidablePred q] (hq : MeasurableSet {y | q y}) (fs : List (X → ℝ)) :
    (∀ f ∈ fs, Measurable f) → Disc fun x => ((fs.map fun f => f x).filter fun y => decide (q y)).length := by
  induction fs with
  | nil => intro _; exact Disc.const _
  | cons f fs ih =>
    intro h
    have ih := ih fun g hg => h g (by simp [hg])
    have e : (fun x => (((f :: fs).map fun f => f x).filter fun y => decide (q y)).length)
        = fun x => if q (f x) then ((fs.map fun f => f x).filter fun y => decide (q y)).length + 1
          else ((fs.map fun f => f x).filter fun y => decide (q y)).length := by
      funext x
      rw [List.map_cons, List.filter_cons]
      by_cases hx : q (f x) <;> simp [hx]
    rw [e]
    exact Disc.ite (h f (by simp) hq) (ih.comp (· + 1)) ih

private theorem cumCounts_disc (fs : List (X → ℝ)) (hfs : ∀ f ∈ fs, Measurable f) : ∀ s : List ℝ,
    Disc fun x => cumCounts (fs.map fun f => f x) s
  | [] => Disc.const _
  | [b] => (count_disc (fun y => y ≤ b) measurableSet_Iic fs hfs).comp fun c => [c]
  | b :: b' :: bs => by
    have h1 := count_disc (fun y => y < b) measurableSet_Iio fs hfs
    have h2 : ∀ c : ℕ, Disc fun x : X => c :: cumCounts (fs.map fun f => f x) (b' :: bs) :=
      fun c => (cumCounts_disc fs hfs (b' :: bs)).comp fun l => c :: l
    exact h1.bind (g := fun c (x : X) => c :: cumCounts (fs.map fun f => f x) (b' :: bs)) h2

/-- The curve as a function of the counts. -/
private noncomputable def shareCurve (counts : List ℕ) : List (XF ℝ) :=
  .fin 0 :: (cumsum 0 (diffs counts)).map fun (c : ℕ) => XF.div (.fin (c : ℝ)) (.fin ((diffs counts).sum : ℝ))

private theorem shares_counts {data s : List ℝ} {r : List ℝ × List (XF ℝ)} (h : shares data s = .ok r) :
    r.2 = shareCurve (cumCounts data s) := by
  unfold shares histogram at h
  split_ifs at h
  · cases h; rfl
  · cases h

/-- The distance from a point to the nearest other one. -/
private noncomputable def nnDist (dist : ℝ × ℝ → ℝ × ℝ → ℝ) {n : ℕ} (hn : 2 ≤ n) (i : Fin n) (x : Fin n → ℝ × ℝ) : ℝ :=
  (Finset.univ.erase i).inf' (by
    have h2 : 1 < (Finset.univ : Finset (Fin n)).card := by simpa using (by omega : 1 < n)
    have := Finset.card_erase_of_mem (Finset.mem_univ i)
    exact Finset.card_pos.1 (by omega)) fun j => dist (x i) (x j)

private theorem nnDist_measurable {dist : ℝ × ℝ → ℝ × ℝ → ℝ} (hd : Measurable fun p : (ℝ × ℝ) × (ℝ × ℝ) => dist p.1 p.2) {n : ℕ}
    (hn : 2 ≤ n) (i : Fin n) : Measurable (nnDist dist hn i) := by
  have e : nnDist dist hn i = (Finset.univ.erase i).inf' (by
    have h2 : 1 < (Finset.univ : Finset (Fin n)).card := by simpa using (by omega : 1 < n)
    have := Finset.card_erase_of_mem (Finset.mem_univ i)
    exact Finset.card_pos.1 (by omega)) fun j (x : Fin n → ℝ × ℝ) => dist (x i) (x j) := by
    funext x
    rw [nnDist, Finset.inf'_apply]
  rw [e]
  exact Finset.inf'_induction _ _ (fun _ hf _ hg => hf.inf hg) fun j _ =>
    hd.comp (show Measurable fun x : Fin n → ℝ × ℝ => (x i, x j) from (measurable_pi_apply i).prodMk (measurable_pi_apply j))

private theorem nnDist_unique {dist : ℝ × ℝ → ℝ × ℝ → ℝ} {n : ℕ} (hn : 2 ≤ n) (x : Fin n → ℝ × ℝ) (i : Fin n) {d : ℝ}
    (h : IsNearestOther dist (List.ofFn x) i d) : d = nnDist dist hn i x := by
  obtain ⟨p, hp, ⟨j, q, hq, hj, hd⟩, hmin⟩ := h
  rw [List.getElem?_ofFn, dif_pos i.2] at hp
  have hp' : x i = p := by simpa using hp
  subst hp'
  rw [List.getElem?_ofFn] at hq
  split_ifs at hq with hjn
  have hq' : x ⟨j, hjn⟩ = q := by simpa using hq
  subst hq'
  refine le_antisymm ?_ ?_
  · refine Finset.le_inf' _ _ fun k hk => ?_
    refine hmin k (x k) (by rw [List.getElem?_ofFn, dif_pos k.2]) fun e => ?_
    exact Finset.ne_of_mem_erase hk (Fin.ext e)
  · rw [hd]
    exact Finset.inf'_le _ (Finset.mem_erase.2 ⟨fun e => hj (by rw [← e]), Finset.mem_univ _⟩)

private theorem gData {lib : Lib ℝ} (hc : lib.Correct) {m : Metric} {n : ℕ} (hn : 2 ≤ n) (x : Fin n → ℝ × ℝ) {d : List ℝ}
    (h : gDistances lib m (List.ofFn x) .none = .ok d) :
    d = (List.ofFn fun i => nnDist (lib.pdist m) hn i).map fun f => f x := by
  obtain ⟨h1, h2⟩ := gDistances_none hc (by simpa using hn) h
  rw [List.length_ofFn] at h1
  rw [List.map_ofFn]
  refine List.ext_getElem (by simp [h1]) fun i hi1 hi2 => ?_
  rw [List.getElem_ofFn]
  exact nnDist_unique hn x ⟨i, by omega⟩ (h2 i _ (List.getElem?_eq_getElem hi1))

/-- The distances of the pairs of random points. -/
private def pairFs (dist : ℝ × ℝ → ℝ × ℝ → ℝ) : List (X → ℝ × ℝ) → List (X → ℝ)
  | [] => []
  | f :: fs => fs.map (fun g x => dist (f x) (g x)) ++ pairFs dist fs

private theorem pairFs_eq (dist : ℝ × ℝ → ℝ × ℝ → ℝ) (x : X) : ∀ fs : List (X → ℝ × ℝ),
    DistStats.pdist dist (fs.map fun f => f x) = (pairFs dist fs).map fun f => f x
  | [] => rfl
  | f :: fs => by
    rw [List.map_cons]
    change (fs.map fun g => g x).map (dist (f x)) ++ DistStats.pdist dist (fs.map fun g => g x) = _
    rw [pairFs, List.map_append, pairFs_eq dist x fs, List.map_map, List.map_map]
    rfl

private theorem pairFs_measurable {dist : ℝ × ℝ → ℝ × ℝ → ℝ} (hd : Measurable fun p : (ℝ × ℝ) × (ℝ × ℝ) => dist p.1 p.2) :
    ∀ fs : List (X → ℝ × ℝ), (∀ f ∈ fs, Measurable f) → ∀ f ∈ pairFs dist fs, Measurable f
  | [] => by simp [pairFs]
  | f :: fs => by
    intro h g hg
    rw [pairFs, List.mem_append] at hg
    rcases hg with hg | hg
    · obtain ⟨g', hg', rfl⟩ := List.mem_map.1 hg
      exact hd.comp ((h f (by simp)).prodMk (h g' (by simp [hg'])))
    · exact pairFs_measurable hd fs (fun f' hf' => h f' (by simp [hf'])) g hg

/-- The area of the bounding box of random points. -/
private theorem area_measurable (fs : List (X → ℝ × ℝ)) (hfs : ∀ f ∈ fs, Measurable f) :
    ∃ a : X → ℝ, Measurable a ∧ ∀ x b, bboxPts (fs.map fun f => f x) = .ok b → areaBBox b = a x := by
  cases fs with
  | nil => exact ⟨fun _ => 0, measurable_const, fun x b h => by cases h⟩
  | cons f fs =>
    have hf := hfs f (by simp)
    have h1 : ∀ g ∈ fs.map fun g x => (g x).1, Measurable g := by
      intro g hg
      obtain ⟨g', hg', rfl⟩ := List.mem_map.1 hg
      exact (hfs g' (by simp [hg'])).fst
    have h2 : ∀ g ∈ fs.map fun g x => (g x).2, Measurable g := by
      intro g hg
      obtain ⟨g', hg', rfl⟩ := List.mem_map.1 hg
      exact (hfs g' (by simp [hg'])).snd
    have m1 := measurable_listMin hf.fst _ h1
    have m2 := measurable_listMax hf.fst _ h1
    have m3 := measurable_listMin hf.snd _ h2
    have m4 := measurable_listMax hf.snd _ h2
    refine ⟨_, continuous_abs.measurable.comp ((m2.sub m1).mul (m4.sub m3)), fun x b hb => ?_⟩
    cases hb
    simp only [areaBBox, List.map_map, Function.comp_def, Pi.mul_apply, Pi.sub_apply]

theorem callStat_G {lib : Lib ℝ} {num : Num ℝ} {u : ℕ → ℝ} {pts : List (ℝ × ℝ)} {support : SupportArg ℝ} {metric : MetricArg}
    {hull : HullArg ℝ} {edge : Bool} {fuel pos pos' : ℕ} {r : List ℝ × List (XF ℝ)}
    (h : callStat lib num .G u pts support .none metric hull edge fuel pos = some (.ok (r, pos'))) :
    g lib pts support .none metric edge = .ok r := by
  unfold callStat liftPy at h
  simp only at h
  change some ((g lib pts support .none metric edge).map _) = _ at h
  cases hg : g lib pts support .none metric edge with
  | error e => rw [hg] at h; cases h
  | ok r' => rw [hg] at h; cases h; rfl

theorem callStat_K {lib : Lib ℝ} {num : Num ℝ} {u : ℕ → ℝ} {pts : List (ℝ × ℝ)} {support : SupportArg ℝ} {metric : MetricArg}
    {hull : HullArg ℝ} {edge : Bool} {fuel pos pos' : ℕ} {r : List ℝ × List (XF ℝ)}
    (h : callStat lib num .K u pts support .none metric hull edge fuel pos = some (.ok (r, pos'))) :
    k lib pts support .none metric edge = .ok r := by
  unfold callStat liftPy at h
  simp only at h
  change some ((k lib pts support .none metric edge).map _) = _ at h
  cases hg : k lib pts support .none metric edge with
  | error e => rw [hg] at h; cases h
  | ok r' => rw [hg] at h; cases h; rfl

theorem callStat_L {lib : Lib ℝ} {num : Num ℝ} {lin : Bool} {u : ℕ → ℝ} {pts : List (ℝ × ℝ)} {support : SupportArg ℝ} {metric : MetricArg}
    {hull : HullArg ℝ} {edge : Bool} {fuel pos pos' : ℕ} {r : List ℝ × List (XF ℝ)}
    (h : callStat lib num (.L lin) u pts support .none metric hull edge fuel pos = some (.ok (r, pos'))) :
    ∃ r', k lib pts support .none metric edge = .ok r' ∧ r.1 = r'.1
      ∧ r.2 = if lin then List.zipWith (fun x d => XF.sub x (.fin d)) (r'.2.map (lTransform num.root num.pi)) r'.1
        else r'.2.map (lTransform num.root num.pi) := by
  unfold callStat liftPy at h
  simp only at h
  change some ((l lib num.root num.pi pts support .none metric edge lin).map _) = _ at h
  unfold l at h
  cases hg : k lib pts support .none metric edge with
  | error e => rw [hg] at h; cases h
  | ok r' =>
    rw [hg] at h
    cases h
    exact ⟨r', rfl, rfl, rfl⟩

/-- The value of the K curve at a distance. -/
theorem k_measurable {lib : Lib ℝ} {m : Metric} (hm : Measurable fun p : (ℝ × ℝ) × (ℝ × ℝ) => lib.pdist m p.1 p.2) {n : ℕ}
    (hn : 2 ≤ n) (s : List ℝ) (i : ℕ) (t : ℝ) (ht : s[i]? = some t) :
    ∃ y : (Fin n → ℝ × ℝ) → ℝ, Measurable y ∧ ∀ x support edge r, k lib (List.ofFn x) support .none (.metric m) edge = .ok r →
      r.1 = s → r.2[i]? = some (.fin (y x)) := by
  have hfs : ∀ f ∈ (List.ofFn fun i => fun x : Fin n → ℝ × ℝ => x i), Measurable f := by
    intro f hf
    obtain ⟨i, rfl⟩ := (List.mem_ofFn' _ _).1 hf
    exact measurable_pi_apply i
  have hofn : ∀ x : Fin n → ℝ × ℝ, List.ofFn x = (List.ofFn fun i => fun x : Fin n → ℝ × ℝ => x i).map fun f => f x := by
    intro x
    rw [List.map_ofFn]
    rfl
  obtain ⟨a, ha, hab⟩ := area_measurable _ hfs
  have hcount := (count_disc (fun y => y < t) measurableSet_Iio _ (pairFs_measurable hm _ hfs)).measurable fun c : ℕ => (c : ℝ)
  refine ⟨_, ((hcount.mul_const 2).div_const (n : ℝ)).div (measurable_const.div ha (f := fun _ => (n : ℝ))), fun x support edge r h hr => ?_⟩
  obtain ⟨p, d, hp, hd, -, hr1, hr2⟩ := k_ok h
  obtain ⟨-, hH, m', hm', hpm, -⟩ := prepare_ok hp
  cases hm'
  have hpm' : p.metric = m := hpm
  rw [hpm'] at hd
  have hH' : (bboxPts (List.ofFn x)).map HullRes.bboxOf = .ok p.hull := hH
  obtain ⟨b, hb, hbH⟩ : ∃ b, bboxPts (List.ofFn x) = .ok b ∧ p.hull = .bboxOf b := by
    cases hb : bboxPts (List.ofFn x) with
    | error e => rw [hb] at hH'; cases hH'
    | ok b => rw [hb] at hH'; injection hH' with hH'; exact ⟨b, rfl, hH'.symm⟩
  have harea : (lib.hullOf p.hull).area = a x := by
    rw [hbH]
    rw [hofn x] at hb
    exact hab x b hb
  have hd' : d = (pairFs (lib.pdist m) (List.ofFn fun i => fun x : Fin n → ℝ × ℝ => x i)).map fun f => f x := by
    rw [← pairFs_eq, ← hofn]
    cases hd
    rfl
  rw [hr2, List.getElem?_map, ← hr1, hr, ht, harea, List.length_ofFn, hd']
  have hn0 : (n : ℝ) ≠ 0 := by
    have : n ≠ 0 := by omega
    exact_mod_cast this
  have hnpos : (0 : ℝ) < n := by
    have : 0 < n := by omega
    exact_mod_cast this
  simp only [Option.map_some, Option.some.injEq]
  by_cases h0 : a x = 0
  · simp [XF.div, h0, hnpos]
  · have : (n : ℝ) / a x ≠ 0 := div_ne_zero hn0 h0
    simp [XF.div, h0, hn0]

/-- The values of the curves at a place, read off by `φ`, are a random variable. -/
theorem curve_measurable (lib : Lib ℝ) (hc : lib.Correct) (num : Num ℝ) (hroot : Measurable num.root) (call : Call)
    (hcall : call = .G ∨ call = .K ∨ ∃ lin, call = .L lin) (m : Metric)
    (hm : Measurable fun p : (ℝ × ℝ) × (ℝ × ℝ) => lib.pdist m p.1 p.2) {n : ℕ} (hn : 2 ≤ n) (s : List ℝ) (i : ℕ)
    (φ : XF ℝ → EReal) (hφ : ∀ y : ℝ, φ (.fin y) = y) :
    ∃ T : (Fin n → ℝ × ℝ) → EReal, Measurable T ∧ ∀ x u support hull edge fuel pos r pos',
      callStat lib num call u (List.ofFn x) support .none (.metric m) hull edge fuel pos = some (.ok (r, pos')) → r.1 = s →
      φ (r.2.getD i .nan) = T x := by
  rcases hcall with rfl | hcall
  · have hfs : ∀ f ∈ (List.ofFn fun i => nnDist (lib.pdist m) hn i), Measurable f := by
      intro f hf
      obtain ⟨i, rfl⟩ := (List.mem_ofFn' _ _).1 hf
      exact nnDist_measurable hm hn i
    refine ⟨_, (cumCounts_disc _ hfs s).measurable fun c => φ ((shareCurve c).getD i .nan), fun x u support hull edge fuel pos r pos' h hr => ?_⟩
    obtain ⟨p, d, hp, hd, hs⟩ := g_ok (callStat_G h)
    obtain ⟨-, -, m', hm', hpm, -⟩ := prepare_ok hp
    cases hm'
    have hpm' : p.metric = m := hpm
    rw [hpm'] at hd
    have hps := (shares_support hs).1
    rw [shares_counts hs, ← gData hc hn x hd, ← hr, hps]
  · cases hsi : s[i]? with
    | none =>
      refine ⟨fun _ => φ .nan, measurable_const, fun x u support hull edge fuel pos r pos' h hr => ?_⟩
      have hlen : s.length ≤ i := List.getElem?_eq_none_iff.1 hsi
      have hnone : r.2[i]? = none := by
        rcases hcall with rfl | ⟨lin, rfl⟩
        · obtain ⟨p, d, -, -, -, hr1, hr2⟩ := k_ok (callStat_K h)
          rw [List.getElem?_eq_none_iff, hr2, List.length_map, ← hr1, hr]
          exact hlen
        · obtain ⟨r', hk, e1, e2⟩ := callStat_L h
          obtain ⟨p, d, -, -, -, hr1, hr2⟩ := k_ok hk
          rw [List.getElem?_eq_none_iff, e2]
          rw [e1, hr1] at hr
          split_ifs
          · rw [List.length_zipWith, List.length_map, hr2, List.length_map, hr1, hr, min_self]; exact hlen
          · rw [List.length_map, hr2, List.length_map, hr]; exact hlen
      rw [List.getD_eq_getElem?_getD, hnone]
      rfl
    | some t =>
      obtain ⟨y, hy, hk⟩ := k_measurable hm hn s i t hsi
      rcases hcall with rfl | ⟨lin, rfl⟩
      · refine ⟨_, measurable_coe_real_ereal.comp hy, fun x u support hull edge fuel pos r pos' h hr => ?_⟩
        rw [List.getD_eq_getElem?_getD, hk x support edge r (callStat_K h) hr]
        exact hφ _
      · refine ⟨fun x => ((if lin then num.root (y x / num.pi) - t else num.root (y x / num.pi) : ℝ) : EReal), ?_,
          fun x u support hull edge fuel pos r pos' h hr => ?_⟩
        · refine measurable_coe_real_ereal.comp ?_
          have h1 : Measurable fun x => num.root (y x / num.pi) := hroot.comp (hy.div_const _)
          cases lin
          · simpa using h1
          · simpa using h1.sub_const t
        · obtain ⟨r', hk', e1, e2⟩ := callStat_L h
          rw [e1] at hr
          have hv := hk x support edge r' hk' hr
          rw [List.getD_eq_getElem?_getD, e2]
          cases lin
          · simp [hv, lTransform, hφ]
          · rw [if_pos rfl, List.getElem?_zipWith, List.getElem?_map, hv, hr, hsi]
            exact hφ _

end Pointpats.MeasurableCurves
