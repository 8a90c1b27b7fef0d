import Verif.Lemmas.MeasurableRun
import Verif.Lemmas.Draws
import Mathlib.MeasureTheory.Function.Floor
import Mathlib.MeasureTheory.Constructions.BorelSpace.Real

/-!
# The samplers depend measurably on the draws
-/

set_option linter.unusedSectionVars false

namespace Pointpats.MeasurableRun

open Random MeasureTheory Spec

variable {X α : Type} [MeasurableSpace X] [MeasurableSpace α]

/-! ### Arrays -/

instance : Nonempty (Squeezed ℝ) := ⟨.rows []⟩

private theorem measurable_code : Measurable arrayCode := comap_measurable arrayCode

theorem measurable_point {f : X → ℝ × ℝ} (hf : Measurable f) : Measurable fun x => Squeezed.point (f x) :=
  measurable_comap_iff.2 (measurable_const.prodMk (hf.prodMk measurable_const))

theorem measurable_rows {f : X → List (ℝ × ℝ)} (hf : Measurable f) : Measurable fun x => Squeezed.rows (f x) :=
  measurable_comap_iff.2 (measurable_const.prodMk (measurable_const.prodMk (hf.prodMk measurable_const)))

theorem measurable_cube {f : X → List (List (ℝ × ℝ))} (hf : Measurable f) (n : ℕ) : Measurable fun x => Squeezed.cube n (f x) :=
  measurable_comap_iff.2 (measurable_const.prodMk (measurable_const.prodMk (measurable_const.prodMk (measurable_const.prodMk hf))))

theorem measurable_data : Measurable (Squeezed.data : Squeezed ℝ → List (ℝ × ℝ)) := by
  have h0 : Measurable fun s => (arrayCode s).1 := measurable_fst.comp measurable_code
  have h1 : Measurable fun s => (arrayCode s).2.1 := measurable_fst.comp (measurable_snd.comp measurable_code)
  have h2 : Measurable fun s => (arrayCode s).2.2.1 := measurable_fst.comp (measurable_snd.comp (measurable_snd.comp measurable_code))
  have h4 : Measurable fun s => (arrayCode s).2.2.2.2 :=
    measurable_snd.comp (measurable_snd.comp (measurable_snd.comp (measurable_snd.comp measurable_code)))
  have := measurable_byNat h0 (f := fun j s => if j = 0 then [(arrayCode s).2.1] else if j = 1 then (arrayCode s).2.2.1
    else (arrayCode s).2.2.2.2.flatten) (by
      intro j
      by_cases hj : j = 0
      · simp only [hj, if_true]; exact measurable_cons h1 measurable_const
      · by_cases hj' : j = 1
        · simp only [hj', if_true, one_ne_zero, if_false]; exact h2
        · simp only [hj, hj', if_false]; exact measurable_flatten h4)
  convert this using 2 with s
  cases s <;> simp [arrayCode, Squeezed.data]

/-- A case distinction by the form of an array. -/
theorem MRun.byForm {f : X → Squeezed ℝ → Run α} (hp : MRun fun z : X × (ℝ × ℝ) => f z.1 (.point z.2))
    (hr : MRun fun z : X × List (ℝ × ℝ) => f z.1 (.rows z.2))
    (hc : ∀ n, MRun fun z : X × List (List (ℝ × ℝ)) => f z.1 (.cube n z.2)) : MRun fun z : X × Squeezed ℝ => f z.1 z.2 := by
  have hcode : Measurable fun z : X × Squeezed ℝ => arrayCode z.2 := measurable_code.comp measurable_snd
  have h0 : Measurable fun z : X × Squeezed ℝ => (arrayCode z.2).1 := measurable_fst.comp hcode
  have h1 : Measurable fun z : X × Squeezed ℝ => (z.1, (arrayCode z.2).2.1) :=
    measurable_fst.prodMk (measurable_fst.comp (measurable_snd.comp hcode))
  have h2 : Measurable fun z : X × Squeezed ℝ => (z.1, (arrayCode z.2).2.2.1) :=
    measurable_fst.prodMk (measurable_fst.comp (measurable_snd.comp (measurable_snd.comp hcode)))
  have h3 : Measurable fun z : X × Squeezed ℝ => (arrayCode z.2).2.2.2.1 :=
    measurable_fst.comp (measurable_snd.comp (measurable_snd.comp (measurable_snd.comp hcode)))
  have h4 : Measurable fun z : X × Squeezed ℝ => (z.1, (arrayCode z.2).2.2.2.2) :=
    measurable_fst.prodMk (measurable_snd.comp (measurable_snd.comp (measurable_snd.comp (measurable_snd.comp hcode))))
  have := MRun.byNat h0 (f := fun j z => if j = 0 then f z.1 (.point (arrayCode z.2).2.1) else if j = 1 then f z.1 (.rows (arrayCode z.2).2.2.1)
    else f z.1 (.cube (arrayCode z.2).2.2.2.1 (arrayCode z.2).2.2.2.2)) (by
      intro j
      by_cases hj : j = 0
      · simp only [hj, if_true]; exact hp.comp h1
      · by_cases hj' : j = 1
        · simp only [hj', if_true, one_ne_zero, if_false]; exact hr.comp h2
        · simp only [hj, hj', if_false]
          exact MRun.byNat h3 (f := fun n z => f z.1 (.cube n (arrayCode z.2).2.2.2.2)) fun n => (hc n).comp h4)
  refine this.congr fun z => ?_
  obtain ⟨x, s⟩ := z
  cases s <;> simp [arrayCode]

theorem measurable_squeeze (s n : ℕ) {f : X → List (List (ℝ × ℝ))} (hf : Measurable f) :
    Measurable fun x => squeeze s n (f x) := by
  unfold squeeze
  split
  · split
    · refine measurable_point ?_
      have := (measurable_getD 0).comp (measurable_flatten hf)
      convert this using 2 with x
      simp only [Function.comp]
      cases (f x).flatten <;> rfl
    · exact measurable_rows (measurable_flatten hf)
  · split
    · exact measurable_rows (measurable_flatten hf)
    · exact measurable_cube hf n

/-! ### Rejection sampling -/

theorem rejection_mrun {c : X → ℕ → ℝ × ℝ} (hc : ∀ pos, Measurable fun x => c x pos) {accept : ℝ × ℝ → Bool}
    (ha : MeasurableSet {p | accept p = true}) (fuel : ℕ) : ∀ pos n, MRun fun x => rejection (c x) accept fuel pos n := by
  induction fuel with
  | zero =>
    intro pos n
    cases n with
    | zero => exact (MRun.ret (g := fun _ => ([] : List (ℝ × ℝ))) measurable_const pos).congr fun x => by simp [rejection]
    | succ n => exact MRun.none.congr fun x => by simp [rejection]
  | succ fuel ih =>
    intro pos n
    cases n with
    | zero => exact (MRun.ret (g := fun _ => ([] : List (ℝ × ℝ))) measurable_const pos).congr fun x => by simp [rejection]
    | succ n =>
      simp only [rejection]
      refine MRun.ite (hc pos ha) (MRun.andThen (g := fun x l p => Run.ret (c x pos :: l) p) (ih _ _) fun p => ?_) (ih _ _)
      exact MRun.ret (measurable_cons ((hc pos).comp measurable_fst) measurable_snd) p

theorem replications_mrun [Inhabited α] {body : X → ℕ → ℕ → Run α} (hb : ∀ i pos, MRun fun x => body x i pos) (s : ℕ) :
    ∀ i pos, MRun fun x => replications (body x) i s pos := by
  induction s with
  | zero => intro i pos; exact MRun.ret measurable_const pos
  | succ s ih =>
    intro i pos
    simp only [replications]
    refine MRun.andThen (g := fun x l p => (replications (body x) (i + 1) s p).andThen fun ls p' => Run.ret (l :: ls) p') (hb i pos)
      fun p => ?_
    refine MRun.andThen (g := fun (z : X × α) ls p' => Run.ret (z.2 :: ls) p') ((ih (i + 1) p).comp measurable_fst) fun p' => ?_
    exact MRun.ret (measurable_cons (measurable_snd.comp measurable_fst) measurable_snd) p'

theorem measurable_stream (i : ℕ) : Measurable fun u : ℕ → ℝ => u i := measurable_pi_apply i

/-- Hulls for which containment is an event. -/
def MeasurableHull (h : Hull ℝ) : Prop := MeasurableSet {p : ℝ × ℝ | h.contains p.1 p.2 = true}

private theorem measurable_boxCandidate (h : Hull ℝ) (pos : ℕ) : Measurable fun u : ℕ → ℝ => boxCandidate h u pos := by
  unfold boxCandidate uniform
  exact (((measurable_stream pos).const_mul _).const_add _).prodMk (((measurable_stream (pos + 1)).const_mul _).const_add _)

theorem poisson_mrun {h : Hull ℝ} (hh : MeasurableHull h) (intensity : Option ℝ) (size : SizeArg) (fuel pos : ℕ) :
    MRun fun u => poisson h u intensity size fuel pos := by
  unfold poisson
  cases parseSizeAndIntensity h intensity size with
  | error e => exact MRun.fail e
  | ok x =>
    obtain ⟨n, s, i⟩ := x
    simp only
    split
    · exact MRun.fail _
    · refine MRun.andThen (g := fun _ reps p => Run.ret (squeeze s.toNat n.toNat reps) p) ?_ fun p =>
        MRun.ret (measurable_squeeze _ _ measurable_snd) p
      exact replications_mrun (fun i pos => rejection_mrun (measurable_boxCandidate h) hh fuel pos _) _ _ _

theorem normal_mrun {h : Hull ℝ} (hh : MeasurableHull h) (root : ℝ → ℝ) {mvn : M2 ℝ → ℝ → ℝ → ℝ × ℝ}
    (hm : ∀ m, Measurable fun z : ℝ × ℝ => mvn m z.1 z.2) (center : ℝ × ℝ) (cov : CovArg ℝ) (size : SizeArg) (fuel pos : ℕ) :
    MRun fun u => normal h root mvn center cov u size fuel pos := by
  unfold normal
  cases parseSizeAndIntensity h none size with
  | error e => exact MRun.fail e
  | ok x =>
    obtain ⟨n, s, i⟩ := x
    simp only
    cases resolveCov h cov s with
    | error e => exact MRun.fail e
    | ok cov =>
      simp only
      split
      · exact MRun.fail _
      · refine MRun.andThen (g := fun _ reps p => Run.ret (squeeze s.toNat n.toNat reps) p) ?_ fun p =>
          MRun.ret (measurable_squeeze _ _ measurable_snd) p
        refine replications_mrun (fun i pos => rejection_mrun (fun pos => ?_) hh fuel pos _) _ _ _
        have hz : Measurable fun u : ℕ → ℝ => mvn (replicationCor root (cov.at i)) (u pos) (u (pos + 1)) :=
          (hm _).comp ((measurable_stream pos).prodMk (measurable_stream (pos + 1)))
        exact ((measurable_fst.comp hz).mul_const _ |>.const_add _).prodMk ((measurable_snd.comp hz).mul_const _ |>.const_add _)

/-! ### Clusters -/

private theorem measurable_circleChunk (r : ℝ) (center : ℝ × ℝ) {inHull : ℝ → ℝ → Bool}
    (hh : MeasurableSet {p : ℝ × ℝ | inHull p.1 p.2 = true}) (n pos : ℕ) :
    Measurable fun u : ℕ → ℝ => circleChunk r center inHull u n pos := by
  unfold circleChunk uniform
  refine measurable_filter_map (List.range (2 * n)) (f := fun i u => _) (fun i => ?_) ?_
  · exact (((measurable_stream _).const_mul _).const_add _).prodMk (((measurable_stream _).const_mul _).const_add _)
  · simp only [Bool.and_eq_true, decide_eq_true_eq]
    refine MeasurableSet.inter (measurableSet_le ((measurable_fst.mul measurable_fst).add (measurable_snd.mul measurable_snd))
      measurable_const) ?_
    exact ((measurable_fst.add_const center.1).prodMk (measurable_snd.add_const center.2)) hh

private theorem circleLoop_mrun (r : ℝ) (center : ℝ × ℝ) {inHull : ℝ → ℝ → Bool}
    (hh : MeasurableSet {p : ℝ × ℝ | inHull p.1 p.2 = true}) (n fuel : ℕ) :
    ∀ pos, MRun fun z : (ℕ → ℝ) × List (ℝ × ℝ) => circleLoop r center inHull z.1 n fuel pos z.2 := by
  have hlen : MeasurableSet {z : (ℕ → ℝ) × List (ℝ × ℝ) | n ≤ z.2.length} :=
    measurableSet_le measurable_const (measurable_length.comp measurable_snd)
  have hmap : Measurable fun z : (ℕ → ℝ) × List (ℝ × ℝ) => z.2.map fun p => (p.1 + center.1, p.2 + center.2) :=
    measurable_map measurable_snd ((measurable_fst.add_const _).prodMk (measurable_snd.add_const _))
  induction fuel with
  | zero =>
    intro pos
    refine (MRun.ite hlen (MRun.ret hmap pos) MRun.none).congr fun z => ?_
    rw [circleLoop]
  | succ fuel ih =>
    intro pos
    refine (MRun.ite hlen (MRun.ret hmap pos) ((ih (pos + 4 * n)).comp
      (g := fun z => (z.1, z.2 ++ (circleChunk r center inHull z.1 n pos).take (n - z.2.length))) ?_)).congr fun z => ?_
    · refine measurable_fst.prodMk (measurable_append measurable_snd (measurable_take
        ((measurable_circleChunk r center hh n pos).comp measurable_fst) ?_))
      exact (measurable_of_countable fun k : ℕ => n - k).comp (measurable_length.comp measurable_snd)
    · rw [circleLoop]

theorem uniformCircle_mrun (n : ℕ) (r : ℝ) (center : ℝ × ℝ) {inHull : ℝ → ℝ → Bool}
    (hh : MeasurableSet {p : ℝ × ℝ | inHull p.1 p.2 = true}) (fuel pos : ℕ) :
    MRun fun u => uniformCircle n r center inHull u fuel pos :=
  (circleLoop_mrun r center hh n fuel pos).comp (g := fun u => (u, [])) (measurable_id.prodMk measurable_const)

private theorem clusterPoints_mrun {h : Hull ℝ} (hh : MeasurableHull h) (fuel : ℕ) (seeds : Squeezed ℝ) (i : ℕ) (radius : ℝ)
    (n_in pos : ℕ) : MRun fun u => clusterPoints h u fuel seeds i radius n_in pos := by
  unfold clusterPoints
  cases seeds with
  | rows l =>
    simp only
    cases l[i]? with
    | none => exact MRun.fail _
    | some seed =>
      simp only
      split
      · exact MRun.ret measurable_const _
      · split
        · exact MRun.fail _
        · exact MRun.andThen (g := fun _ l p => Run.ret (seed :: l) p) (uniformCircle_mrun _ _ _ hh fuel pos) fun p =>
            MRun.ret (measurable_cons measurable_const measurable_snd) p
  | point p =>
    simp only
    split
    · exact MRun.ret measurable_const _
    · split
      · exact MRun.fail _
      · exact MRun.fail _
  | cube n l => exact MRun.fail _

theorem clusterLoop_mrun {h : Hull ℝ} (hh : MeasurableHull h) (fuel : ℕ) (seeds : Squeezed ℝ) (work : List (ℝ × ℕ)) :
    ∀ i pos, MRun fun u => clusterLoop h u fuel seeds i work pos := by
  induction work with
  | nil => intro i pos; exact MRun.ret measurable_const _
  | cons w work ih =>
    intro i pos
    obtain ⟨radius, n_in⟩ := w
    simp only [clusterLoop]
    refine MRun.andThen (g := fun u l p => (clusterLoop h u fuel seeds (i + 1) work p).andThen fun ls p' => Run.ret (l :: ls) p')
      (clusterPoints_mrun hh fuel seeds i radius n_in pos) fun p => ?_
    refine MRun.andThen (g := fun (z : (ℕ → ℝ) × List (ℝ × ℝ)) ls p' => Run.ret (z.2 :: ls) p')
      ((ih (i + 1) p).comp measurable_fst) fun p' => ?_
    exact MRun.ret (measurable_cons (measurable_snd.comp measurable_fst) measurable_snd) p'

theorem measurable_seedDraw : Measurable (seedDraw : ℝ → ℕ) := by
  unfold seedDraw
  exact (measurable_of_countable fun k : ℤ => k.toNat).comp (Int.measurable_floor.comp (measurable_id.mul_const _))

theorem clusterPoisson_mrun {h : Hull ℝ} (hh : MeasurableHull h) (root : ℝ → ℝ) (gen : ℕ → ℕ → ℝ) (intensity : Option ℝ)
    (size : SizeArg) (n_seeds : ℕ) (radius : RadiusArg ℝ) (fuel pos : ℕ) :
    MRun fun u => clusterPoisson h root gen u intensity size n_seeds radius fuel pos := by
  unfold clusterPoisson
  simp only
  refine MRun.ite (MeasurableSet.const _) (MRun.fail _) ?_
  · cases parseSizeAndIntensity h intensity size with
    | error e => exact MRun.fail e
    | ok x =>
      obtain ⟨n, s, i⟩ := x
      simp only
      split
      · exact MRun.fail _
      · refine MRun.andThen (α := List (List (List (ℝ × ℝ))))
          (g := fun _ reps p => Run.ret (squeeze s.toNat n.toNat (reps.map List.flatten)) p) ?_ fun p =>
          MRun.ret (measurable_squeeze _ _ (measurable_map measurable_snd (measurable_flatten measurable_id))) p
        unfold clusterPoissonReps
        refine replications_mrun (fun i pos' => ?_) _ _ _
        refine (MRun.byNat (measurable_seedDraw.comp (measurable_stream (pos + i))) (f := fun j u =>
          match poisson h (gen j) Option.none (.int n_seeds) fuel 0 with
          | none => none
          | some (.error e) => Run.fail e
          | some (.ok (seeds, _)) =>
              match clusterRadii root radius n_seeds seeds with
              | .error e => Run.fail e
              | .ok radii =>
                  if n_seeds = 0 then Run.fail .valueError
                  else clusterLoop h u fuel seeds 0 (radii.zip (arraySplitSizes n.toNat n_seeds)) pos') fun j => ?_).congr fun u => ?_
        rotate_left
        · simp only [Function.comp]
          rcases poisson h (gen (seedDraw (u (pos + i)))) Option.none (.int n_seeds) fuel 0 with _ | _ | ⟨seeds, _⟩
          · rfl
          · rfl
          · simp only
            cases clusterRadii root radius n_seeds seeds <;> rfl
        cases poisson h (gen j) Option.none (.int n_seeds) fuel 0 with
        | none => exact MRun.none
        | some r =>
          cases r with
          | error e => exact MRun.fail e
          | ok y =>
            obtain ⟨seeds, q⟩ := y
            simp only
            cases clusterRadii root radius n_seeds seeds with
            | error e => exact MRun.fail e
            | ok radii =>
              simp only
              split
              · exact MRun.fail _
              · exact clusterLoop_mrun hh fuel seeds _ _ _

/-! ### Computations that only use the integers drawn -/

theorem mrun_of_integers {α : Type} [MeasurableSpace α] [Nonempty α] {f : (ℕ → ℝ) → ℕ → Run α} (hu : UsesInOrder f)
    (hf : ∀ u u' pos, (∀ i, seedDraw (u i) = seedDraw (u' i)) → f u pos = f u' pos) (pos : ℕ) : MRun fun u => f u pos := by
  intro q
  set κ : (ℕ → ℝ) → Fin q → ℕ := fun u i => seedDraw (u i) with hκ
  have hm : Measurable κ := measurable_pi_lambda _ fun i => measurable_seedDraw.comp (measurable_stream i)
  have key : ∀ u u' a, κ u = κ u' → f u pos = some (.ok (a, q)) → f u' pos = some (.ok (a, q)) := by
    intro u u' a hk h
    obtain ⟨hle, hrest⟩ := hu u pos a q h
    have h1 := hrest (fun i => if i < q then u i else u' i) pos (by
      intro i hi
      rw [if_pos (by omega)])
    rw [show pos + (q - pos) = q by omega] at h1
    rw [← h1]
    refine (hf _ _ pos fun i => ?_).symm
    by_cases hi : i < q
    · simp only [if_pos hi]
      exact congrFun hk ⟨i, hi⟩
    · simp only [if_neg hi]
  classical
  refine ⟨?_, ?_⟩
  · have : {u | ∃ a, f u pos = some (.ok (a, q))} = κ ⁻¹' {w | ∃ u a, κ u = w ∧ f u pos = some (.ok (a, q))} := by
      ext u
      constructor
      · rintro ⟨a, ha⟩; exact ⟨u, a, rfl, ha⟩
      · rintro ⟨u', a, hk, ha⟩; exact ⟨a, key u' u a hk ha⟩
    rw [this]
    exact hm (Set.to_countable _).measurableSet
  · refine ⟨(fun w => if hw : ∃ u a, κ u = w ∧ f u pos = some (.ok (a, q)) then hw.choose_spec.choose
        else Classical.arbitrary α) ∘ κ, (measurable_of_countable _).comp hm, ?_⟩
    intro u a ha
    have hw : ∃ u' a, κ u' = κ u ∧ f u' pos = some (.ok (a, q)) := ⟨u, a, rfl, ha⟩
    simp only [Function.comp, dif_pos hw]
    obtain ⟨h1, h2⟩ := hw.choose_spec.choose_spec
    have := key _ u _ h1 h2
    rw [show f u pos = some (.ok (a, q)) from ha] at this
    simp only [Option.some.injEq, Except.ok.injEq, Prod.mk.injEq] at this
    exact this.1.symm

private theorem clusterNormalReps_congr (h : Hull ℝ) (root : ℝ → ℝ) (mvn : M2 ℝ → ℝ → ℝ → ℝ × ℝ) (gen : ℕ → ℕ → ℝ) {u u' : ℕ → ℝ}
    (huu : ∀ i, seedDraw (u i) = seedDraw (u' i)) (n n_seeds fuel seedPos s : ℕ) : ∀ i cov pos,
    clusterNormalReps h root mvn gen u n n_seeds fuel seedPos i s cov pos
      = clusterNormalReps h root mvn gen u' n n_seeds fuel seedPos i s cov pos := by
  induction s with
  | zero => intro i cov pos; rfl
  | succ s ih =>
    intro i cov pos
    simp only [clusterNormalReps, huu, ih]

theorem clusterNormal_mrun (h : Hull ℝ) (root : ℝ → ℝ) (mvn : M2 ℝ → ℝ → ℝ → ℝ × ℝ) (gen : ℕ → ℕ → ℝ) (cov : CovArg ℝ)
    (size : SizeArg) (n_seeds fuel pos : ℕ) : MRun fun u => clusterNormal h root mvn gen u cov size n_seeds fuel pos := by
  refine mrun_of_integers (Draws.clusterNormal_inOrder _ _ _ _ _ _ _ _) (fun u u' pos huu => ?_) pos
  unfold clusterNormal
  simp only [clusterNormalReps_congr h root mvn gen huu]

/-! ### The Strauss sampler -/

private theorem measurable_count {ι : Type} (L : List ι) {f : ι → X → ℝ × ℝ} {p : X → ℝ × ℝ → Bool}
    (hp : ∀ i, MeasurableSet {x | p x (f i x) = true}) : Measurable fun x => ((L.map fun i => f i x).filter (p x)).length := by
  induction L with
  | nil => exact measurable_const
  | cons i L ih =>
    have : (fun x => (((i :: L).map fun i => f i x).filter (p x)).length)
        = fun x => (if p x (f i x) = true then 1 else 0) + ((L.map fun i => f i x).filter (p x)).length := by
      funext x
      simp only [List.map_cons, List.filter_cons]
      split <;> simp [Nat.add_comm]
    rw [this]
    exact (Measurable.ite (hp i) measurable_const measurable_const).add ih

private theorem measurable_pairCount_map (r : ℝ) {ι : Type} (L : List ι) {f : ι → X → ℝ × ℝ} (hf : ∀ i, Measurable (f i)) :
    Measurable fun x => pairCount r (L.map fun i => f i x) := by
  induction L with
  | nil => exact measurable_const
  | cons i L ih =>
    simp only [List.map_cons, pairCount]
    refine Measurable.add (measurable_count L (p := fun x q => decide (((f i x).1 - q.1) ^ 2 + ((f i x).2 - q.2) ^ 2 ≤ r ^ 2))
      fun j => ?_) ih
    simp only [decide_eq_true_eq]
    exact measurableSet_le ((((measurable_fst.comp (hf i)).sub (measurable_fst.comp (hf j))).pow_const 2).add
      (((measurable_snd.comp (hf i)).sub (measurable_snd.comp (hf j))).pow_const 2)) measurable_const

theorem measurable_pairCount (r : ℝ) : Measurable (pairCount r : List (ℝ × ℝ) → ℕ) := by
  have := measurable_byNat (measurable_length (α := ℝ × ℝ))
    (f := fun n l => pairCount r ((List.range n).map fun i => l.getD i default)) fun n =>
      measurable_pairCount_map r (List.range n) fun i => measurable_getD i
  convert this using 2 with l
  congr 1
  refine List.ext_getElem (by simp) fun i h1 h2 => ?_
  simp [List.getD_eq_getElem?_getD, h1]

/-- A test on a number drawn against a ratio computed from integers. -/
private theorem measurableSet_test {f : X → ℝ} (hf : Measurable f) {a b c : X → ℕ} (ha : Measurable a) (hb : Measurable b)
    (hc : Measurable c) (ratio : ℕ → ℕ → ℕ → ℝ) : MeasurableSet {x | f x < min 1 (ratio (a x) (b x) (c x))} := by
  refine measurableSet_lt hf (measurable_const.min ?_)
  exact (measurable_of_countable fun t : ℕ × ℕ × ℕ => ratio t.1 t.2.1 t.2.2).comp (ha.prodMk (hb.prodMk hc))

private theorem birth_mrun (gamma r : ℝ) (n pos : ℕ) {l t : X → List (ℝ × ℝ)} {u : X → ℕ → ℝ} (hl : Measurable l) (ht : Measurable t)
    (hu : Measurable u) : MRun fun x =>
      if u x pos < min 1 ((n : ℝ) * gamma ^ (pairCount r (t x) - pairCount r (l x)) / (((l x).length : ℝ) + 1))
      then (Run.ret (.rows (t x)) (pos + 1) : Run (Squeezed ℝ)) else Run.ret (.rows (l x)) (pos + 1) :=
  MRun.ite (measurableSet_test ((measurable_stream pos).comp hu) ((measurable_pairCount r).comp ht) ((measurable_pairCount r).comp hl)
    (measurable_length.comp hl) fun a b c => (n : ℝ) * gamma ^ (a - b) / ((c : ℝ) + 1)) (MRun.ret (measurable_rows ht) _)
    (MRun.ret (measurable_rows hl) _)

/-- The second half of the move of the Strauss sampler that adds points. -/
private noncomputable def birthEnd (gamma r : ℝ) (n : ℕ) (u : ℕ → ℝ) (l : List (ℝ × ℝ)) (new_point : Squeezed ℝ) (pos : ℕ) :
    Run (Squeezed ℝ) :=
  match vstackRows l new_point with
  | .error e => Run.fail e
  | .ok trial_points =>
      if u pos < min 1 ((n : ℝ) * gamma ^ (pairCount r trial_points - pairCount r l) / ((l.length : ℝ) + 1))
      then Run.ret (.rows trial_points) (pos + 1) else Run.ret (.rows l) (pos + 1)

/-- The move of the Strauss sampler that adds points. -/
private noncomputable def birthRun (h : Hull ℝ) (gamma r : ℝ) (n fuel : ℕ) (u : ℕ → ℝ) (l : List (ℝ × ℝ)) (pos : ℕ) :
    Run (Squeezed ℝ) :=
  (poisson h u (some 1) .none fuel pos).andThen fun new_point pos => birthEnd gamma r n u l new_point pos

private theorem birthRun_mrun {h : Hull ℝ} (hh : MeasurableHull h) (gamma r : ℝ) (n fuel pos : ℕ) :
    MRun fun z : (ℕ → ℝ) × List (ℝ × ℝ) => birthRun h gamma r n fuel z.1 z.2 pos := by
  unfold birthRun
  refine MRun.andThen (g := fun (z : (ℕ → ℝ) × List (ℝ × ℝ)) new_point pos => birthEnd gamma r n z.1 z.2 new_point pos)
    ((poisson_mrun hh _ _ fuel pos).comp measurable_fst) fun p => ?_
  refine MRun.byForm (X := (ℕ → ℝ) × List (ℝ × ℝ)) (f := fun z new_point => birthEnd gamma r n z.1 z.2 new_point p) ?_ ?_ ?_
  · simp only [birthEnd, vstackRows]
    exact birth_mrun gamma r n p (measurable_snd.comp measurable_fst)
      (measurable_append (measurable_snd.comp measurable_fst) (measurable_cons measurable_snd measurable_const))
      (measurable_fst.comp measurable_fst)
  · simp only [birthEnd, vstackRows]
    exact birth_mrun gamma r n p (measurable_snd.comp measurable_fst)
      (measurable_append (measurable_snd.comp measurable_fst) measurable_snd) (measurable_fst.comp measurable_fst)
  · intro k
    simp only [birthEnd, vstackRows]
    exact MRun.fail _

/-- The move of the Strauss sampler that removes a point. -/
private noncomputable def deathRun (gamma r : ℝ) (n : ℕ) (u : ℕ → ℝ) (l : List (ℝ × ℝ)) (pos : ℕ) : Run (Squeezed ℝ) :=
  if (n : ℝ) * gamma ^ (pairCount r l - pairCount r (l.eraseIdx ⌊u pos * (l.length : ℝ)⌋.toNat)) = 0 then Run.fail .runtimeError
  else if u (pos + 1) < min 1 ((l.length : ℝ)
      / ((n : ℝ) * gamma ^ (pairCount r l - pairCount r (l.eraseIdx ⌊u pos * (l.length : ℝ)⌋.toNat))))
    then Run.ret (.rows (l.eraseIdx ⌊u pos * (l.length : ℝ)⌋.toNat)) (pos + 2) else Run.ret (.rows l) (pos + 2)

private theorem deathRun_mrun (gamma r : ℝ) (n pos : ℕ) :
    MRun fun z : (ℕ → ℝ) × List (ℝ × ℝ) => deathRun gamma r n z.1 z.2 pos := by
  unfold deathRun
  have hl : Measurable fun z : (ℕ → ℝ) × List (ℝ × ℝ) => z.2 := measurable_snd
  have hu (i : ℕ) : Measurable fun z : (ℕ → ℝ) × List (ℝ × ℝ) => z.1 i := (measurable_stream i).comp measurable_fst
  have hlen : Measurable fun z : (ℕ → ℝ) × List (ℝ × ℝ) => z.2.length := measurable_length.comp hl
  have hidx : Measurable fun z : (ℕ → ℝ) × List (ℝ × ℝ) => ⌊z.1 pos * (z.2.length : ℝ)⌋.toNat :=
    (measurable_of_countable fun k : ℤ => k.toNat).comp (Int.measurable_floor.comp
      ((hu pos).mul ((measurable_of_countable fun k : ℕ => (k : ℝ)).comp hlen)))
  have ht : Measurable fun z : (ℕ → ℝ) × List (ℝ × ℝ) => z.2.eraseIdx ⌊z.1 pos * (z.2.length : ℝ)⌋.toNat := measurable_eraseIdx hl hidx
  have hk := (measurable_pairCount r).comp hl
  have hk' := (measurable_pairCount r).comp ht
  refine MRun.ite ?_ (MRun.fail _) (MRun.ite (measurableSet_test (hu (pos + 1)) hlen hk hk' fun a b c => (a : ℝ) / ((n : ℝ) * gamma ^ (b - c)))
    (MRun.ret (measurable_rows ht) _) (MRun.ret (measurable_rows hl) _))
  exact ((measurable_of_countable fun t : ℕ × ℕ => (n : ℝ) * gamma ^ (t.1 - t.2)).comp (hk.prodMk hk')) (measurableSet_singleton 0)

private theorem straussStep_mrun {h : Hull ℝ} (hh : MeasurableHull h) (gamma r : ℝ) (n fuel pos : ℕ) :
    MRun fun z : (ℕ → ℝ) × Squeezed ℝ => straussStep h z.1 gamma r n fuel z.2 pos := by
  have other {Y : Type} [MeasurableSpace Y] (len : Y → ℕ) (S : Y → Squeezed ℝ) (hlen : Measurable len) (hS : Measurable S)
      (heq : ∀ z : (ℕ → ℝ) × Y, straussStep h z.1 gamma r n fuel (S z.2) pos
        = if len z.2 < n then (poisson h z.1 (some 1) .none fuel pos).andThen fun _ _ => Run.fail .valueError
          else if z.1 pos < 1 / 2 then (poisson h z.1 (some 1) .none fuel (pos + 1)).andThen fun _ _ => Run.fail .valueError
          else if n < len z.2 then Run.fail .valueError else Run.ret (S z.2) (pos + 1)) :
      MRun fun z : (ℕ → ℝ) × Y => straussStep h z.1 gamma r n fuel (S z.2) pos := by
    have birth (p : ℕ) : MRun fun z : (ℕ → ℝ) × Y => ((poisson h z.1 (some 1) .none fuel p).andThen fun _ _ => Run.fail .valueError :
        Run (Squeezed ℝ)) :=
      MRun.andThen (g := fun _ _ _ => Run.fail .valueError) ((poisson_mrun hh _ _ fuel p).comp measurable_fst) fun p => MRun.fail _
    exact (MRun.ite (measurableSet_lt (hlen.comp measurable_snd) measurable_const) (birth pos)
      (MRun.ite (measurableSet_lt ((measurable_stream pos).comp measurable_fst) measurable_const) (birth (pos + 1))
      (MRun.ite (measurableSet_lt measurable_const (hlen.comp measurable_snd)) (MRun.fail _)
        (MRun.ret (hS.comp measurable_snd) (pos + 1))))).congr heq
  refine MRun.byForm (f := fun u points => straussStep h u gamma r n fuel points pos) ?_ ?_ ?_
  · refine other (fun _ => 2) Squeezed.point measurable_const (measurable_point measurable_id) fun z => ?_
    simp only [straussStep]
    by_cases h1 : 2 < n
    · simp [h1]
    · by_cases h2 : z.1 pos < 1 / 2
      · simp only [h1, decide_false, h2, decide_true, Bool.false_or, if_true, if_false]
      · simp only [h1, decide_false, h2, Bool.false_or, if_false, Bool.false_eq_true]
  · have hlen : Measurable fun z : (ℕ → ℝ) × List (ℝ × ℝ) => z.2.length := measurable_length.comp measurable_snd
    refine (MRun.ite (measurableSet_lt hlen (measurable_const (a := n))) (birthRun_mrun hh gamma r n fuel pos)
      (MRun.ite (measurableSet_lt ((measurable_stream pos).comp measurable_fst) (measurable_const (a := (1 / 2 : ℝ))))
        (birthRun_mrun hh gamma r n fuel (pos + 1)) (MRun.ite (measurableSet_lt (measurable_const (a := n)) hlen)
          (deathRun_mrun gamma r n (pos + 1)) (MRun.ret (measurable_rows measurable_snd) (pos + 1))))).congr fun z => ?_
    simp only [straussStep, birthRun, birthEnd, deathRun, Function.comp]
    by_cases h1 : z.2.length < n
    · simp only [h1, decide_true, Bool.true_or, if_true]
      congr 1; funext a b
      cases vstackRows z.2 a <;> rfl
    · by_cases h2 : z.1 pos < 1 / 2
      · simp only [h1, decide_false, h2, decide_true, Bool.false_or, if_true, if_false]
        congr 1; funext a b
        cases vstackRows z.2 a <;> rfl
      · simp only [h1, decide_false, h2, Bool.false_or, if_false, Bool.false_eq_true]
  · intro k
    refine other List.length (Squeezed.cube k) measurable_length (measurable_cube measurable_id k) fun z => ?_
    simp only [straussStep]
    by_cases h1 : z.2.length < n
    · simp [h1]
    · by_cases h2 : z.1 pos < 1 / 2
      · simp only [h1, decide_false, h2, decide_true, Bool.false_or, if_true, if_false]
      · simp only [h1, decide_false, h2, Bool.false_or, if_false, Bool.false_eq_true]

private theorem straussIter_mrun {h : Hull ℝ} (hh : MeasurableHull h) (gamma r : ℝ) (n fuel k : ℕ) : ∀ pos,
    MRun fun z : (ℕ → ℝ) × Squeezed ℝ => straussIter h z.1 gamma r n fuel k z.2 pos := by
  induction k with
  | zero => intro pos; exact MRun.ret measurable_snd pos
  | succ k ih =>
    intro pos
    simp only [straussIter]
    exact MRun.andThen (g := fun (z : (ℕ → ℝ) × Squeezed ℝ) points p => straussIter h z.1 gamma r n fuel k points p)
      (straussStep_mrun hh gamma r n fuel pos) fun p =>
        (ih p).comp (g := fun z : ((ℕ → ℝ) × Squeezed ℝ) × Squeezed ℝ => (z.1.1, z.2))
          ((measurable_fst.comp measurable_fst).prodMk measurable_snd)

private noncomputable def attemptEnd (h : Hull ℝ) (gamma r : ℝ) (n n_iter fuel k : ℕ) (u : ℕ → ℝ) (points : Squeezed ℝ) (pos : ℕ) :
    Run (List (ℝ × ℝ)) :=
  match straussTake n points with
  | some l => Run.ret l pos
  | none => straussAttempts h u gamma r n n_iter fuel k pos

private theorem straussAttempts_mrun {h : Hull ℝ} (hh : MeasurableHull h) (gamma r : ℝ) (n n_iter fuel k : ℕ) : ∀ pos,
    MRun fun u => straussAttempts h u gamma r n n_iter fuel k pos := by
  induction k with
  | zero => intro pos; exact MRun.fail _
  | succ k ih =>
    intro pos
    refine (MRun.andThen (g := fun u points pos => (straussIter h u gamma r n fuel n_iter points pos).andThen fun points pos =>
      attemptEnd h gamma r n n_iter fuel k u points pos) (poisson_mrun hh (some ((n * 3 / 2 : ℕ) : ℝ)) .none fuel pos)
        fun p => ?_).congr fun u => ?_
    rotate_left
    · rw [straussAttempts]
      congr 1; funext a b; congr 1; funext c d
      unfold attemptEnd
      cases straussTake n c <;> rfl
    refine MRun.andThen (g := fun (z : (ℕ → ℝ) × Squeezed ℝ) points pos => attemptEnd h gamma r n n_iter fuel k z.1 points pos)
      (straussIter_mrun hh gamma r n fuel n_iter p) fun p' => ?_
    have hrec {Y : Type} [MeasurableSpace Y] : MRun fun z : ((ℕ → ℝ) × Squeezed ℝ) × Y =>
        straussAttempts h z.1.1 gamma r n n_iter fuel k p' := (ih p').comp (measurable_fst.comp measurable_fst)
    refine MRun.byForm (X := (ℕ → ℝ) × Squeezed ℝ) (f := fun z points => attemptEnd h gamma r n n_iter fuel k z.1 points p') ?_ ?_ ?_
    · by_cases h2 : n ≤ 2
      · by_cases h1 : n = 1
        · refine (MRun.ret (g := fun z : ((ℕ → ℝ) × Squeezed ℝ) × (ℝ × ℝ) => [(z.2.1, z.2.1)]) ?_ p').congr fun z => by
            simp [attemptEnd, straussTake, h1]
          exact measurable_cons ((measurable_fst.comp measurable_snd).prodMk (measurable_fst.comp measurable_snd)) measurable_const
        · refine (MRun.ret (g := fun z : ((ℕ → ℝ) × Squeezed ℝ) × (ℝ × ℝ) => List.replicate n z.2) ?_ p').congr fun z => by
            simp [attemptEnd, straussTake, h1, h2]
          clear h1 h2 hrec ih
          induction n with
          | zero => exact measurable_const
          | succ n ihn => exact measurable_cons measurable_snd ihn
      · exact hrec.congr fun z => by simp [attemptEnd, straussTake, h2]
    · refine (MRun.ite (measurableSet_le (measurable_const (a := n)) (measurable_length.comp measurable_snd))
        (MRun.ret (measurable_take measurable_snd (measurable_const (a := n))) p') hrec).congr fun z => ?_
      simp only [attemptEnd, straussTake]
      by_cases h1 : n ≤ z.2.length <;> simp [h1]
    · intro m
      exact hrec.congr fun z => by simp [attemptEnd, straussTake]

theorem strauss_mrun {h : Hull ℝ} (hh : MeasurableHull h) (intensity : Option ℝ) (size : SizeArg) (gamma r : ℝ)
    (n_iter max_iter fuel pos : ℕ) : MRun fun u => strauss h u intensity size gamma r n_iter max_iter fuel pos := by
  unfold strauss
  cases parseSizeAndIntensity h intensity size with
  | error e => exact MRun.fail e
  | ok x =>
    obtain ⟨n, s, i⟩ := x
    simp only
    split
    · exact MRun.fail _
    · refine MRun.andThen (g := fun _ reps p => Run.ret (squeeze s.toNat n.toNat reps) p) ?_ fun p =>
        MRun.ret (measurable_squeeze _ _ measurable_snd) p
      exact replications_mrun (fun _ pos => straussAttempts_mrun hh gamma r _ _ _ _ pos) _ _ _

end Pointpats.MeasurableRun
