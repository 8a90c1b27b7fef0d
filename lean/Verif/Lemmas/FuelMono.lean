import Verif.Lemmas.Circle
import Verif.Props.ClusterSeeds

/-!
# More rounds do not change an outcome
-/

set_option linter.unusedSectionVars false

namespace Pointpats.FuelMono

open Random

/-- The second computation has the outcome of the first, if that has one. -/
def Below {α : Type} (x y : Option α) : Prop := ∀ r, x = some r → y = some r

theorem Below.refl {α : Type} (x : Option α) : Below x x := fun _ h => h

theorem Below.andThen {α β : Type} {x y : Run α} {f g : α → ℕ → Run β} (h : Below x y) (hf : ∀ a p, Below (f a p) (g a p)) :
    Below (x.andThen f) (y.andThen g) := by
  intro r hr
  match r with
  | .error e =>
    rcases Run.andThen_error.1 hr with h1 | ⟨a, p, h1, h2⟩
    · exact Run.andThen_error.2 (.inl (h _ h1))
    · exact Run.andThen_error.2 (.inr ⟨a, p, h _ h1, hf a p _ h2⟩)
  | .ok (b, q) =>
    obtain ⟨a, p, h1, h2⟩ := Run.andThen_ok.1 hr
    exact Run.andThen_ok.2 ⟨a, p, h _ h1, hf a p _ h2⟩

/-- Two outcomes of a computation that more rounds do not change are the same. -/
theorem unique {α : Type} {f : ℕ → Option α} (hf : ∀ fuel k, Below (f fuel) (f (fuel + k))) {a b : α} (ha : Returns f a)
    (hb : Returns f b) : a = b := by
  obtain ⟨m, hm⟩ := ha
  obtain ⟨n, hn⟩ := hb
  have h1 := hf m n _ hm
  have h2 := hf n m _ hn
  rw [Nat.add_comm, h1] at h2
  exact Option.some.inj h2

variable {K : Type} [Field K] [LinearOrder K] [IsStrictOrderedRing K] [FloorRing K]

theorem poisson_below (h : Hull K) (u : ℕ → K) (intensity : Option K) (size : SizeArg) (pos fuel k : ℕ) :
    Below (poisson h u intensity size fuel pos) (poisson h u intensity size (fuel + k) pos) := fun _ hr =>
  Props.poisson_fuel_mono _ _ _ _ _ _ _ _ hr

theorem replications_below {α : Type} {body body' : ℕ → ℕ → Run α} (hb : ∀ j p, Below (body j p) (body' j p)) (i s pos : ℕ) :
    Below (replications body i s pos) (replications body' i s pos) := fun _ hr =>
  replications_mono _ _ _ _ _ _ (fun j p r h => hb j p r h) hr

theorem normal_below (h : Hull K) (root : K → K) (mvn : M2 K → K → K → K × K) (center : K × K) (cov : CovArg K) (u : ℕ → K)
    (size : SizeArg) (pos fuel k : ℕ) :
    Below (normal h root mvn center cov u size fuel pos) (normal h root mvn center cov u size (fuel + k) pos) := by
  unfold normal
  cases parseSizeAndIntensity h Option.none size with
  | error e => exact .refl _
  | ok x =>
    obtain ⟨n, s, i⟩ := x
    simp only
    cases resolveCov h cov s with
    | error e => exact .refl _
    | ok cov =>
      simp only
      split
      · exact .refl _
      · exact .andThen (replications_below (fun j p r hr => rejection_mono _ _ _ _ _ _ _ hr) _ _ _) fun _ _ => .refl _

theorem clusterLoop_below (h : Hull K) (u : ℕ → K) (seeds : Squeezed K) (fuel k : ℕ) (work : List (K × ℕ)) : ∀ i pos,
    Below (clusterLoop h u fuel seeds i work pos) (clusterLoop h u (fuel + k) seeds i work pos) := by
  induction work with
  | nil => intro i pos; exact .refl _
  | cons w work ih =>
    intro i pos
    obtain ⟨radius, n_in⟩ := w
    simp only [clusterLoop]
    refine .andThen ?_ fun l p => .andThen (ih _ _) fun _ _ => .refl _
    unfold clusterPoints
    cases seeds with
    | point p => exact .refl _
    | cube n l => exact .refl _
    | rows l =>
      simp only
      cases l[i]? with
      | none => exact .refl _
      | some seed =>
        simp only
        split
        · exact .refl _
        · split
          · exact .refl _
          · exact .andThen (fun r hr => circleLoop_mono _ _ _ _ _ _ _ _ _ _ hr) fun _ _ => .refl _

theorem clusterPoisson_below (h : Hull K) (root : K → K) (gen : ℕ → ℕ → K) (u : ℕ → K) (intensity : Option K) (size : SizeArg)
    (n_seeds : ℕ) (radius : RadiusArg K) (pos fuel k : ℕ) :
    Below (clusterPoisson h root gen u intensity size n_seeds radius fuel pos)
      (clusterPoisson h root gen u intensity size n_seeds radius (fuel + k) pos) := by
  unfold clusterPoisson
  simp only
  split_ifs
  · exact .refl _
  · cases parseSizeAndIntensity h intensity size with
    | error e => exact .refl _
    | ok x =>
      obtain ⟨n, s, i⟩ := x
      simp only
      split
      · exact .refl _
      · refine .andThen (replications_below (fun j p r hr => ?_) _ _ _) fun _ _ => .refl _
        cases hp : poisson h (gen (seedDraw (u (pos + j)))) Option.none (.int n_seeds) fuel 0 with
        | none => rw [hp] at hr; cases hr
        | some v =>
          rw [hp] at hr
          rw [poisson_below _ _ _ _ _ _ k _ hp]
          match v with
          | .error e => exact hr
          | .ok (seeds, _) =>
            simp only at hr ⊢
            cases hc : clusterRadii root radius n_seeds seeds with
            | error e => rw [hc] at hr; exact hr
            | ok radii =>
              rw [hc] at hr
              simp only at hr ⊢
              split at hr
              · next h0 => rw [if_pos h0]; exact hr
              · next h0 => rw [if_neg h0]; exact clusterLoop_below _ _ _ _ _ _ _ _ _ hr

theorem clusterNormalLoop_below (h : Hull K) (root : K → K) (mvn : M2 K → K → K → K × K) (gen : ℕ → ℕ → K) (cov : CovArg K)
    (fuel k : ℕ) (work : List ((K × K) × ℕ × ℕ)) :
    Below (clusterNormalLoop h root mvn gen cov fuel work) (clusterNormalLoop h root mvn gen cov (fuel + k) work) := by
  induction work with
  | nil => exact .refl _
  | cons w work ih =>
    obtain ⟨center, n_in, seed⟩ := w
    intro r hr
    rw [clusterNormalLoop] at hr ⊢
    split at hr
    · cases hr
    · next e he =>
      split_ifs at he with h1 h2
      · cases he
      · cases he
        rw [if_neg h1, if_pos h2]
        exact hr
      · cases hn : normal h root mvn center cov (gen seed) (.int ((n_in : ℤ) - 1)) fuel 0 with
        | none => rw [hn] at he; cases he
        | some v =>
          rw [if_neg h1, if_neg h2, normal_below _ _ _ _ _ _ _ _ _ k _ hn]
          rw [hn] at he
          match v with
          | .error e' => simp only at he ⊢; cases he; exact hr
          | .ok (c, _) => simp only at he ⊢; rw [he]; exact hr
    · next l he =>
      cases hw : clusterNormalLoop h root mvn gen cov fuel work with
      | none => rw [hw] at hr; cases hr
      | some w =>
        rw [hw] at hr
        rw [ih _ hw]
        split_ifs at he with h1 h2
        · cases he; rw [if_pos h1]; exact hr
        · cases he
        · rw [if_neg h1, if_neg h2]
          cases hn : normal h root mvn center cov (gen seed) (.int ((n_in : ℤ) - 1)) fuel 0 with
          | none => rw [hn] at he; cases he
          | some v =>
            rw [normal_below _ _ _ _ _ _ _ _ _ k _ hn]
            rw [hn] at he
            match v with
            | .error e' => cases he
            | .ok (c, _) => simp only at he ⊢; rw [he]; exact hr

theorem clusterNormalReps_below (h : Hull K) (root : K → K) (mvn : M2 K → K → K → K × K) (gen : ℕ → ℕ → K) (u : ℕ → K)
    (n n_seeds seedPos fuel k s : ℕ) : ∀ i cov pos,
    Below (clusterNormalReps h root mvn gen u n n_seeds fuel seedPos i s cov pos)
      (clusterNormalReps h root mvn gen u n n_seeds (fuel + k) seedPos i s cov pos) := by
  induction s with
  | zero => intro i cov pos; exact .refl _
  | succ s ih =>
    intro i cov pos r hr
    rw [clusterNormalReps] at hr ⊢
    cases hp : poisson h (gen (seedDraw (u (seedPos + i)))) Option.none (.int n_seeds) fuel 0 with
    | none => rw [hp] at hr; cases hr
    | some v =>
      rw [hp] at hr
      rw [poisson_below _ _ _ _ _ _ k _ hp]
      match v with
      | .error e => exact hr
      | .ok (centers, _) =>
        simp only at hr ⊢
        split at hr
        · next e he => exact hr
        · next cov he =>
          split at hr
          · next h0 => rw [if_pos h0]; exact hr
          · next h0 =>
            rw [if_neg h0]
            cases centers with
            | point p => exact hr
            | cube m l => exact hr
            | rows l =>
              simp only at hr ⊢
              cases hw : clusterNormalLoop h root mvn gen cov fuel
                  (l.zip ((arraySplitSizes n n_seeds).zip ((List.range n_seeds).map fun j => seedDraw (u (pos + j))))) with
              | none => rw [hw] at hr; cases hr
              | some v =>
                rw [hw] at hr
                rw [clusterNormalLoop_below _ _ _ _ _ _ k _ _ hw]
                match v with
                | .error e => exact hr
                | .ok clusters => exact Below.andThen (ih _ _ _) (fun _ _ => .refl _) _ hr

theorem clusterNormal_below (h : Hull K) (root : K → K) (mvn : M2 K → K → K → K × K) (gen : ℕ → ℕ → K) (u : ℕ → K)
    (cov : CovArg K) (size : SizeArg) (n_seeds pos fuel k : ℕ) :
    Below (clusterNormal h root mvn gen u cov size n_seeds fuel pos)
      (clusterNormal h root mvn gen u cov size n_seeds (fuel + k) pos) := by
  unfold clusterNormal
  cases parseSizeAndIntensity h Option.none size with
  | error e => exact .refl _
  | ok x =>
    obtain ⟨n, s, i⟩ := x
    simp only
    split
    · exact .refl _
    · exact .andThen (clusterNormalReps_below _ _ _ _ _ _ _ _ _ _ _ _ _ _) fun _ _ => .refl _

theorem straussStep_below (h : Hull K) (u : ℕ → K) (gamma r : K) (n fuel k : ℕ) (points : Squeezed K) (pos : ℕ) :
    Below (straussStep h u gamma r n fuel points pos) (straussStep h u gamma r n (fuel + k) points pos) := by
  cases points with
  | point p =>
    simp only [straussStep]
    split_ifs <;> first | exact .refl _ | exact Below.andThen (poisson_below _ _ _ _ _ _ _) fun _ _ => .refl _
  | cube m l =>
    simp only [straussStep]
    split_ifs <;> first | exact .refl _ | exact Below.andThen (poisson_below _ _ _ _ _ _ _) fun _ _ => .refl _
  | rows l =>
    simp only [straussStep]
    split_ifs <;> first | exact .refl _ | exact Below.andThen (poisson_below _ _ _ _ _ _ _) fun _ _ => .refl _

theorem straussIter_below (h : Hull K) (u : ℕ → K) (gamma r : K) (n fuel k m : ℕ) : ∀ points pos,
    Below (straussIter h u gamma r n fuel m points pos) (straussIter h u gamma r n (fuel + k) m points pos) := by
  induction m with
  | zero => intro points pos; exact .refl _
  | succ m ih =>
    intro points pos
    simp only [straussIter]
    exact .andThen (straussStep_below _ _ _ _ _ _ _ _ _) fun _ _ => ih _ _

theorem straussAttempts_below (h : Hull K) (u : ℕ → K) (gamma r : K) (n n_iter fuel k m : ℕ) : ∀ pos,
    Below (straussAttempts h u gamma r n n_iter fuel m pos) (straussAttempts h u gamma r n n_iter (fuel + k) m pos) := by
  induction m with
  | zero => intro pos; exact .refl _
  | succ m ih =>
    intro pos
    simp only [straussAttempts]
    refine .andThen (poisson_below _ _ _ _ _ _ _) fun _ _ => .andThen (straussIter_below _ _ _ _ _ _ _ _ _ _) fun a p => ?_
    cases straussTake n a with
    | none => exact ih _
    | some l => exact .refl _

theorem strauss_below (h : Hull K) (u : ℕ → K) (intensity : Option K) (size : SizeArg) (gamma r : K)
    (n_iter max_iter pos fuel k : ℕ) : Below (strauss h u intensity size gamma r n_iter max_iter fuel pos)
      (strauss h u intensity size gamma r n_iter max_iter (fuel + k) pos) := by
  unfold strauss
  cases parseSizeAndIntensity h intensity size with
  | error e => exact .refl _
  | ok x =>
    obtain ⟨n, s, i⟩ := x
    simp only
    split
    · exact .refl _
    · exact .andThen (replications_below (fun j p => straussAttempts_below _ _ _ _ _ _ _ _ _ _) _ _ _) fun _ _ => .refl _

end Pointpats.FuelMono
