import Verif.Spec.ArrayEvents
import Mathlib.MeasureTheory.MeasurableSpace.Constructions
import Mathlib.MeasureTheory.Constructions.BorelSpace.Order
import Mathlib.Data.List.GetD

/-!
# Computations whose outcome is an event

A computation that depends measurably on its input: that it returns at a given position of the stream is an event, and what it
returns is then a measurable function of the input. Lists carry the σ-algebra of their length and their entries.
-/

set_option linter.unusedSectionVars false

namespace Pointpats.MeasurableRun

open Random MeasureTheory Spec

variable {X Y α β : Type} [MeasurableSpace X] [MeasurableSpace Y] [MeasurableSpace α] [MeasurableSpace β]

/-- The computation depends measurably on its input. -/
def MRun (f : X → Run α) : Prop :=
  ∀ q, MeasurableSet {x | ∃ a, f x = some (.ok (a, q))}
    ∧ ∃ F : X → α, Measurable F ∧ ∀ x a, f x = some (.ok (a, q)) → F x = a

theorem MRun.event {f : X → Run α} (h : MRun f) (q : ℕ) {A : Set α} (hA : MeasurableSet A) :
    MeasurableSet {x | ∃ a ∈ A, f x = some (.ok (a, q))} := by
  obtain ⟨h1, F, hF, h2⟩ := h q
  have : {x | ∃ a ∈ A, f x = some (.ok (a, q))} = {x | ∃ a, f x = some (.ok (a, q))} ∩ F ⁻¹' A := by
    ext x
    constructor
    · rintro ⟨a, ha, hx⟩
      exact ⟨⟨a, hx⟩, by rw [Set.mem_preimage, h2 x a hx]; exact ha⟩
    · rintro ⟨⟨a, hx⟩, ha⟩
      rw [Set.mem_preimage, h2 x a hx] at ha
      exact ⟨a, ha, hx⟩
  rw [this]
  exact h1.inter (hF hA)

theorem MRun.comp {f : X → Run α} (h : MRun f) {g : Y → X} (hg : Measurable g) : MRun fun y => f (g y) := by
  intro q
  obtain ⟨h1, F, hF, h2⟩ := h q
  exact ⟨hg h1, fun y => F (g y), hF.comp hg, fun y a hy => h2 _ a hy⟩

theorem MRun.ret {g : X → α} (hg : Measurable g) (p : ℕ) : MRun fun x => Run.ret (g x) p := by
  intro q
  refine ⟨?_, g, hg, ?_⟩
  · by_cases hpq : p = q
    · have : {x | ∃ a, (Run.ret (g x) p : Run α) = some (.ok (a, q))} = Set.univ := by
        refine Set.eq_univ_of_forall fun x => ⟨g x, by rw [hpq]; rfl⟩
      rw [this]; exact .univ
    · have : {x | ∃ a, (Run.ret (g x) p : Run α) = some (.ok (a, q))} = ∅ := by
        refine Set.eq_empty_of_forall_notMem fun x => ?_
        rintro ⟨a, ha⟩
        simp only [Run.ret, Option.some.injEq, Except.ok.injEq, Prod.mk.injEq] at ha
        exact hpq ha.2
      rw [this]; exact .empty
  · intro x a ha
    simp only [Run.ret, Option.some.injEq, Except.ok.injEq, Prod.mk.injEq] at ha
    exact ha.1

/-- A computation that never returns a value. -/
theorem MRun.never [Nonempty α] {f : X → Run α} (h : ∀ x a, f x ≠ some (.ok a)) : MRun f := by
  intro q
  refine ⟨?_, fun _ => Classical.arbitrary α, measurable_const, fun x a hx => absurd hx (h x _)⟩
  have : {x | ∃ a, f x = some (.ok (a, q))} = ∅ :=
    Set.eq_empty_of_forall_notMem fun x => by rintro ⟨a, ha⟩; exact h x _ ha
  rw [this]; exact .empty

theorem MRun.none [Nonempty α] : MRun fun _ : X => (none : Run α) := .never fun x a => by simp

theorem MRun.fail [Nonempty α] (e : PyErr) : MRun fun _ : X => (Run.fail e : Run α) := .never fun x a => by simp [Run.fail]

/-- A case distinction by a number that depends measurably on the input. -/
theorem MRun.byNat {k : X → ℕ} (hk : Measurable k) {f : ℕ → X → Run α} (hf : ∀ j, MRun (f j)) : MRun fun x => f (k x) x := by
  intro q
  choose h1 F hF h2 using fun j => hf j q
  refine ⟨?_, ?_⟩
  · have : {x | ∃ a, f (k x) x = some (.ok (a, q))} = ⋃ j, k ⁻¹' {j} ∩ {x | ∃ a, f j x = some (.ok (a, q))} := by
      ext x
      simp only [Set.mem_iUnion, Set.mem_inter_iff, Set.mem_preimage, Set.mem_singleton_iff, Set.mem_ofPred_eq]
      constructor
      · rintro ⟨a, ha⟩; exact ⟨k x, rfl, a, ha⟩
      · rintro ⟨j, rfl, a, ha⟩; exact ⟨a, ha⟩
    rw [this]
    exact .iUnion fun j => (hk (measurableSet_singleton j)).inter (h1 j)
  · obtain ⟨G, hG, hGe⟩ := exists_measurable_piecewise (fun j => k ⁻¹' {j}) (fun j => hk (measurableSet_singleton j)) F hF (by
      intro i j hij x hx
      exact absurd (hx.1.symm.trans hx.2) hij)
    refine ⟨G, hG, fun x a ha => ?_⟩
    rw [hGe (k x) (show x ∈ k ⁻¹' {k x} from rfl)]
    exact h2 (k x) x a ha

open Classical in
/-- A case distinction by an event. -/
theorem MRun.ite {s : X → Prop} [DecidablePred s] (hs : MeasurableSet {x | s x}) {f g : X → Run α} (hf : MRun f) (hg : MRun g) :
    MRun fun x => if s x then f x else g x := by
  have hk : Measurable fun x => if s x then 0 else 1 := Measurable.ite hs measurable_const measurable_const
  have := MRun.byNat hk (f := fun j x => if j = 0 then f x else g x) (by
    intro j
    by_cases hj : j = 0
    · simpa [hj] using hf
    · simpa [hj] using hg)
  convert this using 2 with x
  by_cases hx : s x <;> simp [hx]

theorem MRun.andThen [Nonempty β] {f : X → Run α} {g : X → α → ℕ → Run β} (hf : MRun f) (hg : ∀ p, MRun fun z : X × α => g z.1 z.2 p) :
    MRun fun x => (f x).andThen fun a p => g x a p := by
  intro q
  choose h1 F hF h2 using hf
  choose k1 G hG k2 using fun p => hg p q
  have hstep : ∀ p, Measurable fun x => (x, F p x) := fun p => measurable_id.prodMk (hF p)
  set t : ℕ → Set X := fun p => {x | ∃ a, f x = some (.ok (a, p))} ∩ (fun x => (x, F p x)) ⁻¹'
    {z | ∃ b, g z.1 z.2 p = some (.ok (b, q))} with ht
  have htm : ∀ p, MeasurableSet (t p) := fun p => (h1 p).inter (hstep p (k1 p))
  have hiff : ∀ x b, (f x).andThen (fun a p => g x a p) = some (.ok (b, q))
      ↔ ∃ p a, f x = some (.ok (a, p)) ∧ g x a p = some (.ok (b, q)) := by
    intro x b
    cases hfx : f x with
    | none => simp [Run.andThen]
    | some r =>
      cases r with
      | error e => simp [Run.andThen]
      | ok y =>
        obtain ⟨a, p⟩ := y
        simp only [Run.andThen, Option.some.injEq, Except.ok.injEq, Prod.mk.injEq]
        constructor
        · intro h; exact ⟨p, a, ⟨rfl, rfl⟩, h⟩
        · rintro ⟨p', a', ⟨rfl, rfl⟩, h⟩; exact h
  refine ⟨?_, ?_⟩
  · have : {x | ∃ b, (f x).andThen (fun a p => g x a p) = some (.ok (b, q))} = ⋃ p, t p := by
      ext x
      simp only [Set.mem_ofPred_eq, Set.mem_iUnion, ht, Set.mem_inter_iff, Set.mem_preimage]
      constructor
      · rintro ⟨b, hb⟩
        obtain ⟨p, a, ha, hg'⟩ := (hiff x b).1 hb
        exact ⟨p, ⟨a, ha⟩, b, by rw [h2 p x a ha]; exact hg'⟩
      · rintro ⟨p, ⟨a, ha⟩, b, hb⟩
        rw [h2 p x a ha] at hb
        exact ⟨b, (hiff x b).2 ⟨p, a, ha, hb⟩⟩
    rw [this]
    exact .iUnion htm
  · obtain ⟨H, hH, hHe⟩ := exists_measurable_piecewise t htm (fun p x => G p (x, F p x)) (fun p => (hG p).comp (hstep p)) (by
      rintro i j hij x ⟨⟨⟨a, ha⟩, -⟩, ⟨⟨a', ha'⟩, -⟩⟩
      rw [ha] at ha'
      simp only [Option.some.injEq, Except.ok.injEq, Prod.mk.injEq] at ha'
      exact absurd ha'.2 hij)
    refine ⟨H, hH, fun x b hb => ?_⟩
    obtain ⟨p, a, ha, hg'⟩ := (hiff x b).1 hb
    have hx : x ∈ t p := ⟨⟨a, ha⟩, b, by simp only; rw [h2 p x a ha]; exact hg'⟩
    rw [hHe p hx]
    refine k2 p _ b ?_
    show g x (F p x) p = _
    rw [h2 p x a ha]
    exact hg'

theorem MRun.congr {f g : X → Run α} (hg : MRun g) (h : ∀ x, f x = g x) : MRun f := by
  have : f = g := funext h
  rw [this]; exact hg

/-! ### Lists -/

theorem measurable_list_iff [Inhabited α] {f : X → List α} :
    Measurable f ↔ (Measurable fun x => (f x).length) ∧ ∀ i, Measurable fun x => (f x).getD i default := by
  rw [measurable_comap_iff]
  constructor
  · intro h
    exact ⟨measurable_fst.comp h, fun i => (measurable_pi_apply i).comp (measurable_snd.comp h)⟩
  · rintro ⟨h1, h2⟩
    exact h1.prodMk (measurable_pi_lambda _ h2)

theorem measurable_length [Inhabited α] : Measurable (List.length : List α → ℕ) :=
  (measurable_list_iff.1 measurable_id).1

theorem measurable_getD [Inhabited α] (i : ℕ) : Measurable fun l : List α => l.getD i default :=
  (measurable_list_iff.1 measurable_id).2 i

/-- A choice among countably many measurable functions by a measurable number. -/
theorem measurable_byNat {k : X → ℕ} (hk : Measurable k) {f : ℕ → X → α} (hf : ∀ j, Measurable (f j)) :
    Measurable fun x => f (k x) x := by
  have : Measurable fun z : ℕ × X => f z.1 z.2 := measurable_from_prod_countable_right hf
  exact this.comp (hk.prodMk measurable_id)

theorem measurable_cons [Inhabited α] {f : X → α} {g : X → List α} (hf : Measurable f) (hg : Measurable g) :
    Measurable fun x => f x :: g x := by
  obtain ⟨g1, g2⟩ := measurable_list_iff.1 hg
  refine measurable_list_iff.2 ⟨?_, fun i => ?_⟩
  · simp only [List.length_cons]; exact g1.add_const 1
  · cases i with
    | zero => simpa using hf
    | succ i => simpa using g2 i

theorem measurable_append [Inhabited α] {f g : X → List α} (hf : Measurable f) (hg : Measurable g) :
    Measurable fun x => f x ++ g x := by
  obtain ⟨f1, f2⟩ := measurable_list_iff.1 hf
  obtain ⟨g1, g2⟩ := measurable_list_iff.1 hg
  refine measurable_list_iff.2 ⟨?_, fun i => ?_⟩
  · simp only [List.length_append]; exact f1.add g1
  · have h : Measurable fun x => if i < (f x).length then (f x).getD i default else (g x).getD (i - (f x).length) default :=
      Measurable.ite (measurableSet_lt measurable_const f1) (f2 i)
        (measurable_byNat f1 (f := fun j x => (g x).getD (i - j) default) fun j => g2 _)
    convert h using 2 with x
    split
    · next hi => rw [List.getD_append _ _ _ _ hi]
    · next hi => rw [List.getD_append_right _ _ _ _ (not_lt.1 hi)]

theorem measurable_take [Inhabited α] {f : X → List α} (hf : Measurable f) {k : X → ℕ} (hk : Measurable k) :
    Measurable fun x => (f x).take (k x) := by
  obtain ⟨f1, f2⟩ := measurable_list_iff.1 hf
  refine measurable_list_iff.2 ⟨?_, fun i => ?_⟩
  · simp only [List.length_take]; exact hk.min f1
  · have h : Measurable fun x => if i < k x then (f x).getD i default else default :=
      Measurable.ite (measurableSet_lt measurable_const hk) (f2 i) measurable_const
    convert h using 2 with x
    simp only [List.getD_eq_getElem?_getD, List.getElem?_take]
    split <;> rfl

theorem measurable_eraseIdx [Inhabited α] {f : X → List α} (hf : Measurable f) {k : X → ℕ} (hk : Measurable k) :
    Measurable fun x => (f x).eraseIdx (k x) := by
  obtain ⟨f1, f2⟩ := measurable_list_iff.1 hf
  refine measurable_list_iff.2 ⟨?_, fun i => ?_⟩
  · simp only [List.length_eraseIdx]
    exact Measurable.ite (measurableSet_lt hk f1) (f1.sub_const 1) f1
  · have h : Measurable fun x => if i < k x then (f x).getD i default else (f x).getD (i + 1) default :=
      Measurable.ite (measurableSet_lt measurable_const hk) (f2 i) (f2 (i + 1))
    convert h using 2 with x
    simp only [List.getD_eq_getElem?_getD, List.getElem?_eraseIdx]
    split <;> rfl

theorem measurable_map [Inhabited α] [Inhabited β] {f : X → List α} (hf : Measurable f) {g : α → β} (hg : Measurable g) :
    Measurable fun x => (f x).map g := by
  obtain ⟨f1, f2⟩ := measurable_list_iff.1 hf
  refine measurable_list_iff.2 ⟨by simpa using f1, fun i => ?_⟩
  have h : Measurable fun x => if i < (f x).length then g ((f x).getD i default) else default :=
    Measurable.ite (measurableSet_lt measurable_const f1) (hg.comp (f2 i)) measurable_const
  convert h using 2 with x
  split
  · next hi => simp [List.getD_eq_getElem?_getD, hi]
  · next hi => simp [List.getD_eq_getElem?_getD, hi]

/-- A list of fixed length made of measurable entries, filtered by a measurable test. -/
theorem measurable_filter_map [Inhabited α] {ι : Type} (l : List ι) {f : ι → X → α} (hf : ∀ i, Measurable (f i)) {p : α → Bool}
    (hp : MeasurableSet {a | p a = true}) : Measurable fun x => (l.map fun i => f i x).filter p := by
  induction l with
  | nil => exact measurable_const
  | cons i l ih =>
    have h : Measurable fun x => if p (f i x) = true then f i x :: (l.map fun i => f i x).filter p
        else (l.map fun i => f i x).filter p :=
      Measurable.ite ((hf i) hp) (measurable_cons (hf i) ih) ih
    convert h using 2 with x
    rw [List.map_cons, List.filter_cons]

theorem measurable_flatten [Inhabited α] {f : X → List (List α)} (hf : Measurable f) : Measurable fun x => (f x).flatten := by
  obtain ⟨f1, f2⟩ := measurable_list_iff.1 hf
  have hfold : ∀ n, Measurable fun x => ((List.range n).map fun i => (f x).getD i default).flatten := by
    intro n
    induction n with
    | zero => exact measurable_const
    | succ n ih =>
      have := measurable_append ih (f2 n)
      convert this using 2 with x
      rw [List.range_succ]
      simp
  have h := measurable_byNat f1 (f := fun n x => ((List.range n).map fun i => (f x).getD i default).flatten) hfold
  convert h using 2 with x
  congr 1
  refine List.ext_getElem (by simp) fun i h1 h2 => ?_
  simp [List.getD_eq_getElem?_getD, h1]

/-- That a list has its entries in given sets is an event. -/
theorem measurableSet_forall₂ [Inhabited α] (As : List (Set α)) (hA : ∀ A ∈ As, MeasurableSet A) :
    MeasurableSet {l : List α | List.Forall₂ (fun a A => a ∈ A) l As} := by
  have : {l : List α | List.Forall₂ (fun a A => a ∈ A) l As}
      = {l | l.length = As.length} ∩ ⋂ i : Fin As.length, {l | l.getD i default ∈ As[i]} := by
    ext l
    simp only [Set.mem_ofPred_eq, Set.mem_inter_iff, Set.mem_iInter]
    rw [List.forall₂_iff_get]
    constructor
    · rintro ⟨h1, h2⟩
      refine ⟨h1, fun i => ?_⟩
      have := h2 i (by omega) i.2
      simpa [List.getD_eq_getElem?_getD, h1] using this
    · rintro ⟨h1, h2⟩
      refine ⟨h1, fun i hi hi' => ?_⟩
      have := h2 ⟨i, hi'⟩
      simpa [List.getD_eq_getElem?_getD, hi] using this
  rw [this]
  refine MeasurableSet.inter (measurable_length (measurableSet_singleton _)) (.iInter fun i => ?_)
  exact measurable_getD (i : ℕ) (hA _ (List.getElem_mem _))

end Pointpats.MeasurableRun
