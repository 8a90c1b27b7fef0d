import Verif.Lemmas.Frame

/-!
# Invariants over histories of operations on a point pattern
-/

namespace Pointpats.PointPattern

open Spec

variable {K : Type} [Field K] [LinearOrder K] {ext : Ext K} {pts : List (K × K)}

/-- The data frame is rectangular and contains the two coordinate columns; the current x and y names are
the two coordinate names in one of the two orders. -/
structure Shape (s : Obj K) : Prop where
  rect : s.df.Rect
  coords : ∃ x y, s.coordNames = [x, y] ∧ x ∈ s.df.names ∧ y ∈ s.df.names
    ∧ ((s.x = x ∧ s.y = y) ∨ (s.x = y ∧ s.y = x))

omit [LinearOrder K] in
theorem shape_setCol {s : Obj K} (hs : Shape s) {nm : String} {vals : List K} {df' : Frame K}
    (h : s.df.setCol nm vals = .ok df') (k : ℤ) : Shape { s with df := df', nMarks := k } := by
  obtain ⟨-, h2, -, h4, -, -⟩ := Frame.setCol_spec hs.rect h
  obtain ⟨x, y, h5, h6, h7, h8⟩ := hs.coords
  refine ⟨h4, x, y, h5, ?_, ?_, h8⟩ <;> simp only [h2] <;> split <;> simp_all

omit [Field K] [LinearOrder K] in
theorem addMarksLoop_cons {nm : String} {nms : List String} {mk : List K} {mks : List (List K)}
    (s : Obj K) : addMarksLoop (nm :: nms) (mk :: mks) s = (match s.df.setCol nm mk with
        | .ok df' => addMarksLoop nms mks { s with df := df', nMarks := s.nMarks + 1 }
        | .error e => (.error e, s)) := rfl

omit [LinearOrder K] in
theorem shape_addMarksLoop (nms : List String) (mks : List (List K)) {s : Obj K} (hs : Shape s) :
    Shape (addMarksLoop nms mks s).2 := by
  induction nms generalizing mks s with
  | nil => cases mks <;> exact hs
  | cons nm nms ih =>
    cases mks with
    | nil => exact hs
    | cons mk mks =>
      rw [addMarksLoop_cons]
      cases h : s.df.setCol nm mk with
      | error e => exact hs
      | ok df' => exact ih mks (shape_setCol hs h _)

omit [Field K] [LinearOrder K] in
theorem shape_of_frame {s s' : Obj K} (h : { s' with cache := s.cache, window := s.window } = s)
    (hs : Shape s) : Shape s' := by
  have h1 : s'.df = s.df := by have := congrArg Obj.df h; exact this
  have h2 : s'.coordNames = s.coordNames := by have := congrArg Obj.coordNames h; exact this
  have h3 : s'.x = s.x := by have := congrArg Obj.x h; exact this
  have h4 : s'.y = s.y := by have := congrArg Obj.y h; exact this
  exact ⟨h1 ▸ hs.rect, by rw [h1, h2, h3, h4]; exact hs.coords⟩

theorem shape_step (op : Op K) {s : Obj K} (hi : Inv ext pts s) (hs : Shape s) :
    Shape (step ext s op) := by
  cases op with
  | read a => exact shape_of_frame (read_frame a hi).2.1 hs
  | setWindow w => exact ⟨hs.rect, hs.coords⟩
  | addMarks m nms => exact shape_addMarksLoop _ _ hs
  | flip =>
    obtain ⟨x, y, h5, h6, h7, h8⟩ := hs.coords
    refine ⟨hs.rect, x, y, h5, h6, h7, ?_⟩
    rcases h8 with ⟨h8, h9⟩ | ⟨h8, h9⟩
    · exact Or.inr ⟨h9, h8⟩
    · exact Or.inl ⟨h9, h8⟩

theorem shape_run (ops : List (Op K)) {s : Obj K} (hi : Inv ext pts s) (hs : Shape s) :
    Shape (run ext s ops) := by
  induction ops generalizing s with
  | nil => exact hs
  | cons op ops ih => exact ih (inv_step op hi) (shape_step op hi hs)

theorem shape_construct {p : ℕ} {rows : List (List K)} {w : Option (Win K)}
    {names coordNames : Option (List String)} {s : Obj K} (hrows : ∀ r ∈ rows, r.length = p)
    (h : construct p rows w names coordNames = .ok s) : Shape s := by
  obtain ⟨x, y, -, h2, h3, h4, h5, h6, h7, h8, -⟩ := construct_ok h
  refine ⟨?_, x, y, h6, by rw [h5]; exact h3, by rw [h5]; exact h4, Or.inl ⟨h7, h8⟩⟩
  intro r hr
  rw [h5] at hr ⊢
  rw [hrows r hr, h2]

theorem shape_reachable {s : Obj K} (h : Reachable ext s) : Shape s := by
  obtain ⟨p, rows, w, names, cn, s0, ops, h1, h2, rfl⟩ := h
  exact shape_run ops (inv_construct h2).1 (shape_construct h1 h2)

/-- Rebuilding a pattern from the same columns and other rows, as `unique`, `superimpose` and `explode`
do. -/
theorem reconstruct {s : Obj K} (hs : Shape s) (rows : List (List K)) (w : Option (Win K))
    (hw : w = none → rows ≠ []) :
    ∃ t, construct s.df.names.length rows w (some s.df.names) (some s.coordNames) = .ok t
      ∧ t.df = ⟨s.df.names, rows⟩ ∧ t.coordNames = s.coordNames
      ∧ t.points = locations s.df.names.length rows (some s.df.names) (some s.coordNames)
      ∧ (w ≠ none → t.window = w) := by
  obtain ⟨x, y, h5, h6, h7, -⟩ := hs.coords
  have hex : ∃ t, construct s.df.names.length rows w (some s.df.names) (some s.coordNames) = .ok t := by
    unfold construct
    simp only [resolveNames, h5, Option.getD_some, ne_eq, not_true_eq_false, if_false, Frame.col, h6,
      h7, if_true, bind, Except.bind]
    cases w with
    | some v => exact ⟨_, rfl⟩
    | none =>
      have hne := hw rfl
      have : ((rows.map fun r => r.getD (s.df.names.idxOf x) 0).zip
          (rows.map fun r => r.getD (s.df.names.idxOf y) 0)) ≠ [] := by
        rw [List.zip_map']; simpa using hne
      obtain ⟨b, hb⟩ := Geometry.bboxPts_ok this
      simp only [hb]
      exact ⟨_, rfl⟩
  obtain ⟨t, ht⟩ := hex
  obtain ⟨x', y', e1, -, -, -, e5, e6, -, -, e9, -, e11, -⟩ := construct_ok ht
  refine ⟨t, ht, e5, ?_, e9, ?_⟩
  · rw [e6, ← e1]; rfl
  · intro hne
    cases w with
    | none => exact absurd rfl hne
    | some v => exact (e11 ⟨v, rfl⟩).1

/-! ### Numbers of generated marks -/

/-- No column carries a generated name with a number above the mark counter. -/
structure MarkInv (s : Obj K) : Prop where
  bound : ∀ j, markName j ∈ s.df.names → (j : ℤ) ≤ s.nMarks
  nonneg : 0 ≤ s.nMarks

/-- The name is not of the generated form. -/
def UserName (nm : String) : Prop := ∀ j, nm ≠ markName j

omit [LinearOrder K] in
theorem markInv_userLoop (nms : List String) (mks : List (List K)) {s : Obj K} (hr : s.df.Rect)
    (hs : MarkInv s) (hn : ∀ nm ∈ nms, UserName nm) :
    MarkInv (addMarksLoop nms mks s).2 := by
  induction nms generalizing mks s with
  | nil => cases mks <;> exact hs
  | cons nm nms ih =>
    cases mks with
    | nil => exact hs
    | cons mk mks =>
      rw [addMarksLoop_cons]
      cases h : s.df.setCol nm mk with
      | error e => exact hs
      | ok df' =>
        obtain ⟨-, h2, -, h4, -, -⟩ := Frame.setCol_spec hr h
        refine ih mks (s := { s with df := df', nMarks := s.nMarks + 1 }) h4 ⟨?_, ?_⟩
          fun x hx => hn x (by simp [hx])
        · intro j hj
          simp only [h2] at hj
          have hj' : markName j ∈ s.df.names := by
            split at hj
            · exact hj
            · rcases List.mem_append.1 hj with hj | hj
              · exact hj
              · exact absurd (by simpa using hj : markName j = nm).symm (hn nm (by simp) j)
          have := hs.bound j hj'
          simp only; omega
        · have := hs.nonneg
          simp only; omega

/-- The default names from a counter value on. -/
def namesFrom (k : ℤ) (count : ℕ) : List String :=
  (List.range count).map fun (j : ℕ) => markName (k + 1 + j).toNat

theorem namesFrom_succ (k : ℤ) (c : ℕ) :
    namesFrom k (c + 1) = markName (k + 1).toNat :: namesFrom (k + 1) c := by
  unfold namesFrom
  rw [List.range_succ_eq_map, List.map_cons, List.map_map]
  congr 1
  · simp
  · apply List.map_congr_left
    intro j _
    simp only [Function.comp, Nat.cast_succ]
    congr 2
    omega

omit [LinearOrder K] in
/-- Adding marks under their default names. -/
theorem defaultLoop (mks : List (List K)) {s : Obj K} (hr : s.df.Rect) (hs : MarkInv s)
    (res : Py Unit × Obj K) (hres : addMarksLoop (namesFrom s.nMarks mks.length) mks s = res) :
    MarkInv res.2
    ∧ (∀ nm ∈ s.df.names, res.2.df.col nm = s.df.col nm)
    ∧ (∃ c, c ≤ mks.length ∧ res.2.df.names = s.df.names ++ namesFrom s.nMarks c)
    ∧ ((∀ mk ∈ mks, mk.length = s.df.rows.length) →
        res.1 = .ok ()
        ∧ res.2.df.names = s.df.names ++ namesFrom s.nMarks mks.length
        ∧ (namesFrom s.nMarks mks.length).Nodup
        ∧ (∀ nm ∈ namesFrom s.nMarks mks.length, nm ∉ s.df.names)
        ∧ ∀ (j : ℕ) (v : List K), mks[j]? = some v →
            res.2.df.col (markName (s.nMarks + 1 + (j : ℤ)).toNat) = .ok v) := by
  induction mks generalizing s with
  | nil =>
    have h0 : res = (.ok (), s) := hres.symm
    rw [h0]
    refine ⟨hs, fun _ _ => rfl, ⟨0, by simp, by simp [namesFrom]⟩, fun _ =>
      ⟨rfl, by simp [namesFrom], by simp [namesFrom], by simp [namesFrom], ?_⟩⟩
    intro j v hj; simp at hj
  | cons mk mks ih =>
    simp only [List.length_cons, namesFrom_succ] at hres ⊢
    rw [addMarksLoop_cons] at hres
    have hnew : markName (s.nMarks + 1).toNat ∉ s.df.names := by
      intro hm
      have := hs.bound _ hm
      have := hs.nonneg
      omega
    cases h : s.df.setCol (markName (s.nMarks + 1).toNat) mk with
    | error e =>
      rw [h] at hres
      rw [← hres]
      refine ⟨hs, fun _ _ => rfl, ⟨0, by simp, by simp [namesFrom]⟩, fun hl => ?_⟩
      exfalso
      unfold Frame.setCol at h
      rw [if_neg (by simpa using hl mk (by simp)), if_neg hnew] at h
      cases h
    | ok df' =>
      rw [h] at hres
      obtain ⟨h1, h2, h3, h4, h5, h6⟩ := Frame.setCol_spec hr h
      rw [if_neg hnew] at h2
      have hs' : MarkInv { s with df := df', nMarks := s.nMarks + 1 } := by
        refine ⟨?_, by have := hs.nonneg; simp only; omega⟩
        intro j hj
        simp only [h2] at hj
        rcases List.mem_append.1 hj with hj | hj
        · have := hs.bound j hj; simp only; omega
        · have hj' : markName j = markName (s.nMarks + 1).toNat := by simpa using hj
          have := markName_inj hj'
          have := hs.nonneg
          simp only; omega
      obtain ⟨i1, i2, ⟨c, hc, i3⟩, i4⟩ := ih (s := { s with df := df', nMarks := s.nMarks + 1 }) h4 hs' hres
      simp only at i1 i2 i3 i4
      refine ⟨i1, ?_, ⟨c + 1, by omega, ?_⟩, ?_⟩
      · intro nm hnm
        rw [i2 nm (by rw [h2]; simp [hnm]), h6 nm hnm]
        rintro rfl; exact hnew hnm
      · rw [i3, h2, namesFrom_succ, List.append_assoc, List.singleton_append]
      · intro hl
        obtain ⟨j1, j2, j3, j4, j5⟩ := i4 (by rw [h3]; exact fun m hm => hl m (by simp [hm]))
        refine ⟨j1, ?_, ?_, ?_, ?_⟩
        · rw [j2, h2, List.append_assoc, List.singleton_append]
        · rw [List.nodup_cons]
          refine ⟨fun hm => ?_, j3⟩
          have := j4 _ hm
          rw [h2] at this
          simp at this
        · intro nm hnm
          rcases List.mem_cons.1 hnm with rfl | hnm
          · exact hnew
          · have := j4 nm hnm
            rw [h2] at this
            exact fun h => this (by simp [h])
        · intro j v hj
          cases j with
          | zero =>
            simp only [List.getElem?_cons_zero, Option.some.injEq] at hj
            simp only [Nat.cast_zero, add_zero]
            rw [i2 _ (by rw [h2]; simp), h5, hj]
          | succ j =>
            have := j5 j v (by simpa using hj)
            rw [← this]
            congr 3
            push_cast; omega

omit [Field K] [LinearOrder K] in
theorem markInv_of_frame {s s' : Obj K} (h : { s' with cache := s.cache, window := s.window } = s)
    (hs : MarkInv s) : MarkInv s' := by
  have h1 : s'.df = s.df := by have := congrArg Obj.df h; exact this
  have h2 : s'.nMarks = s.nMarks := by have := congrArg Obj.nMarks h; exact this
  exact ⟨by rw [h1, h2]; exact hs.bound, by rw [h2]; exact hs.nonneg⟩

/-- The operation does not use a name of the generated form for a mark of the user's. -/
def Op.UserNames : Op K → Prop
  | .addMarks _ (some nms) => ∀ nm ∈ nms, UserName nm
  | _ => True

theorem markInv_step (op : Op K) (hop : op.UserNames) {s : Obj K} (hi : Inv ext pts s) (hsh : Shape s)
    (hs : MarkInv s) : MarkInv (step ext s op) := by
  cases op with
  | read a => exact markInv_of_frame (read_frame a hi).2.1 hs
  | setWindow w => exact ⟨hs.bound, hs.nonneg⟩
  | addMarks m nms =>
    cases nms with
    | none => exact (defaultLoop m hsh.rect hs _ rfl).1
    | some nms => exact markInv_userLoop nms m hsh.rect hs hop
  | flip => exact ⟨hs.bound, hs.nonneg⟩

theorem markInv_run (ops : List (Op K)) (hops : ∀ op ∈ ops, op.UserNames) {s : Obj K}
    (hi : Inv ext pts s) (hsh : Shape s) (hs : MarkInv s) : MarkInv (run ext s ops) := by
  induction ops generalizing s with
  | nil => exact hs
  | cons op ops ih =>
    exact ih (fun o ho => hops o (by simp [ho])) (inv_step op hi) (shape_step op hi hsh)
      (markInv_step op (hops op (by simp)) hi hsh hs)

end Pointpats.PointPattern
