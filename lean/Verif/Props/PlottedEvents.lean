import Verif.Props.PointPattern

/-!
# C179: plot draws the events of the pattern
-/

set_option linter.unusedSectionVars false

namespace Pointpats.Props

open PointPattern Spec

variable {K : Type} [Field K] [LinearOrder K]

/-- How many of the operations are `flip_coordinates`. -/
def flipCount : List (Op K) → ℕ
  | [] => 0
  | .flip :: ops => flipCount ops + 1
  | _ :: ops => flipCount ops

/-- The operation does not give a mark the name of a coordinate column. -/
def SparesColumns (x y : String) : Op K → Prop
  | .addMarks _ (some l) => x ∉ l ∧ y ∉ l
  | .addMarks _ none => ∀ j, x ≠ markName j ∧ y ≠ markName j
  | _ => True

/-- The coordinate columns hold these values, and `plot` uses them in this order. -/
private structure Drawn (x y : String) (xs ys : List K) (s : Obj K) : Prop where
  shape : Shape s
  hx : x ∈ s.df.names
  hy : y ∈ s.df.names
  cx : s.df.col x = .ok xs
  cy : s.df.col y = .ok ys

private theorem drawn_loop {x y : String} {xs ys : List K} (ns : List String) (hx : x ∉ ns) (hy : y ∉ ns)
    (m : List (List K)) (s : Obj K) (h : Drawn x y xs ys s) :
    Drawn x y xs ys (addMarksLoop ns m s).2 ∧ (addMarksLoop ns m s).2.x = s.x ∧ (addMarksLoop ns m s).2.y = s.y := by
  induction ns generalizing m s with
  | nil => cases m <;> exact ⟨h, rfl, rfl⟩
  | cons a ns ih =>
    cases m with
    | nil => exact ⟨h, rfl, rfl⟩
    | cons c m =>
      rw [addMarksLoop_cons]
      cases hc : s.df.setCol a c with
      | error e => exact ⟨h, rfl, rfl⟩
      | ok df' =>
        obtain ⟨-, e2, -, -, -, e6⟩ := Frame.setCol_spec h.shape.rect hc
        have hxa : x ≠ a := fun e => hx (by simp [e])
        have hya : y ≠ a := fun e => hy (by simp [e])
        have h' : Drawn x y xs ys { s with df := df', nMarks := s.nMarks + 1 } := by
          refine ⟨shape_setCol h.shape hc _, ?_, ?_, ?_, ?_⟩
          · show x ∈ df'.names
            rw [e2]; split
            · exact h.hx
            · exact List.mem_append_left _ h.hx
          · show y ∈ df'.names
            rw [e2]; split
            · exact h.hy
            · exact List.mem_append_left _ h.hy
          · exact (e6 x h.hx hxa).trans h.cx
          · exact (e6 y h.hy hya).trans h.cy
        exact ih (fun e => hx (by simp [e])) (fun e => hy (by simp [e])) m _ h'

private theorem drawn_run {ext : Ext K} {pts : List (K × K)} {x y : String} {xs ys : List K} (ops : List (Op K))
    (hops : ∀ op ∈ ops, SparesColumns x y op) (s : Obj K) (hi : Inv ext pts s) (h : Drawn x y xs ys s) :
    Drawn x y xs ys (run ext s ops)
      ∧ (run ext s ops).x = (if Even (flipCount ops) then s.x else s.y)
      ∧ (run ext s ops).y = (if Even (flipCount ops) then s.y else s.x) := by
  induction ops generalizing s with
  | nil => exact ⟨h, by simp [flipCount, run], by simp [flipCount, run]⟩
  | cons op ops ih =>
    have hrest : ∀ o ∈ ops, SparesColumns x y o := fun o ho => hops o (by simp [ho])
    have hop := hops op (by simp)
    have e : run ext s (op :: ops) = run ext (step ext s op) ops := rfl
    rw [e]
    have hi' := inv_step op hi
    have hsh := shape_step op hi h.shape
    cases op with
    | read a =>
      have hf := (read_frame a hi).2.1
      have e1 : (read ext a s).2.df = s.df := by have := congrArg Obj.df hf; exact this
      have e2 : (read ext a s).2.x = s.x := by have := congrArg Obj.x hf; exact this
      have e3 : (read ext a s).2.y = s.y := by have := congrArg Obj.y hf; exact this
      have hd : Drawn x y xs ys (step ext s (.read a)) := by
        refine ⟨hsh, ?_, ?_, ?_, ?_⟩ <;> simp only [step, e1]
        exacts [h.hx, h.hy, h.cx, h.cy]
      have := ih hrest _ hi' hd
      simp only [step, e2, e3] at this
      exact this
    | setWindow w => exact ih hrest _ hi' ⟨hsh, h.hx, h.hy, h.cx, h.cy⟩
    | flip =>
      obtain ⟨d, dx, dy⟩ := ih hrest _ hi' ⟨hsh, h.hx, h.hy, h.cx, h.cy⟩
      refine ⟨d, ?_, ?_⟩
      · rw [dx]
        show (if Even (flipCount ops) then s.y else s.x) = if Even (flipCount ops + 1) then s.x else s.y
        by_cases he : Even (flipCount ops) <;> simp [he, Nat.even_add_one]
      · rw [dy]
        show (if Even (flipCount ops) then s.x else s.y) = if Even (flipCount ops + 1) then s.y else s.x
        by_cases he : Even (flipCount ops) <;> simp [he, Nat.even_add_one]
    | addMarks m nms =>
      have hn : x ∉ nms.getD (defaultMarkNames s.nMarks m.length) ∧ y ∉ nms.getD (defaultMarkNames s.nMarks m.length) := by
        cases nms with
        | some l => exact hop
        | none =>
          simp only [Option.getD_none, defaultMarkNames, List.mem_map, not_exists, not_and]
          exact ⟨fun j _ e => (hop _).1 e.symm, fun j _ e => (hop _).2 e.symm⟩
      obtain ⟨d, dx, dy⟩ := drawn_loop _ hn.1 hn.2 m s h
      obtain ⟨d', dx', dy'⟩ := ih hrest _ hi' d
      refine ⟨d', ?_, ?_⟩
      · rw [dx']
        show (if Even (flipCount ops) then (addMarksLoop _ m s).2.x else (addMarksLoop _ m s).2.y) = _
        rw [dx, dy]; rfl
      · rw [dy']
        show (if Even (flipCount ops) then (addMarksLoop _ m s).2.y else (addMarksLoop _ m s).2.x) = _
        rw [dx, dy]; rfl

/-- **C179, what holds.** After any history in which no mark was given the name of a coordinate column: with an even number
of calls of `flip_coordinates` `plot` draws the locations given to the constructor, with an odd number the mirrored
ones. Missing: the locations of the pattern after every history, which is false (`C179_plotted_refuted`). -/
theorem C179_plotted_partial (ext : Ext K) (p : ℕ) (rows : List (List K)) (hrows : ∀ r ∈ rows, r.length = p)
    (w : Option (Win K)) (names coordNames : Option (List String)) (s0 : Obj K)
    (h0 : construct p rows w names coordNames = .ok s0) (x y : String)
    (hxy : (resolveNames p names coordNames).coords = [x, y]) (ops : List (Op K))
    (hops : ∀ op ∈ ops, SparesColumns x y op) :
    (run ext s0 ops).points = locations p rows names coordNames
    ∧ (Even (flipCount ops) → plotted (run ext s0 ops) = .ok (locations p rows names coordNames))
    ∧ (¬ Even (flipCount ops) → plotted (run ext s0 ops) = .ok ((locations p rows names coordNames).map Prod.swap)) := by
  obtain ⟨x', y', e1, -, e3, e4, e5, e6, e7, e8, e9, -⟩ := construct_ok h0
  rw [hxy] at e1
  injection e1 with e1 e1'
  injection e1' with e1'
  subst e1 e1'
  have hi := (inv_construct (ext := ext) h0).1
  have hnames : s0.df.names = (resolveNames p names coordNames).cols := by rw [e5]
  have hrow : s0.df.rows = rows := by rw [e5]
  have hd : Drawn x y (rows.map (cell (resolveNames p names coordNames).cols x))
      (rows.map (cell (resolveNames p names coordNames).cols y)) s0 := by
    refine ⟨shape_construct hrows h0, by rw [hnames]; exact e3, by rw [hnames]; exact e4, ?_, ?_⟩
    · rw [Frame.col_eq (by rw [hnames]; exact e3), hnames, hrow]
    · rw [Frame.col_eq (by rw [hnames]; exact e4), hnames, hrow]
  obtain ⟨d, dx, dy⟩ := drawn_run ops hops s0 hi hd
  have hloc : locations p rows names coordNames
      = (rows.map (cell (resolveNames p names coordNames).cols x)).zip
        (rows.map (cell (resolveNames p names coordNames).cols y)) := by
    simp [locations, hxy, List.zip_map']
  have hpl : ∀ a b as bs, (run ext s0 ops).x = a → (run ext s0 ops).y = b → (run ext s0 ops).df.col a = .ok as →
      (run ext s0 ops).df.col b = .ok bs → plotted (run ext s0 ops) = .ok (as.zip bs) := by
    intro a b as bs h1 h2 h3 h4
    unfold plotted
    rw [h1, h2, h3, h4]
    rfl
  refine ⟨(inv_run (ext := ext) ops hi).points, fun he => ?_, fun he => ?_⟩
  · rw [if_pos he, e7] at dx
    rw [if_pos he, e8] at dy
    rw [hloc]
    exact hpl _ _ _ _ dx dy d.cx d.cy
  · rw [if_neg he, e8] at dx
    rw [if_neg he, e7] at dy
    rw [hpl _ _ _ _ dx dy d.cy d.cx, hloc]
    simp [List.zip_map', Function.comp_def]

/-- **C179 is false of the code.** After one call of `flip_coordinates`, `plot` draws events outside the bounding box and the
window that it draws; and so it does after a mark was given the name of a coordinate column. -/
theorem C179_plotted_refuted :
    ∃ (ext : Ext ℚ) (s0 : Obj ℚ), construct 2 [[0, 0], [9, 1]] none none none = .ok s0
      ∧ (∀ op ∈ [Op.flip, .addMarks [[5, 20]] (some ["x"])],
          (run ext s0 [op]).points = [(0, 0), (9, 1)]
          ∧ (read ext .mbb (run ext s0 [op])).1 = .ok (.box ⟨0, 0, 9, 1⟩)
          ∧ (read ext .window (run ext s0 [op])).1
              = .ok (.win (.window ⟨[[(0, 0), (0, 1), (9, 1), (9, 0), (0, 0)]], [[]]⟩)))
      ∧ plotted (run ext s0 [.flip]) = .ok [(0, 0), (1, 9)]
      ∧ plotted (run ext s0 [.addMarks [[5, 20]] (some ["x"])]) = .ok [(5, 0), (20, 1)] := by
  refine ⟨⟨fun l => .ok l, fun _ => .ok []⟩, _, rfl, ?_⟩
  decide +kernel

/-- Non-vacuity: a history with two flips, a mark and reads. -/
example : ∃ s0, construct 2 [[0, 0], [(9 : ℚ), 1], [2, 2], [3, 0]] none none none = .ok s0
    ∧ flipCount [Op.flip, .addMarks [[1, 2, 3, 4]] (some ["size"]), .read .mbb, .flip] = 2
    ∧ (∀ op ∈ [Op.flip, .addMarks [[1, 2, 3, 4]] (some ["size"]), .read .mbb, .flip], SparesColumns (K := ℚ) "x" "y" op)
    ∧ (resolveNames 2 none none).coords = ["x", "y"] := by
  refine ⟨_, rfl, rfl, ?_, rfl⟩
  intro op hop
  simp only [List.mem_cons, List.not_mem_nil, or_false] at hop
  rcases hop with rfl | rfl | rfl | rfl <;> simp [SparesColumns]

end Pointpats.Props
