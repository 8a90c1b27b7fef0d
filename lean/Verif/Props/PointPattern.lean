import Verif.Lemmas.Histories
import Verif.Props.Geometry

/-!
# C01 – C10, C16: the `PointPattern` object over arbitrary histories
-/

namespace Pointpats.Props

open PointPattern Spec

variable {K : Type} [Field K] [LinearOrder K]

/-! ### C01 -/

/-- **C01.** Take any table, any constructor arguments that are accepted, and any history of attribute reads,
window assignments, `add_marks` and `flip_coordinates` calls (some of which may raise). Reading `n`, `mbb`,
`mbb_area`, `rot`, `lambda_mbb`, `hull`, `hull_area`, `lambda_hull`, `nnd`, `min_nnd`, `max_nnd` or `mean_nnd`
then gives the value (or the exception) of its defining formula on the coordinates handed to the
constructor. Since histories include reads, reading twice gives the same value. -/
theorem C01_attributes_history_independent (ext : Ext K) (p : ℕ) (rows : List (List K))
    (w : Option (Win K)) (names coordNames : Option (List String)) (s0 : Obj K)
    (h0 : construct p rows w names coordNames = .ok s0) (ops : List (Op K))
    (a : Attr) (v : Py (Val K))
    (ha : attrValue ext (locations p rows names coordNames) a = some v) :
    (read ext a (run ext s0 ops)).1 = v :=
  (sound_read ha _ (inv_run ops (inv_construct h0).1)).1

/-- A small pattern used in the examples: a unit square's corners. -/
private def sq : List (List ℚ) := [[0, 0], [2, 0], [2, 2], [0, 2]]

private def extQ : Ext ℚ := { hull := fun l => .ok l, nnd := fun l => .ok (l.map fun _ => 2) }

example : ∃ s0, construct 2 sq none none none = .ok s0
    ∧ (read extQ .lambdaMbb (run extQ s0 [.read .rot, .flip, .addMarks [[1, 2, 3, 4]] none,
        .setWindow none, .read .lambdaHull])).1 = .ok (.xnum (.fin 1)) := by
  refine ⟨_, rfl, ?_⟩; decide +kernel

/-! ### C02 -/

private theorem lw_none_step {ext : Ext K} {pts : List (K × K)} (op : Op K)
    (hop : op ≠ .read .lambdaWindow) {s : Obj K} (hi : Inv ext pts s)
    (h : s.cache.lambdaWindow = none) : (step ext s op).cache.lambdaWindow = none := by
  cases op with
  | read a =>
    cases ha : attrValue ext pts a with
    | some v =>
      obtain ⟨-, -, -, h4⟩ := sound_read ha s hi
      exact h4.trans h
    | none =>
      cases a <;> simp only [attrValue, reduceCtorEq] at ha
      · exact absurd rfl hop
      · simp only [step, PointPattern.read, mapM'_state]
        rw [(getWindow_spec hi).2.2.2.1, h]
  | setWindow w => exact h
  | addMarks m nms =>
    have := congrArg Obj.cache
      (addMarksLoop_frame (nms.getD (defaultMarkNames s.nMarks m.length)) m s)
    have hc : (step ext s (.addMarks m nms)).cache = s.cache := this
    rw [hc, h]
  | flip => exact h

/-- Either `lambda_window` has not been stored, or it is the value for the current window. -/
private def Fresh (pts : List (K × K)) (s : Obj K) : Prop :=
  ∀ v, s.cache.lambdaWindow = some v → lambdaWindowNow pts s.window = .ok v

private theorem now_congr {pts : List (K × K)} {w w' : Option (Win K)}
    (h : effectiveWindow pts w = effectiveWindow pts w') :
    lambdaWindowNow pts w = lambdaWindowNow pts w' := by
  unfold lambdaWindowNow; rw [h]

private theorem fresh_step {ext : Ext K} {pts : List (K × K)} (op : Op K)
    (hop : ∀ w, op ≠ .setWindow w) {s : Obj K} (hi : Inv ext pts s) (h : Fresh pts s) :
    Fresh pts (step ext s op) := by
  cases op with
  | read a =>
    cases ha : attrValue ext pts a with
    | some v =>
      obtain ⟨-, -, h3, h4⟩ := sound_read ha s hi
      intro v hv
      have hw : (read ext a s).2.window = s.window := by have := congrArg Obj.window h3; exact this
      show lambdaWindowNow pts (read ext a s).2.window = _
      rw [hw]
      exact h v (h4 ▸ hv)
    | none =>
      cases a <;> simp only [attrValue, reduceCtorEq] at ha
      · obtain ⟨h1, -, -, h4, h5⟩ := lambdaWindow_spec hi
        intro v hv
        simp only [step, PointPattern.read, mapM'_state] at hv ⊢
        rw [now_congr h4]
        have h6 := h5 v hv
        rw [h1] at h6
        cases hc : s.cache.lambdaWindow with
        | none => rw [hc] at h6; exact h6
        | some u =>
          rw [hc] at h6
          have := h u hc
          rw [this]; exact h6
      · obtain ⟨-, -, -, h4, h5⟩ := getWindow_spec hi
        intro v hv
        simp only [step, PointPattern.read, mapM'_state] at hv ⊢
        rw [now_congr h5]
        exact h v (h4 ▸ hv)
  | setWindow w => exact absurd rfl (hop w)
  | addMarks m nms =>
    have hf := addMarksLoop_frame (nms.getD (defaultMarkNames s.nMarks m.length)) m s
    have hc : (step ext s (.addMarks m nms)).cache = s.cache := by
      have := congrArg Obj.cache hf; exact this
    have hw : (step ext s (.addMarks m nms)).window = s.window := by
      have := congrArg Obj.window hf; exact this
    intro v hv
    rw [hw]
    exact h v (hc ▸ hv)
  | flip => exact h

/-- **C02, what holds.** If `lambda_window` was not read before the last assignment of the window, then
reading it gives the number of points divided by the area of the window that `pp.window` returns now.
What is missing (and false, see `C02_lambda_window_refuted`): the same after an earlier read. -/
theorem C02_lambda_window_partial (ext : Ext K) (p : ℕ) (rows : List (List K))
    (w : Option (Win K)) (names coordNames : Option (List String)) (s0 : Obj K)
    (h0 : construct p rows w names coordNames = .ok s0) (pre post : List (Op K))
    (hpre : ∀ op ∈ pre, op ≠ .read .lambdaWindow)
    (hpost : ∀ op ∈ post, ∀ w, op ≠ .setWindow w)
    (current : Poly K)
    (hwin : (read ext .window (run ext s0 (pre ++ post))).1 = .ok (.win (.window current))) :
    (read ext .lambdaWindow (run ext s0 (pre ++ post))).1
      = .ok (.xnum (XF.div (.fin (rows.length : K)) (.fin (Window.area current)))) := by
  obtain ⟨hi0, hn0⟩ := inv_construct (ext := ext) h0
  set pts := locations p rows names coordNames with hpts
  have hlen : pts.length = rows.length := by simp [hpts, locations]
  have hi := inv_run (ext := ext) (pre ++ post) hi0
  have hpre' : ∀ (l : List (Op K)) (s : Obj K), (∀ op ∈ l, op ≠ .read .lambdaWindow) →
      Inv ext pts s → s.cache.lambdaWindow = none → (run ext s l).cache.lambdaWindow = none := by
    intro l
    induction l with
    | nil => intro s _ _ h; exact h
    | cons op l ih =>
      intro s hl hi h
      exact ih _ (fun o ho => hl o (by simp [ho])) (inv_step op hi)
        (lw_none_step op (hl op (by simp)) hi h)
  have hpost' : ∀ (l : List (Op K)) (s : Obj K), (∀ op ∈ l, ∀ w, op ≠ .setWindow w) →
      Inv ext pts s → Fresh pts s → Fresh pts (run ext s l) := by
    intro l
    induction l with
    | nil => intro s _ _ h; exact h
    | cons op l ih =>
      intro s hl hi h
      exact ih _ (fun o ho => hl o (by simp [ho])) (inv_step op hi)
        (fresh_step op (hl op (by simp)) hi h)
  have hrun : run ext s0 (pre ++ post) = run ext (run ext s0 pre) post := by
    simp [run, List.foldl_append]
  have hfresh : Fresh pts (run ext s0 (pre ++ post)) := by
    rw [hrun]
    refine hpost' post _ hpost (inv_run pre hi0) ?_
    intro v hv
    rw [hpre' pre s0 hpre hi0 hn0] at hv
    cases hv
  set s := run ext s0 (pre ++ post)
  obtain ⟨h1, -⟩ := lambdaWindow_spec hi
  obtain ⟨g1, -⟩ := getWindow_spec hi
  have heff : effectiveWindow pts s.window = .ok (.window current) := by
    simp only [PointPattern.read, mapM'] at hwin
    rcases hg : getWindow s with ⟨r, s'⟩
    rw [hg] at hwin g1
    simp only at g1
    subst g1
    cases he : effectiveWindow pts s.window with
    | error e => rw [he] at hwin; simp at hwin
    | ok u => rw [he] at hwin; simp only [Except.ok.injEq, Val.win.injEq] at hwin; rw [hwin]
  have hnow : lambdaWindowNow pts s.window
      = .ok (XF.div (.fin (rows.length : K)) (.fin (Window.area current))) := by
    unfold lambdaWindowNow; rw [heff, ← hlen]; rfl
  have h2 : (lambdaWindow s).1 = .ok (XF.div (.fin (rows.length : K)) (.fin (Window.area current))) := by
    rw [h1]
    cases hc : s.cache.lambdaWindow with
    | none => exact hnow
    | some v => simp only; rw [← hfresh v hc, hnow]
  simp only [PointPattern.read, mapM']
  rcases hg : lambdaWindow s with ⟨r, s'⟩
  rw [hg] at h2
  simp only at h2
  subst h2
  rfl

private theorem lw_some_step {ext : Ext K} {pts : List (K × K)} (op : Op K) {s : Obj K}
    (hi : Inv ext pts s) {v : XF K} (h : s.cache.lambdaWindow = some v) :
    (step ext s op).cache.lambdaWindow = some v := by
  cases op with
  | read a =>
    cases ha : attrValue ext pts a with
    | some u =>
      obtain ⟨-, -, -, h4⟩ := sound_read ha s hi
      exact h4.trans h
    | none =>
      cases a <;> simp only [attrValue, reduceCtorEq] at ha
      · have e : lambdaWindow s = (.ok v, s) := by unfold lambdaWindow cached; simp [h]
        simp only [step, PointPattern.read, mapM'_state]
        rw [e]; exact h
      · simp only [step, PointPattern.read, mapM'_state]
        rw [(getWindow_spec hi).2.2.2.1, h]
  | setWindow w => exact h
  | addMarks m nms =>
    have := congrArg Obj.cache
      (addMarksLoop_frame (nms.getD (defaultMarkNames s.nMarks m.length)) m s)
    have hc : (step ext s (.addMarks m nms)).cache = s.cache := this
    rw [hc, h]
  | flip => exact h

/-- **C02, what is read instead.** Once `lambda_window` has been read with success, every later read
gives that same number, whatever was done in between: the window may be replaced any number of times,
or removed. -/
theorem C02_lambda_window_frozen (ext : Ext K) (p : ℕ) (rows : List (List K))
    (w : Option (Win K)) (names coordNames : Option (List String)) (s0 : Obj K)
    (h0 : construct p rows w names coordNames = .ok s0) (pre post : List (Op K)) (v : Val K)
    (hread : (read ext .lambdaWindow (run ext s0 pre)).1 = .ok v) :
    (read ext .lambdaWindow (run ext s0 (pre ++ .read .lambdaWindow :: post))).1 = .ok v := by
  obtain ⟨hi0, -⟩ := inv_construct (ext := ext) h0
  have hi := inv_run (ext := ext) pre hi0
  have hkeep : ∀ (l : List (Op K)) (s : Obj K) (u : XF K), Inv ext (locations p rows names coordNames) s →
      s.cache.lambdaWindow = some u → (run ext s l).cache.lambdaWindow = some u := by
    intro l
    induction l with
    | nil => intro s u _ h; exact h
    | cons op l ih =>
      intro s u hi h
      exact ih _ u (inv_step op hi) (lw_some_step op hi h)
  have hrun : run ext s0 (pre ++ .read .lambdaWindow :: post)
      = run ext (step ext (run ext s0 pre) (.read .lambdaWindow)) post := by
    simp [run, List.foldl_append]
  rw [hrun]
  set s := run ext s0 pre
  have hs' := inv_step (ext := ext) (.read .lambdaWindow) hi
  have hval : ∃ u, v = .xnum u ∧ (step ext s (.read .lambdaWindow)).cache.lambdaWindow = some u := by
    simp only [step, PointPattern.read, mapM'_state]
    simp only [PointPattern.read, mapM'] at hread
    cases hc : s.cache.lambdaWindow with
    | some u =>
      have e : lambdaWindow s = (.ok u, s) := by unfold lambdaWindow cached; simp [hc]
      rw [e] at hread ⊢
      simp only [Except.ok.injEq] at hread
      exact ⟨u, hread.symm, hc⟩
    | none =>
      unfold lambdaWindow cached at hread ⊢
      simp only [hc] at hread ⊢
      split at hread
      · rename_i a s' heq
        split at heq
        · rename_i u t ht
          simp only [Prod.mk.injEq, Except.ok.injEq] at heq hread
          obtain ⟨rfl, rfl⟩ := heq
          exact ⟨_, hread.symm, rfl⟩
        · simp at heq
      · simp at hread
  obtain ⟨u, rfl, hu⟩ := hval
  have hfin := hkeep post _ u hs' hu
  have e : lambdaWindow (run ext (step ext s (.read .lambdaWindow)) post)
      = (.ok u, run ext (step ext s (.read .lambdaWindow)) post) := by
    unfold lambdaWindow cached; simp [hfin]
  simp only [PointPattern.read, mapM', e]

/-- Non-vacuity: the first read succeeds on the square, with the value 1. -/
example : ∃ s0, construct 2 sq none none none = .ok s0
    ∧ (read extQ .lambdaWindow (run extQ s0 [.read .n])).1 = .ok (.xnum (.fin 1)) := by
  refine ⟨_, rfl, ?_⟩; decide +kernel

/-- **C02, refuted.** Reading `lambda_window`, enlarging the window and reading again returns the old
intensity: 4 points, new window of area 16, but the value is 1 and not 1/4. -/
theorem C02_lambda_window_refuted :
    ∃ (s0 : Obj ℚ) (ops : List (Op ℚ)) (current : Poly ℚ),
      construct 2 [[0, 0], [2, 0], [2, 2], [0, 2]] none none none = .ok s0
      ∧ (read extQ .window (run extQ s0 ops)).1 = .ok (.win (.window current))
      ∧ (read extQ .lambdaWindow (run extQ s0 ops)).1
          ≠ .ok (.xnum (XF.div (.fin 4) (.fin (Window.area current)))) := by
  refine ⟨_, [.read .lambdaWindow, .setWindow (some (.window (Window.polyFromBBox ⟨0, 0, 4, 4⟩)))],
    Window.polyFromBBox ⟨0, 0, 4, 4⟩, rfl, ?_, ?_⟩ <;> decide +kernel

/-- Non-vacuity of the partial theorem: the same history without the first read. -/
example : ∃ s0, construct 2 sq none none none = .ok s0
    ∧ (read extQ .window (run extQ s0 ([.read .n, .setWindow (some (.window (Window.polyFromBBox ⟨0, 0, 4, 4⟩)))]
        ++ [.read .lambdaWindow, .flip]))).1 = .ok (.win (.window (Window.polyFromBBox ⟨0, 0, 4, 4⟩))) := by
  refine ⟨_, rfl, ?_⟩; decide +kernel

/-! ### C03 -/

/-- **C03.** A pattern constructed without a window has as window a single closed ring through the four
corners of the smallest box containing the points; its area is `(max x - min x) * (max y - min y)`; all
points lie in that box; and `lambda_window` and `lambda_mbb` are the same, namely `n` divided by that
area when it is positive. -/
theorem C03_default_window [IsStrictOrderedRing K] (ext : Ext K) (p : ℕ) (rows : List (List K))
    (names coordNames : Option (List String)) (s0 : Obj K)
    (h0 : construct p rows none names coordNames = .ok s0) :
    ∃ (b : BBox K) (ring : List (K × K)),
      IsSmallestBox (locations p rows names coordNames) b
      ∧ (read ext .window s0).1 = .ok (.win (.window ⟨[ring], [[]]⟩))
      ∧ ring.dropLast = corners b ∧ ring.head? = ring.getLast?
      ∧ Window.area ⟨[ring], [[]]⟩ = (b.xmax - b.xmin) * (b.ymax - b.ymin)
      ∧ (read ext .lambdaWindow s0).1 = (read ext .lambdaMbb s0).1
      ∧ (0 < (b.xmax - b.xmin) * (b.ymax - b.ymin) →
          (read ext .lambdaWindow s0).1
            = .ok (.xnum (.fin ((rows.length : K) / ((b.xmax - b.xmin) * (b.ymax - b.ymin)))))) := by
  obtain ⟨x, y, -, -, -, -, -, -, -, -, hpts, -, -, h2⟩ := construct_ok h0
  obtain ⟨b, hb, hw, hc⟩ := h2 rfl
  rw [hpts] at hb
  have hne : locations p rows names coordNames ≠ [] := by
    intro h; rw [h] at hb; cases hb
  obtain ⟨b', hb', hsm, -⟩ := (C19_bbox_smallest (locations p rows names coordNames)).2 hne
  have hbb : b' = b := by
    have : Geometry.bboxPts (locations p rows names coordNames) = .ok b' := hb'
    rw [← boxOf_eq, hb] at this
    injection this with this
    exact this.symm
  subst hbb
  obtain ⟨q, hq⟩ := List.exists_mem_of_ne_nil _ hne
  have hq' := hsm.1 q hq
  have hx := hq'.1.trans hq'.2.1
  have hy := hq'.2.2.1.trans hq'.2.2.2
  obtain ⟨ring, e1, -, -, e4, e5⟩ := C17_poly_from_bbox b' hx hy
  have hring : ring = [(b'.xmin, b'.ymin), (b'.xmin, b'.ymax), (b'.xmax, b'.ymax), (b'.xmax, b'.ymin),
               (b'.xmin, b'.ymin)] := by
    have : Window.asWindow (Window.polyFromBBox b') = Window.polyFromBBox b' := by
      simp [Window.asWindow, Window.polyFromBBox, Window.mk]
    rw [this] at e1
    simp only [Window.polyFromBBox, Poly.mk.injEq, List.cons.injEq, and_true] at e1
    exact e1.symm
  have hlw : (read ext .lambdaWindow s0).1 = .ok (.xnum (XF.div (.fin (rows.length : K))
      (.fin ((b'.xmax - b'.xmin) * (b'.ymax - b'.ymin))))) := by
    have hwin : (read ext .window (run ext s0 ([] ++ []))).1
        = .ok (.win (.window (Window.asWindow (Window.polyFromBBox b')))) := by
      simp [run, PointPattern.read, mapM', getWindow, hw]
    have := C02_lambda_window_partial ext p rows none names coordNames s0 h0 [] [] (by simp) (by simp) _ hwin
    rw [e5] at this
    exact this
  have hlm : (read ext .lambdaMbb s0).1 = .ok (.xnum (XF.div (.fin (rows.length : K))
      (.fin ((b'.xmax - b'.xmin) * (b'.ymax - b'.ymin))))) := by
    have := C01_attributes_history_independent ext p rows none names coordNames s0 h0 [] .lambdaMbb _ rfl
    simp only [run, List.foldl_nil] at this
    rw [this, hb]
    simp [Except.map, locations]
  refine ⟨b', ring, hsm, ?_, e4, ?_, ?_, hlw.trans hlm.symm, ?_⟩
  · rw [← e1]; simp [PointPattern.read, mapM', getWindow, hw]
  · rw [hring]; simp
  · rw [← e5, e1]
  · intro hpos
    rw [hlw]
    simp [XF.div, hpos.ne']

example : ∃ s0, construct 2 sq none none none = .ok s0 ∧ s0.points.length = 4 := ⟨_, rfl, by decide +kernel⟩

/-! ### C04 -/

/-- **C04, what holds.** The list passed as `names` is never altered; the list passed as `coord_names` is
unaltered exactly if `names` is given too or the table has at most two columns. In the remaining case
generated mark names are appended to the caller's list. -/
theorem C04_constructor_arguments_partial (p : ℕ) (names coordNames : Option (List String)) :
    (resolveNames p names coordNames).namesAfter = names
    ∧ ((resolveNames p names coordNames).coordNamesAfter = coordNames ↔
        (names ≠ none ∨ p ≤ 2 ∨ coordNames = none))
    ∧ (∀ cn, names = none → coordNames = some cn → 2 < p →
        (resolveNames p names coordNames).coordNamesAfter
          = some (cn ++ (List.range (p - 2)).map markName)) := by
  have hlist : ((List.range' 2 (p - 2)).map fun m => markName (m - 2))
      = (List.range (p - 2)).map markName := by
    rw [List.range'_eq_map_range, List.map_map]
    apply List.map_congr_left
    intro j _
    simp [Function.comp]
  cases names with
  | some ns => simp [resolveNames]
  | none =>
    cases coordNames with
    | none => simp [resolveNames]
    | some cn =>
      simp only [resolveNames, Option.getD_some, Option.map_some, hlist, true_and,
        Option.some.injEq]
      refine ⟨?_, ?_⟩
      · by_cases hp : 2 < p
        · simp only [gt_iff_lt, hp, if_true, List.append_right_eq_self, List.map_eq_nil_iff,
            List.range_eq_nil]
          constructor
          · intro h; omega
          · rintro (h | h | h)
            · exact absurd rfl h
            · omega
            · cases h
        · simp [hp]; omega
      · rintro cn' - rfl hp
        simp [hp]

/-- **C04, refuted.** Two three-column patterns built with the same `coord_names` list: the first call
changes the list, and the second call raises. -/
theorem C04_constructor_arguments_refuted :
    ∃ (coordNames after : List String) (s0 : Obj ℚ),
      construct 3 [[0, 0, 7], [2, 1, 8]] none none (some coordNames) = .ok s0
      ∧ (resolveNames 3 none (some coordNames)).coordNamesAfter = some after
      ∧ after ≠ coordNames
      ∧ construct (K := ℚ) 3 [[0, 0, 7], [2, 1, 8]] none none (some after) = .error .valueError := by
  refine ⟨["lon", "lat"], ["lon", "lat", "mark_0"], _, rfl, ?_, ?_, ?_⟩ <;> decide +kernel

/-! ### C05 -/

/-- **C05, what holds.** Take a pattern whose column names given by the user are not of the generated form
`mark_<number>`, and any history in which `add_marks` was called with default names or with names not of
that form. Then `add_marks(marks)` with default names never changes an existing column (even when it
raises); if all marks have the length of the table it succeeds, adds exactly one column per mark, in order,
under new names different from each other, with the given values. -/
theorem C05_add_marks_partial (ext : Ext K) (p : ℕ) (hp : 2 ≤ p) (rows : List (List K))
    (hrows : ∀ r ∈ rows, r.length = p) (w : Option (Win K)) (names coordNames : Option (List String))
    (hnames : ∀ l, names = some l → ∀ nm ∈ l, UserName nm)
    (hcoord : ∀ l, coordNames = some l → ∀ nm ∈ l, UserName nm)
    (s0 : Obj K) (h0 : construct p rows w names coordNames = .ok s0) (ops : List (Op K))
    (hops : ∀ op ∈ ops, op.UserNames) (marks : List (List K)) :
    let s := run ext s0 ops
    let out := addMarks marks none s
    (∀ nm ∈ s.df.names, out.2.df.col nm = s.df.col nm)
    ∧ ((∀ m ∈ marks, m.length = s.df.rows.length) →
        out.1 = .ok ()
        ∧ ∃ new : List String, new.length = marks.length ∧ new.Nodup
            ∧ (∀ nm ∈ new, nm ∉ s.df.names)
            ∧ out.2.df.names = s.df.names ++ new
            ∧ ∀ (j : ℕ) (nm : String) (v : List K), new[j]? = some nm → marks[j]? = some v →
                out.2.df.col nm = .ok v) := by
  intro s out
  have hi := (inv_construct (ext := ext) h0).1
  have hsh := shape_construct hrows h0
  have hm0 : MarkInv s0 := by
    obtain ⟨x, y, -, h2, -, -, h5, -, -, -, -, h10, -⟩ := construct_ok h0
    refine ⟨?_, by rw [h10]; omega⟩
    intro j hj
    rw [h5] at hj
    rw [h10]
    cases hn : names with
    | some ns =>
      rw [hn] at hj
      exact absurd rfl (hnames ns hn _ hj j)
    | none =>
      rw [hn] at hj
      simp only [resolveNames] at hj
      rcases List.mem_append.1 hj with hj | hj
      · cases hc : coordNames with
        | none =>
          rw [hc] at hj
          simp only [Option.getD_none, List.mem_cons, List.not_mem_nil, or_false] at hj
          exfalso
          have hh : (markName j).toList.take 1 = ['m'] := by
            unfold markName; rw [String.toList_append]; rfl
          rcases hj with hj | hj <;> rw [hj] at hh <;> revert hh <;> decide
        | some cn =>
          rw [hc] at hj
          exact absurd rfl (hcoord cn hc _ hj j)
      · by_cases hp2 : p > 2
        · rw [if_pos hp2] at hj
          obtain ⟨m, hm, hm'⟩ := List.mem_map.1 hj
          have := markName_inj hm'
          rw [List.mem_range'_1] at hm
          omega
        · rw [if_neg hp2] at hj; cases hj
  have hs := markInv_run ops hops hi hsh hm0
  have hshs := shape_run ops hi hsh
  obtain ⟨-, k2, -, k4⟩ := defaultLoop marks hshs.rect hs out rfl
  refine ⟨k2, fun hl => ?_⟩
  obtain ⟨j1, j2, j3, j4, j5⟩ := k4 hl
  refine ⟨j1, _, ?_, j3, j4, j2, ?_⟩
  · simp [namesFrom]
  · intro j nm v hj hv
    have : nm = markName (s.nMarks + 1 + (j : ℤ)).toNat := by
      simp only [namesFrom, List.getElem?_map, Option.map_eq_some_iff] at hj
      obtain ⟨i, hi, rfl⟩ := hj
      rw [List.getElem?_eq_some_iff] at hi
      obtain ⟨hi1, hi2⟩ := hi
      simp only [List.getElem_range] at hi2
      rw [hi2]
    rw [this]
    exact j5 j v hv

/-- **C05, refuted.** A user's mark called `mark_2` is overwritten by the next default `add_marks`. -/
theorem C05_add_marks_refuted :
    ∃ (s0 : Obj ℚ), construct 2 [[0, 0], [2, 1]] none none none = .ok s0
      ∧ let s1 := (addMarks [[10, 20]] (some ["mark_2"]) s0).2
        let out := addMarks [[77, 88]] none s1
        "mark_2" ∈ s1.df.names ∧ out.1 = .ok () ∧ out.2.df.col "mark_2" ≠ s1.df.col "mark_2"
        ∧ out.2.df.names.length = s1.df.names.length := by
  refine ⟨_, rfl, ?_⟩; decide +kernel

/-- Non-vacuity of the partial theorem. -/
example : ∃ s0, construct 3 [[(0 : ℚ), 0, 5], [2, 1, 6]] none none none = .ok s0
    ∧ (addMarks [[1, 2], [3, 4]] none s0).2.df.names = ["x", "y", "mark_0", "mark_2", "mark_3"] := by
  refine ⟨_, rfl, ?_⟩; decide +kernel

/-! ### C06, C07 -/

/-- **C06.** For every reachable pattern, `unique()` succeeds; its rows are the different rows
(coordinates and marks) of the pattern, each once, in order of first occurrence; names are kept; its locations are
the coordinates of these rows; and applying `unique()` to the result gives the same rows again. -/
theorem C06_unique (ext : Ext K) (s : Obj K) (hs : Reachable ext s) :
    ∃ u, unique s = .ok u
      ∧ FirstOccurrences s.df.rows u.df.rows
      ∧ u.df.names = s.df.names ∧ u.coordNames = s.coordNames
      ∧ u.points = locations s.df.names.length u.df.rows (some s.df.names) (some s.coordNames)
      ∧ ∃ u', unique u = .ok u' ∧ u'.df = u.df := by
  have hsh := shape_reachable hs
  obtain ⟨u, h1, h2, h3, h4, -⟩ := reconstruct hsh (dropDuplicates s.df.rows) (some .notAWindow) (by simp)
  have hnames : u.df.names = s.df.names := by rw [h2]
  have hrows : u.df.rows = dropDuplicates s.df.rows := by rw [h2]
  have hocc : FirstOccurrences s.df.rows u.df.rows := by rw [hrows]; exact dropDuplicates_spec _
  refine ⟨u, h1, hocc, hnames, h3, by rw [h4, hrows], ?_⟩
  have hshu : Shape u := by
    refine shape_construct (p := s.df.names.length) ?_ h1
    intro r hr
    exact hsh.rect r ((dropDuplicates_spec s.df.rows).mem r |>.1 hr)
  obtain ⟨u', k1, k2, -⟩ := reconstruct hshu (dropDuplicates u.df.rows) (some .notAWindow) (by simp)
  refine ⟨u', k1, ?_⟩
  rw [k2, dropDuplicates_of_nodup hocc.nodup]

example : ∃ s, construct 2 [[(1 : ℚ), 2], [1, 2], [0, 1], [1, 2]] none none none = .ok s
    ∧ ∃ u, unique s = .ok u ∧ u.df.rows = [[1, 2], [0, 1]] := ⟨_, rfl, _, rfl, by decide +kernel⟩

/-- **C07, refuted for every pattern.** Whatever the window of a reachable pattern is, the window of
`unique()` is not a window, and reading `lambda_window` from the result raises `AttributeError`. -/
theorem C07_unique_window_refuted (ext : Ext K) (s : Obj K) (hs : Reachable ext s) :
    ∃ u, unique s = .ok u ∧ (read ext .window u).1 = .ok (.win .notAWindow)
      ∧ (read ext .lambdaWindow u).1 = .error .attributeError := by
  obtain ⟨u, h1, -, -, -, h5⟩ := reconstruct (shape_reachable hs) (dropDuplicates s.df.rows)
    (some .notAWindow) (by simp)
  have hw := h5 (by simp)
  refine ⟨u, h1, ?_, ?_⟩
  · simp [PointPattern.read, mapM', getWindow, hw]
  · obtain ⟨hi, hn⟩ := inv_construct (ext := ext) h1
    obtain ⟨k1, -⟩ := lambdaWindow_spec hi
    rw [hn, hw] at k1
    simp only [lambdaWindowNow, effectiveWindow, winArea] at k1
    simp only [PointPattern.read, mapM']
    rcases hg : lambdaWindow u with ⟨r, s'⟩
    rw [hg] at k1
    simp only at k1
    subst k1
    rfl

/-- **C07, what holds.** If the window of the original is handed on by hand (`u.window = pp.window` right after
`u = pp.unique()`), the new pattern has that window, and its `lambda_window` is the number of different events over the
area of the window. -/
theorem C07_window_handed_on_partial (ext : Ext K) (s : Obj K) (hs : Reachable ext s) (w : Poly K)
    (hw : (read ext .window s).1 = .ok (.win (.window w))) :
    ∃ u, unique s = .ok u ∧ (read ext .window (run ext u [.setWindow (some (.window w))])).1 = (read ext .window s).1 ∧
      (read ext .lambdaWindow (run ext u [.setWindow (some (.window w))])).1
        = .ok (.xnum (XF.div (.fin ((dropDuplicates s.df.rows).length : K)) (.fin (Window.area w)))) := by
  obtain ⟨u, h1, -⟩ := reconstruct (shape_reachable hs) (dropDuplicates s.df.rows) (some .notAWindow) (by simp)
  have hwin : (read ext .window (run ext u [.setWindow (some (.window w))])).1 = .ok (.win (.window w)) := by
    simp [PointPattern.run, PointPattern.step, PointPattern.read, mapM', setWindow, getWindow]
  refine ⟨u, h1, hwin.trans hw.symm, ?_⟩
  have := C02_lambda_window_partial ext s.df.names.length (dropDuplicates s.df.rows) (some .notAWindow) (some s.df.names)
    (some s.coordNames) u h1 [.setWindow (some (.window w))] [] (by simp) (by simp) w (by simpa using hwin)
  simpa using this

/-- Non-vacuity: a pattern with a repeated event. -/
example : ∃ s, construct 2 [[(0 : ℚ), 0], [2, 0], [2, 2], [2, 0]] none none none = .ok s
    ∧ (read extQ .window s).1 = .ok (.win (.window (Window.asWindow (Window.polyFromBBox ⟨0, 0, 2, 2⟩))))
    ∧ (dropDuplicates s.df.rows).length = 3 := by
  refine ⟨_, rfl, ?_, ?_⟩ <;> decide +kernel

/-! ### C08 -/

/-- **C08.** For reachable patterns (not both empty): `superimpose` raises `TypeError` exactly if the column
names or the coordinate names differ; otherwise its rows are the different rows of the two tables, each
once, in order of first occurrence in the first and then the second; the other order of the operands gives the
same set of rows; superimposing a pattern on itself gives the rows of `unique()`. -/
theorem C08_superimpose (ext : Ext K) (s t : Obj K) (hs : Reachable ext s) (ht : Reachable ext t)
    (hne : s.df.rows ≠ [] ∨ t.df.rows ≠ []) :
    (superimpose s t = .error .typeError ↔ (s.df.names ≠ t.df.names ∨ s.coordNames ≠ t.coordNames))
    ∧ (s.df.names = t.df.names → s.coordNames = t.coordNames →
        ∃ u u', superimpose s t = .ok u ∧ superimpose t s = .ok u'
          ∧ FirstOccurrences (s.df.rows ++ t.df.rows) u.df.rows
          ∧ u.df.names = s.df.names ∧ u.coordNames = s.coordNames
          ∧ ∀ r, r ∈ u.df.rows ↔ r ∈ u'.df.rows)
    ∧ (s.df.rows ≠ [] → ∃ u v, superimpose s s = .ok u ∧ unique s = .ok v ∧ u.df = v.df) := by
  have key : ∀ a b : Obj K, Shape a → a.df.names = b.df.names → a.coordNames = b.coordNames →
      (a.df.rows ≠ [] ∨ b.df.rows ≠ []) →
      ∃ u, superimpose a b = .ok u ∧ u.df = ⟨a.df.names, dropDuplicates (a.df.rows ++ b.df.rows)⟩
        ∧ u.coordNames = a.coordNames := by
    intro a b ha h1 h2 h3
    have hd : dropDuplicates (a.df.rows ++ b.df.rows) ≠ [] := by
      have : ∃ r, r ∈ a.df.rows ++ b.df.rows := by
        rcases h3 with h3 | h3
        · obtain ⟨r, hr⟩ := List.exists_mem_of_ne_nil _ h3; exact ⟨r, by simp [hr]⟩
        · obtain ⟨r, hr⟩ := List.exists_mem_of_ne_nil _ h3; exact ⟨r, by simp [hr]⟩
      obtain ⟨r, hr⟩ := this
      exact List.ne_nil_of_mem (mem_dropDuplicates.2 hr)
    obtain ⟨u, k1, k2, k3, -⟩ := reconstruct ha (dropDuplicates (a.df.rows ++ b.df.rows)) none fun _ => hd
    refine ⟨u, ?_, k2, k3⟩
    unfold superimpose
    rw [if_neg (by simp [h1, h2]), k1]
  have hshs := shape_reachable hs
  have hsht := shape_reachable ht
  refine ⟨?_, ?_, ?_⟩
  · constructor
    · intro h
      by_contra hcon
      push Not at hcon
      obtain ⟨u, hu, -⟩ := key s t hshs hcon.1 hcon.2 hne
      rw [hu] at h; cases h
    · intro h; unfold superimpose; rw [if_pos h]
  · intro h1 h2
    obtain ⟨u, k1, k2, k3⟩ := key s t hshs h1 h2 hne
    obtain ⟨u', l1, l2, -⟩ := key t s hsht h1.symm h2.symm hne.symm
    refine ⟨u, u', k1, l1, ?_, by rw [k2], k3, ?_⟩
    · rw [k2]; exact dropDuplicates_spec _
    · intro r
      rw [k2, l2]
      simp only [mem_dropDuplicates, List.mem_append]
      exact or_comm
  · intro hr
    obtain ⟨u, k1, k2, -⟩ := key s s hshs rfl rfl (Or.inl hr)
    obtain ⟨v, l1, l2, -⟩ := reconstruct hshs (dropDuplicates s.df.rows) (some .notAWindow) (by simp)
    refine ⟨u, v, k1, l1, ?_⟩
    rw [k2, l2, dropDuplicates_append_self]

example : ∃ s t u, construct 2 [[(1 : ℚ), 3], [4, 5], [0, 0]] none none none = .ok s
    ∧ construct 2 [[(5 : ℚ), 6], [1, 4], [0, 0]] none none none = .ok t
    ∧ superimpose s t = .ok u ∧ u.df.rows = [[1, 3], [4, 5], [0, 0], [5, 6], [1, 4]] :=
  ⟨_, _, _, rfl, rfl, rfl, by decide +kernel⟩

/-! ### C09 -/

omit [Field K] in
private theorem sum_indicator {g : K} {l : List K} (hnd : l.Nodup) (hg : g ∈ l) :
    (l.map fun v => if g = v then 1 else 0).sum = 1 := by
  induction l with
  | nil => cases hg
  | cons a l ih =>
    rw [List.nodup_cons] at hnd
    rw [List.map_cons, List.sum_cons]
    rcases List.mem_cons.1 hg with rfl | hg'
    · rw [if_pos rfl]
      have : (l.map fun v => if g = v then 1 else 0) = l.map fun _ => 0 := by
        apply List.map_congr_left
        intro v hv
        rw [if_neg]
        rintro rfl; exact hnd.1 hv
      rw [this]; simp
    · rw [if_neg, ih hnd.2 hg']
      rintro rfl; exact hnd.1 hg'

/-- **C09.** For a reachable pattern and a mark that is one of its columns, `explode` returns one pattern
per different value of the mark, in increasing order of the values; the pattern for a value has exactly
the rows with that value, in the original order, and the same columns; none is empty and their sizes
add up to the size of the pattern. A name that is not a column is a `KeyError`. -/
theorem C09_explode (ext : Ext K) (s : Obj K) (hs : Reachable ext s) (mark : String) :
    (mark ∉ s.df.names → explode s mark = .error .keyError)
    ∧ (mark ∈ s.df.names → ∃ (parts : List (Obj K)) (vals : List K),
        explode s mark = .ok parts
        ∧ vals.Pairwise (· < ·)
        ∧ (∀ v, v ∈ vals ↔ ∃ r ∈ s.df.rows, cell s.df.names mark r = v)
        ∧ List.Forall₂ (fun part v => part.df.rows = s.df.rows.filter (fun r => cell s.df.names mark r = v)
            ∧ part.df.names = s.df.names ∧ part.coordNames = s.coordNames ∧ part.df.rows ≠ []) parts vals
        ∧ (parts.map len).sum = len s) := by
  have hsh := shape_reachable hs
  constructor
  · intro h
    unfold explode
    simp [Frame.col, h, bind, Except.bind]
  · intro h
    obtain ⟨u1, u2⟩ := npUnique_spec (s.df.rows.map (cell s.df.names mark))
    set vals := npUnique (s.df.rows.map (cell s.df.names mark)) with hvals
    have hmem : ∀ v, v ∈ vals ↔ ∃ r ∈ s.df.rows, cell s.df.names mark r = v := by
      intro v; rw [u2]; simp
    have hall : ∀ vs : List K, (∀ v ∈ vs, ∃ r ∈ s.df.rows, cell s.df.names mark r = v) →
        ∃ parts : List (Obj K),
          (vs.mapM fun v => construct s.df.names.length
            (s.df.rows.filter fun r => decide (r.getD (s.df.names.idxOf mark) 0 = v)) none
            (some s.df.names) (some s.coordNames)) = .ok parts
          ∧ List.Forall₂ (fun part v => part.df.rows
              = s.df.rows.filter (fun r => cell s.df.names mark r = v)
            ∧ part.df.names = s.df.names ∧ part.coordNames = s.coordNames ∧ part.df.rows ≠ []) parts vs := by
      intro vs
      induction vs with
      | nil => intro _; exact ⟨[], rfl, List.Forall₂.nil⟩
      | cons v vs ih =>
        intro hv
        obtain ⟨parts, e1, e2⟩ := ih fun v hv' => hv v (by simp [hv'])
        have hne : (s.df.rows.filter fun r => decide (r.getD (s.df.names.idxOf mark) 0 = v)) ≠ [] := by
          obtain ⟨r, hr, hrv⟩ := hv v (by simp)
          exact List.ne_nil_of_mem (List.mem_filter.2 ⟨hr, by simpa [cell] using hrv⟩)
        obtain ⟨t, k1, k2, k3, -⟩ := reconstruct hsh _ none fun _ => hne
        refine ⟨t :: parts, ?_, List.Forall₂.cons ⟨?_, by rw [k2], k3, by rw [k2]; exact hne⟩ e2⟩
        · rw [List.mapM_cons, k1, e1]; rfl
        · rw [k2]; rfl
    obtain ⟨parts, e1, e2⟩ := hall vals fun v hv => (hmem v).1 hv
    refine ⟨parts, vals, ?_, u1, hmem, e2, ?_⟩
    · unfold explode
      rw [Frame.col_eq h]
      exact e1
    · have hsum : ∀ (ps : List (Obj K)) (vs : List K),
          List.Forall₂ (fun part v => part.df.rows
              = s.df.rows.filter (fun r => cell s.df.names mark r = v)
            ∧ part.df.names = s.df.names ∧ part.coordNames = s.coordNames ∧ part.df.rows ≠ []) ps vs →
          (ps.map len).sum = (vs.map fun v => s.df.rows.countP fun r => cell s.df.names mark r = v).sum := by
        intro ps vs hf
        induction hf with
        | nil => rfl
        | cons hd _ ih =>
          simp only [List.map_cons, List.sum_cons, ih]
          congr 1
          rw [len, hd.1, List.countP_eq_length_filter]
      rw [hsum parts vals e2]
      have hnd : vals.Nodup := u1.imp fun h => ne_of_lt h
      have hcover : ∀ r ∈ s.df.rows, cell s.df.names mark r ∈ vals := fun r hr => (hmem _).2 ⟨r, hr, rfl⟩
      have hcount : ∀ rows : List (List K), (∀ r ∈ rows, cell s.df.names mark r ∈ vals) →
          (vals.map fun v => rows.countP fun r => cell s.df.names mark r = v).sum = rows.length := by
        intro rows
        induction rows with
        | nil => intro _; simp
        | cons r rows ih =>
          intro hc
          have h1 := ih fun r hr => hc r (by simp [hr])
          have hone : (vals.map fun v => if cell s.df.names mark r = v then 1 else 0).sum = 1 := by
            exact sum_indicator hnd (hc r (by simp))
          have h2 : (vals.map fun v => (r :: rows).countP fun r => cell s.df.names mark r = v)
              = vals.map fun v => (rows.countP fun r => cell s.df.names mark r = v)
                  + (if cell s.df.names mark r = v then 1 else 0) := by
            apply List.map_congr_left
            intro v _
            rw [List.countP_cons]
            simp
          rw [h2, List.sum_map_add, h1, hone, List.length_cons]
      exact hcount s.df.rows hcover

/-! ### C10 -/

/-- **C10.** `flip_coordinates` exchanges the names of the x and y columns and nothing else: the data frame, the
marks, the window, all attributes and the number of points are the same before and after, `plot` draws the
mirrored locations, and a second call restores the pattern exactly. -/
theorem C10_flip_coordinates (ext : Ext K) (s : Obj K) (hs : Reachable ext s) :
    let s' := (flipCoordinates s).2
    s'.x = s.y ∧ s'.y = s.x
    ∧ (flipCoordinates s').2 = s
    ∧ s'.df = s.df ∧ s'.points = s.points ∧ s'.coordNames = s.coordNames ∧ s'.nMarks = s.nMarks
    ∧ (∀ a, (read ext a s').1 = (read ext a s).1)
    ∧ len s' = len s
    ∧ ∃ l, plotted s = .ok l ∧ plotted s' = .ok (l.map Prod.swap) := by
  intro s'
  refine ⟨rfl, rfl, rfl, rfl, rfl, rfl, rfl, ?_, rfl, ?_⟩
  · intro a
    obtain ⟨p, rows, w, names, cn, s0, ops, h1, h2, rfl⟩ := hs
    have hi := inv_run (ext := ext) ops (inv_construct h2).1
    have hi' : Inv ext (locations p rows names cn) s' := { hi with }
    cases ha : attrValue ext (locations p rows names cn) a with
    | some v => rw [(sound_read ha _ hi).1, (sound_read ha _ hi').1]
    | none =>
      cases a <;> simp only [attrValue, reduceCtorEq] at ha
      · have k1 := (lambdaWindow_spec hi).1
        have k2 := (lambdaWindow_spec hi').1
        have e : (lambdaWindow (run ext s0 ops)).1 = (lambdaWindow s').1 := by rw [k1, k2]; rfl
        simp only [PointPattern.read, mapM']
        rcases h1 : lambdaWindow s' with ⟨r, t⟩
        rcases h2 : lambdaWindow (run ext s0 ops) with ⟨r', t'⟩
        rw [h1, h2] at e
        simp only at e
        subst e
        cases r' <;> rfl
      · have k1 := (getWindow_spec hi).1
        have k2 := (getWindow_spec hi').1
        have e : (getWindow (run ext s0 ops)).1 = (getWindow s').1 := by rw [k1, k2]; rfl
        simp only [PointPattern.read, mapM']
        rcases h1 : getWindow s' with ⟨r, t⟩
        rcases h2 : getWindow (run ext s0 ops) with ⟨r', t'⟩
        rw [h1, h2] at e
        simp only at e
        subst e
        cases r' <;> rfl
  · obtain ⟨x, y, -, hx, hy, hor⟩ := (shape_reachable hs).coords
    have hsx : s.x ∈ s.df.names := by rcases hor with h | h <;> rw [h.1] <;> assumption
    have hsy : s.y ∈ s.df.names := by rcases hor with h | h <;> rw [h.2] <;> assumption
    refine ⟨(s.df.rows.map (cell s.df.names s.x)).zip (s.df.rows.map (cell s.df.names s.y)), ?_, ?_⟩
    · unfold plotted; rw [Frame.col_eq hsx, Frame.col_eq hsy]; rfl
    · have : plotted s' = .ok ((s.df.rows.map (cell s.df.names s.y)).zip
          (s.df.rows.map (cell s.df.names s.x))) := by
        unfold plotted
        show (s.df.col s.y >>= fun xs => s.df.col s.x >>= fun ys => pure (xs.zip ys)) = _
        rw [Frame.col_eq hsx, Frame.col_eq hsy]; rfl
      rw [this]
      simp [List.zip_map', Function.comp_def]

example : ∃ s, Reachable extQ s ∧ s.x = "y" ∧ plotted s = .ok [(0, 0), (0, 2), (2, 2), (2, 0)] := by
  refine ⟨_, ⟨2, sq, none, none, none, _, [.flip, .read .n], by decide +kernel, rfl, rfl⟩, ?_, ?_⟩ <;>
    decide +kernel

/-! ### C16 -/

/-- **C16, what holds.** For a pattern whose coordinate columns are its first two columns (this is so unless
the user passes other `coord_names`), and after any history of reads, window assignments and flips,
`(x, y) in pp` is true exactly if some location given to the constructor is `(x, y)`. Missing: patterns whose
coordinate columns come elsewhere, for which it is false (`C16_contains_refuted`). -/
theorem C16_contains_partial (ext : Ext K) (p : ℕ) (rows : List (List K)) (w : Option (Win K))
    (names coordNames : Option (List String)) (s0 : Obj K)
    (h0 : construct p rows w names coordNames = .ok s0)
    (hfirst : (resolveNames p names coordNames).coords = (resolveNames p names coordNames).cols.take 2)
    (ops : List (Op K)) (hops : ∀ op ∈ ops, ∀ m nms, op ≠ .addMarks m nms) (q : K × K) :
    ∃ b, contains (run ext s0 ops) q = .ok b
      ∧ (b = true ↔ q ∈ locations p rows names coordNames) := by
  have hdf : ∀ (l : List (Op K)) (s : Obj K), (∀ op ∈ l, ∀ m nms, op ≠ .addMarks m nms) →
      Inv ext (locations p rows names coordNames) s → (run ext s l).df = s.df := by
    intro l
    induction l with
    | nil => intro s _ _; rfl
    | cons op l ih =>
      intro s hl hi
      have h1 : (step ext s op).df = s.df := by
        cases op with
        | read a =>
          have := congrArg Obj.df (read_frame a hi).2.1
          exact this
        | setWindow w => rfl
        | addMarks m nms => exact absurd rfl (hl _ (by simp) m nms)
        | flip => rfl
      have h2 := ih (step ext s op) (fun o ho => hl o (by simp [ho])) (inv_step op hi)
      exact h2.trans h1
  have hd := hdf ops s0 hops (inv_construct h0).1
  obtain ⟨x, y, e1, e2, e3, e4, e5, -⟩ := construct_ok h0
  rw [e1] at hfirst
  obtain ⟨rest, hrest⟩ : ∃ rest, (resolveNames p names coordNames).cols = x :: y :: rest := by
    rcases hc : (resolveNames p names coordNames).cols with _ | ⟨a, _ | ⟨b, rest⟩⟩ <;>
      rw [hc] at hfirst <;> simp at hfirst
    exact ⟨rest, by rw [hfirst.1, hfirst.2]⟩
  refine ⟨(((rows.map (cell (x :: y :: rest) x)).zip (rows.map (cell (x :: y :: rest) y))).any
    fun q' => decide (q'.1 = q.1) && decide (q'.2 = q.2)), ?_, ?_⟩
  · unfold contains
    rw [hd, e5, hrest]
    simp only
    rw [Frame.col_eq (by simp), Frame.col_eq (by simp)]
    rfl
  · have hloc : locations p rows names coordNames
        = (rows.map (cell (x :: y :: rest) x)).zip (rows.map (cell (x :: y :: rest) y)) := by
      simp [locations, e1, hrest, List.zip_map']
    rw [hloc, List.any_eq_true]
    constructor
    · rintro ⟨q', hq', h⟩
      simp only [Bool.and_eq_true, decide_eq_true_eq] at h
      have : q' = q := Prod.ext h.1 h.2
      rwa [← this]
    · intro hq
      exact ⟨q, hq, by simp⟩

/-- **C16, refuted.** With the coordinates in the second and third column, a location of the pattern is
reported as absent and a pair that is no location as present. -/
theorem C16_contains_refuted :
    ∃ (s0 : Obj ℚ), construct 3 [[7, 1, 2], [8, 3, 4]] none (some ["id", "lon", "lat"])
        (some ["lon", "lat"]) = .ok s0
      ∧ s0.points = [(1, 2), (3, 4)]
      ∧ contains s0 (1, 2) = .ok false ∧ contains s0 (7, 1) = .ok true := by
  refine ⟨_, rfl, ?_⟩; decide +kernel

example : ∃ s0, construct 2 sq none none none = .ok s0 ∧ contains s0 (2, 0) = .ok true
    ∧ contains s0 (1, 0) = .ok false := by
  refine ⟨_, rfl, ?_⟩; decide +kernel

end Pointpats.Props
