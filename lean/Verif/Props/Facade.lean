import Verif.Model.Facade
import Verif.Props.PointPattern

/-!
# C169: what `summary`, `head` and `tail` show of a pattern
-/

set_option linter.unusedSectionVars false

namespace Pointpats.Props

open PointPattern Spec

variable {K : Type} [Field K] [LinearOrder K]

/-- **C169, the rows shown.** For every pattern and whatever was done to it: `head(k)` and `tail(n - k)` are the
table as it is now, cut between two rows, with all its columns; with a negative number, `head(-k)` leaves out
what `tail(k)` shows and `tail(-k)` what `head(k)` shows; numbers above `n` show everything. Neither changes
the pattern. -/
theorem C169_head_tail (s : Obj K) (k : ℕ) (hk : k ≤ len s) :
    ∃ top bottom : List (List K), top ++ bottom = s.df.rows ∧ top.length = k
      ∧ head k s = (.ok ⟨s.df.names, top⟩, s)
      ∧ tail (len s - k) s = (.ok ⟨s.df.names, bottom⟩, s)
      ∧ head (-((len s : ℤ) - k)) s = (.ok ⟨s.df.names, if k = len s then [] else top⟩, s)
      ∧ tail (-(k : ℤ)) s = (.ok ⟨s.df.names, if k = 0 then [] else bottom⟩, s)
      ∧ ∀ j : ℕ, len s ≤ j → head j s = (.ok s.df, s) ∧ tail j s = (.ok s.df, s) := by
  unfold len at *
  refine ⟨s.df.rows.take k, s.df.rows.drop k, List.take_append_drop _ _, by simp [hk], ?_, ?_, ?_, ?_, ?_⟩
  · simp [head, Frame.head]
  · simp only [tail, Frame.tail]
    rw [if_pos (by omega)]
    have : s.df.rows.length - ((s.df.rows.length : ℤ) - k).toNat = k := by omega
    rw [this]
  · simp only [head, Frame.head]
    by_cases h : k = s.df.rows.length
    · subst h; simp
    · rw [if_neg (by omega), if_neg h]
      have : s.df.rows.length - (- -((s.df.rows.length : ℤ) - k)).toNat = k := by omega
      rw [this]
  · simp only [tail, Frame.tail]
    by_cases h : k = 0
    · subst h; simp
    · rw [if_neg (by omega), if_neg h]
      simp
  · intro j hj
    constructor
    · simp [head, Frame.head, List.take_of_length_le hj]
    · simp [tail, Frame.tail, Nat.sub_eq_zero_of_le hj]

/-- **C169, marks added later are shown.** After any history, adding a mark under a name of one's choice with
one value for each event succeeds, and `head` then shows its first values and `tail` its last ones. -/
theorem C169_head_marks (ext : Ext K) (p : ℕ) (rows : List (List K)) (hrows : ∀ r ∈ rows, r.length = p)
    (w : Option (Win K)) (names coordNames : Option (List String)) (s0 : Obj K)
    (h0 : construct p rows w names coordNames = .ok s0) (ops : List (Op K)) (name : String) (values : List K)
    (hv : values.length = rows.length) (k : ℕ) :
    ∃ t top bottom, addMarks [values] (some [name]) (run ext s0 ops) = (.ok (), t)
      ∧ head k t = (.ok top, t) ∧ top.col name = .ok (values.take k)
      ∧ tail k t = (.ok bottom, t) ∧ bottom.col name = .ok (values.drop (values.length - k)) := by
  have hi0 := (inv_construct (ext := ext) h0).1
  have hs := shape_run ops hi0 (shape_construct hrows h0)
  have hl : ∀ (l : List (Op K)) (s : Obj K), Inv ext (locations p rows names coordNames) s → Shape s →
      (run ext s l).df.rows.length = s.df.rows.length := by
    intro l
    induction l with
    | nil => intro s _ _; rfl
    | cons op l ih =>
      intro s hi hs
      show (run ext (step ext s op) l).df.rows.length = _
      rw [ih _ (inv_step op hi) (shape_step op hi hs)]
      cases op with
      | read a =>
        have := congrArg (fun t : Obj K => t.df.rows.length) (read_frame a hi).2.1
        exact this
      | setWindow w => rfl
      | flip => rfl
      | addMarks m nms =>
        have : ∀ (ns : List String) (m : List (List K)) (s : Obj K), Shape s →
            (addMarksLoop ns m s).2.df.rows.length = s.df.rows.length := by
          intro ns
          induction ns with
          | nil => intro m s _; cases m <;> rfl
          | cons a ns ih =>
            intro m s hs
            cases m with
            | nil => rfl
            | cons c m =>
              rw [addMarksLoop_cons]
              cases h : s.df.setCol a c with
              | error e => rfl
              | ok df' =>
                exact (ih m _ (shape_setCol hs h _)).trans (Frame.setCol_spec hs.rect h).2.2.1
        exact this _ _ _ hs
  have hlen : (run ext s0 ops).df.rows.length = rows.length := by
    rw [hl ops s0 hi0 (shape_construct hrows h0)]
    obtain ⟨x, y, -, -, -, -, h5, -⟩ := construct_ok h0
    rw [h5]
  generalize run ext s0 ops = s at hs hlen ⊢
  cases h : s.df.setCol name values with
  | error e =>
    simp only [Frame.setCol, hv, hlen, ne_eq, not_true_eq_false, if_false] at h
    split at h <;> simp at h
  | ok df' =>
    obtain ⟨-, -, e3, -, e5, -⟩ := Frame.setCol_spec hs.rect h
    refine ⟨{ s with df := df', nMarks := s.nMarks + 1 }, _, _, ?_, rfl, ?_, rfl, ?_⟩
    · simp only [addMarks, Option.getD_some, addMarksLoop_cons, h]; rfl
    · simp only [Frame.head, Frame.col, Int.natCast_nonneg, if_true, Int.toNat_natCast] at e5 ⊢
      split at e5
      · rename_i hm
        rw [if_pos hm, List.map_take]
        simp only [Except.ok.injEq] at e5 ⊢
        rw [e5]
      · simp at e5
    · simp only [Frame.tail, Frame.col, Int.natCast_nonneg, if_true, Int.toNat_natCast] at e5 ⊢
      split at e5
      · rename_i hm
        rw [if_pos hm, List.map_drop]
        simp only [Except.ok.injEq] at e5 ⊢
        rw [e5, e3, hlen, hv]
      · simp at e5

/-- What the lines of `summary` are, in terms of the attributes. -/
private theorem summary_lines {ext : Ext K} {pts : List (K × K)} {s : Obj K} (hi : Inv ext pts s) {b : BBox K}
    (hb : Geometry.bboxPts pts = .ok b) {current : Poly K}
    (hw : (read ext .window s).1 = .ok (.win (.window current))) {v : XF K}
    (hv : (read ext .lambdaWindow (run ext s [.read .n, .read .mbb, .read .window])).1 = .ok (.xnum v)) :
    summary s = ([.title, .points pts.length, .rectangle b, .area (Window.area current), .intensity v,
        .table (s.df.head 5)], .ok (),
      (read ext .lambdaWindow (run ext s [.read .n, .read .mbb, .read .window])).2) := by
  obtain ⟨n1, n2, n3, n4⟩ := sound_n (ext := ext) (pts := pts) s hi
  simp only [run, List.foldl_cons, List.foldl_nil, step, PointPattern.read, mapM'_state] at hv ⊢
  have hw1 : effectiveWindow pts s.window = .ok (.window current) := by
    have g := (getWindow_spec hi).1
    simp only [PointPattern.read, mapM'] at hw
    rcases hg : getWindow s with ⟨r, s'⟩
    rw [hg] at hw g
    simp only at g
    subst g
    cases he : effectiveWindow pts s.window with
    | error e => rw [he] at hw; simp at hw
    | ok u => rw [he] at hw; simp only [Except.ok.injEq, Val.win.injEq] at hw; rw [hw]
  rcases hn : n s with ⟨r1, s1⟩
  rw [hn] at n1 n2 n3 n4 hv
  simp only at n1 n2 n3 n4 hv
  subst n1
  obtain ⟨m1, m2, m3, m4⟩ := sound_mbb (ext := ext) (pts := pts) s1 n2
  rcases hm : mbb s1 with ⟨r2, s2⟩
  rw [hm] at m1 m2 m3 m4 hv
  simp only at m1 m2 m3 m4 hv
  rw [boxOf_eq, hb] at m1
  subst m1
  obtain ⟨w1, w2, w3, w4, w5⟩ := getWindow_spec (ext := ext) (pts := pts) m2
  have hwin : s2.window = s.window := by
    have a := congrArg Obj.window m3
    have b := congrArg Obj.window n3
    exact a.trans b
  rw [hwin, hw1] at w1
  rcases hg : getWindow s2 with ⟨r3, s3⟩
  rw [hg] at w1 w2 w3 w4 w5 hv
  simp only at w1 w2 w3 w4 w5 hv
  subst w1
  obtain ⟨-, -, l3, -, -⟩ := lambdaWindow_spec (ext := ext) (pts := pts) w2
  rcases hl : lambdaWindow s3 with ⟨r4, s4⟩
  rw [hl] at l3
  simp only at l3
  simp only [mapM', hl] at hv ⊢
  cases r4 with
  | error e => simp at hv
  | ok u =>
    simp only [Except.ok.injEq, Val.xnum.injEq] at hv
    subst hv
    have hdf : s4.df = s.df := by
      have a := congrArg Obj.df l3
      have b := congrArg Obj.df w3
      have c := congrArg Obj.df m3
      have d := congrArg Obj.df n3
      exact a.trans (b.trans (c.trans d))
    have ha : windowArea s2 = (.ok (Window.area current), s3) := by
      unfold windowArea
      rw [bind_ok hg]; rfl
    have ht : (pure Line.title : M K (Line K)) s = (.ok .title, s) := rfl
    simp only [summary, printAll, ht, mapM', hn, hm, ha, hl, head, hdf]

/-- **C169, what holds of the summary.** If `lambda_window` was not read before the last assignment of the
window — `summary` itself reads it — then `summary` prints, in this order, the title, the number of
events, their smallest box, the area of the present window, the number of events divided by that area, and the
first five rows of the table as it is now; it does not raise. What is missing (and false, see
`C169_summary_refuted`): the intensity line after an earlier read. -/
theorem C169_summary_partial (ext : Ext K) (p : ℕ) (rows : List (List K)) (hne : rows ≠ [])
    (w : Option (Win K)) (names coordNames : Option (List String)) (s0 : Obj K)
    (h0 : construct p rows w names coordNames = .ok s0) (pre post : List (Op K))
    (hpre : ∀ op ∈ pre, op ≠ .read .lambdaWindow) (hpost : ∀ op ∈ post, ∀ w, op ≠ .setWindow w)
    (current : Poly K)
    (hwin : (read ext .window (run ext s0 (pre ++ post))).1 = .ok (.win (.window current))) :
    ∃ b, IsSmallestBox (locations p rows names coordNames) b
      ∧ (summary (run ext s0 (pre ++ post))).1
          = [.title, .points rows.length, .rectangle b, .area (Window.area current),
             .intensity (XF.div (.fin (rows.length : K)) (.fin (Window.area current))),
             .table ⟨(run ext s0 (pre ++ post)).df.names, (run ext s0 (pre ++ post)).df.rows.take 5⟩]
      ∧ (summary (run ext s0 (pre ++ post))).2.1 = .ok () := by
  have hi := inv_run (ext := ext) (pre ++ post) (inv_construct (ext := ext) h0).1
  have hlen : (locations p rows names coordNames).length = rows.length := by simp [locations]
  have hne' : locations p rows names coordNames ≠ [] := by
    intro h; rw [h] at hlen; exact hne (List.length_eq_zero_iff.1 hlen.symm)
  obtain ⟨b, hb, hsm, -⟩ := (C19_bbox_smallest (locations p rows names coordNames)).2 hne'
  have hrun : run ext s0 (pre ++ (post ++ [.read .n, .read .mbb, .read .window]))
      = run ext (run ext s0 (pre ++ post)) [.read .n, .read .mbb, .read .window] := by
    simp [run, List.foldl_append]
  have hwin' : (read ext .window (run ext s0 (pre ++ (post ++ [.read .n, .read .mbb, .read .window])))).1
      = .ok (.win (.window current)) := by
    rw [hrun]
    have key : ∀ (l : List Attr) (s : Obj K), Inv ext (locations p rows names coordNames) s →
        Inv ext (locations p rows names coordNames) (run ext s (l.map Op.read))
        ∧ effectiveWindow (locations p rows names coordNames) (run ext s (l.map Op.read)).window
          = effectiveWindow (locations p rows names coordNames) s.window := by
      intro l
      induction l with
      | nil => intro s hs; exact ⟨hs, rfl⟩
      | cons a l ih =>
        intro s hs
        obtain ⟨r1, -, r3⟩ := read_frame a hs
        obtain ⟨i1, i2⟩ := ih _ r1
        exact ⟨i1, i2.trans r3⟩
    obtain ⟨k1, k2⟩ := key [.n, .mbb, .window] _ hi
    have g : ∀ s : Obj K, Inv ext (locations p rows names coordNames) s →
        (read ext .window s).1
          = (effectiveWindow (locations p rows names coordNames) s.window).map Val.win := by
      intro s hs
      have := (getWindow_spec hs).1
      simp only [PointPattern.read, mapM']
      rcases hg : getWindow s with ⟨r, s'⟩
      rw [hg] at this
      simp only at this
      rw [← this]
      cases r <;> rfl
    rw [g _ hi] at hwin
    rw [← hwin]
    have := g _ k1
    rw [k2] at this
    exact this
  have hlw := C02_lambda_window_partial ext p rows w names coordNames s0 h0 pre
    (post ++ [.read .n, .read .mbb, .read .window]) hpre
    (by
      intro op hop
      rw [List.mem_append] at hop
      rcases hop with hop | hop
      · exact hpost op hop
      · intro w
        simp only [List.mem_cons, List.not_mem_nil, or_false] at hop
        rcases hop with rfl | rfl | rfl <;> simp) current hwin'
  rw [hrun] at hlw
  have := summary_lines hi hb hwin hlw
  rw [this, hlen]
  exact ⟨b, hsm, rfl, rfl⟩

private def sqF : List (List ℚ) := [[0, 0], [2, 0], [2, 2], [0, 2]]

private def extF : Ext ℚ := { hull := fun l => .ok l, nnd := fun l => .ok (l.map fun _ => 2) }

/-- The hypotheses are met, and the lines are those of the theorem: four events in a window of area 16. -/
example : ∃ s0, construct 2 sqF none none none = .ok s0
    ∧ (summary (run extF s0 [.setWindow (some (.window (Window.polyFromBBox ⟨0, 0, 4, 4⟩))), .read .hull,
          .addMarks [[5, 6, 7, 8]] none])).1
      = [.title, .points 4, .rectangle ⟨0, 0, 2, 2⟩, .area 16, .intensity (.fin (1 / 4)),
          .table ⟨["x", "y", "mark_1"], [[0, 0, 5], [2, 0, 6], [2, 2, 7], [0, 2, 8]]⟩] := by
  refine ⟨_, rfl, ?_⟩; decide +kernel

/-- **C169, refuted.** A first `summary` fixes the intensity. For every pattern with events, printed once with
a window of area `a` (not zero), then given a window of another area `a'`, the second `summary`
prints the area `a'` and beside it the intensity `n / a`, so that the two printed numbers do not multiply to
the number of events. -/
theorem C169_summary_refuted [CharZero K] (p : ℕ) (rows : List (List K)) (hne : rows ≠ [])
    (w : Option (Win K)) (names coordNames : Option (List String)) (s0 : Obj K)
    (h0 : construct p rows w names coordNames = .ok s0) (first second : Poly K)
    (h1 : Window.area first ≠ 0) (h12 : Window.area first ≠ Window.area second) :
    ∃ (b : BBox K) (t : Frame K) (x : K),
      (summary (setWindow (some (.window second))
          (summary (setWindow (some (.window first)) s0).2).2.2).2).1
        = [.title, .points rows.length, .rectangle b, .area (Window.area second), .intensity (.fin x), .table t]
      ∧ x * Window.area first = rows.length ∧ x * Window.area second ≠ rows.length := by
  let ext : Ext K := { hull := fun l => .ok l, nnd := fun _ => .ok [] }
  have hlen : (locations p rows names coordNames).length = rows.length := by simp [locations]
  have hne' : locations p rows names coordNames ≠ [] := by
    intro h; rw [h] at hlen; exact hne (List.length_eq_zero_iff.1 hlen.symm)
  obtain ⟨b, hb, -, -⟩ := (C19_bbox_smallest (locations p rows names coordNames)).2 hne'
  let reads : List (Op K) := [.read .n, .read .mbb, .read .window]
  let ops1 : List (Op K) := [.setWindow (some (.window first))]
  have hi1 := inv_run (ext := ext) ops1 (inv_construct (ext := ext) h0).1
  have e1 : (setWindow (some (.window first)) s0).2 = run ext s0 ops1 := rfl
  have hw1 : (read ext .window (run ext s0 ops1)).1 = .ok (.win (.window first)) := rfl
  have keep : ∀ (u : Win K) (s : Obj K), Inv ext (locations p rows names coordNames) s → s.window = some u →
      (read ext .window (run ext s reads)).1 = .ok (.win u) := by
    intro u s hs hu
    obtain ⟨r1, -, r3⟩ := read_frame (ext := ext) .n hs
    obtain ⟨q1, -, q3⟩ := read_frame (ext := ext) .mbb r1
    obtain ⟨k1, -, k3⟩ := read_frame (ext := ext) .window q1
    have g := (getWindow_spec k1).1
    rw [k3, q3, r3, hu] at g
    show (read ext .window (read ext .window (read ext .mbb (read ext .n s).2).2).2).1 = _
    generalize (read ext .window (read ext .mbb (read ext .n s).2).2).2 = z at g ⊢
    simp only [PointPattern.read, mapM']
    rcases hg : getWindow z with ⟨r, z'⟩
    rw [hg] at g
    simp only [effectiveWindow] at g
    subst g
    rfl
  have happ : ∀ l l' : List (Op K), run ext (run ext s0 l) l' = run ext s0 (l ++ l') := by
    intro l l'; simp [run, List.foldl_append]
  have hlw1 : (read ext .lambdaWindow (run ext s0 (ops1 ++ reads))).1
      = .ok (.xnum (.fin ((rows.length : K) / Window.area first))) := by
    have := C02_lambda_window_partial ext p rows w names coordNames s0 h0 ops1 reads (by simp [ops1])
      (by
        intro op hop w
        simp only [reads, List.mem_cons, List.not_mem_nil, or_false] at hop
        rcases hop with rfl | rfl | rfl <;> simp) first
      (by rw [← happ]; exact keep _ _ hi1 rfl)
    rw [this]
    simp [XF.div, h1]
  have s1 := summary_lines (ext := ext) hi1 hb hw1 (by rw [happ]; exact hlw1)
  have e2 : (summary (setWindow (some (.window first)) s0).2).2.2
      = run ext s0 (ops1 ++ reads ++ [.read .lambdaWindow]) := by
    rw [e1, s1, happ, ← happ (ops1 ++ reads)]; rfl
  let ops2 : List (Op K) := [.setWindow (some (.window second))]
  have e3 : (setWindow (some (.window second)) (summary (setWindow (some (.window first)) s0).2).2.2).2
      = run ext s0 (ops1 ++ reads ++ .read .lambdaWindow :: ops2) := by
    rw [e2, show ops1 ++ reads ++ Op.read .lambdaWindow :: ops2
      = ops1 ++ reads ++ [.read .lambdaWindow] ++ ops2 by simp, ← happ]; rfl
  have hi2 := inv_run (ext := ext) (ops1 ++ reads ++ .read .lambdaWindow :: ops2) (inv_construct (ext := ext) h0).1
  have hfz := C02_lambda_window_frozen ext p rows w names coordNames s0 h0 (ops1 ++ reads) (ops2 ++ reads) _ hlw1
  have hw2 : (read ext .window (run ext s0 (ops1 ++ reads ++ .read .lambdaWindow :: ops2))).1
      = .ok (.win (.window second)) := by
    rw [← e3]; rfl
  have s2 := summary_lines (ext := ext) hi2 hb hw2 (v := .fin ((rows.length : K) / Window.area first))
    (by rw [happ, show ops1 ++ reads ++ Op.read .lambdaWindow :: ops2
          ++ [.read .n, .read .mbb, .read .window]
          = ops1 ++ reads ++ Op.read .lambdaWindow :: (ops2 ++ reads) by simp [reads]]
        exact hfz)
  rw [e3, s2, hlen]
  refine ⟨b, _, _, rfl, by field_simp, ?_⟩
  intro h
  rw [div_mul_eq_mul_div, div_eq_iff h1] at h
  have hn : (rows.length : K) ≠ 0 := Nat.cast_ne_zero.2 fun h => hne (List.length_eq_zero_iff.1 h)
  exact h12 (mul_left_cancel₀ hn h).symm

/-- The hypotheses are met: four events, first in a window of area 4, then in one of area 16. -/
example : ∃ s0, construct 2 sqF none none none = .ok s0
    ∧ Window.area (Window.polyFromBBox (⟨0, 0, 2, 2⟩ : BBox ℚ)) = 4
    ∧ Window.area (Window.polyFromBBox (⟨0, 0, 4, 4⟩ : BBox ℚ)) = 16 := by
  refine ⟨_, rfl, ?_, ?_⟩ <;> decide +kernel

end Pointpats.Props
