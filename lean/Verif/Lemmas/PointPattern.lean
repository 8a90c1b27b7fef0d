import Verif.Spec.PointPattern
import Verif.Lemmas.MinMax
import Mathlib.Tactic.Ring

/-!
# Lemmas on the state of a point pattern
-/

namespace Pointpats.PointPattern

open Spec

variable {K : Type} [Field K] [LinearOrder K]

/-! ### The specification formulas agree with the code's formulas -/

omit [Field K] in
theorem min?_eq (a : K) (l : List K) : (a :: l).min? = some (listMin a l) := rfl

omit [Field K] in
theorem max?_eq (a : K) (l : List K) : (a :: l).max? = some (listMax a l) := rfl

omit [Field K] in
theorem boxOf_eq (pts : List (K × K)) : boxOf pts = Geometry.bboxPts pts := by
  cases pts with
  | nil => rfl
  | cons p ps => rfl

omit [Field K] in
theorem minOf_eq (l : List K) : minOf l = vecMin l := by
  cases l with
  | nil => rfl
  | cons a l => rfl

omit [Field K] in
theorem maxOf_eq (l : List K) : maxOf l = vecMax l := by
  cases l with
  | nil => rfl
  | cons a l => rfl

omit [LinearOrder K] in
theorem meanOf_eq (l : List K) : meanOf l = vecMean l := by
  cases l with
  | nil => simp [meanOf, vecMean]
  | cons a l => simp [meanOf, vecMean]

omit [LinearOrder K] in
private theorem zipWith_snoc_sum (g : K × K → K × K → K) (l : List (K × K)) (q : K × K) (h : l ≠ []) :
    (List.zipWith g l (l.tail ++ [q])).sum
      = (List.zipWith g l.dropLast l.tail).sum + g (l.getLast h) q := by
  induction l with
  | nil => exact absurd rfl h
  | cons a l ih =>
    cases l with
    | nil => simp
    | cons b l =>
      have := ih (by simp)
      simp only [List.tail_cons, List.cons_append, List.zipWith_cons_cons, List.sum_cons,
        List.dropLast_cons_cons] at *
      rw [this, List.getLast_cons (List.cons_ne_nil b l)]
      ring

theorem areaOfHull_eq (v : List (K × K)) : areaOfHull v = ringArea v := by
  cases v with
  | nil => rfl
  | cons p ps =>
    simp only [areaOfHull, ringArea, List.cons_ne_nil, if_false, shoelace, List.rotate_cons_succ,
      List.rotate_zero]
    congr 2
    by_cases h : (p :: ps).getLast (by simp) = p
    · rw [if_pos h]
      have := zipWith_snoc_sum (fun p q : K × K => p.1 * q.2 - q.1 * p.2) (p :: ps) p (by simp)
      simp only [List.tail_cons] at this
      rw [this, h, crossTerms]
      simp only [List.tail_cons]; ring
    · rw [if_neg h]
      simp only [crossTerms, List.cons_append]
      rw [← List.cons_append, List.dropLast_concat]
      simp

/-! ### Invariant of the cache -/

/-- Everything stored in the cache (except `lambda_window`) is the value of the defining formula. -/
structure Inv (ext : Ext K) (pts : List (K × K)) (s : Obj K) : Prop where
  points : s.points = pts
  mbb : ∀ v, s.cache.mbb = some v → boxOf pts = .ok v
  mbbArea : ∀ v, s.cache.mbbArea = some v →
    (boxOf pts).map (fun b => (b.xmax - b.xmin) * (b.ymax - b.ymin)) = .ok v
  n : ∀ v, s.cache.n = some v → pts.length = v
  rot : ∀ v, s.cache.rot = some v →
    (boxOf pts).map (fun b => 1 / 4 * min (b.xmax - b.xmin) (b.ymax - b.ymin)) = .ok v
  lambdaMbb : ∀ v, s.cache.lambdaMbb = some v →
    (boxOf pts).map (fun b => XF.div (.fin (pts.length : K))
      (.fin ((b.xmax - b.xmin) * (b.ymax - b.ymin)))) = .ok v
  hull : ∀ v, s.cache.hull = some v → ext.hull pts = .ok v
  hullArea : ∀ v, s.cache.hullArea = some v → (ext.hull pts >>= areaOfHull) = .ok v
  lambdaHull : ∀ v, s.cache.lambdaHull = some v →
    (ext.hull pts >>= areaOfHull).map (fun a => XF.div (.fin (pts.length : K)) (.fin a)) = .ok v
  nnd : ∀ v, s.cache.nnd = some v → ext.nnd pts = .ok v
  minNnd : ∀ v, s.cache.minNnd = some v → (ext.nnd pts >>= minOf) = .ok v
  maxNnd : ∀ v, s.cache.maxNnd = some v → (ext.nnd pts >>= maxOf) = .ok v
  meanNnd : ∀ v, s.cache.meanNnd = some v → (ext.nnd pts >>= meanOf) = .ok v

/-- Whatever state satisfies the invariant, the method returns `spec` and keeps the invariant, the
data frame, the names, the window and the stored `lambda_window`. -/
def Sound (ext : Ext K) (pts : List (K × K)) {α : Type} (m : M K α) (spec : Py α) : Prop :=
  ∀ s, Inv ext pts s → (m s).1 = spec ∧ Inv ext pts (m s).2
    ∧ { (m s).2 with cache := s.cache } = s
    ∧ (m s).2.cache.lambdaWindow = s.cache.lambdaWindow

variable {ext : Ext K} {pts : List (K × K)}

theorem Sound.cached {α : Type} {get : Cache K → Option α} {put : α → Cache K → Cache K} {f : M K α}
    {spec : Py α} (hf : Sound ext pts f spec)
    (hget : ∀ s, Inv ext pts s → ∀ v, get s.cache = some v → spec = .ok v)
    (hput : ∀ s, Inv ext pts s → ∀ v, spec = .ok v → Inv ext pts { s with cache := put v s.cache })
    (hlw : ∀ v c, (put v c).lambdaWindow = c.lambdaWindow) :
    Sound ext pts (cached get put f) spec := by
  intro s hs
  unfold PointPattern.cached
  cases hc : get s.cache with
  | some v => exact ⟨(hget s hs v hc).symm, hs, rfl, rfl⟩
  | none =>
    obtain ⟨h1, h2, h3, h4⟩ := hf s hs
    rcases hfs : f s with ⟨r, s'⟩
    rw [hfs] at h1 h2 h3 h4
    cases r with
    | ok v =>
      simp only at *
      exact ⟨h1, hput s' h2 v h1.symm, h3, by rw [hlw]; exact h4⟩
    | error e => exact ⟨h1, h2, h3, h4⟩

theorem Sound.bind {α β : Type} {m : M K α} {f : α → M K β} {spec : Py α} {g : α → Py β}
    (hm : Sound ext pts m spec) (hf : ∀ a, spec = .ok a → Sound ext pts (f a) (g a)) :
    Sound ext pts (m >>= f) (spec >>= g) := by
  intro s hs
  obtain ⟨h1, h2, h3, h4⟩ := hm s hs
  show ((match m s with
    | (.ok a, s') => f a s'
    | (.error e, s') => (.error e, s')) : Py β × Obj K).1 = _ ∧ Inv ext pts ((match m s with
    | (.ok a, s') => f a s'
    | (.error e, s') => (.error e, s')) : Py β × Obj K).2 ∧ { ((match m s with
    | (.ok a, s') => f a s'
    | (.error e, s') => (.error e, s')) : Py β × Obj K).2 with cache := s.cache } = s ∧ ((match m s with
    | (.ok a, s') => f a s'
    | (.error e, s') => (.error e, s')) : Py β × Obj K).2.cache.lambdaWindow = s.cache.lambdaWindow
  rcases hms : m s with ⟨r, s'⟩
  rw [hms] at h1 h2 h3 h4
  cases r with
  | ok a =>
    simp only at *
    obtain ⟨k1, k2, k3, k4⟩ := hf a h1.symm s' h2
    refine ⟨by rw [k1, ← h1]; rfl, k2, ?_, k4.trans h4⟩
    rw [← h3]
    have := congrArg (fun t : Obj K => { t with cache := s.cache }) k3
    exact this
  | error e =>
    simp only at *
    exact ⟨by rw [← h1]; rfl, h2, h3, h4⟩

theorem Sound.pure {α : Type} (a : α) : Sound ext pts (Pure.pure a : M K α) (.ok a) :=
  fun _ hs => ⟨rfl, hs, rfl, rfl⟩

theorem Sound.lift {α : Type} (v : Py α) : Sound ext pts (lift v : M K α) v :=
  fun _ hs => ⟨rfl, hs, rfl, rfl⟩

theorem Sound.mapM' {α β : Type} {m : M K α} {spec : Py α} (g : α → β) (hm : Sound ext pts m spec) :
    Sound ext pts (mapM' g m) (spec.map g) := by
  intro s hs
  obtain ⟨h1, h2, h3, h4⟩ := hm s hs
  unfold PointPattern.mapM'
  rcases hms : m s with ⟨r, s'⟩
  rw [hms] at h1 h2 h3 h4
  cases r with
  | ok a => simp only at *; exact ⟨by rw [← h1]; rfl, h2, h3, h4⟩
  | error e => simp only at *; exact ⟨by rw [← h1]; rfl, h2, h3, h4⟩

omit [Field K] [LinearOrder K] in
theorem except_bind_ok {α β : Type} (v : Py α) (f : α → β) :
    (v >>= fun a => (Except.ok (f a) : Py β)) = v.map f := by
  cases v <;> rfl

omit [Field K] [LinearOrder K] in
theorem except_map_map {α β γ : Type} (v : Py α) (f : α → β) (g : β → γ) :
    (v.map f).map g = v.map fun a => g (f a) := by
  cases v <;> rfl

theorem sound_mbb : Sound ext pts mbb (boxOf pts) := by
  apply Sound.cached
  · intro s hs; exact ⟨by simp only; rw [hs.points, boxOf_eq], hs, rfl, rfl⟩
  · intro s hs v hv; exact hs.mbb v hv
  · intro s hs v hv
    exact { hs with mbb := fun w hw => by simp only [Option.some.injEq] at hw; rw [← hw]; exact hv }
  · intros; rfl

theorem sound_mbbArea : Sound ext pts mbbArea
    ((boxOf pts).map fun b => (b.xmax - b.xmin) * (b.ymax - b.ymin)) := by
  apply Sound.cached
  · rw [← except_bind_ok]
    exact sound_mbb.bind fun b _ => Sound.pure _
  · intro s hs v hv; exact hs.mbbArea v hv
  · intro s hs v hv
    exact { hs with mbbArea := fun w hw => by simp only [Option.some.injEq] at hw; rw [← hw]; exact hv }
  · intros; rfl

theorem sound_n : Sound ext pts n (.ok pts.length) := by
  apply Sound.cached
  · intro s hs; exact ⟨by simp only; rw [hs.points], hs, rfl, rfl⟩
  · intro s hs v hv; rw [hs.n v hv]
  · intro s hs v hv
    have hn : pts.length = v := by injection hv
    exact { hs with n := fun w hw => by simp only [Option.some.injEq] at hw; rw [← hw]; exact hn }
  · intros; rfl

theorem sound_rot : Sound ext pts rot
    ((boxOf pts).map fun b => 1 / 4 * min (b.xmax - b.xmin) (b.ymax - b.ymin)) := by
  apply Sound.cached
  · rw [← except_bind_ok]
    exact sound_mbb.bind fun b _ => Sound.pure _
  · intro s hs v hv; exact hs.rot v hv
  · intro s hs v hv
    exact { hs with rot := fun w hw => by simp only [Option.some.injEq] at hw; rw [← hw]; exact hv }
  · intros; rfl

theorem sound_lambdaMbb : Sound ext pts lambdaMbb
    ((boxOf pts).map fun b => XF.div (.fin (pts.length : K))
      (.fin ((b.xmax - b.xmin) * (b.ymax - b.ymin)))) := by
  apply Sound.cached
  · have h : Sound ext pts (n >>= fun k => mbbArea >>= fun a =>
        (Pure.pure (XF.div (.fin (k : K)) (.fin a)) : M K (XF K))) _ :=
      Sound.bind sound_n fun k _ => Sound.bind sound_mbbArea fun a _ => Sound.pure _
    have e : ∀ v : Py K, (v >>= fun a => (Except.ok (XF.div (.fin (pts.length : K)) (.fin a)) : Py (XF K)))
        = v.map fun a => XF.div (.fin (pts.length : K)) (.fin a) := fun v => except_bind_ok v _
    refine fun s hs => ?_
    obtain ⟨k1, k2⟩ := h s hs
    refine ⟨?_, k2⟩
    rw [k1]
    refine (e _).trans ?_
    rw [except_map_map]
  · intro s hs v hv; exact hs.lambdaMbb v hv
  · intro s hs v hv
    exact { hs with lambdaMbb := fun w hw => by simp only [Option.some.injEq] at hw; rw [← hw]; exact hv }
  · intros; rfl

theorem sound_hull : Sound ext pts (hull ext) (ext.hull pts) := by
  apply Sound.cached
  · intro s hs; exact ⟨by simp only; rw [hs.points], hs, rfl, rfl⟩
  · intro s hs v hv; exact hs.hull v hv
  · intro s hs v hv
    exact { hs with hull := fun w hw => by simp only [Option.some.injEq] at hw; rw [← hw]; exact hv }
  · intros; rfl

theorem sound_hullArea : Sound ext pts (hullArea ext) (ext.hull pts >>= areaOfHull) := by
  apply Sound.cached
  · exact sound_hull.bind fun h _ => by rw [areaOfHull_eq]; exact Sound.lift _
  · intro s hs v hv; exact hs.hullArea v hv
  · intro s hs v hv
    exact { hs with hullArea := fun w hw => by simp only [Option.some.injEq] at hw; rw [← hw]; exact hv }
  · intros; rfl

theorem sound_lambdaHull : Sound ext pts (lambdaHull ext)
    ((ext.hull pts >>= areaOfHull).map fun a => XF.div (.fin (pts.length : K)) (.fin a)) := by
  apply Sound.cached
  · have h : Sound ext pts (n >>= fun k => hullArea ext >>= fun a =>
        (Pure.pure (XF.div (.fin (k : K)) (.fin a)) : M K (XF K))) _ :=
      Sound.bind sound_n fun k _ => Sound.bind sound_hullArea fun a _ => Sound.pure _
    have e : ∀ v : Py K, (v >>= fun a => (Except.ok (XF.div (.fin (pts.length : K)) (.fin a)) : Py (XF K)))
        = v.map fun a => XF.div (.fin (pts.length : K)) (.fin a) := fun v => except_bind_ok v _
    refine fun s hs => ?_
    obtain ⟨k1, k2⟩ := h s hs
    refine ⟨?_, k2⟩
    rw [k1]
    exact e _
  · intro s hs v hv; exact hs.lambdaHull v hv
  · intro s hs v hv
    exact { hs with lambdaHull := fun w hw => by simp only [Option.some.injEq] at hw; rw [← hw]; exact hv }
  · intros; rfl

theorem sound_nnd : Sound ext pts (nnd ext) (ext.nnd pts) := by
  apply Sound.cached
  · intro s hs; exact ⟨by simp only; rw [hs.points], hs, rfl, rfl⟩
  · intro s hs v hv; exact hs.nnd v hv
  · intro s hs v hv
    exact { hs with nnd := fun w hw => by simp only [Option.some.injEq] at hw; rw [← hw]; exact hv }
  · intros; rfl

theorem sound_minNnd : Sound ext pts (minNnd ext) (ext.nnd pts >>= minOf) := by
  apply Sound.cached
  · exact sound_nnd.bind fun h _ => by rw [minOf_eq]; exact Sound.lift _
  · intro s hs v hv; exact hs.minNnd v hv
  · intro s hs v hv
    exact { hs with minNnd := fun w hw => by simp only [Option.some.injEq] at hw; rw [← hw]; exact hv }
  · intros; rfl

theorem sound_maxNnd : Sound ext pts (maxNnd ext) (ext.nnd pts >>= maxOf) := by
  apply Sound.cached
  · exact sound_nnd.bind fun h _ => by rw [maxOf_eq]; exact Sound.lift _
  · intro s hs v hv; exact hs.maxNnd v hv
  · intro s hs v hv
    exact { hs with maxNnd := fun w hw => by simp only [Option.some.injEq] at hw; rw [← hw]; exact hv }
  · intros; rfl

theorem sound_meanNnd : Sound ext pts (meanNnd ext) (ext.nnd pts >>= meanOf) := by
  apply Sound.cached
  · exact sound_nnd.bind fun h _ => by rw [meanOf_eq]; exact Sound.lift _
  · intro s hs v hv; exact hs.meanNnd v hv
  · intro s hs v hv
    exact { hs with meanNnd := fun w hw => by simp only [Option.some.injEq] at hw; rw [← hw]; exact hv }
  · intros; rfl

/-- Reading any attribute that does not involve the window. -/
theorem sound_read {a : Attr} {v : Py (Val K)} (h : attrValue ext pts a = some v) :
    Sound ext pts (read ext a) v := by
  cases a <;> simp only [attrValue, Option.some.injEq, reduceCtorEq] at h <;> subst h
  · exact sound_n.mapM' _
  · exact sound_mbb.mapM' _
  · have := (sound_mbbArea (ext := ext) (pts := pts)).mapM' Val.num
    rwa [except_map_map] at this
  · have := (sound_rot (ext := ext) (pts := pts)).mapM' Val.num
    rwa [except_map_map] at this
  · have := (sound_lambdaMbb (ext := ext) (pts := pts)).mapM' Val.xnum
    rwa [except_map_map] at this
  · exact sound_hull.mapM' _
  · exact sound_hullArea.mapM' _
  · have := (sound_lambdaHull (ext := ext) (pts := pts)).mapM' Val.xnum
    rwa [except_map_map] at this
  · exact sound_nnd.mapM' _
  · exact sound_minNnd.mapM' _
  · exact sound_maxNnd.mapM' _
  · exact sound_meanNnd.mapM' _

/-- The window that `get_window` returns when `w` is stored. -/
def effectiveWindow (pts : List (K × K)) : Option (Win K) → Py (Win K)
  | some w => .ok w
  | none => (boxOf pts).map fun b => Win.window (Window.asWindow (Window.polyFromBBox b))

/-- `get_window` returns the effective window; it keeps everything except a missing window. -/
theorem getWindow_spec {s : Obj K} (hs : Inv ext pts s) :
    (getWindow s).1 = effectiveWindow pts s.window
    ∧ Inv ext pts (getWindow s).2
    ∧ { (getWindow s).2 with cache := s.cache, window := s.window } = s
    ∧ (getWindow s).2.cache.lambdaWindow = s.cache.lambdaWindow
    ∧ effectiveWindow pts (getWindow s).2.window = effectiveWindow pts s.window := by
  unfold getWindow
  cases hw : s.window with
  | some w => exact ⟨rfl, hs, by cases s; simp_all, rfl, by rw [hw]⟩
  | none =>
    obtain ⟨h1, h2, h3, h4⟩ := sound_mbb (ext := ext) (pts := pts) s hs
    rcases hm : mbb s with ⟨r, s'⟩
    rw [hm] at h1 h2 h3 h4
    have hwin : s'.window = none := by
      have := congrArg Obj.window h3
      simpa [hw] using this
    cases r with
    | ok b =>
      simp only at *
      refine ⟨by simp [effectiveWindow, ← h1, Except.map], { h2 with }, ?_, h4, by
        simp [effectiveWindow, ← h1, Except.map]⟩
      rw [← hw]
      have := congrArg (fun t : Obj K => { t with window := s.window }) h3
      exact this
    | error e =>
      simp only at *
      refine ⟨by simp [effectiveWindow, ← h1, Except.map], h2, ?_, h4, by rw [hwin]⟩
      rw [← hw]
      have := congrArg (fun t : Obj K => { t with window := s.window }) h3
      exact this

/-- The value of `lambda_window` computed for the window that is stored now. -/
def lambdaWindowNow (pts : List (K × K)) (w : Option (Win K)) : Py (XF K) := do
  let win ← effectiveWindow pts w
  let a ← winArea win
  pure (XF.div (.fin (pts.length : K)) (.fin a))

omit [Field K] [LinearOrder K] in
theorem bind_ok {α β : Type} {m : M K α} {f : α → M K β} {s s' : Obj K} {a : α}
    (h : m s = (.ok a, s')) : (m >>= f) s = f a s' := by
  show ((match m s with
    | (.ok a, s') => f a s'
    | (.error e, s') => (.error e, s')) : Py β × Obj K) = _
  rw [h]

omit [Field K] [LinearOrder K] in
theorem bind_error {α β : Type} {m : M K α} {f : α → M K β} {s s' : Obj K} {e : PyErr}
    (h : m s = (.error e, s')) : (m >>= f) s = (.error e, s') := by
  show ((match m s with
    | (.ok a, s') => f a s'
    | (.error e, s') => (.error e, s')) : Py β × Obj K) = _
  rw [h]

theorem lambdaWindow_spec {s : Obj K} (hs : Inv ext pts s) :
    (lambdaWindow s).1 = (match s.cache.lambdaWindow with
        | some v => .ok v
        | none => lambdaWindowNow pts s.window)
    ∧ Inv ext pts (lambdaWindow s).2
    ∧ { (lambdaWindow s).2 with cache := s.cache, window := s.window } = s
    ∧ effectiveWindow pts (lambdaWindow s).2.window = effectiveWindow pts s.window
    ∧ (∀ v, (lambdaWindow s).2.cache.lambdaWindow = some v → (lambdaWindow s).1 = .ok v) := by
  cases hc : s.cache.lambdaWindow with
  | some v =>
    have e : lambdaWindow s = (.ok v, s) := by unfold lambdaWindow cached; simp [hc]
    rw [e]
    exact ⟨rfl, hs, rfl, rfl, fun w hw => by rw [hc] at hw; injection hw with hw; rw [hw]⟩
  | none =>
    obtain ⟨n1, n2, n3, n4⟩ := sound_n (ext := ext) (pts := pts) s hs
    rcases hn : n s with ⟨r, s1⟩
    rw [hn] at n1 n2 n3 n4
    simp only at n1 n2 n3 n4
    subst n1
    obtain ⟨w1, w2, w3, w4, w5⟩ := getWindow_spec n2
    have hwin1 : s1.window = s.window := by have := congrArg Obj.window n3; exact this
    have hframe : { (getWindow s1).2 with cache := s.cache, window := s.window } = s := by
      have h1 := congrArg (fun t : Obj K => { t with cache := s.cache, window := s.window }) w3
      have h2 := congrArg (fun t : Obj K => { t with window := s.window }) n3
      exact h1.trans h2
    have hnone : (getWindow s1).2.cache.lambdaWindow = none := by rw [w4, n4, hc]
    have hnow : lambdaWindowNow pts s.window = ((getWindow s1).1 >>= fun win => winArea win >>= fun a =>
        pure (XF.div (.fin (pts.length : K)) (.fin a))) := by
      unfold lambdaWindowNow; rw [← hwin1, ← w1]
    have heff : effectiveWindow pts (getWindow s1).2.window = effectiveWindow pts s.window := by
      rw [w5, hwin1]
    clear w1 w3 w4 w5
    rcases hw : getWindow s1 with ⟨r2, s2⟩
    rw [hw] at w2 hframe hnone hnow heff
    simp only at w2 hframe hnone hnow heff ⊢
    rw [hnow]
    have hstep1 : ∀ {β : Type} (f : ℕ → M K β), (n >>= f) s = f pts.length s1 := fun f => bind_ok hn
    cases r2 with
    | ok w =>
      cases ha : winArea w with
      | ok a =>
        have e : lambdaWindow s = (.ok (XF.div (.fin (pts.length : K)) (.fin a)),
            { s2 with cache := { s2.cache with
                        lambdaWindow := some (XF.div (.fin (pts.length : K)) (.fin a)) } }) := by
          unfold lambdaWindow cached
          simp only [hc]
          rw [hstep1, bind_ok hw, bind_ok (a := a) (s' := s2) (by rw [ha]; rfl)]
          rfl
        rw [e]
        refine ⟨?_, { w2 with }, hframe, heff, ?_⟩
        · show _ = (winArea w >>= fun a => _); rw [ha]; rfl
        · intro v hv
          simp only [Option.some.injEq] at hv
          rw [hv]
      | error e' =>
        have e : lambdaWindow s = (.error e', s2) := by
          unfold lambdaWindow cached
          simp only [hc]
          rw [hstep1, bind_ok hw, bind_error (e := e') (s' := s2) (by rw [ha]; rfl)]
        rw [e]
        refine ⟨?_, w2, hframe, heff, ?_⟩
        · show _ = (winArea w >>= fun a => _); rw [ha]; rfl
        · intro v hv; rw [hnone] at hv; cases hv
    | error e' =>
      have e : lambdaWindow s = (.error e', s2) := by
        unfold lambdaWindow cached
        simp only [hc]
        rw [hstep1, bind_error hw]
      rw [e]
      refine ⟨rfl, w2, hframe, heff, ?_⟩
      intro v hv; rw [hnone] at hv; cases hv

/-! ### `add_marks` -/

omit [Field K] [LinearOrder K] in
theorem addMarksLoop_frame (nms : List String) (mks : List (List K)) (s : Obj K) :
    { (addMarksLoop nms mks s).2 with df := s.df, nMarks := s.nMarks } = s := by
  induction nms generalizing mks s with
  | nil => cases mks <;> rfl
  | cons nm nms ih =>
    cases mks with
    | nil => rfl
    | cons mk mks =>
      have hrec : addMarksLoop (nm :: nms) (mk :: mks) s = (match s.df.setCol nm mk with
        | .ok df' => addMarksLoop nms mks { s with df := df', nMarks := s.nMarks + 1 }
        | .error e => (.error e, s)) := rfl
      rw [hrec]
      cases h : s.df.setCol nm mk with
      | error e => rfl
      | ok df' =>
        have := ih mks { s with df := df', nMarks := s.nMarks + 1 }
        have := congrArg (fun t : Obj K => { t with df := s.df, nMarks := s.nMarks }) this
        exact this

theorem inv_of_frame {s s' : Obj K} (h : { s' with df := s.df, nMarks := s.nMarks } = s)
    (hs : Inv ext pts s) : Inv ext pts s' := by
  have h1 : s'.points = s.points := by have := congrArg Obj.points h; exact this
  have h2 : s'.cache = s.cache := by have := congrArg Obj.cache h; exact this
  exact ⟨h1.trans hs.points, h2 ▸ hs.mbb, h2 ▸ hs.mbbArea, h2 ▸ hs.n, h2 ▸ hs.rot, h2 ▸ hs.lambdaMbb,
    h2 ▸ hs.hull, h2 ▸ hs.hullArea, h2 ▸ hs.lambdaHull, h2 ▸ hs.nnd, h2 ▸ hs.minNnd, h2 ▸ hs.maxNnd,
    h2 ▸ hs.meanNnd⟩

omit [Field K] [LinearOrder K] in
theorem mapM'_state {α β : Type} (g : α → β) (m : M K α) (s : Obj K) : (mapM' g m s).2 = (m s).2 := by
  unfold mapM'
  rcases m s with ⟨r, s'⟩
  cases r <;> rfl

/-- What a read never changes. -/
theorem read_frame (a : Attr) {s : Obj K} (hs : Inv ext pts s) :
    Inv ext pts (read ext a s).2
    ∧ { (read ext a s).2 with cache := s.cache, window := s.window } = s
    ∧ effectiveWindow pts (read ext a s).2.window = effectiveWindow pts s.window := by
  cases ha : attrValue ext pts a with
  | some v =>
    obtain ⟨-, h2, h3, -⟩ := sound_read ha s hs
    have hw : (read ext a s).2.window = s.window := by have := congrArg Obj.window h3; exact this
    refine ⟨h2, ?_, by rw [hw]⟩
    have := congrArg (fun t : Obj K => { t with window := s.window }) h3
    exact this
  | none =>
    cases a <;> simp only [attrValue, reduceCtorEq] at ha
    · simp only [read, mapM'_state]
      obtain ⟨-, h2, h3, h4, -⟩ := lambdaWindow_spec hs
      exact ⟨h2, h3, h4⟩
    · simp only [read, mapM'_state]
      obtain ⟨-, h2, h3, -, h4⟩ := getWindow_spec hs
      exact ⟨h2, h3, h4⟩

theorem inv_step (op : Op K) {s : Obj K} (hs : Inv ext pts s) : Inv ext pts (step ext s op) := by
  cases op with
  | read a => exact (read_frame a hs).1
  | setWindow w => exact { hs with }
  | addMarks m nms => exact inv_of_frame (addMarksLoop_frame _ _ _) hs
  | flip => exact { hs with }

theorem inv_run (ops : List (Op K)) {s : Obj K} (hs : Inv ext pts s) : Inv ext pts (run ext s ops) := by
  induction ops generalizing s with
  | nil => exact hs
  | cons op ops ih => exact ih (inv_step op hs)

/-! ### Construction -/

/-- A constructor call that succeeds, spelled out. -/
theorem construct_ok {p : ℕ} {rows : List (List K)} {w : Option (Win K)}
    {names coordNames : Option (List String)} {s : Obj K}
    (h : construct p rows w names coordNames = .ok s) :
    ∃ x y, (resolveNames p names coordNames).coords = [x, y]
      ∧ (resolveNames p names coordNames).cols.length = p
      ∧ x ∈ (resolveNames p names coordNames).cols ∧ y ∈ (resolveNames p names coordNames).cols
      ∧ s.df = ⟨(resolveNames p names coordNames).cols, rows⟩
      ∧ s.coordNames = [x, y] ∧ s.x = x ∧ s.y = y
      ∧ s.points = locations p rows names coordNames
      ∧ s.nMarks = (p : ℤ) - 2
      ∧ ((∃ v, w = some v) → s.window = w ∧ s.cache = {})
      ∧ (w = none → ∃ b, boxOf s.points = .ok b
          ∧ s.window = some (.window (Window.asWindow (Window.polyFromBBox b)))
          ∧ s.cache = { mbb := some b }) := by
  unfold construct at h
  rcases hc : (resolveNames p names coordNames).coords with _ | ⟨x, _ | ⟨y, _ | ⟨z, l⟩⟩⟩ <;>
    rw [hc] at h <;> simp only [reduceCtorEq] at h
  by_cases hl : (resolveNames p names coordNames).cols.length = p
  swap
  · simp [hl] at h
  simp only [hl, ne_eq, not_true_eq_false, if_false] at h
  by_cases hx : x ∈ (resolveNames p names coordNames).cols
  swap
  · simp [Frame.col, hx, bind, Except.bind] at h
  by_cases hy : y ∈ (resolveNames p names coordNames).cols
  swap
  · simp [Frame.col, hx, hy, bind, Except.bind] at h
  have hloc : locations p rows names coordNames
      = (rows.map fun r => r.getD ((resolveNames p names coordNames).cols.idxOf x) 0).zip
        (rows.map fun r => r.getD ((resolveNames p names coordNames).cols.idxOf y) 0) := by
    simp only [locations, cell, hc, List.zip_map', List.getD_cons_zero, List.getD_cons_succ]
  simp only [Frame.col, hx, hy, if_true, bind, Except.bind] at h
  rw [← hloc] at h
  refine ⟨x, y, rfl, hl, hx, hy, ?_⟩
  cases w with
  | some v =>
    simp only [Except.ok.injEq] at h
    subst h
    simp
  | none =>
    cases hb : Geometry.bboxPts (locations p rows names coordNames) with
    | error e => rw [hb] at h; simp at h
    | ok b =>
      rw [hb] at h
      simp only [Except.ok.injEq] at h
      subst h
      simp [boxOf_eq, hb]

/-- A fresh pattern satisfies the invariant. -/
theorem inv_construct {p : ℕ} {rows : List (List K)} {w : Option (Win K)}
    {names coordNames : Option (List String)} {s : Obj K}
    (h : construct p rows w names coordNames = .ok s) :
    Inv ext (locations p rows names coordNames) s ∧ s.cache.lambdaWindow = none := by
  obtain ⟨x, y, -, -, -, -, -, -, -, -, hpts, -, h1, h2⟩ := construct_ok h
  cases w with
  | some v =>
    obtain ⟨-, hc⟩ := h1 ⟨v, rfl⟩
    constructor
    · constructor <;> first | exact hpts | (intro v hv; simp [hc] at hv)
    · rw [hc]
  | none =>
    obtain ⟨b, hb, -, hc⟩ := h2 rfl
    rw [hpts] at hb
    constructor
    · constructor <;> first | exact hpts | (intro v hv; simp [hc] at hv; try (rw [← hv]; exact hb))
    · rw [hc]

end Pointpats.PointPattern
