import Verif.Model.PointPattern
import Mathlib.Data.List.Rotate

/-!
# Specification of the attributes of a point pattern

Direct formulas on the coordinates, without caching, and vocabulary for histories.
-/

namespace Pointpats.Spec

open PointPattern

variable {K : Type} [Field K] [LinearOrder K]

/-- The bounding box by the minimum and maximum of each coordinate. -/
def boxOf (pts : List (K × K)) : Py (BBox K) :=
  match (pts.map Prod.fst).min?, (pts.map Prod.snd).min?, (pts.map Prod.fst).max?,
      (pts.map Prod.snd).max? with
  | some a, some b, some c, some d => .ok ⟨a, b, c, d⟩
  | _, _, _, _ => .error .valueError

/-- Signed area of the polygon with the given vertices in cyclic order:
`½ Σ (x_i y_{i+1} - x_{i+1} y_i)`, indices modulo the number of vertices. -/
def shoelace (v : List (K × K)) : K :=
  (List.zipWith (fun p q => p.1 * q.2 - q.1 * p.2) v (v.rotate 1)).sum / 2

/-- Shoelace area, with the exception of the code for an empty list of vertices. -/
def areaOfHull (v : List (K × K)) : Py K := if v = [] then .error .indexError else .ok (shoelace v)

/-- Minimum, maximum and mean of a list, undefined for the empty list. -/
def minOf (l : List K) : Py K := match l.min? with | some a => .ok a | none => .error .valueError
@[inherit_doc minOf]
def maxOf (l : List K) : Py K := match l.max? with | some a => .ok a | none => .error .valueError
@[inherit_doc minOf]
def meanOf (l : List K) : Py K := if l = [] then .error .valueError else .ok (l.sum / l.length)

/-- The defining formula of each attribute computed from coordinates alone. `none` for the two attributes
that involve the window. -/
def attrValue (ext : Ext K) (pts : List (K × K)) : Attr → Option (Py (Val K))
  | .n => some (.ok (.nat pts.length))
  | .mbb => some ((boxOf pts).map .box)
  | .mbbArea => some ((boxOf pts).map fun b => .num ((b.xmax - b.xmin) * (b.ymax - b.ymin)))
  | .rot => some ((boxOf pts).map fun b => .num (1 / 4 * min (b.xmax - b.xmin) (b.ymax - b.ymin)))
  | .lambdaMbb => some ((boxOf pts).map fun b =>
      .xnum (XF.div (.fin (pts.length : K)) (.fin ((b.xmax - b.xmin) * (b.ymax - b.ymin)))))
  | .hull => some ((ext.hull pts).map .pts)
  | .hullArea => some ((ext.hull pts >>= areaOfHull).map .num)
  | .lambdaHull => some ((ext.hull pts >>= areaOfHull).map fun a =>
      .xnum (XF.div (.fin (pts.length : K)) (.fin a)))
  | .nnd => some ((ext.nnd pts).map .vec)
  | .minNnd => some ((ext.nnd pts >>= minOf).map .num)
  | .maxNnd => some ((ext.nnd pts >>= maxOf).map .num)
  | .meanNnd => some ((ext.nnd pts >>= meanOf).map .num)
  | .lambdaWindow => none
  | .window => none

/-- The cell of a row in the column with the given name. -/
def cell (names : List String) (nm : String) (r : List K) : K := r.getD (names.idxOf nm) 0

/-- The locations given to the constructor: the coordinate columns of the rows. -/
def locations (p : ℕ) (rows : List (List K)) (names coordNames : Option (List String)) : List (K × K) :=
  let nms := resolveNames p names coordNames
  rows.map fun r => (cell nms.cols (nms.coords.getD 0 "") r, cell nms.cols (nms.coords.getD 1 "") r)

/-- `s` can be obtained by constructing a pattern from a rectangular table and applying a history of
operations. -/
def Reachable (ext : Ext K) (s : Obj K) : Prop :=
  ∃ (p : ℕ) (rows : List (List K)) (w : Option (Win K)) (names coordNames : Option (List String))
    (s0 : Obj K) (ops : List (Op K)),
    (∀ r ∈ rows, r.length = p) ∧ construct p rows w names coordNames = .ok s0 ∧ s = run ext s0 ops

/-- `out` lists the different elements of `l` in order of first occurrence. -/
structure FirstOccurrences {α : Type} [DecidableEq α] (l out : List α) : Prop where
  nodup : out.Nodup
  mem : ∀ a, a ∈ out ↔ a ∈ l
  order : out.Pairwise fun a b => l.idxOf a < l.idxOf b

end Pointpats.Spec
