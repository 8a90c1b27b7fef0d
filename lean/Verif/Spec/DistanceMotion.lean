import Verif.Spec.Motion
import Verif.Model.DistanceStats

/-!
# Specification: the distance functions in other units

What the arguments and the results of the distance functions become when lengths are multiplied by `r`.
-/

namespace Pointpats.Spec

open Random Geometry DistStats

variable {K : Type} [Field K] [LinearOrder K]

/-- A number times `c`; `inf` and `nan` stay. -/
def scaleXF (c : K) : XF K → XF K
  | .fin x => .fin (c * x)
  | v => v

/-- The same support in other units: distances are converted, numbers of steps stay. -/
def scaleSupport (r : K) : SupportArg K → SupportArg K
  | .none => .none
  | .int n => .int n
  | .stop b => .stop (r * b)
  | .startStop a b => .startStop (r * a) (r * b)
  | .startStopNum a b n => .startStopNum (r * a) (r * b) n
  | .tuple l => .tuple (l.map (r * ·))
  | .array l => .array (l.map (r * ·))

/-- The same given distances in other units. -/
def scaleDist (r : K) : DistArg K → DistArg K
  | .none => .none
  | .vec l => .vec (l.map (r * ·))
  | .mat p rows => .mat p (rows.map (List.map (r * ·)))

/-- The same given distances of a test in other units. -/
def scaleTestDist (r : K) : TestDist K → TestDist K
  | .none => .none
  | .single d => .single (scaleDist r d)
  | .pair g f => .pair (scaleDist r g) (scaleDist r f)

/-- What the values of a distance function are multiplied by: F, G and J are pure numbers, K is an area, L is a length. -/
def statFactor (r : K) : Call → K
  | .K => r ^ 2
  | .L _ => r
  | _ => 1

/-- The same test result in other units: the p-values stay. -/
def scaleResult (r c : K) (x : TestResult K) : TestResult K :=
  { support := x.support.map (r * ·), statistic := x.statistic.map (scaleXF c), pvalue := x.pvalue
    simulations := x.simulations.map fun s => s.map (List.map (scaleXF c)) }

/-- A hull that is a geometry of a library. -/
def IsGeometry : HullArg K → Prop
  | .polygon _ | .multiPolygon _ | .otherShapely _ | .convexHull _ => True
  | _ => False

/-- The same hull argument in other units: no hull or `"bbox"` (the bounding box of the events), a box array with converted
corners, or a geometry that is the first one in other units. -/
inductive RescaledHull (lib : Lib K) (s t a b : K) : HullArg K → HullArg K → Prop
  | none : RescaledHull lib s t a b .none .none
  | bbox : RescaledHull lib s t a b (.str "bbox") (.str "bbox")
  | box (x0 y0 x1 y1 : K) : RescaledHull lib s t a b (.ndarray [4] [x0, y0, x1, y1])
      (.ndarray [4] [a + s * x0, b + t * y0, a + s * x1, b + t * y1])
  | geometry (h h' : HullArg K) (hg : IsGeometry h) (hg' : IsGeometry h')
      (hw : RescaledWindow s t a b (lib.hullOf (.given h)) (lib.hullOf (.given h')))
      (hk : (lib.hullOf (.given h')).isArray = (lib.hullOf (.given h)).isArray) : RescaledHull lib s t a b h h'

end Pointpats.Spec
