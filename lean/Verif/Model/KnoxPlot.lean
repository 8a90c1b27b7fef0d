import Verif.Model.Knox

/-!
# Model of what `KnoxLocal.plot` and `KnoxLocal.explore` draw

A drawn layer is a list of labelled events with the colour they are drawn in. Matplotlib and folium are not modelled.
-/

set_option linter.unusedSectionVars false

namespace Pointpats.Spacetime

variable {K : Type} [Field K] [LinearOrder K] {ι : Type} [LinearOrder ι]

/-- spacetime.py:1298-1300 `_gdf`, the label and the geometry of its rows (spacetime.py:1290-1291). -/
def gdfGeometry (o : KnoxLocalObject K ι) (s : List (K × K)) : List (ι × (K × K)) := o.ids.zip s

omit [Field K] [LinearOrder K] in
/-- pandas `g.loc[labels].geometry` (spacetime.py:1511-1512, 1611-1612): for every label the rows that have it. -/
def locGeometry (g : List (ι × (K × K))) (labels : List ι) : List (K × K) :=
  labels.flatMap fun l => (g.filter fun r => decide (r.1 = l)).map Prod.snd

/-- spacetime.py:1507-1516, 1606-1616: the lines that are drawn, from the geometry of the focal event of a row of the
table of hot spots to the geometry of its neighbour. `zip(…, strict=True)` raises `ValueError` for different lengths.
`none` stands for a table that is not modelled (`hotTable`). -/
def plotEdges (o : KnoxLocalObject K ι) (s : List (K × K)) (crit : K) (inference : Inference) (labels : List ℕ) :
    Py (Option (List ((K × K) × (K × K)))) :=
  match hotspots o crit inference true labels with
  | .error e => .error e
  | .ok none => .ok none
  | .ok (some ghs) =>
      let origins := locGeometry (gdfGeometry o s) (ghs.map HotRow.focal)
      let destinations := locGeometry (gdfGeometry o s) (ghs.map HotRow.neighbor)
      if origins.length ≠ destinations.length then .error .valueError
      else .ok (some (origins.zip destinations))

/-- The argument `colors` of `plot` and `explore`: a colour for every kind of event. -/
abbrev Palette := Colour → String

omit [Field K] [LinearOrder K] [LinearOrder ι] in
/-- The column `color` of the table, filled with the colours asked for (spacetime.py:1476, 1498-1499; 1569, 1588-1591). -/
def colourColumn (palette : Palette) (kinds : List (ι × Colour)) : List (ι × String) :=
  kinds.map fun x => (x.1, palette x.2)

omit [Field K] [LinearOrder K] [LinearOrder ι] in
/-- `g[g.color == colour]` drawn with `color=shown`. -/
def layer (g : List (ι × String)) (colour shown : String) : List (ι × String) :=
  (g.filter fun r => decide (r.2 = colour)).map fun r => (r.1, shown)

/-- spacetime.py:1471-1505 `plot`: the points that are drawn, in the order in which they are drawn. -/
def plotPoints (o : KnoxLocalObject K ι) (palette : Palette) (crit : K) (inference : Inference) :
    Py (List (ι × String)) :=
  match plotColours o crit inference with
  | .error e => .error e
  | .ok kinds =>
      let g := colourColumn palette kinds
      .ok (layer g (palette .nonsig) (palette .nonsig) ++ layer g (palette .neighbor) (palette .neighbor) ++
        layer g (palette .focal) (palette .focal))

/-- spacetime.py:1565-1606 `explore`: the points that are drawn, in the order in which they are drawn; an empty layer
of neighbours is left out with a warning. -/
def explorePoints (o : KnoxLocalObject K ι) (palette : Palette) (crit : K) (inference : Inference) :
    Py (List (ι × String)) :=
  match plotColours o crit inference with
  | .error e => .error e
  | .ok kinds =>
      let g := colourColumn palette kinds
      let m := layer g (palette .nonsig) "grey"
      let blues := layer g (palette .neighbor) (palette .neighbor)
      let m := if blues.length = 0 then m else m ++ blues
      .ok (m ++ layer g (palette .focal) (palette .focal))

/-- spacetime.py:1592-1593 `explore`: the column `neighbor` that is shown with every event: the neighbours of the event
in the adjacency list, `none` (NaN) for an event that is not in it. -/
def exploreNeighbors (o : KnoxLocalObject K ι) : List (ι × Option (List ι)) :=
  o.ids.map fun k =>
    let l := (o.adjlist.filter fun row => decide (row.1 = k)).map fun row => row.2.1
    (k, if l = [] then none else some l)

end Pointpats.Spacetime
