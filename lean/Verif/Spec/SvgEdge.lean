import Verif.Spec.Line
import Verif.Spec.Affine

/-!
# Specification vocabulary for edges that are drawn as an svg text

An edge is written as in designs/joints/svg_edge.hfd, with the text of the svg in its parameter:

```
{ "type": "basic_edge", "params": { "svg": … }, "from": { "x": …, "y": … }, "to": { "x": …, "y": … }, "components": [ { … } ] }
```
-/

namespace Verif.Spec

open Verif Verif.Path

/-- `{"command": "svg_connect_to", "to": {"x": …, "y": …}, "svg": …}`. -/
noncomputable def connectCommand (svg : Text) (x y : XNum ℝ) : Command (XNum ℝ) where
  name := "svg_connect_to".toList
  point k := if k = "to".toList then some (newPoint x y) else none
  number _ := none
  text k := if k = "svg".toList then some svg else none
  flag _ := none

/-- designs/joints/svg_edge.hfd:18-28: the edge of the length `L`. -/
noncomputable def svgLine (svg : Text) (L : ℝ) : List (Command (XNum ℝ)) := [moveCommand (.fin 0) (.fin 0), connectCommand svg (.fin L) (.fin 0)]

/-- The text is read as the drawing, whose first stroke starts at `A` and whose last ends at `B`, another point. -/
structure ReadAs (svg : Text) (q : Path ℝ) (A B : Pt ℝ) : Prop where
  read : parsePath (F := XNum ℝ) svg = some (finPath q)
  small : Small q
  first : (strokes q).head?.map Stroke.first = some A
  last : (strokes q).getLast?.map Stroke.last = some B
  apart : A ≠ B

end Verif.Spec

namespace Verif.Render

open Verif Verif.Dyn Verif.Path Verif.PlanSet Verif.Svg Verif.Spec Verif.Files Verif.Xml

/-- An edge: its svg text, what that draws and where this starts and ends, and where the edge starts and ends. -/
structure SvgEdge where
  svg : Text
  drawing : Path ℝ
  first : Pt ℝ
  last : Pt ℝ
  start : Pt ℝ
  stop : Pt ℝ

/-- designs/joints/svg_edge.hfd:23-27. -/
def connectMap : DMap (XNum ℝ) :=
  [("command".toList, .str "svg_connect_to".toList), ("to".toList, .str "width,0".toList), ("svg".toList, .str "svg".toList)]

/-- designs/joints/svg_edge.hfd:18-28. -/
def svgCommands : List (Val (XNum ℝ)) := [textCmd "move".toList "0,0".toList, .map connectMap]

/-- The parameters in the document. -/
def SvgEdge.params (o : SvgEdge) : DMap (XNum ℝ) := [("svg".toList, .str o.svg)]

/-- The edge in a document. -/
def SvgEdge.map (o : SvgEdge) : DMap (XNum ℝ) :=
  [("type".toList, .str "basic_edge".toList), ("params".toList, .map o.params), ("from".toList, pairVal o.start), ("to".toList, pairVal o.stop),
    ("components".toList, .list [.map (drawingMap svgCommands)])]

/-- What it draws: the strokes of the text, turned and scaled so that they lead from the start of the edge to its end. -/
noncomputable def SvgEdge.draws (o : SvgEdge) : List (Stroke ℝ) := (strokes o.drawing).map (Stroke.map (similarity o.first o.last o.start o.stop))

/-- The text begins with `M` and is read as the drawing, and the edge has a length. -/
structure SvgEdge.WellMade (o : SvgEdge) : Prop where
  text : o.svg.head? = some 'M'
  read : ReadAs o.svg o.drawing o.first o.last
  long : o.start ≠ o.stop

/-- A plate: its id and its edges. -/
structure SvgPlate where
  id : Text
  edges : List SvgEdge

/-- The plate as a piece. -/
def SvgPlate.piece (o : SvgPlate) : Piece := ⟨o.id, o.edges.map SvgEdge.map⟩

/-- What it draws. -/
noncomputable def SvgPlate.draws (o : SvgPlate) : List (Stroke ℝ) := o.edges.flatMap SvgEdge.draws

/-- A document with sheets of this size and these plates. -/
def svgPlateDoc (s : Sheet ℝ) (os : List SvgPlate) : DMap (XNum ℝ) := pieceDoc s (os.map SvgPlate.piece)

/-- The plate has a name that can be written, its edges are well made, and it has a size. -/
structure SvgPlate.WellMade (o : SvgPlate) : Prop where
  name : o.id ≠ [] ∧ Unmarked o.id
  edges : ∀ e ∈ o.edges, e.WellMade
  sizeable : Sizeable o.draws

end Verif.Render
