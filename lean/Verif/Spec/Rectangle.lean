import Verif.Spec.Line

/-!
# Specification vocabulary for rectangles

A rectangle is written as in designs/common/rectangle.hfd:

```
{ "type": "draw", "params": { "width": …, "height": … }, "commands": [ { "command": "rectangle", "width": "width", "height": "height" } ] }
```
-/

namespace Verif.Render

open Verif Verif.Dyn Verif.Path Verif.PlanSet Verif.Svg Verif.Spec Verif.Files Verif.Xml

/-- A rectangle: its width and its height. -/
structure Oblong where
  width : ℝ
  height : ℝ

/-- designs/common/rectangle.hfd:14-18. -/
def rectangleMap : DMap (XNum ℝ) := [("command".toList, .str "rectangle".toList), ("width".toList, .str "width".toList), ("height".toList, .str "height".toList)]

/-- The parameters in the document. -/
def Oblong.params (o : Oblong) : DMap (XNum ℝ) := [("width".toList, .num (.fin o.width)), ("height".toList, .num (.fin o.height))]

/-- The rectangle in a document. -/
def Oblong.map (o : Oblong) : DMap (XNum ℝ) := [("type".toList, .str "draw".toList), ("params".toList, .map o.params), ("commands".toList, .list [.map rectangleMap])]

/-- Its four sides, when one corner is here. -/
def Oblong.sides (o : Oblong) (q : Pt ℝ) : List (Stroke ℝ) :=
  [.line q (q.1 + o.width, q.2), .line (q.1 + o.width, q.2) (q.1 + o.width, q.2 + o.height), .line (q.1 + o.width, q.2 + o.height) (q.1, q.2 + o.height),
    .line (q.1, q.2 + o.height) q]

/-- A plate: its id, its first rectangle and the others. -/
structure OblongPlate where
  id : Text
  outer : Oblong
  others : List Oblong

/-- The plate as a piece. -/
def OblongPlate.piece (o : OblongPlate) : Piece := ⟨o.id, (o.outer :: o.others).map Oblong.map⟩

/-- What it draws: all of its rectangles begin at the same corner. -/
def OblongPlate.draws (o : OblongPlate) : List (Stroke ℝ) := (o.outer :: o.others).flatMap fun r => r.sides (0, 0)

/-- A document with sheets of this size and these plates. -/
def oblongDoc (s : Sheet ℝ) (os : List OblongPlate) : DMap (XNum ℝ) := pieceDoc s (os.map OblongPlate.piece)

/-- The plate has a name that can be written, and its rectangles have a size that the program can count. -/
structure OblongPlate.WellMade (o : OblongPlate) : Prop where
  name : o.id ≠ [] ∧ Unmarked o.id
  sizes : ∀ r ∈ o.outer :: o.others, 0 < r.width ∧ r.width < 2 ^ 62 ∧ 0 < r.height ∧ r.height < 2 ^ 62

end Verif.Render
