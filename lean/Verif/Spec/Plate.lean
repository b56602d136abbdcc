import Verif.Spec.Piece
import Verif.Spec.OffsetRect

/-!
# Specification vocabulary for documents of plates

A plate is a rectangle that is drawn with the pen and is made larger or smaller by the width of the cut.

```
{ "material_width": …, "material_height": …, "doc_padding": …,
  "parts": [ { "id": …, "components": [ { "type": "draw", "commands": [ { "command": "rectangle", "width": …, "height": … } ],
    "transforms": [ { "type": "offset", "distance": …, "size_should_be": "larger" } ] } ] }, … ] }
```
-/

namespace Verif.Render

open Verif Verif.Dyn Verif.Path Verif.PlanSet Verif.Svg Verif.Spec Verif.Files Verif.Xml

/-- The pen draws straight lines and is never lifted. -/
def PenCmd.Straight : PenCmd → Prop
  | .line _ => True
  | .relLine _ => True
  | .angle _ _ => True
  | .rectangle _ _ => True
  | _ => False

/-- A plate: its id, the commands for the pen, the rectangle that they draw, and the offset. -/
structure Plate where
  id : Text
  commands : List PenCmd
  left : ℝ
  right : ℝ
  top : ℝ
  bottom : ℝ
  distance : ℝ
  larger : Bool

/-- The offset in a document. -/
def offsetMap (o : Plate) : DMap (XNum ℝ) :=
  [("type".toList, .str "offset".toList), ("distance".toList, .num (.fin o.distance)),
    ("size_should_be".toList, .str (if o.larger then "larger".toList else "smaller".toList))]

/-- The drawing in a document. -/
def plateDrawing (o : Plate) : DMap (XNum ℝ) :=
  [("type".toList, .str "draw".toList), ("commands".toList, .list (o.commands.map fun c => .map (penMap c))),
    ("transforms".toList, .list [.map (offsetMap o)])]

/-- The plate as a piece. -/
def Plate.piece (o : Plate) : Piece := ⟨o.id, [plateDrawing o]⟩

/-- A document with sheets of this size and these plates as parts. -/
def plateDoc (s : Sheet ℝ) (os : List Plate) : DMap (XNum ℝ) := pieceDoc s (os.map Plate.piece)

/-- By how much every side moves outwards. -/
noncomputable def Plate.out (o : Plate) : ℝ := if o.larger then |o.distance| else -|o.distance|

/-- The plate is well made: it has a name without markup, the commands draw the rectangle in one line, the distance is above the
precision and less than half of the sides, up to the precision, and the coordinates are below 2^61. -/
structure Plate.WellMade (o : Plate) : Prop where
  name : o.id ≠ [] ∧ Unmarked o.id
  straight : ∀ c ∈ o.commands, c.Straight
  around : Around o.left o.right o.top o.bottom (penDraws ⟨(0, 0), none⟩ o.commands)
  distance : 1 / 1000 + 1 / 10 ^ 7 < |o.distance|
  wide : 2 * |o.distance| + 1 / 1000 + 1 / 10 ^ 6 < o.right - o.left
  high : 2 * |o.distance| + 1 / 1000 + 1 / 10 ^ 6 < o.bottom - o.top
  bounded : |o.left| < 2 ^ 60 ∧ |o.right| < 2 ^ 60 ∧ |o.top| < 2 ^ 60 ∧ |o.bottom| < 2 ^ 60

/-- The strokes are one closed line around the rectangle with every side moved, its corners rounded to seven decimals. -/
def Plate.Cut (o : Plate) (ss : List (Stroke ℝ)) : Prop :=
  ∃ x0 x1 y0 y1 : ℝ, Around x0 x1 y0 y1 ss ∧ |x0 - (o.left - o.out)| ≤ 1 / (2 * 10 ^ 7) ∧ |x1 - (o.right + o.out)| ≤ 1 / (2 * 10 ^ 7) ∧
    |y0 - (o.top - o.out)| ≤ 1 / (2 * 10 ^ 7) ∧ |y1 - (o.bottom + o.out)| ≤ 1 / (2 * 10 ^ 7)

end Verif.Render
