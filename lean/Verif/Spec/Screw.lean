import Verif.Spec.Tab

/-!
# Specification vocabulary for screw holes

Screw holes are written as in designs/common/screw_holes_pair.hfd (two holes side by side) and designs/common/screw_holes_rect.hfd (four holes in the corners of a rectangle):

```
{ "type": "draw", "params": { "width": …, "diameter": … }, "commands": [ … ] }
{ "type": "draw", "params": { "width": …, "height": …, "diameter": … }, "commands": [ … ] }
```

The comments in these files say what the width and the height are: from outer edge to outer edge of the holes.
-/

namespace Verif.Render

open Verif Verif.Dyn Verif.Path Verif.PlanSet Verif.Svg Verif.Spec Verif.Files Verif.Xml

variable {O : Type}

/-- The library reads the expressions of the screw holes as they are meant. -/
structure ReadsScrews (lib : Lib (XNum ℝ) O) : Prop where
  zero : lib.parse "0".toList = some (.num (.fin 0))
  spaced : lib.parse " 0".toList = some (.num (.fin 0))
  half : ∃ o, lib.parse "diameter / 2".toList = some (.op o (.var "diameter".toList) (.num (.fin 2))) ∧ lib.shortcut o = none ∧
    ∀ x : ℝ, lib.op o (.num (.fin x)) (.num (.fin 2)) = some (.num (.fin (x / 2)))
  across : ∃ o, lib.parse "width - diameter".toList = some (.op o (.var "width".toList) (.var "diameter".toList)) ∧ lib.shortcut o = none ∧
    ∀ x y : ℝ, lib.op o (.num (.fin x)) (.num (.fin y)) = some (.num (.fin (x - y)))
  down : ∃ o, lib.parse " height - diameter".toList = some (.op o (.var "height".toList) (.var "diameter".toList)) ∧ lib.shortcut o = none ∧
    ∀ x y : ℝ, lib.op o (.num (.fin x)) (.num (.fin y)) = some (.num (.fin (x - y)))

/-- Screw holes: their width and, if they are four, their height from outer edge to outer edge, and the diameter of each. -/
structure ScrewHoles where
  width : ℝ
  height : Option ℝ
  diameter : ℝ

/-- A command that draws a hole. -/
def holeCmd : Val (XNum ℝ) := .map [("command".toList, .str "circle".toList), ("radius".toList, .str "diameter / 2".toList)]

/-- designs/common/screw_holes_pair.hfd:14-31, designs/common/screw_holes_rect.hfd:15-48. -/
def ScrewHoles.commands (o : ScrewHoles) : List (Val (XNum ℝ)) :=
  match o.height with
  | none => [textCmd "move".toList "0,0".toList, holeCmd, textCmd "move".toList "width - diameter, 0".toList, holeCmd]
  | some _ => [textCmd "move".toList "0,0".toList, holeCmd, textCmd "move".toList "width - diameter, 0".toList, holeCmd,
      textCmd "move".toList "width - diameter, height - diameter".toList, holeCmd, textCmd "move".toList "0, height - diameter".toList, holeCmd]

/-- The parameters in the document. -/
def ScrewHoles.params (o : ScrewHoles) : DMap (XNum ℝ) :=
  match o.height with
  | none => [("width".toList, .num (.fin o.width)), ("diameter".toList, .num (.fin o.diameter))]
  | some h => [("width".toList, .num (.fin o.width)), ("height".toList, .num (.fin h)), ("diameter".toList, .num (.fin o.diameter))]

/-- The holes in a document. -/
def ScrewHoles.map (o : ScrewHoles) : DMap (XNum ℝ) := [("type".toList, .str "draw".toList), ("params".toList, .map o.params), ("commands".toList, .list o.commands)]

/-- Where the boxes of the holes begin. -/
def ScrewHoles.corners (o : ScrewHoles) : List (Pt ℝ) :=
  match o.height with
  | none => [(0, 0), (o.width - o.diameter, 0)]
  | some h => [(0, 0), (o.width - o.diameter, 0), (o.width - o.diameter, h - o.diameter), (0, h - o.diameter)]

/-- The outline of the hole of this diameter whose box begins here. -/
noncomputable def screwHole (d : ℝ) (q : Pt ℝ) : List (Stroke ℝ) := PenCmd.draws ⟨q, none⟩ (.circle (d / 2))

/-- What they draw. -/
noncomputable def ScrewHoles.draws (o : ScrewHoles) : List (Stroke ℝ) := o.corners.flatMap (screwHole o.diameter)

/-- The holes are holes, and not larger than the whole. -/
structure ScrewHoles.Fits (o : ScrewHoles) : Prop where
  hole : 0 < o.diameter
  width : o.diameter ≤ o.width
  height : ∀ h, o.height = some h → o.diameter ≤ h

/-- A plate with screw holes: its id and its groups of holes. -/
structure ScrewPlate where
  id : Text
  groups : List ScrewHoles

/-- The plate as a piece. -/
def ScrewPlate.piece (o : ScrewPlate) : Piece := ⟨o.id, o.groups.map ScrewHoles.map⟩

/-- What it draws. -/
noncomputable def ScrewPlate.draws (o : ScrewPlate) : List (Stroke ℝ) := o.groups.flatMap ScrewHoles.draws

/-- A document with sheets of this size and these plates. -/
def screwDoc (s : Sheet ℝ) (os : List ScrewPlate) : DMap (XNum ℝ) := pieceDoc s (os.map ScrewPlate.piece)

/-- The plate has a name that can be written, at least one group, and its holes are not larger than the program can count. -/
structure ScrewPlate.WellMade (o : ScrewPlate) : Prop where
  name : o.id ≠ [] ∧ Unmarked o.id
  groups : o.groups ≠ []
  fits : ∀ g ∈ o.groups, g.Fits
  small : ∀ g ∈ o.groups, g.width < 2 ^ 62 ∧ ∀ h, g.height = some h → h < 2 ^ 62

end Verif.Render
