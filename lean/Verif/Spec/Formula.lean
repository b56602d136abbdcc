import Verif.Spec.Tiles
import Verif.Spec.Params

/-!
# Specification vocabulary for documents with parameters and expressions

As in `Verif/Spec/Tiles.lean`, but numbers may be written as expressions of the parameters of the document:

```
{ "params": { "width": 4, "half": "width/2" }, "material_width": "6*half", …,
  "parts": [ { …, "components": [ { "type": "draw", "commands": [ { "command": "circle", "radius": "half" }, … ] }, … ] }, … ] }
```

Every number of such a document is a `Slot`: what is written there, and what it is worth.
-/

namespace Verif.Render

open Verif Verif.Dyn Verif.Path Verif.PlanSet Verif.Svg Verif.Spec Verif.Files Verif.Xml

variable {O : Type}

/-- A number as it is written: as it is, or as a text, with what it should be worth. -/
inductive Slot where
  | plain (x : ℝ)
  | text (t : Text) (x : ℝ)

/-- What is written. -/
def Slot.shown : Slot → Val (XNum ℝ)
  | .plain x => .num (.fin x)
  | .text t _ => .str t

/-- What it should be worth. -/
def Slot.worth : Slot → ℝ
  | .plain x => x
  | .text _ x => x

/-- The words of the document, its parts and its drawings. -/
def docWords : List Text :=
  ["id".toList, "components".toList, "label".toList, "repeat".toList, "type".toList, "part_index".toList, "commands".toList, "material_width".toList,
    "material_height".toList, "doc_padding".toList, "parts".toList, "params".toList, "measurement_units".toList]

/-- The words of commands. -/
def cmdWords : List Text :=
  ["command".toList, "to".toList, "ctrl_start".toList, "ctrl_end".toList, "length".toList, "angle".toList, "width".toList, "height".toList, "radius".toList]

/-- The text before the first dot. -/
def firstOf (t : Text) : Text := t.takeWhile fun c => decide (c ≠ '.')

/-- The text does not name anything in the document itself. -/
def Free (t : Text) : Prop := firstOf t ∉ docWords

/-- Parameters: their names are different words of their own, which the library reads as names, and they are numbers or texts that do not look like numbers. -/
structure FineParams (lib : Lib (XNum ℝ) O) (ps : DMap (XNum ℝ)) : Prop where
  nodup : (ps.map (·.1)).Nodup
  names : ∀ e ∈ ps, '.' ∉ e.1 ∧ e.1 ∉ docWords ∧ lib.parse e.1 = some (.var e.1)
  values : ∀ e ∈ ps, (∃ x, e.2 = .num x) ∨ ∃ t, e.2 = .str t ∧ '$' ∉ t ∧ Free t ∧ toFloat64 (.str t : Val (XNum ℝ)) = none

/-- What a name stands for if there is nothing but the parameters. -/
def paramLook (ps : DMap (XNum ℝ)) (x : Text) : Option (Val (XNum ℝ)) := (Chain.document ⟨ps, [], []⟩ []).lookup x

/-- What is written is worth that much: it is the number itself, or a text with this value. -/
def Stands (lib : Lib (XNum ℝ) O) (ps : DMap (XNum ℝ)) : Slot → Prop
  | .plain _ => True
  | .text t x => '$' ∉ t ∧ Free t ∧ ∃ n ≤ maxRecursion, Means lib (paramLook ps) (· ≤ maxRecursion) t (.num (.fin x)) n

/-- The text of a number of a command that is called `key` does not name another number of the command; it may be the name of a parameter that is called the same. -/
def Clear (ps : DMap (XNum ℝ)) (key : Text) : Slot → Prop
  | .plain _ => True
  | .text t _ => firstOf t ∉ cmdWords ∨ t = key ∧ (paramLook ps key).isSome

/-- A command for the pen, as it is written. -/
inductive Form where
  | move (x y : Slot)
  | relMove (x y : Slot)
  | line (x y : Slot)
  | relLine (x y : Slot)
  | curve (cx cy dx dy x y : Slot)
  | relCurve (cx cy dx dy x y : Slot)
  | smooth (dx dy x y : Slot)
  | relSmooth (dx dy x y : Slot)
  | angle (length degrees : Slot)
  | rectangle (width height : Slot)
  | circle (radius : Slot)

/-- The command. -/
def Form.cmd : Form → PenCmd
  | .move x y => .move (x.worth, y.worth)
  | .relMove x y => .relMove (x.worth, y.worth)
  | .line x y => .line (x.worth, y.worth)
  | .relLine x y => .relLine (x.worth, y.worth)
  | .curve cx cy dx dy x y => .curve (cx.worth, cy.worth) (dx.worth, dy.worth) (x.worth, y.worth)
  | .relCurve cx cy dx dy x y => .relCurve (cx.worth, cy.worth) (dx.worth, dy.worth) (x.worth, y.worth)
  | .smooth dx dy x y => .smooth (dx.worth, dy.worth) (x.worth, y.worth)
  | .relSmooth dx dy x y => .relSmooth (dx.worth, dy.worth) (x.worth, y.worth)
  | .angle l a => .angle l.worth a.worth
  | .rectangle w h => .rectangle w.worth h.worth
  | .circle r => .circle r.worth

/-- A point in a document. -/
def slotPair (x y : Slot) : Val (XNum ℝ) := .map [("x".toList, x.shown), ("y".toList, y.shown)]

/-- The command in a document. -/
def formMap : Form → DMap (XNum ℝ)
  | .move x y => [("command".toList, .str "move".toList), ("to".toList, slotPair x y)]
  | .relMove x y => [("command".toList, .str "rel_move".toList), ("to".toList, slotPair x y)]
  | .line x y => [("command".toList, .str "line".toList), ("to".toList, slotPair x y)]
  | .relLine x y => [("command".toList, .str "rel_line".toList), ("to".toList, slotPair x y)]
  | .curve cx cy dx dy x y =>
    [("command".toList, .str "curve".toList), ("ctrl_start".toList, slotPair cx cy), ("ctrl_end".toList, slotPair dx dy), ("to".toList, slotPair x y)]
  | .relCurve cx cy dx dy x y =>
    [("command".toList, .str "rel_curve".toList), ("ctrl_start".toList, slotPair cx cy), ("ctrl_end".toList, slotPair dx dy), ("to".toList, slotPair x y)]
  | .smooth dx dy x y => [("command".toList, .str "smooth_curve".toList), ("ctrl_end".toList, slotPair dx dy), ("to".toList, slotPair x y)]
  | .relSmooth dx dy x y => [("command".toList, .str "rel_smooth_curve".toList), ("ctrl_end".toList, slotPair dx dy), ("to".toList, slotPair x y)]
  | .angle l a => [("command".toList, .str "line_by_angle".toList), ("length".toList, l.shown), ("angle".toList, a.shown)]
  | .rectangle w h => [("command".toList, .str "rectangle".toList), ("width".toList, w.shown), ("height".toList, h.shown)]
  | .circle r => [("command".toList, .str "circle".toList), ("radius".toList, r.shown)]

/-- The coordinates in a command. -/
def Form.points : Form → List Slot
  | .move x y => [x, y]
  | .relMove x y => [x, y]
  | .line x y => [x, y]
  | .relLine x y => [x, y]
  | .curve cx cy dx dy x y => [cx, cy, dx, dy, x, y]
  | .relCurve cx cy dx dy x y => [cx, cy, dx, dy, x, y]
  | .smooth dx dy x y => [dx, dy, x, y]
  | .relSmooth dx dy x y => [dx, dy, x, y]
  | _ => []

/-- The numbers of a command that have names. -/
def Form.named : Form → List (Text × Slot)
  | .angle l a => [("length".toList, l), ("angle".toList, a)]
  | .rectangle w h => [("width".toList, w), ("height".toList, h)]
  | .circle r => [("radius".toList, r)]
  | _ => []

/-- All numbers of the command are worth what they should be. -/
def Form.Fine (lib : Lib (XNum ℝ) O) (ps : DMap (XNum ℝ)) (c : Form) : Prop :=
  (∀ s ∈ c.points, Stands lib ps s) ∧ ∀ e ∈ c.named, Stands lib ps e.2 ∧ Clear ps e.1 e.2

/-- A sketch with a label and copies, as it is written. -/
structure FormTile where
  id : Text
  drawings : List (List Form)
  label : Text
  copies : Nat
  total : Slot

/-- The tile. -/
def FormTile.tile (o : FormTile) : Tile := ⟨⟨o.id, o.drawings.map fun cs => cs.map Form.cmd⟩, o.label, o.copies⟩

/-- A drawing in a document. -/
def formDrawing (cs : List Form) : DMap (XNum ℝ) := [("type".toList, .str "draw".toList), ("commands".toList, .list (cs.map fun c => .map (formMap c)))]

/-- The tile as a part of a document. -/
def formTileMap (o : FormTile) : DMap (XNum ℝ) :=
  [("id".toList, .str o.id), ("components".toList, .list (o.drawings.map fun cs => .map (formDrawing cs))),
    ("label".toList, .map [("text".toList, .str o.label)]), ("repeat".toList, .map [("total".toList, o.total.shown)])]

/-- The tile is fine: it has a name, its numbers are worth what they should be, and the label does not name anything. -/
structure FormTile.Fine (lib : Lib (XNum ℝ) O) (ps : DMap (XNum ℝ)) (o : FormTile) : Prop where
  id : o.id ≠ []
  cmds : ∀ cs ∈ o.drawings, ∀ c ∈ cs, c.Fine lib ps
  total : Stands lib ps o.total ∧ o.total.worth = o.copies
  label : Free o.label ∧ paramLook ps o.label = none

/-- The parameters of a document, if there are any. -/
def paramsPart : DMap (XNum ℝ) → DMap (XNum ℝ)
  | [] => []
  | ps => [("params".toList, .map ps)]

/-- A document with these parameters, sheets of this size and these tiles as parts. -/
def formDoc (ps : DMap (XNum ℝ)) (w h p : Slot) (os : List FormTile) : DMap (XNum ℝ) :=
  paramsPart ps ++ [("material_width".toList, w.shown), ("material_height".toList, h.shown), ("doc_padding".toList, p.shown),
    ("parts".toList, .list (os.map fun o => .map (formTileMap o)))]

/-- A command with its numbers as they are. -/
def PenCmd.form : PenCmd → Form
  | .move q => .move (.plain q.1) (.plain q.2)
  | .relMove q => .relMove (.plain q.1) (.plain q.2)
  | .line q => .line (.plain q.1) (.plain q.2)
  | .relLine q => .relLine (.plain q.1) (.plain q.2)
  | .curve c d q => .curve (.plain c.1) (.plain c.2) (.plain d.1) (.plain d.2) (.plain q.1) (.plain q.2)
  | .relCurve c d q => .relCurve (.plain c.1) (.plain c.2) (.plain d.1) (.plain d.2) (.plain q.1) (.plain q.2)
  | .smooth d q => .smooth (.plain d.1) (.plain d.2) (.plain q.1) (.plain q.2)
  | .relSmooth d q => .relSmooth (.plain d.1) (.plain d.2) (.plain q.1) (.plain q.2)
  | .angle l a => .angle (.plain l) (.plain a)
  | .rectangle w h => .rectangle (.plain w) (.plain h)
  | .circle r => .circle (.plain r)

/-- A tile with its numbers as they are. -/
def Tile.form (o : Tile) : FormTile := ⟨o.sketch.id, o.sketch.drawings.map fun cs => cs.map PenCmd.form, o.label, o.copies, .plain o.copies⟩

end Verif.Render
