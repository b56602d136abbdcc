import Verif.Spec.Board
import Verif.Spec.Scene
import Verif.Spec.Line
import Verif.Spec.Screw
import Verif.Spec.SvgEdge
import Verif.Spec.Wheel

/-!
# Specification vocabulary for documents of panels

A panel is a part in which drawings and groups of them, finger joints, rows of holes, gears, tab joints, straight edges, screw holes and
edges that are drawn as an svg text are mixed. A row of holes is written as in designs/joints/finger_joint_holes.hfd:

```
{ "type": "repeat_edge", "params": { "finger_width": …, "finger_height": …, "finger_space": …, "finger_depth": … },
  "padding_left": "finger_height * 1.1", "padding_right": "finger_height * 1.1", "from": { "x": …, "y": … }, "to": { "x": …, "y": … }, "handle": "$ORIGIN",
  "repeatable": { … }, "left": { … }, "right": { … } }
```
-/

namespace Verif.Render

open Verif Verif.Dyn Verif.Path Verif.PlanSet Verif.Svg Verif.Spec Verif.Files Verif.Xml

variable {O : Type}

/-- The library reads the expression of the holes as it is meant. -/
def ReadsHoles (lib : Lib (XNum ℝ) O) : Prop :=
  ∃ o o', lib.parse "finger_width + finger_space / 2".toList = some (.op o (.var "finger_width".toList) (.op o' (.var "finger_space".toList) (.num (.fin 2)))) ∧
    lib.shortcut o = none ∧ lib.shortcut o' = none ∧ (∀ x : ℝ, lib.op o' (.num (.fin x)) (.num (.fin 2)) = some (.num (.fin (x / 2)))) ∧
    ∀ x y : ℝ, lib.op o (.num (.fin x)) (.num (.fin y)) = some (.num (.fin (x + y)))

/-- A row of holes for the fingers of a plug: the width and the height of the fingers and the space between them, the thickness of the material, where it starts and where it
ends. -/
structure HoleRow where
  width : ℝ
  height : ℝ
  space : ℝ
  depth : ℝ
  start : Pt ℝ
  stop : Pt ℝ

/-- designs/joints/finger_joint_holes.hfd:27-50. -/
def holeCommands : List (Val (XNum ℝ)) :=
  [pointCmd "move".toList (.str "finger_space / 2".toList) zeroVal,
    .map [("command".toList, .str "rectangle".toList), ("width".toList, .str "finger_width".toList), ("height".toList, .str "finger_depth".toList)],
    pointCmd "rel_move".toList (.str "finger_width + finger_space / 2".toList) zeroVal]

/-- designs/joints/finger_joint_holes.hfd:51-88. -/
def holeEndCommands (rest : Text) : List (Val (XNum ℝ)) := [pointCmd "move".toList zeroVal zeroVal, pointCmd "rel_move".toList (.str rest) zeroVal]

/-- The parameters in the document. -/
def HoleRow.params (o : HoleRow) : DMap (XNum ℝ) :=
  [("finger_width".toList, .num (.fin o.width)), ("finger_height".toList, .num (.fin o.height)), ("finger_space".toList, .num (.fin o.space)),
    ("finger_depth".toList, .num (.fin o.depth))]

/-- The holes in a document. -/
def HoleRow.map (o : HoleRow) : DMap (XNum ℝ) :=
  [("type".toList, .str "repeat_edge".toList), ("params".toList, .map o.params),
    ("padding_left".toList, .str "finger_height * 1.1".toList), ("padding_right".toList, .str "finger_height * 1.1".toList),
    ("from".toList, pairVal o.start), ("to".toList, pairVal o.stop), ("handle".toList, .str "$ORIGIN".toList),
    ("repeatable".toList, .map (drawingMap holeCommands)), ("left".toList, .map (drawingMap (holeEndCommands "left_width".toList))),
    ("right".toList, .map (drawingMap (holeEndCommands "right_width".toList)))]

/-- What is kept free at both ends. -/
noncomputable def HoleRow.pad (o : HoleRow) : ℝ := o.height * (11 / 10)

/-- How many holes there are. -/
noncomputable def HoleRow.holes (o : HoleRow) : ℕ := teeth o.width o.space o.pad o.pad (lengthOf o.start o.stop)

/-- The holes: rectangles along the line from the start to the end, each where a plug along the same line has a finger. -/
noncomputable def HoleRow.draws (o : HoleRow) : List (Stroke ℝ) :=
  ((List.range o.holes).flatMap fun k : ℕ => holeAt o.width o.depth (teethStart o.width o.space o.pad o.pad (lengthOf o.start o.stop) + k * (o.space + o.width) + o.space / 2)).map
    (Stroke.map (along o.start o.stop))

/-- There is room for at least one hole, but not for more than the program can count. -/
structure HoleRow.Fits (o : HoleRow) : Prop where
  apart : o.start ≠ o.stop
  width : 0 < o.width
  space : 0 ≤ o.space
  some : o.holes ≠ 0
  count : (lengthOf o.start o.stop - (o.pad + o.pad)) / (o.space + o.width) < 2 ^ 62

/-- Something on a panel. -/
inductive PanelItem where
  | scene (s : Scene)
  | joint (j : FingerJoint)
  | holes (r : HoleRow)
  | gear (g : Wheel)
  | tab (t : TabJoint)
  | line (a b : Pt ℝ)
  | screws (h : ScrewHoles)
  | edge (e : SvgEdge)

/-- It in a document. -/
def PanelItem.map : PanelItem → DMap (XNum ℝ)
  | .scene s => s.map
  | .joint j => j.map
  | .holes r => r.map
  | .gear g => g.map
  | .tab t => t.map
  | .line a b => LineEdge.map ⟨some a, b⟩
  | .screws h => h.map
  | .edge e => e.map

/-- What it draws. -/
noncomputable def PanelItem.draws : PanelItem → List (Stroke ℝ)
  | .scene s => (s.draws (0, 0)).1
  | .joint j => j.draws
  | .holes r => r.draws
  | .gear g => g.draws
  | .tab t => t.draws
  | .line a b => [.line a b]
  | .screws h => h.draws
  | .edge e => e.draws

/-- The scene is drawn at the same place wherever the pen was before, because it begins with a move to some point. -/
def Scene.Anchored (s : Scene) : Prop := ∀ q : Pt ℝ, (s.draws q).1 = (s.draws (0, 0)).1

/-- It can be drawn. -/
def PanelItem.Fits (n : Nat) : PanelItem → Prop
  | .scene s => s.Anchored ∧ s.depth ≤ n
  | .joint j => j.Fits
  | .holes r => r.Fits
  | .gear g => g.Fits
  | .tab t => t.start ≠ t.stop
  | .line a b => a ≠ b
  | .screws h => h.Fits
  | .edge e => e.WellMade

/-- A panel: its id and what is on it. -/
structure Panel where
  id : Text
  items : List PanelItem

/-- The panel as a piece. -/
def Panel.piece (o : Panel) : Piece := ⟨o.id, o.items.map PanelItem.map⟩

/-- What it draws. -/
noncomputable def Panel.draws (o : Panel) : List (Stroke ℝ) := o.items.flatMap PanelItem.draws

/-- A document with sheets of this size and these panels. -/
def panelDoc (s : Sheet ℝ) (os : List Panel) : DMap (XNum ℝ) := pieceDoc s (os.map Panel.piece)

/-- The panel has a name that can be written, everything on it can be drawn, and it has a size. -/
structure Panel.WellMade (n : Nat) (o : Panel) : Prop where
  name : o.id ≠ [] ∧ Unmarked o.id
  fits : ∀ i ∈ o.items, i.Fits n
  sizeable : Sizeable o.draws

end Verif.Render
