import Verif.Spec.Piece
import Verif.Spec.Sketch
import Verif.Spec.Joint
import Verif.Spec.Params

/-!
# Specification vocabulary for documents of boards with finger joints

A board is a part whose components are finger joints, as in designs/joints/finger_joint_plug.hfd and designs/joints/finger_joint_socket.hfd, with any
sizes and anywhere. The parameters are those of the component; `id` and `custom_component` are left out, and `from` is given.

```
{ "type": "repeat_edge", "params": { "finger_width": …, "finger_height": …, "finger_space": … },
  "padding_left": "finger_height * 1.1", "padding_right": "finger_height * 1.1", "from": { "x": …, "y": … }, "to": { "x": …, "y": … }, "handle": "$ORIGIN",
  "transforms": [ { "type": "join", "close_path": false } ], "repeatable": { … }, "left": { … }, "right": { … } }
```
-/

namespace Verif.Render

open Verif Verif.Dyn Verif.Path Verif.PlanSet Verif.Svg Verif.Spec Verif.Files Verif.Xml

variable {O : Type}

/-- The library reads the expressions of the shipped joints as they are meant. -/
structure ReadsJoints (lib : Lib (XNum ℝ) O) : Prop where
  names : ∀ x ∈ ["finger_width".toList, "finger_height".toList, "left_width".toList, "right_width".toList], lib.parse x = some (.var x)
  half : ∃ o, lib.parse "finger_space / 2".toList = some (.op o (.var "finger_space".toList) (.num (.fin 2))) ∧ lib.shortcut o = none ∧
    ∀ x : ℝ, lib.op o (.num (.fin x)) (.num (.fin 2)) = some (.num (.fin (x / 2)))
  minus : ∃ o, lib.parse "0-finger_height".toList = some (.op o (.num (.fin 0)) (.var "finger_height".toList)) ∧ lib.shortcut o = none ∧
    ∀ x : ℝ, lib.op o (.num (.fin 0)) (.num (.fin x)) = some (.num (.fin (0 - x)))
  times : ∃ o, lib.parse "finger_height * 1.1".toList = some (.op o (.var "finger_height".toList) (.num (.fin (11 / 10)))) ∧ lib.shortcut o = none ∧
    ∀ x : ℝ, lib.op o (.num (.fin x)) (.num (.fin (11 / 10))) = some (.num (.fin (x * (11 / 10))))

/-- A finger joint: a plug or a socket, the width and the height of its fingers and the space between them, where it starts and where it ends. -/
structure FingerJoint where
  plug : Bool
  width : ℝ
  height : ℝ
  space : ℝ
  start : Pt ℝ
  stop : Pt ℝ

/-- A command with a point. -/
def pointCmd (name : Text) (x y : Val (XNum ℝ)) : Val (XNum ℝ) :=
  .map [("command".toList, .str name), ("to".toList, .map [("x".toList, x), ("y".toList, y)])]

/-- `0` in a document. -/
def zeroVal : Val (XNum ℝ) := .num (.fin 0)

/-- designs/joints/finger_joint_plug.hfd:32-78. -/
def plugCommands : List (Val (XNum ℝ)) :=
  [pointCmd "move".toList zeroVal (.str "finger_height".toList), pointCmd "rel_line".toList (.str "finger_space / 2".toList) zeroVal,
    pointCmd "rel_line".toList zeroVal (.str "0-finger_height".toList), pointCmd "rel_line".toList (.str "finger_width".toList) zeroVal,
    pointCmd "rel_line".toList zeroVal (.str "finger_height".toList), pointCmd "rel_line".toList (.str "finger_space / 2".toList) zeroVal]

/-- designs/joints/finger_joint_plug.hfd:79-116. -/
def plugEndCommands (rest : Text) : List (Val (XNum ℝ)) :=
  [pointCmd "move".toList zeroVal (.str "finger_height".toList), pointCmd "rel_line".toList (.str rest) zeroVal]

/-- designs/joints/finger_joint_socket.hfd:32-71. -/
def socketCommands : List (Val (XNum ℝ)) :=
  [pointCmd "rel_line".toList (.str "finger_space / 2".toList) zeroVal, pointCmd "rel_line".toList zeroVal (.str "finger_height".toList),
    pointCmd "rel_line".toList (.str "finger_width".toList) zeroVal, pointCmd "rel_line".toList zeroVal (.str "0-finger_height".toList),
    pointCmd "rel_line".toList (.str "finger_space / 2".toList) zeroVal]

/-- designs/joints/finger_joint_socket.hfd:72-109. -/
def socketEndCommands (rest : Text) : List (Val (XNum ℝ)) :=
  [pointCmd "move".toList zeroVal zeroVal, pointCmd "rel_line".toList (.str rest) zeroVal]

/-- A drawing in a document. -/
def drawingMap (cs : List (Val (XNum ℝ))) : DMap (XNum ℝ) := [("type".toList, .str "draw".toList), ("commands".toList, .list cs)]

/-- The joint in a document. -/
def FingerJoint.map (o : FingerJoint) : DMap (XNum ℝ) :=
  [("type".toList, .str "repeat_edge".toList),
    ("params".toList, .map [("finger_width".toList, .num (.fin o.width)), ("finger_height".toList, .num (.fin o.height)), ("finger_space".toList, .num (.fin o.space))]),
    ("padding_left".toList, .str "finger_height * 1.1".toList), ("padding_right".toList, .str "finger_height * 1.1".toList),
    ("from".toList, pairVal o.start), ("to".toList, pairVal o.stop),
    ("handle".toList, .str (if o.plug then "$ORIGIN".toList else "$START_POINT".toList)),
    ("transforms".toList, .list [.map [("type".toList, .str "join".toList), ("close_path".toList, .bool false)]]),
    ("repeatable".toList, .map (drawingMap (if o.plug then plugCommands else socketCommands))),
    ("left".toList, .map (drawingMap (if o.plug then plugEndCommands "left_width".toList else socketEndCommands "left_width".toList))),
    ("right".toList, .map (drawingMap (if o.plug then plugEndCommands "right_width".toList else socketEndCommands "right_width".toList)))]

/-- What is kept free at both ends. -/
noncomputable def FingerJoint.pad (o : FingerJoint) : ℝ := o.height * (11 / 10)

/-- How many fingers there are. -/
noncomputable def FingerJoint.fingers (o : FingerJoint) : ℕ := teeth o.width o.space o.pad o.pad (lengthOf o.start o.stop)

/-- The outline: a comb along the line from the start to the end. -/
noncomputable def FingerJoint.draws (o : FingerJoint) : List (Stroke ℝ) :=
  (comb (if o.plug then o.height else 0) (if o.plug then 0 else o.height) o.width o.space
    (teethStart o.width o.space o.pad o.pad (lengthOf o.start o.stop)) o.fingers (lengthOf o.start o.stop)).map (Stroke.map (along o.start o.stop))

/-- The sizes can be cut: fingers of a positive width, neither lower than two thousandths nor closer than four thousandths, and room for at least one, but not for
more than the program can count. -/
structure FingerJoint.Fits (o : FingerJoint) : Prop where
  apart : o.start ≠ o.stop
  width : 0 < o.width
  height : 2 / 1000 ≤ o.height
  space : 4 / 1000 ≤ o.space
  some : o.fingers ≠ 0
  count : (lengthOf o.start o.stop - (o.pad + o.pad)) / (o.space + o.width) < 2 ^ 62
  room : o.pad + o.pad < lengthOf o.start o.stop

/-- A board: its id and its joints. -/
structure Board where
  id : Text
  joints : List FingerJoint

/-- The board as a piece. -/
def Board.piece (o : Board) : Piece := ⟨o.id, o.joints.map FingerJoint.map⟩

/-- What it draws. -/
noncomputable def Board.draws (o : Board) : List (Stroke ℝ) := o.joints.flatMap FingerJoint.draws

/-- A document with sheets of this size and these boards. -/
def boardDoc (s : Sheet ℝ) (os : List Board) : DMap (XNum ℝ) := pieceDoc s (os.map Board.piece)

/-- The board has a name that can be written, its joints fit, and it has a size. -/
structure Board.WellMade (o : Board) : Prop where
  name : o.id ≠ [] ∧ Unmarked o.id
  fits : ∀ j ∈ o.joints, j.Fits
  sizeable : Sizeable o.draws

end Verif.Render
