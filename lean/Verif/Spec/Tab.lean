import Verif.Spec.Board

/-!
# Specification vocabulary for tab joints

A tab joint is an edge with one tab (the plug) or one notch (the socket) in its middle, written as in designs/joints/tab_joint_plug.hfd and
designs/joints/tab_joint_socket.hfd:

```
{ "type": "basic_edge", "params": { "tab_width": …, "tab_height": … }, "from": { "x": …, "y": … }, "to": { "x": …, "y": … }, "components": [ { … } ] }
```
-/

namespace Verif.Spec

open Verif Verif.Path

/-- designs/joints/tab_joint_plug.hfd:19-44: the tab, of the width `w` and the height `h`, on an edge of the length `L`. -/
noncomputable def plugTab (w h L : ℝ) : List (Command (XNum ℝ)) :=
  [moveCommand (.fin 0) (.fin h), relLineCommand (.fin ((L - w) / 2)) (.fin 0), relLineCommand (.fin 0) (.fin (-h)), relLineCommand (.fin w) (.fin 0),
   relLineCommand (.fin 0) (.fin h), relLineCommand (.fin ((L - w) / 2)) (.fin 0)]

/-- designs/joints/tab_joint_socket.hfd:19-44: the notch. -/
noncomputable def socketTab (w h L : ℝ) : List (Command (XNum ℝ)) :=
  [moveCommand (.fin 0) (.fin 0), relLineCommand (.fin ((L - w) / 2)) (.fin 0), relLineCommand (.fin 0) (.fin h), relLineCommand (.fin w) (.fin 0),
   relLineCommand (.fin 0) (.fin (-h)), relLineCommand (.fin ((L - w) / 2)) (.fin 0)]

/-- An edge of the length `L` at the height `base`, which for the width `w` in its middle is at the height `tip`. -/
noncomputable def tabLine (base tip w L : ℝ) : List (Stroke ℝ) :=
  [.line (0, base) ((L - w) / 2, base), .line ((L - w) / 2, base) ((L - w) / 2, tip), .line ((L - w) / 2, tip) ((L + w) / 2, tip),
   .line ((L + w) / 2, tip) ((L + w) / 2, base), .line ((L + w) / 2, base) (L, base)]

end Verif.Spec

namespace Verif.Render

open Verif Verif.Dyn Verif.Path Verif.PlanSet Verif.Svg Verif.Spec Verif.Files Verif.Xml

variable {O : Type}

/-- The library reads the expressions of the tabs as they are meant. -/
structure ReadsTabs (lib : Lib (XNum ℝ) O) : Prop where
  zero : lib.parse "0".toList = some (.num (.fin 0))
  width : lib.parse "tab_width".toList = some (.var "tab_width".toList)
  height : lib.parse "tab_height".toList = some (.var "tab_height".toList)
  spaced : lib.parse " tab_height".toList = some (.var "tab_height".toList)
  minus : ∃ o, lib.parse " -tab_height".toList = some (.op o .empty (.var "tab_height".toList)) ∧ lib.shortcut o = none ∧
    ∀ x : ℝ, lib.op o .null (.num (.fin x)) = some (.num (.fin (-x)))
  half : ∃ o o', lib.parse "(width - tab_width) / 2".toList = some (.op o (.op o' (.var "width".toList) (.var "tab_width".toList)) (.num (.fin 2))) ∧
    lib.shortcut o = none ∧ lib.shortcut o' = none ∧ (∀ x y : ℝ, lib.op o' (.num (.fin x)) (.num (.fin y)) = some (.num (.fin (x - y)))) ∧
    ∀ x : ℝ, lib.op o (.num (.fin x)) (.num (.fin 2)) = some (.num (.fin (x / 2)))

/-- A tab joint: a plug or a socket, the width and the height of its tab, where it starts and where it ends. -/
structure TabJoint where
  plug : Bool
  width : ℝ
  height : ℝ
  start : Pt ℝ
  stop : Pt ℝ

/-- `{ "command": …, "to": "…" }` in a document. -/
def textCmd (name point : Text) : Val (XNum ℝ) := .map [("command".toList, .str name), ("to".toList, .str point)]

/-- designs/joints/tab_joint_plug.hfd:19-44, designs/joints/tab_joint_socket.hfd:19-44. -/
def tabCommands (plug : Bool) : List (Val (XNum ℝ)) :=
  [textCmd "move".toList (if plug then "0,tab_height".toList else "0,0".toList), textCmd "rel_line".toList "(width - tab_width) / 2,0".toList,
    textCmd "rel_line".toList (if plug then "0, -tab_height".toList else "0, tab_height".toList), textCmd "rel_line".toList "tab_width,0".toList,
    textCmd "rel_line".toList (if plug then "0, tab_height".toList else "0, -tab_height".toList), textCmd "rel_line".toList "(width - tab_width) / 2,0".toList]

/-- The parameters in the document. -/
def TabJoint.params (o : TabJoint) : DMap (XNum ℝ) := [("tab_width".toList, .num (.fin o.width)), ("tab_height".toList, .num (.fin o.height))]

/-- The joint in a document. -/
def TabJoint.map (o : TabJoint) : DMap (XNum ℝ) :=
  [("type".toList, .str "basic_edge".toList), ("params".toList, .map o.params), ("from".toList, pairVal o.start), ("to".toList, pairVal o.stop),
    ("components".toList, .list [.map (drawingMap (tabCommands o.plug))])]

/-- What it draws: the edge with the tab or the notch, along the line from the start to the end. -/
noncomputable def TabJoint.draws (o : TabJoint) : List (Stroke ℝ) :=
  (if o.plug then tabLine o.height 0 o.width (lengthOf o.start o.stop) else tabLine 0 o.height o.width (lengthOf o.start o.stop)).map
    (Stroke.map (along o.start o.stop))

end Verif.Render
