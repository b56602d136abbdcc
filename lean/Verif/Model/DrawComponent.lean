import Verif.Model.DrawCmd
import Verif.Model.Transforms

/-!
# Model of `dom/draw_component.go`

The attributes of a command are looked up in the map of the command and in the parameters of the component. A command is modelled as its
name and the four lookups; the theorems hold for all of them. The transforms of the component are not part of
this model.
-/

namespace Verif.Path

open Verif

universe u v

/-- The commands of a draw component (dom/draw_component.go:101-298). -/
inductive DrawOp where
  | move | relMove | lineByAngle | line | relLine | curve | relCurve | smoothCurve | relSmoothCurve | circle | rectangle
  | roundCorner | relRoundCorner | svg | svgScaleTo | relSvgScaleTo | svgConnectTo | relSvgConnectTo
deriving Repr, DecidableEq

/-- dom/draw_component.go:101-285: the texts in the `case` clauses. -/
def DrawOp.text : DrawOp → Text
  | .move => "move".toList
  | .relMove => "rel_move".toList
  | .lineByAngle => "line_by_angle".toList
  | .line => "line".toList
  | .relLine => "rel_line".toList
  | .curve => "curve".toList
  | .relCurve => "rel_curve".toList
  | .smoothCurve => "smooth_curve".toList
  | .relSmoothCurve => "rel_smooth_curve".toList
  | .circle => "circle".toList
  | .rectangle => "rectangle".toList
  | .roundCorner => "round_corner".toList
  | .relRoundCorner => "rel_round_corner".toList
  | .svg => "svg".toList
  | .svgScaleTo => "svg_scale_to".toList
  | .relSvgScaleTo => "rel_svg_scale_to".toList
  | .svgConnectTo => "svg_connect_to".toList
  | .relSvgConnectTo => "rel_svg_connect_to".toList

/-- All commands, in the order of the `case` clauses. -/
def DrawOp.all : List DrawOp :=
  [.move, .relMove, .lineByAngle, .line, .relLine, .curve, .relCurve, .smoothCurve, .relSmoothCurve, .circle, .rectangle, .roundCorner,
   .relRoundCorner, .svg, .svgScaleTo, .relSvgScaleTo, .svgConnectTo, .relSvgConnectTo]

/-- The command with the given text. -/
def DrawOp.ofText (s : Text) : Option DrawOp := DrawOp.all.find? fun c => decide (c.text = s)

/-- A command of a draw component: its name (dom/draw_component.go:97, `unknown` if there is none) and its attributes
(dom/draw_component.go:98, `DmAttr`): what `Point`, `Float64`, `SvgString` and `Bool` find under a name. -/
structure Command (F : Type u) where
  name : Text
  point : Text → Option (Point F)
  number : Text → Option F
  text : Text → Option Text
  flag : Text → Option Bool

/-- `if !found { return nil, ctx, fmt.Errorf(…) }` (for instance dom/draw_component.go:103-105). -/
def need {α : Type v} {β : Type u} (o : Option α) (f : α → Res β) : Res β :=
  match o with
  | some a => f a
  | none => .err

/-- The attribute names. -/
def toKey : Text := "to".toList
def lengthKey : Text := "length".toList
def angleKey : Text := "angle".toList
def ctrlStartKey : Text := "ctrl_start".toList
def ctrlEndKey : Text := "ctrl_end".toList
def radiusKey : Text := "radius".toList
def widthKey : Text := "width".toList
def heightKey : Text := "height".toList
def cornerKey : Text := "corner".toList
def svgKey : Text := "svg".toList
def reverseKey : Text := "reverse".toList

variable {F : Type u} [Trig F]

/-- dom/draw_component.go:36-45, 61-70: the path of an svg text, reversed on request. -/
def svgRun (svg : Text) (reverse : Bool) : Option (Path F) :=
  (parsePath svg).map fun q => if reverse then reversePath q else q

/-- dom/draw_component.go:34-57 (`svgRotateScaleTo`). -/
def svgRotateScaleTo (p : Path F) (target : Point F) (svg : Text) (reverse : Bool) : Res (Path F) :=
  need (svgRun svg reverse) fun q => do
    let r ← rotateScale (startAndEndOf p).2 target q
    return addSegments p r

/-- dom/draw_component.go:59-90 (`svgScaleTo`); the factors, the width and the height of the scaling are left at zero. -/
def svgScaleTo (p : Path F) (target : Point F) (svg : Text) (reverse : Bool) : Res (Path F) :=
  need (svgRun svg reverse) fun q => do
    let stop := (startAndEndOf p).2
    let r ← move stop Attr.startPoint.text (scale ⟨Arith.zero, Arith.zero, stop, target, Arith.zero, Arith.zero⟩ q)
    return addSegments p r

/-- dom/draw_component.go:96-301: one command. -/
def Command.exec (c : Command F) (p : Path F) : Res (Path F) :=
  match DrawOp.ofText c.name with
  | none => .err
  | some .move => need (c.point toKey) fun t => .ok (moveTo p t)
  | some .relMove => need (c.point toKey) fun t => .ok (relMoveTo p t)
  | some .lineByAngle => need (c.number lengthKey) fun l => need (c.number angleKey) fun a => .ok (Path.lineByAngle p l a)
  | some .line => need (c.point toKey) fun t => .ok (lineTo p t)
  | some .relLine => need (c.point toKey) fun t => .ok (relLineTo p t)
  | some .curve => need (c.point toKey) fun t => need (c.point ctrlStartKey) fun a => need (c.point ctrlEndKey) fun b => .ok (curveTo p a b t)
  | some .relCurve =>
    need (c.point toKey) fun t => need (c.point ctrlStartKey) fun a => need (c.point ctrlEndKey) fun b => .ok (relCurveTo p a b t)
  | some .smoothCurve => need (c.point toKey) fun t => need (c.point ctrlEndKey) fun b => .ok (smoothCurveTo p b t)
  | some .relSmoothCurve => need (c.point toKey) fun t => need (c.point ctrlEndKey) fun b => .ok (relSmoothCurveTo p b t)
  | some .circle => need (c.number radiusKey) fun r => .ok (Path.circle p r)
  | some .rectangle => need (c.number widthKey) fun w => need (c.number heightKey) fun h => .ok (rect p w h)
  | some .roundCorner =>
    need (c.number radiusKey) fun r => need (c.point toKey) fun t => need (c.point cornerKey) fun k => .ok (roundedCornerTo p t k r)
  | some .relRoundCorner =>
    need (c.number radiusKey) fun r => need (c.point toKey) fun t => need (c.point cornerKey) fun k => .ok (relRoundedCornerTo p t k r)
  | some .svg => need (c.text svgKey) fun s => need (parsePath s) fun q => .ok (addSegments p q)
  | some .svgScaleTo =>
    need (c.text svgKey) fun s => need (c.point toKey) fun t => Path.svgScaleTo p t s ((c.flag reverseKey).getD false)
  | some .relSvgScaleTo =>
    need (c.text svgKey) fun s => need (c.point toKey) fun t => Path.svgScaleTo p (toAbs p t) s ((c.flag reverseKey).getD false)
  | some .svgConnectTo =>
    need (c.text svgKey) fun s => need (c.point toKey) fun t => svgRotateScaleTo p t s ((c.flag reverseKey).getD false)
  | some .relSvgConnectTo =>
    need (c.text svgKey) fun s => need (c.point toKey) fun t => svgRotateScaleTo p (toAbs p t) s ((c.flag reverseKey).getD false)

/-- dom/draw_component.go:96-302: all commands, one after the other; the first error ends the rendering. -/
def execAll : List (Command F) → Path F → Res (Path F)
  | [], p => .ok p
  | c :: cs, p =>
    match c.exec p with
    | .ok q => execAll cs q
    | .err => .err
    | .panic => .panic

/-- dom/draw_component.go:92-303 (`Render` without the transforms): the path begins with a move to the cursor. -/
def drawRender (cursor : Point F) (cs : List (Command F)) : Res (Path F) := execAll cs (moveTo [] cursor)

end Verif.Path
