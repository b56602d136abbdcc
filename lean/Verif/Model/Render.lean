import Verif.Model.Tree
import Verif.Model.Attr
import Verif.Model.Document
import Verif.Model.SvgDoc
import Verif.Model.Typecast
import Verif.Model.Main

/-!
# Model of the rendering of a document

The files of this package are put together here: a document that has been parsed (`Verif/Model/Document.lean`) is rendered to the texts of its sheets.
Unlike in `Verif/Model/Tree.lean` nothing is left open: attributes are looked up in the maps of the elements (`Verif/Model/Attr.lean`), and the variables
that components set while they are rendered stay behind. An element keeps its local variables (`SetLocalVariable` and `Params().Put` write to its maps), and
the document keeps the global ones (`SetGlobalVariable`). A rendering therefore takes the component as it is now and the global variables, and
gives the path together with the component and the global variables as they are left. What is left after an error is not modelled, because the
program does not go on then.

Simplifications: the depth of the tree, the evaluation of expressions and the loops that may not end are bounded by `fuel` (a value that needs more is
not found, a loop that needs more is written as a panic). A value of the type `path.Point` is written as the map of its coordinates
(path/path.go:395-400, `ToDynMap`). The components of a part transformer are made anew for every part.
-/

namespace Verif.Render

open Verif Verif.Dyn Verif.Path Verif.PlanSet Verif.Svg Verif.Files

universe u

/-! ## Elements -/

/-- A component that can be rendered: its type, its id, its maps as they are now, and its children. -/
inductive Live (F : Type u) where
  | mk (kind : Built) (id : Text) (elem : Elem F) (children : List (Live F))

section Elements

variable {F : Type u}

def Live.kind : Live F → Built
  | .mk k _ _ _ => k

def Live.id : Live F → Text
  | .mk _ i _ _ => i

def Live.elem : Live F → Elem F
  | .mk _ _ e _ => e

def Live.children : Live F → List (Live F)
  | .mk _ _ _ cs => cs

/-- dom/app_context.go:168-187 (`MakeBasicElement`, `MakeBasicComponent`): the maps of an element. -/
def elemOf (m : DMap F) : Elem F := ⟨sub m paramsName, m, sub m defaultsKey⟩

mutual

/-- A component as it is after it has been made. The type is the one it has been made with (dom/app_context.go:149-166). -/
def live (w : World F) : Node F → Live F
  | .mk i m cs => .mk ((Built.ofText ((w.text m typeKey).getD [])).getD .part) i (elemOf m) (lives w cs)

/-- The children. -/
def lives (w : World F) : List (Node F) → List (Live F)
  | [] => []
  | c :: cs => live w c :: lives w cs

end

/-- A part of the document; the parts are made without looking at their type (dom/app_context.go:337-346). -/
def livePart (w : World F) (n : Node F) : Live F := .mk .part n.id (elemOf n.map) (lives w n.children)

/-- dom/models.go:176-180 (`SetLocalVariable`). -/
def setVar (e : Elem F) (key : Text) (v : Val F) : Elem F := { e with original := (putWithDot e.original key v).1 }

/-- `Params().Put(key, v)` (dom/models.go:163-168); the parameters are part of the original map if there are any there. -/
def putParam (e : Elem F) (key : Text) (v : Val F) : Elem F where
  params := putKey e.allParams key v
  original :=
    match getDynMap e.original paramsKey with
    | some _ => putKey e.original paramsKey (.map (putKey e.allParams key v))
    | none => e.original
  defaults := e.defaults

/-- The same for the component. -/
def Live.putParam : Live F → Text → Val F → Live F
  | .mk k i e cs, key, v => .mk k i (Render.putParam e key v) cs

/-- The same for the component. -/
def Live.setVar : Live F → Text → Val F → Live F
  | .mk k i e cs, key, v => .mk k i (Render.setVar e key v) cs

/-- Where a component is: the document, the elements between it and the document (the nearest first), and whether the nearest part among them is itself
inside of another component. -/
structure Spot (F : Type u) where
  doc : Elem F
  ups : List (Elem F)
  nested : Bool

/-- The element with its ancestors; `g` are the global variables (dom/document.go:9-12). -/
def chainOf (doc : Elem F) (g : DMap F) : List (Elem F) → Chain F
  | [] => .document doc g
  | e :: es => .component e (chainOf doc g es)

/-- dom/models.go:182-186 (`SetGlobalVariable`), dom/document.go:50-65 (`FindDocumentContext`), dom/part.go:69-75 (`Document`): if the nearest part above is
not a part of the document itself, its parent is taken for a document, which panics. -/
def setGlobal (nested : Bool) (key : Text) (v : Val F) (g : DMap F) : Res (DMap F) := if nested then .panic else .ok (putWithDot g key v).1

end Elements

/-! ## Attributes -/

/-- What is needed to render: see `World` and `Lib`, and `int` of a number. -/
structure Machine (F : Type u) (O : Type) where
  world : World F
  lib : Lib F O
  toInt : F → Int
  fuel : Nat

/-- The names of attributes and variables. -/
def commandsKey : Text := "commands".toList
def commandKey : Text := "command".toList
def transformsKey : Text := "transforms".toList
def closeKey : Text := "close_path".toList
def unknownName : Text := "unknown".toList
def fromKey : Text := "from".toList
def edgeVariableKey : Text := "edge_variable_name".toList
def padLeftKey : Text := "padding_left".toList
def padRightKey : Text := "padding_right".toList
def maxXKey : Text := "max_x".toList
def maxYKey : Text := "max_y".toList
def initialKey : Text := "initial_spacing".toList
def spacingKey : Text := "repeat_spacing".toList
def numEdgesKey : Text := "num_edges".toList
def centerKey : Text := "center_point".toList
def teethKey : Text := "teeth".toList
def toothWidthKey : Text := "tooth_width".toList
def pressureKey : Text := "pressure_angle".toList
def clearanceKey : Text := "clearance".toList
def backlashKey : Text := "backlash".toList
def gearVariableKey : Text := "gear_variable_name".toList
def indexXKey : Text := "index_x".toList
def indexYKey : Text := "index_y".toList
def leftWidthKey : Text := "left_width".toList
def rightWidthKey : Text := "right_width".toList
def interLengthKey : Text := "xintercept__length".toList
def interFromXKey : Text := "xintercept__from__x".toList
def interFromYKey : Text := "xintercept__from__y".toList
def interToXKey : Text := "xintercept__to__x".toList
def interToYKey : Text := "xintercept__to__y".toList
def aroundLengthKey : Text := "around__length".toList
def aroundIndexKey : Text := "around__index".toList
def partIndexKey : Text := "part_index".toList
def repeatTotalKey : Text := "repeat.total".toList
def labelTextKey : Text := "label.text".toList
def labelPositionKey : Text := "label.position".toList
def partTransformersKey : Text := "part_transformers".toList
def plugKey : Text := "plug_edge".toList
def socketKey : Text := "socket_edge".toList
def yOffsetKey : Text := "y_offset".toList
def bleedTopKey : Text := "bleed_top".toList
def bleedBottomKey : Text := "bleed_bottom".toList
def autoSplitKey : Text := "auto_split".toList
def maxHeightKey : Text := "max_height".toList
def maxWidthKey : Text := "max_width".toList
def materialHeightKey : Text := "material_height".toList
def materialWidthKey : Text := "material_width".toList
def thicknessKey : Text := "material_thickness".toList
def repeatKey : Text := "repeat".toList
def padTopKey : Text := "padding_top".toList
def padBottomKey : Text := "padding_bottom".toList
def fromXKey : Text := "from__x".toList
def fromYKey : Text := "from__y".toList
def toXKey : Text := "to__x".toList
def toYKey : Text := "to__y".toList
def latheWidthKey : Text := "lathe__width".toList
def latheIndexKey : Text := "lathe__index".toList
def latheVariableKey : Text := "lathe_variable_name".toList
def unitsKey : Text := "measurement_units".toList
def docPaddingKey : Text := "doc_padding".toList
def splitterName : Text := "splitter".toList
def latheName : Text := "lathe".toList

section Rendering

variable {F : Type u} [Trig F] {O : Type}

/-- A value that is found. -/
def found {α : Type u} : Out α → Option α
  | .val a => some a
  | _ => none

/-- A number of the program. -/
def numVal (x : F) : Val F := .num x

/-- An integer of the program. -/
def indexVal (i : Nat) : Val F := .num (Arith.lit i 0)

/-- path/path.go:395-400 (`ToDynMap`). -/
def pointVal (p : Point F) : Val F := .map [(xKey, .num p.x), (yKey, .num p.y)]

namespace Machine

variable (m : Machine F O)

/-- dom/models.go:188-200 (`Attr`, `DmAttr`): what the attributes of the element `e` at the spot `s` see; `cursor` is nothing for a part, which does not
call `RenderStart`. -/
def attrs (s : Spot F) (g : DMap F) (e : Elem F) (cursor : Option (Point F)) (mp : DMap F) : Source F O :=
  ⟨m.lib, m.world.printed, .component e (chainOf s.doc g s.ups), mp, cursor⟩

/-- dom/param_lookup.go:302-308 (`MustFloat64`). -/
def number (a : Source F O) (key : Text) (d : F) : F := (found (a.number m.fuel key)).getD d

/-- dom/param_lookup.go:154-217 (`Point`). -/
def point (a : Source F O) (key : Text) : Option (Point F) := found (a.point m.fuel m.fuel key)

/-- dom/param_lookup.go:286-300 (`MustInt`). -/
def int (a : Source F O) (key : Text) (d : Int) : Int := ((found (a.number m.fuel key)).map m.toInt).getD d

/-- dom/app_context.go:219-229 (`MakeTransforms`): a map under `transforms` with what its attributes see. -/
def transformMap (a : Source F O) : TransformMap F where
  name := (m.world.text a.mp typeKey).getD unknownName
  point := m.point a
  number := fun key => found (a.number m.fuel key)
  text := a.string
  closeFlag := getBool a.mp closeKey

/-- dom/draw_component.go:96-98: a command with what its attributes see. -/
def command (a : Source F O) : Command F where
  name := (m.world.text a.mp commandKey).getD unknownName
  point := m.point a
  number := fun key => found (a.number m.fuel key)
  text := a.string
  flag := a.flag

/-- dom/models.go:232-256 (`HandleTransforms`, `Transforms`): the path. -/
def finishAt (s : Spot F) (g : DMap F) (e : Elem F) (cursor : Option (Point F)) (p : Path F) : Res (Path F) :=
  finish m.toInt m.fuel ((slice e.original transformsKey).map fun mp => m.transformMap (m.attrs s g e cursor mp)) p

/-! ## Components -/

/-- components/repeat_edge.go:80-84, components/basic_edge.go:50-54: the ends of an edge. -/
def edgeStart (a : Source F O) (cursor : Point F) : Point F := (m.point a fromKey).getD cursor
def edgeStop (a : Source F O) (start : Point F) : Option (Point F) := found (a.point2 m.fuel m.fuel toKey start)

/-- components/repeat_edge.go:92-97, components/basic_edge.go:62-67: the variables of an edge. -/
def setEdge (nested : Bool) (a : Source F O) (start stop : Point F) (g : DMap F) : Res (DMap F) :=
  match a.string edgeVariableKey with
  | none => .ok g
  | some name => do
    let g ← setGlobal nested (name ++ "__length".toList) (.num (distance start stop)) g
    setGlobal nested (name ++ "__angle".toList) (.num (lineAngle (start, stop))) g

/-- components/gear.go:42-46. -/
def gearSize (a : Source F O) : GearSize F where
  teeth := m.int a teethKey 10
  toothWidth := m.number a toothWidthKey (Arith.lit 5 1)
  pressureAngle := m.number a pressureKey (Arith.lit 20 0)
  clearance := m.number a clearanceKey (Arith.lit 1 2)
  backlash := m.number a backlashKey (Arith.lit 1 2)

/-- components/gear.go:99-104: the variables of a gear. -/
def setGear (nested : Bool) (a : Source F O) (size : GearSize F) (g : DMap F) : Res (DMap F) :=
  match a.string gearVariableKey with
  | none => .ok g
  | some name => do
    let g ← setGlobal nested (name ++ "__outer_radius".toList) (.num size.outer) g
    setGlobal nested (name ++ "__inner_radius".toList) (.num size.root) g

end Machine

/-- A rendering of a component from a cursor: the path, the component and the global variables as they are left. -/
abbrev Rendering (F : Type u) := Live F → DMap F → Point F → Res (Path F × Live F × DMap F)

/-- dom/part.go:149-164, dom/group_component.go:54-63, components/basic_edge.go:84-94: the children one after the other. -/
def renderAllOf (r : Rendering F) : List (Live F) → DMap F → Point F → Res (List (Path F) × List (Live F) × DMap F)
  | [], g, _ => .ok ([], [], g)
  | c :: cs, g, cursor => do
    let (p, c', g) ← r c g cursor
    match p.getLast? with
    | none => .panic
    | some s =>
      let (ps, cs', g) ← renderAllOf r cs g s.stop
      .ok (p :: ps, c' :: cs', g)

/-- dom/repeat_component.go:73-95: the copies at the given places of the grid. -/
def copiesLoop (r : Rendering F) (width height : F) : List (Nat × Nat) → Live F → DMap F → Res (List (Path F) × Live F × DMap F)
  | [], c, g => .ok ([], c, g)
  | i :: rest, c, g => do
    let (q, c, g) ← r ((c.putParam indexXKey (indexVal i.1)).putParam indexYKey (indexVal i.2)) g origin
    let q ← move (newPoint (Arith.lit i.1 0 *. width) (Arith.lit i.2 0 *. height)) Attr.startPosition.text q
    let (qs, c, g) ← copiesLoop r width height rest c g
    .ok (q :: qs, c, g)

/-- dom/repeat_component.go:45-106 (`RepeatRender`). -/
def copiesOf (toInt : F → Int) (r : Rendering F) (c : Live F) (g : DMap F) (maxX maxY : F) : Res (Path F × Live F × DMap F) := do
  let (p, c, g) ← r c g origin
  let b ← whitespaceBox p
  let width := b.2.x -. b.1.x
  let height := b.2.y -. b.1.y
  let (paths, c, g) ← copiesLoop r width height (grid (iterations toInt maxX width) (iterations toInt maxY height)) c g
  if paths.isEmpty then .err
  else
    let q ← simpleJoin paths
    .ok (q, c, g)

/-- components/repeat_edge.go:172-202, components/basic_edge.go:99-121: the edge is turned and moved to its start. -/
def placeEdge (start stop : Point F) (handle : Text) (p : Path F) : Res (Path F) := do
  let axis ← pointAttribute handle p
  let p ← if !(lineAngle (start, stop) ==. Arith.zero) then rotate (lineAngle (start, stop)) handle p else .ok p
  .ok (shift (start.x -. axis.x) (start.y -. axis.y) p)

/-- An error that is lost (components/xintercept.go:70-113): there is no path and no error, and the component above panics. -/
def lost {α : Type u} : Res α → Res α
  | .err => .panic
  | r => r

/-- components/xintercept.go:98-103. -/
def setInter (e : Elem F) (a b : Point F) : Elem F :=
  setVar (setVar (setVar (setVar (setVar e interLengthKey (.num (b.x -. a.x))) interFromXKey (.num a.x)) interFromYKey (.num a.y)) interToXKey
    (.num b.x)) interToYKey (.num b.y)

/-- components/xintercept.go:88-116: one row. The state: the height of the last copy, the copies, the element, the component and the global variables. -/
def interRow (n : Int) (r : Elem F → Rendering F) (cursor : Point F) : List (Point F) → (F × List (Path F)) × Elem F × Live F × DMap F →
    Res ((F × List (Path F)) × Elem F × Live F × DMap F)
  | a :: b :: rest, (st, e, c, g) =>
    if precisionEquals (b.x -. a.x) Arith.zero n then interRow n r cursor rest (st, e, c, g)
    else do
      let (p, c, g) ← lost (r (setInter e a b) c g cursor)
      interRow n r cursor rest (((measure p).2, st.2 ++ [p]), setInter e a b, c, g)
  | _, s => .ok s

/-- components/xintercept.go:80-117: the rows. -/
def interRows (n : Int) (outline : Path F) (r : Elem F → Rendering F) (cursor : Point F) (bottom spacing : F) :
    Nat → F → (F × List (Path F)) × Elem F × Live F × DMap F → Res ((F × List (Path F)) × Elem F × Live F × DMap F)
  | 0, _, _ => .panic
  | fuel + 1, y, s =>
    if y <=. bottom then do
      let ps ← lost (horizontalIntercepts n outline y)
      let s ← interRow n r cursor ps s
      interRows n outline r cursor bottom spacing fuel ((y +. s.1.1) +. spacing) s
    else .ok s

/-- components/around.go:88-119: the copies with the given indices. -/
def aroundLoop (r : Rendering F) (num : Int) (center start : Point F) : List Nat → Live F → DMap F → Res (List (Path F) × Live F × DMap F)
  | [], c, g => .ok ([], c, g)
  | i :: rest, c, g => do
    let (p, c, g) ← r c g origin
    let q ← aroundCopy 3 num center start p i
    let (qs, c, g) ← aroundLoop r num center start rest c g
    .ok (q :: qs, c, g)

namespace Machine

variable (m : Machine F O)

/-- The spot of the children of an element. -/
def below (s : Spot F) (e : Elem F) (nested : Bool) : Spot F := ⟨s.doc, e :: s.ups, nested⟩

/-- dom/part.go:142-197 (`Part.Render`); `r` renders the children at a spot. -/
def renderPartNode (r : Spot F → Rendering F) (s : Spot F) : Rendering F := fun c g cursor => do
  let (paths, cs, g) ← renderAllOf (r (below s c.elem (!s.ups.isEmpty))) c.children g cursor
  if paths.isEmpty then .err
  else
    let p ← simpleJoin paths
    let p ← m.finishAt s g c.elem none p
    .ok (collapseMoves (trimWhitespace p), .mk c.kind c.id c.elem cs, g)

/-- dom/draw_component.go:92-307. -/
def renderDraw (s : Spot F) : Rendering F := fun c g cursor => do
  let p ← drawRender cursor ((slice c.elem.original commandsKey).map fun mp => m.command (m.attrs s g c.elem (some cursor) mp))
  let p ← m.finishAt s g c.elem (some cursor) p
  .ok (p, c, g)

/-- dom/repeat_component.go:107-119. -/
def renderCopies (r : Spot F → Rendering F) (s : Spot F) : Rendering F := fun c g cursor =>
  match c.children with
  | [child] => do
    let a := m.attrs s g c.elem (some cursor) c.elem.original
    let (p, child, g) ← copiesOf m.toInt (r (below s c.elem s.nested)) child g (m.number a maxXKey Arith.zero) (m.number a maxYKey Arith.zero)
    let p ← m.finishAt s g c.elem (some cursor) p
    .ok (p, .mk c.kind c.id c.elem [child], g)
  | _ => .err

/-- dom/group_component.go:47-67. -/
def renderGroup (r : Spot F → Rendering F) (s : Spot F) : Rendering F := fun c g cursor => do
  let (paths, cs, g) ← renderAllOf (r (below s c.elem s.nested)) c.children g cursor
  let p ← simpleJoin paths
  let p ← m.finishAt s g c.elem (some cursor) p
  .ok (p, .mk c.kind c.id c.elem cs, g)

/-- components/repeat_edge.go:77-203. -/
def renderRepeatEdge (r : Spot F → Rendering F) (s : Spot F) : Rendering F := fun c g cursor =>
  match c.children with
  | [child, left, right] =>
    let a := m.attrs s g c.elem (some cursor) c.elem.original
    let start := m.edgeStart a cursor
    need (m.edgeStop a start) fun stop => do
      let handle := (a.handle handleKey).getD Attr.origin.text
      let g ← setEdge s.nested a start stop g
      let a := m.attrs s g c.elem (some cursor) c.elem.original
      let padLeft := m.number a padLeftKey Arith.zero
      let padRight := m.number a padRightKey Arith.zero
      let maxX := distance start stop -. (padLeft +. padRight)
      let (p, child, g) ← copiesOf m.toInt (r (below s c.elem s.nested)) child g maxX Arith.zero
      let b ← whitespaceBox p
      let repeatWidth := b.2.x -. b.1.x
      let overflow := maxX -. repeatWidth
      let leftWidth := (overflow /. Arith.two) +. padLeft
      let rightWidth := (overflow /. Arith.two) +. padRight
      let (pLeft, left, g) ← r (below s c.elem s.nested) (left.putParam leftWidthKey (.num leftWidth)) g origin
      let (pRight, right, g) ← r (below s c.elem s.nested) (right.putParam rightWidthKey (.num rightWidth)) g origin
      let p ← move (newPoint leftWidth Arith.zero) Attr.startPosition.text p
      let pRight ← move (newPoint (leftWidth +. repeatWidth) Arith.zero) Attr.startPosition.text pRight
      let p ← simpleJoin [pLeft, p, pRight]
      let p ← placeEdge start stop handle p
      let p ← m.finishAt s g c.elem (some cursor) p
      .ok (p, .mk c.kind c.id c.elem [child, left, right], g)
  | _ => .err

/-- components/basic_edge.go:47-122. -/
def renderBasicEdge (r : Spot F → Rendering F) (s : Spot F) : Rendering F := fun c g cursor =>
  let a := m.attrs s g c.elem (some cursor) c.elem.original
  let start := m.edgeStart a cursor
  need (m.edgeStop a start) fun stop => do
    let handle := (a.handle handleKey).getD Attr.origin.text
    let g ← setEdge s.nested a start stop g
    let e := setVar c.elem widthKey (.num (distance start stop))
    let (paths, cs, g) ← renderAllOf (r (below s e s.nested)) c.children g cursor
    let p ← simpleJoin paths
    let p ← placeEdge start stop handle p
    let p ← m.finishAt s g e (some cursor) p
    .ok (p, .mk c.kind c.id e cs, g)

/-- components/xintercept.go:59-125. -/
def renderXIntercept (r : Spot F → Rendering F) (s : Spot F) : Rendering F := fun c g cursor =>
  match c.children with
  | [child, outline] =>
    let a := m.attrs s g c.elem (some cursor) c.elem.original
    let initial := m.number a initialKey Arith.zero
    let spacing := m.number a spacingKey Arith.zero
    if spacing ==. Arith.zero then .err
    else do
      let (o, outline, g) ← lost (r (below s c.elem s.nested) outline g cursor)
      let b ← lost (whitespaceBox o)
      let (st, e, child, g) ← interRows defaultPrecision o (fun e => r (below s e s.nested)) cursor b.2.y spacing m.fuel (b.1.y +. initial)
        ((Arith.zero, []), c.elem, child, g)
      if st.2.isEmpty then .err
      else
        let p ← simpleJoin st.2
        let p ← m.finishAt s g e (some cursor) p
        .ok (p, .mk c.kind c.id e [child, outline], g)
  | _ => .err

/-- components/around.go:49-123; the transforms of the component are not applied. -/
def renderAround (r : Spot F → Rendering F) (s : Spot F) : Rendering F := fun c g cursor =>
  match c.children with
  | [child] =>
    let a := m.attrs s g c.elem (some cursor) c.elem.original
    let num := m.int a numEdgesKey 0
    let radius := m.number a radiusKey Arith.zero
    if num = 0 then .err
    else if radius ==. Arith.zero then .err
    else do
      let center := (m.point a centerKey).getD cursor
      let edge := aroundEdge num radius center
      let e := setVar c.elem aroundLengthKey (.num (distance edge.1 edge.2))
      let e := if num.toNat = 0 then e else setVar e aroundIndexKey (indexVal 0)
      let (paths, child, g) ← aroundLoop (r (below s e s.nested)) num center edge.1 (List.range num.toNat) child g
      let p ← simpleJoin paths
      .ok (p, .mk c.kind c.id e [child], g)
  | _ => .err

/-- components/gear.go:36-106. -/
def renderGear (s : Spot F) : Rendering F := fun c g cursor => do
  let a := m.attrs s g c.elem (some cursor) c.elem.original
  let size := m.gearSize a
  let g ← setGear s.nested a size g
  let p ← m.finishAt s g c.elem (some cursor) size.outline
  .ok (p, c, g)

/-- The methods `Render`; the number bounds the depth. -/
def render : Nat → Spot F → Rendering F
  | 0, _ => fun _ _ _ => .panic
  | n + 1, s => fun c =>
    match c.kind with
    | .part => m.renderPartNode (render n) s c
    | .draw => m.renderDraw s c
    | .copies => m.renderCopies (render n) s c
    | .group => m.renderGroup (render n) s c
    | .repeatEdge => m.renderRepeatEdge (render n) s c
    | .basicEdge => m.renderBasicEdge (render n) s c
    | .xIntercept => m.renderXIntercept (render n) s c
    | .around => m.renderAround (render n) s c
    | .gear => m.renderGear s c

/-! ## Parts -/

/-- The attributes of a part (dom/part.go:80, 106-109). -/
def partAttrs (doc : Elem F) (g : DMap F) (e : Elem F) (mp : DMap F) : Source F O := m.attrs ⟨doc, [], false⟩ g e none mp

/-- dom/part.go:106-113: the label of the copy `i` out of `total`. -/
def labelOf (a : Source F O) (total : Int) (i : Nat) : Label :=
  let text := (a.string labelTextKey).getD []
  ⟨if 1 < total ∧ text ≠ [] then numbered text i else text, (a.handle labelPositionKey).getD Attr.bottomMiddle.text⟩

/-- dom/part.go:82-121: the copies with the given indices. -/
def partCopies (doc : Elem F) (total : Int) : List Nat → Live F → DMap F → Res (List (Rendered F) × Live F × DMap F)
  | [], c, g => .ok ([], c, g)
  | i :: rest, c, g => do
    let (p, c, g) ← m.render (m.fuel + 1) ⟨doc, [], false⟩ (c.setVar partIndexKey (indexVal i)) g origin
    let p := trimWhitespace p
    let label := labelOf (m.partAttrs doc g c.elem c.elem.original) total i
    let (ps, c, g) ← partCopies doc total rest c g
    .ok (⟨p, (measure p).1, (measure p).2, label⟩ :: ps, c, g)

/-- The part transformers (parser/parser.go:44-47, dom/part_transform_factories.go:9-29), with their maps. -/
inductive Transformer (F : Type u) where
  | splitter (mp : DMap F)
  | lathe (mp : DMap F)

/-- dom/app_context.go:188-195, 231-241 (`MakePartTransformer`, `MakePartTransformers`). -/
def makeTransformers : List (DMap F) → Option (List (Transformer F))
  | [] => some []
  | mp :: rest =>
    let t := (m.world.text mp typeKey).getD unknownName
    if t = splitterName then (makeTransformers rest).map (.splitter mp :: ·)
    else if t = latheName then (makeTransformers rest).map (.lathe mp :: ·)
    else none

/-- What a part transformer works with: the document, its custom components and the part. -/
structure Bench (F : Type u) where
  doc : Elem F
  customs : List (Text × DMap F)
  part : Elem F

/-- dom/part_splitter.go:23-35, dom/lathe_part_transformer.go:31-35: a component of a transformer. -/
def makeFor (b : Bench F) (mp : DMap F) : Res (Live F) :=
  match m.world.make b.customs m.fuel mp with
  | .val n => .ok (live m.world n)
  | .err => .err
  | .running => .panic

/-- A component of a transformer, rendered below the part. -/
def renderFor (b : Bench F) : Rendering F := m.render m.fuel (below ⟨b.doc, [], false⟩ b.part false)

/-- dom/part_splitter.go:91-95: the slicing. -/
def sliceAt (y : F) (p : Path F) : Res (Path F) :=
  match hSlice defaultPrecision defaultPrecision m.fuel y p with
  | .ok (some q) => .ok q
  | .ok none => .panic
  | .err => .err
  | .panic => .panic

/-- dom/part_splitter.go:15-173 (`transformPart`). -/
def cutPart (b : Bench F) (mp : DMap F) (part : Path F) (y : F) (g : DMap F) : Res (List (Rendered F) × DMap F) := do
  let plug ← m.makeFor b (sub mp plugKey)
  let socket ← m.makeFor b (sub mp socketKey)
  let p := trimWhitespace part
  let box := trimmedBox p
  let yPos := y +. m.number (m.partAttrs b.doc g b.part mp) yOffsetKey Arith.zero
  if box.2.y <=. yPos then .ok ([unlabelled p], g)
  else
    let (plugPath, _, g) ← m.renderFor b
      ((plug.setVar fromKey (pointVal (newPoint box.2.x yPos))).setVar toKey (pointVal (newPoint box.1.x yPos))) g origin
    let bleedTop := m.number (m.partAttrs b.doc g b.part mp) bleedTopKey ((trimmedBox plugPath).2.y -. yPos)
    let top ← m.sliceAt (yPos +. bleedTop) p
    let top ← simpleJoin [top, plugPath]
    let bottomY := box.2.y -. yPos
    let flipped ← mirror .horizontal Attr.topLeft.text p
    let (socketPath, _, g) ← m.renderFor b
      ((socket.setVar fromKey (pointVal (newPoint box.2.x bottomY))).setVar toKey (pointVal (newPoint box.1.x bottomY))) g origin
    let bleedBottom := m.number (m.partAttrs b.doc g b.part mp) bleedBottomKey ((trimmedBox socketPath).2.y -. bottomY)
    let bottom ← m.sliceAt (bottomY +. bleedBottom) flipped
    let bottom ← simpleJoin [bottom, socketPath]
    let bottom ← mirror .horizontal Attr.topLeft.text bottom
    .ok ([unlabelled top, unlabelled bottom], g)

/-- dom/part.go:128-136, dom/part_splitter.go:239-247: every part of a list is made into several parts. -/
def eachPart (f : Rendered F → DMap F → Res (List (Rendered F) × DMap F)) : List (Rendered F) → DMap F → Res (List (Rendered F) × DMap F)
  | [], g => .ok ([], g)
  | p :: ps, g => do
    let (l, g) ← f p g
    let (l', g) ← eachPart f ps g
    .ok (l ++ l', g)

/-- dom/part_splitter.go:175-248 (`TransformPart`). -/
def splitPart (b : Bench F) (mp : DMap F) : Nat → Rendered F → DMap F → Res (List (Rendered F) × DMap F)
  | 0, _, _ => .panic
  | fuel + 1, part, g =>
    let a := m.partAttrs b.doc g b.part mp
    if (a.flag autoSplitKey).getD false then
      if (found (a.number m.fuel yNameKey)).isSome then .err
      else
        let size := measure part.path
        let maxHeight := m.number a maxHeightKey (m.number a materialHeightKey Arith.zero)
        let maxWidth := m.number a maxWidthKey (m.number a materialWidthKey Arith.zero)
        if (maxHeight ==. Arith.zero) || (maxWidth ==. Arith.zero) then .err
        else
          match decideSplit maxWidth maxHeight size.1 size.2 with
          | .turn => do
            let p ← rotate (Arith.lit 90 0) [] part.path
            splitPart b mp fuel ⟨p, size.2, size.1, ⟨[], []⟩⟩ g
          | .fits => .ok ([part], g)
          | .split =>
            let y := size.2 /. Arith.two
            if y ==. Arith.zero then .ok ([part], g)
            else do
              let (parts, g) ← m.cutPart b mp part.path y g
              if parts.length ≤ 1 then .ok (parts, g) else eachPart (splitPart b mp fuel) parts g
    else
      need (found (a.number m.fuel yNameKey)) fun y => if y ==. Arith.zero then .ok ([part], g) else m.cutPart b mp part.path y g

/-- dom/lathe_part_transformer.go:68-75: the variables of a layer. -/
def setLayer (c : Live F) (a b : Point F) (index : Nat) : Live F :=
  ((((((c.setVar fromXKey (.num a.x)).setVar fromYKey (.num a.y)).setVar toKey (pointVal b)).setVar toXKey (.num b.x)).setVar toYKey
    (.num b.y)).setVar latheWidthKey (.num (b.x -. a.x))).setVar latheIndexKey (indexVal index)

/-- dom/lathe_part_transformer.go:47-105: the layers. -/
def latheRows (b : Bench F) (outline : Path F) (label : Label) (thickness bottom : F) :
    Nat → F → Lathe F → Live F → DMap F → Res (Lathe F × Live F × DMap F)
  | 0, _, _, _, _ => .panic
  | fuel + 1, y, st, c, g =>
    if y <=. bottom then do
      let points ← horizontalIntercepts defaultPrecision outline y
      match points with
      | p :: q :: _ =>
        if precisionEquals (q.x -. p.x) Arith.zero defaultPrecision then latheRows b outline label thickness bottom fuel (y +. thickness) st c g
        else
          let (r, c, g) ← m.renderFor b (setLayer c p q st.index) g origin
          latheRows b outline label thickness bottom fuel (y +. thickness)
            ⟨st.parts ++ [⟨r, (measure r).1, (measure r).2,
                ⟨if label.text ≠ [] then numbered label.text st.index else label.text, label.position⟩⟩],
              if st.index = 0 then q.x -. p.x else st.topLength, q.x -. p.x, st.index + 1, st.totalHeight +. thickness⟩ c g
      | _ => latheRows b outline label thickness bottom fuel (y +. thickness) st c g
    else .ok (st, c, g)

/-- dom/lathe_part_transformer.go:107-113: the variables of a lathe. -/
def setLathe (name : Text) (st : Lathe F) (g : DMap F) : DMap F :=
  if name = [] then g
  else
    (putWithDot (putWithDot (putWithDot (putWithDot g (name ++ "__total_height".toList) (.num st.totalHeight)).1 (name ++ "__top_width".toList)
      (.num st.topLength)).1 (name ++ "__bottom_width".toList) (.num st.bottomLength)).1 (name ++ "__num_layers".toList) (indexVal st.index)).1

/-- dom/lathe_part_transformer.go:14-116 (`TransformPart`). -/
def lathePart (b : Bench F) (mp : DMap F) (part : Rendered F) (g : DMap F) : Res (List (Rendered F) × DMap F) := do
  let box ← whitespaceBox part.path
  let thickness := m.number (m.partAttrs b.doc g b.part mp) thicknessKey Arith.zero
  if thickness <=. Arith.zero then .err
  else
    let c ← m.makeFor b (sub mp repeatKey)
    let padTop := m.number (m.partAttrs b.doc g b.part mp) padTopKey Arith.zero
    let padBottom := m.number (m.partAttrs b.doc g b.part mp) padBottomKey Arith.zero
    let (st, _, g) ← m.latheRows b part.path part.label thickness (box.2.y -. padBottom) m.fuel (box.1.y +. padTop) latheStart c g
    .ok (st.parts, setLathe (((m.partAttrs b.doc g b.part mp).string latheVariableKey).getD []) st g)

/-- `TransformPart` of a part transformer. -/
def runTransformer (b : Bench F) : Transformer F → Rendered F → DMap F → Res (List (Rendered F) × DMap F)
  | .splitter mp => m.splitPart b mp m.fuel
  | .lathe mp => m.lathePart b mp

/-- dom/part.go:128-138: every transformer is applied to every part. -/
def runTransformers (b : Bench F) : List (Transformer F) → List (Rendered F) → DMap F → Res (List (Rendered F) × DMap F)
  | [], parts, g => .ok (parts, g)
  | t :: ts, parts, g => do
    let (parts, g) ← eachPart (m.runTransformer b t) parts g
    runTransformers b ts parts g

/-- dom/part.go:77-140 (`RenderPart`). -/
def renderPart (doc : Elem F) (customs : List (Text × DMap F)) (c : Live F) (g : DMap F) : Res (List (Rendered F) × DMap F) := do
  let total := m.int (m.partAttrs doc g c.elem c.elem.original) repeatTotalKey 1
  let (parts, c, g) ← m.partCopies doc total (List.range total.toNat) c g
  need (m.makeTransformers (slice c.elem.original partTransformersKey)) fun ts => m.runTransformers ⟨doc, customs, c.elem⟩ ts parts g

/-! ## Sheets -/

/-- The attributes of the document (dom/models.go:120-134). -/
def docAttrs (doc : Elem F) (g : DMap F) : Source F O := ⟨m.lib, m.world.printed, .document doc g, doc.original, none⟩

/-- dom/planset.go:30-44 (`createSvgDoc`): the size of a sheet. -/
def sheetOf (doc : Elem F) (g : DMap F) : Sheet F :=
  let a := m.docAttrs doc g
  ⟨m.number a materialWidthKey (Arith.lit 20 0), m.number a materialHeightKey (Arith.lit 12 0), m.number a docPaddingKey (Arith.lit 1 1)⟩

/-- dom/planset.go:30-44 (`createSvgDoc`): how a sheet is written. -/
def pageOf (doc : Elem F) (g : DMap F) : Page F :=
  newPage (m.sheetOf doc g).width (m.sheetOf doc g).height (mustUnits (((m.docAttrs doc g).string unitsKey).getD "in".toList) .inch)

/-- A rendered part as it is laid out. -/
def toLayout (id : Text) (r : Rendered F) : RenderedPart F (Drawing F) := ⟨r.width, r.height, ⟨id, r.path, r.label⟩⟩

/-- dom/planset.go:83-101: the loop over the parts of the document; the sheets with their pages. -/
def plan (doc : Elem F) (customs : List (Text × DMap F)) : List (Live F) → DMap F → List (SvgDoc F (Drawing F)) → List (Page F) →
    Res (List (SvgDoc F (Drawing F)) × List (Page F))
  | [], _, docs, pages => .ok (docs, pages)
  | c :: cs, g, docs, pages => do
    let (parts, g) ← m.renderPart doc customs c g
    match addRendered (m.sheetOf doc g) docs (parts.map (toLayout c.id)) with
    | none => .panic
    | some (docs', .ok) => plan doc customs cs g docs' (pages ++ List.replicate (docs'.length - docs.length) (m.pageOf doc g))
    | some _ => .err

/-- The document as an element (dom/app_context.go:290-296, 357-372). -/
def docElem (d : Doc F) : Elem F := ⟨d.params, d.map, sub d.map defaultsKey⟩

/-- dom/planset.go:75-102 (`Init`): the sheets of a document. -/
def planSet (d : Doc F) : Res (List (SvgDoc F (Drawing F)) × List (Page F)) :=
  let s := m.sheetOf (docElem d) d.context
  m.plan (docElem d) d.customs (d.parts.map (livePart m.world)) d.context [newSvgDoc s.width s.height s.padding] [m.pageOf (docElem d) d.context]

/-- dom/svg_renderer.go:199-207 (`WriteSVG`): the text of a sheet. -/
def sheetText (page : Page F) (d : SvgDoc F (Drawing F)) : SheetText :=
  match writePage page d.renderables with
  | (t, .panic) => (t, true)
  | (t, _) => (t, false)

/-- main.go:255-268, 283-290: from the map of a document to the texts of its sheets. The number bounds the files that are followed. -/
def sheets (files : Nat) (dm : DMap F) : Res (List SheetText) :=
  match m.world.parse m.fuel files dm with
  | .err => .err
  | .running => .panic
  | .val d =>
    match m.planSet d with
    | .ok (docs, pages) => .ok (List.zipWith sheetText pages docs)
    | .err => .err
    | .panic => .panic

end Machine

end Rendering

end Verif.Render
