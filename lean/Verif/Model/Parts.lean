import Verif.Model.Transforms

/-!
# Model of repeats, edges, parts and part transformers

dom/repeat_component.go, components/repeat_edge.go, dom/part.go, dom/part_splitter.go, dom/lathe_part_transformer.go.

Rendering a component is a function from the variables that the code sets before the call (indices, widths, end points) to a path or an
error. Other effects of rendering (variables set by the component for other components) are not modelled. Attributes that the code looks up
(`attr.MustFloat64` and so on) are arguments; the lookup is in `Verif/Model/Params.lean`.
-/

namespace Verif.Path

open Verif

universe u

set_option linter.unusedSectionVars false

variable {F : Type u} [Trig F]

/-! ### Repeats -/

/-- dom/repeat_component.go:63-71: the number of copies in one direction; `toInt` is the conversion `int(x)` of the Go compiler, whose
result for numbers outside the range of `int` is not specified. -/
def iterations (toInt : F → Int) (max size : F) : Nat :=
  if Arith.zero <. max then (toInt (Num.floor (max /. size))).toNat else 1

/-- dom/repeat_component.go:75-76: the pairs of indices in the order of the two loops. -/
def grid (nx ny : Nat) : List (Nat × Nat) := (List.range nx).flatMap fun ix => (List.range ny).map fun iy => (ix, iy)

/-- dom/repeat_component.go:45-106 (`RepeatRender`). `render none` is the first rendering, before the indices are set, and
`render (some (ix, iy))` the rendering with the indices. The cursor that is returned beside the path is not modelled. -/
def repeatRender (toInt : F → Int) (render : Option (Nat × Nat) → Res (Path F)) (maxX maxY : F) : Res (Path F) := do
  let p ← render none
  let b ← whitespaceBox p
  let width := b.2.x -. b.1.x
  let height := b.2.y -. b.1.y
  let paths ← (grid (iterations toInt maxX width) (iterations toInt maxY height)).mapM fun i => do
    let q ← render (some i)
    move (newPoint (Arith.lit i.1 0 *. width) (Arith.lit i.2 0 *. height)) Attr.startPosition.text q
  if paths.isEmpty then .err else simpleJoin paths

/-- components/repeat_edge.go:77-203 (`RepeatEdgeComponent.Render`), without the transforms of the component (`HandleTransforms`) and the
global variables. The left and right components are rendered with the widths that are left for them. -/
def repeatEdge (toInt : F → Int) (repeatable : Option (Nat × Nat) → Res (Path F)) (left right : F → Res (Path F))
    (start stop : Point F) (padLeft padRight : F) (handle : Text) : Res (Path F) := do
  let maxX := distance start stop -. (padLeft +. padRight)
  let p ← repeatRender toInt repeatable maxX Arith.zero
  let b ← whitespaceBox p
  let repeatWidth := b.2.x -. b.1.x
  let overflow := maxX -. repeatWidth
  let leftWidth := (overflow /. Arith.two) +. padLeft
  let rightWidth := (overflow /. Arith.two) +. padRight
  let pLeft ← left leftWidth
  let pRight ← right rightWidth
  let p ← move (newPoint leftWidth Arith.zero) Attr.startPosition.text p
  let pRight ← move (newPoint (leftWidth +. repeatWidth) Arith.zero) Attr.startPosition.text pRight
  let p ← simpleJoin [pLeft, p, pRight]
  let axis ← pointAttribute handle p
  let p ← if !(lineAngle (start, stop) ==. Arith.zero) then rotate (lineAngle (start, stop)) handle p else .ok p
  .ok (shift (start.x -. axis.x) (start.y -. axis.y) p)

/-! ### Parts -/

/-- dom/part.go:18-21 (`Label`). -/
structure Label where
  text : Text
  position : Text
deriving Repr, DecidableEq

/-- dom/part.go:23-29 (`RenderedPart`), without the pointer to the part. -/
structure Rendered (F : Type u) where
  path : Path F
  width : F
  height : F
  label : Label

/-- dom/part.go:99-104: width and height of the trimmed box. -/
def measure (p : Path F) : F × F :=
  ((trimmedBox p).2.x -. (trimmedBox p).1.x, (trimmedBox p).2.y -. (trimmedBox p).1.y)

/-- The label `text:i`, as dom/part.go:112 and dom/lathe_part_transformer.go:89 print it. -/
def numbered (text : Text) (i : Nat) : Text := text ++ ':' :: (toString i).toList

/-- dom/part.go:188-194: of several moves in a row only the last is kept. -/
def collapseMoves (p : Path F) : Path F :=
  newPath (p.foldl (fun acc s => (if s.isMove then trimTailMove acc else acc) ++ [s]) [])

/-- dom/part.go:145-197 (`Part.Render`): the children are rendered one after the other, each from where the previous one stopped (`render`
takes the cursor), joined, transformed, trimmed and cleaned of superfluous moves. -/
def renderChildren : List (Point F → Res (Path F)) → Point F → Res (List (Path F))
  | [], _ => .ok []
  | c :: rest, cursor => do
    let p ← c cursor
    match p.getLast? with
    | none => .panic
    | some s =>
      let ps ← renderChildren rest s.stop
      .ok (p :: ps)

/-- dom/part.go:145-197 (`Part.Render`). -/
def partRender (children : List (Point F → Res (Path F))) (transforms : List (Path F → Res (Path F))) (cursor : Point F) : Res (Path F) := do
  let paths ← renderChildren children cursor
  if paths.isEmpty then .err
  else
    let p ← simpleJoin paths
    let p ← multiTransform transforms p
    .ok (collapseMoves (trimWhitespace p))

/-- dom/part.go:85-120: one of the `total` copies. -/
def renderCopy (render : Nat → Res (Path F)) (label : Label) (total i : Nat) : Res (Rendered F) := do
  let p ← render i
  let p := trimWhitespace p
  .ok ⟨p, (measure p).1, (measure p).2, ⟨if 1 < total ∧ label.text ≠ [] then numbered label.text i else label.text, label.position⟩⟩

/-- A part transformer (dom/part.go:31-33). -/
abbrev PartTransformer (F : Type u) := Rendered F → Res (List (Rendered F))

/-- dom/part.go:128-138: every transformer is applied to every part. -/
def applyTransformers : List (PartTransformer F) → List (Rendered F) → Res (List (Rendered F))
  | [], parts => .ok parts
  | t :: rest, parts => do
    let l ← parts.mapM t
    applyTransformers rest l.flatten

/-- dom/part.go:77-140 (`RenderPart`); `render i` renders the part with the variable `part_index` at `i`. -/
def renderPart (render : Nat → Res (Path F)) (label : Label) (total : Int) (transformers : List (PartTransformer F)) :
    Res (List (Rendered F)) := do
  let parts ← (List.range total.toNat).mapM (renderCopy render label total.toNat)
  applyTransformers transformers parts

/-! ### Splitting -/

/-- dom/part_splitter.go:11-13, with the attributes that the code looks up. `slice` is the slicing transform (`hSlice` in
`Verif/Model/Transforms.lean`), `plug` and `socket` render the edge between two points. -/
structure Splitter (F : Type u) where
  auto : Bool
  y : Option F
  yOffset : F
  maxWidth : F
  maxHeight : F
  bleedTop : Option F
  bleedBottom : Option F
  plug : Point F → Point F → Res (Path F)
  socket : Point F → Point F → Res (Path F)
  slice : F → Path F → Res (Path F)

/-- dom/part_splitter.go:56-61: the parts made by the splitter have no label. -/
def unlabelled (p : Path F) : Rendered F := ⟨p, (measure p).1, (measure p).2, ⟨[], []⟩⟩

/-- dom/part_splitter.go:15-173 (`transformPart`). -/
def cut (s : Splitter F) (part : Path F) (y : F) : Res (List (Rendered F)) :=
  let p := trimWhitespace part
  let b := trimmedBox p
  let yPos := y +. s.yOffset
  if b.2.y <=. yPos then .ok [unlabelled p]
  else do
    let plug ← s.plug (newPoint b.2.x yPos) (newPoint b.1.x yPos)
    let bleedTop := s.bleedTop.getD ((trimmedBox plug).2.y -. yPos)
    let top ← s.slice (yPos +. bleedTop) p
    let top ← simpleJoin [top, plug]
    let bottomY := b.2.y -. yPos
    let flipped ← mirror .horizontal Attr.topLeft.text p
    let socket ← s.socket (newPoint b.2.x bottomY) (newPoint b.1.x bottomY)
    let bleedBottom := s.bleedBottom.getD ((trimmedBox socket).2.y -. bottomY)
    let bottom ← s.slice (bottomY +. bleedBottom) flipped
    let bottom ← simpleJoin [bottom, socket]
    let bottom ← mirror .horizontal Attr.topLeft.text bottom
    .ok [unlabelled top, unlabelled bottom]

/-- What automatic splitting does with a part. -/
inductive Decision where
  | split | turn | fits
deriving Repr, DecidableEq

/-- dom/part_splitter.go:199-220. -/
def decideSplit (maxWidth maxHeight w h : F) : Decision :=
  if ((maxHeight <=. h) && (maxWidth <=. h)) || ((maxHeight <=. h) && (maxHeight <=. w)) then .split
  else if (maxWidth <=. w) && (maxHeight <=. w) then .turn
  else .fits

/-- dom/part_splitter.go:239-247: the results of all pieces; `none` when the recursion is deeper than the fuel. -/
def concatAll {α : Type u} (f : α → Option (Res (List α))) : List α → Option (Res (List α))
  | [] => some (.ok [])
  | a :: rest =>
    match f a with
    | some (.ok l) =>
      match concatAll f rest with
      | some (.ok l') => some (.ok (l ++ l'))
      | r => r
    | r => r

/-- dom/part_splitter.go:175-248 (`TransformPart`); `none` when the recursion is deeper than the fuel. -/
def splitPart (s : Splitter F) : Nat → Rendered F → Option (Res (List (Rendered F)))
  | 0, _ => none
  | fuel + 1, part =>
    if s.auto then
      if s.y.isSome then some .err
      else
        let m := measure part.path
        if (s.maxHeight ==. Arith.zero) || (s.maxWidth ==. Arith.zero) then some .err
        else
          match decideSplit s.maxWidth s.maxHeight m.1 m.2 with
          | .turn =>
            match rotate (Arith.lit 90 0) [] part.path with
            | .ok p => splitPart s fuel ⟨p, m.2, m.1, ⟨[], []⟩⟩
            | .err => some .err
            | .panic => some .panic
          | .fits => some (.ok [part])
          | .split =>
            let y := m.2 /. Arith.two
            if y ==. Arith.zero then some (.ok [part])
            else
              match cut s part.path y with
              | .ok parts => if parts.length ≤ 1 then some (.ok parts) else concatAll (splitPart s fuel) parts
              | .err => some .err
              | .panic => some .panic
    else
      match s.y with
      | none => some .err
      | some y => if y ==. Arith.zero then some (.ok [part]) else some (cut s part.path y)

/-! ### The lathe -/

/-- dom/lathe_part_transformer.go:42-46: the variables of the loop. -/
structure Lathe (F : Type u) where
  parts : List (Rendered F)
  topLength : F
  bottomLength : F
  index : Nat
  totalHeight : F

/-- The attributes of the lathe (dom/lathe_part_transformer.go:25-46): the thickness, the label of the part, the intercepts of the outline
with a horizontal line, and the repeated component rendered between two points with the length and the index of the layer. -/
structure LatheSetup (F : Type u) where
  precision : Int
  thickness : F
  label : Label
  intercepts : F → Res (List (Point F))
  render : Point F → Point F → F → Nat → Res (Path F)

/-- dom/lathe_part_transformer.go:58-104: one layer. -/
def latheLayer (s : LatheSetup F) (a b : Point F) (st : Lathe F) : Res (Lathe F) := do
  let length := b.x -. a.x
  let p ← s.render a b length st.index
  .ok ⟨st.parts ++ [⟨p, (measure p).1, (measure p).2,
        ⟨if s.label.text ≠ [] then numbered s.label.text st.index else s.label.text, s.label.position⟩⟩],
      if st.index = 0 then length else st.topLength, length, st.index + 1, st.totalHeight +. s.thickness⟩

/-- dom/lathe_part_transformer.go:47-105: the loop over the heights; `none` when it takes more than `fuel` turns. -/
def latheLoop (s : LatheSetup F) (bottom : F) : Nat → F → Lathe F → Option (Res (Lathe F))
  | 0, _, _ => none
  | fuel + 1, y, st =>
    if y <=. bottom then
      match s.intercepts y with
      | .ok (a :: b :: _) =>
        if precisionEquals (b.x -. a.x) Arith.zero s.precision then latheLoop s bottom fuel (y +. s.thickness) st
        else
          match latheLayer s a b st with
          | .ok st' => latheLoop s bottom fuel (y +. s.thickness) st'
          | .err => some .err
          | .panic => some .panic
      | .ok _ => latheLoop s bottom fuel (y +. s.thickness) st
      | .err => some .err
      | .panic => some .panic
    else some (.ok st)

/-- dom/lathe_part_transformer.go:42-46: before the loop. -/
def latheStart : Lathe F := ⟨[], Arith.zero, Arith.zero, 0, Arith.zero⟩

/-- dom/lathe_part_transformer.go:14-116 (`TransformPart`): the layers with the values that the code stores in global variables. -/
def lathe (s : LatheSetup F) (outline : Path F) (padTop padBottom : F) (fuel : Nat) : Option (Res (Lathe F)) :=
  match whitespaceBox outline with
  | .ok b =>
    if s.thickness <=. Arith.zero then some .err
    else latheLoop s (b.2.y -. padBottom) fuel (b.1.y +. padTop) latheStart
  | .err => some .err
  | .panic => some .panic

end Verif.Path
