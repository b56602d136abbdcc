import Verif.Model.PlanSet
import Verif.Model.Parts
import Verif.Model.Files

/-!
# Model of the writing of sheets

dom/svg_renderer.go. What is written is a text, together with how the writing ended; errors of the writer are not modelled. The fields `Name`,
`SegmentOperators` and `layoutContainer` are not used here (the layout is in `Verif/Model/PlanSet.lean`).
-/

namespace Verif.Svg

open Verif Verif.Path Verif.PlanSet Verif.Files

universe u

/-- dom/part.go:23-29 (`RenderedPart`): what is written of a part besides its size. -/
structure Drawing (F : Type u) where
  id : Text
  path : Path F
  label : Label

/-- dom/svg_renderer.go:45-75 (`SVGDocument`): the settings of the writing. -/
structure Page (F : Type u) where
  width : F
  height : F
  units : Units
  renderSize : Bool
  precision : Nat
  cutStyle : Text
  labelStyle : Text

/-- dom/common.go:8-11, 31-36 (`Abv`). -/
def abbreviation : Units → Text
  | .mm => "mm".toList
  | .inch => "in".toList

section Writing

variable {F : Type u} [Trig F]

/-- dom/svg_renderer.go:135-161 (`NewSVGDocument`). -/
def newPage (w h : F) (unit : Units) : Page F where
  width := w
  height := h
  units := unit
  renderSize := true
  precision := 3
  cutStyle := "fill:none;stroke:black;stroke-width:".toList ++ Num.fmt 3 (unit.fromMM (Arith.lit 3 1 : F))
  labelStyle := "font: ".toList ++ Num.fmt 3 (unit.fromMM (Arith.lit 3 0 : F)) ++ "pt serif; fill: blue".toList

/-- dom/svg_renderer.go:165-177 (`Clone`): the style of the labels is not copied. -/
def Page.clone (d : Page F) : Page F := { d with labelStyle := [] }

/-- dom/svg_renderer.go:94, 97: the text of a transform. -/
def transformText : SvgTransform F → Text
  | .rotate90 cx cy => "rotate(90 ".toList ++ Num.fmt 3 cx ++ ' ' :: Num.fmt 3 cy ++ [')']
  | .translate tx ty => "translate(".toList ++ Num.fmt 3 tx ++ ' ' :: Num.fmt 3 ty ++ [')']

/-- dom/svg_renderer.go:98, 255-257 (`writeSVG`). -/
def openText {P : Type u} (r : Renderable F P) : Text := "<g transform=\"".toList ++ joinSpace (r.transforms.map transformText) ++ "\">\n".toList

/-- dom/svg_renderer.go:104-108. -/
def pathText (d : Page F) (a : Drawing F) : Text :=
  "<path id=\"".toList ++ a.id ++ "\" d=\"".toList ++ printPath d.precision a.path ++ "\" style=\"".toList ++ d.cutStyle ++ "\" />\n".toList

/-- dom/svg_renderer.go:120-124. -/
def labelText (d : Page F) (q : Point F) (t : Text) : Text :=
  "<text x=\"".toList ++ Num.fmt 3 q.x ++ "\" y=\"".toList ++ Num.fmt 3 q.y ++ "\" style=\"".toList ++ d.labelStyle ++ "\">".toList ++ t ++
    "</text>\n".toList

/-- dom/svg_renderer.go:85-131 (`docRenderable.render`): what is written, and how it ended. -/
def writeItem (d : Page F) (r : Renderable F (Drawing F)) : Text × Res Unit :=
  let a := r.part.payload
  let start := openText r ++ pathText d a
  if 0 < a.label.text.length then
    match pointAttribute a.label.position a.path with
    | .err => (start, .err)
    | .panic => (start, .panic)
    | .ok q => (start ++ labelText d q a.label.text ++ "</g>\n".toList, .ok ())
  else (start ++ "</g>\n".toList, .ok ())

/-- dom/svg_renderer.go:203-205: the errors are not looked at. -/
def writeItems (d : Page F) : List (Renderable F (Drawing F)) → Text × Res Unit
  | [] => ([], .ok ())
  | r :: rs =>
    match writeItem d r with
    | (t, .panic) => (t, .panic)
    | (t, _) => (t ++ (writeItems d rs).1, (writeItems d rs).2)

/-- dom/svg_renderer.go:181-184: the size. -/
def sizeText (d : Page F) : Text :=
  if d.renderSize then
    "width=\"".toList ++ Num.fmt 3 d.width ++ abbreviation d.units ++ "\" height=\"".toList ++ Num.fmt 3 d.height ++ abbreviation d.units ++ ['"']
  else []

/-- dom/svg_renderer.go:179-193 (`start`). -/
def startText (d : Page F) : Text :=
  "<?xml version=\"1.0\"?>\n\t<!-- Generated by github.com/dustismo/heavyfishdesign -->\n\t<svg ".toList ++ sizeText d ++
    " viewBox=\"0.000 0.000 ".toList ++ Num.fmt 3 d.width ++ ' ' :: Num.fmt 3 d.height ++
    "\"\n    \txmlns=\"http://www.w3.org/2000/svg\"\n\t\txmlns:xlink=\"http://www.w3.org/1999/xlink\">\n\t".toList

/-- dom/svg_renderer.go:195-207 (`end`, `WriteSVG`). -/
def writePage (d : Page F) (rs : List (Renderable F (Drawing F))) : Text × Res Unit :=
  match writeItems d rs with
  | (t, .panic) => (startText d ++ t, .panic)
  | (t, _) => (startText d ++ t ++ "</svg>\n".toList, .ok ())

end Writing

end Verif.Svg
