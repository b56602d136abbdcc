import Verif.Model.BinPacking

/-!
# Model of `dom/svg_renderer.go` (layout part) and `dom/planset.go`
-/

namespace Verif.PlanSet

open Verif Verif.BinPacking

universe u v

/-- dom/part.go:23-29 (`RenderedPart`): what the layout looks at is `Width` and `Height`; everything else (part, path, label) is the
`payload`. -/
structure RenderedPart (F : Type u) (P : Type v) where
  width : F
  height : F
  payload : P
deriving Repr, DecidableEq

/-- dom/svg_renderer.go:36-42 (`docRenderable`), `position.X`, `position.Y`, `rotate`. -/
structure Renderable (F : Type u) (P : Type v) where
  x : F
  y : F
  part : RenderedPart F P
  rotate : Bool
deriving Repr, DecidableEq

/-- dom/svg_renderer.go:45-75 (`SVGDocument`): the fields used by the layout. -/
structure SvgDoc (F : Type u) (P : Type v) where
  width : F
  height : F
  padding : F
  container : Container F (RenderedPart F P)
  renderables : List (Renderable F P)
deriving Repr, DecidableEq

/-- The answers of `SVGDocument.Add`: `(true, nil)`, `(false, nil)`, `(false, err)`. -/
inductive AddResult where
  | added
  | notAdded
  | error
deriving Repr, DecidableEq

variable {F : Type u} {P : Type v} [Arith F]

/-- dom/svg_renderer.go:135-161 (`NewSVGDocument`) with `Padding` set as in dom/planset.go:30-44 (`createSvgDoc`). -/
def newSvgDoc (width height padding : F) : SvgDoc F P :=
  ⟨width, height, padding, newContainer Arith.zero Arith.zero width height, []⟩

/-- dom/svg_renderer.go:214-221: the part's size is refused with an error. -/
def badSize (p : RenderedPart F P) : Bool :=
  (p.height <=. Arith.zero) || (p.width <=. Arith.zero) || Arith.isNaN p.width || Arith.isNaN p.height

/-- dom/svg_renderer.go:211-252 (`SVGDocument.Add`): the document after the call and the answer (outer `none`: the call
of `InsertWithPadding` does not return). -/
def SvgDoc.add (d : SvgDoc F P) (p : RenderedPart F P) : Option (SvgDoc F P × AddResult) :=
  if badSize p then some (d, .error) else
  match d.container.insertWithPadding p p.width p.height d.padding with
  | none => none
  | some (c, some bin) =>
    some ({ d with container := c, renderables := d.renderables ++ [⟨bin.x, bin.y, p, bin.rotated⟩] }, .added)
  | some (c, none) =>
    if c.isEmpty then
      -- lines 229-239: an oversized part gets the whole (empty) document; `bin` is the new root
      some ({ d with
        container := newSingleObjectContainer p c.x c.y c.width c.height
        renderables := d.renderables ++ [⟨c.x, c.y, p, false⟩] }, .added)
    else some ({ d with container := c }, .notAdded)

/-- dom/planset.go:52-60: try the existing documents in order. -/
def addToDocs (p : RenderedPart F P) : List (SvgDoc F P) → Option (List (SvgDoc F P) × AddResult)
  | [] => some ([], .notAdded)
  | d :: ds =>
    match d.add p with
    | none => none
    | some (d', .error) => some (d' :: ds, .error)
    | some (d', .added) => some (d' :: ds, .added)
    | some (d', .notAdded) =>
      match addToDocs p ds with
      | none => none
      | some (ds', res) => some (d' :: ds', res)

/-- The settings of `createSvgDoc` (dom/planset.go:30-44): `material_width`, `material_height`, `doc_padding`. They are read from
the document's attributes and are the same for all sheets. -/
structure Sheet (F : Type u) where
  width : F
  height : F
  padding : F
deriving Repr, DecidableEq

/-- dom/planset.go:50-73 (`addPart`). -/
def addPart (s : Sheet F) (docs : List (SvgDoc F P)) (p : RenderedPart F P) :
    Option (List (SvgDoc F P) × AddResult) :=
  match addToDocs p docs with
  | none => none
  | some (docs', .error) => some (docs', .error)
  | some (docs', .added) => some (docs', .added)
  | some (docs', .notAdded) =>
    match (newSvgDoc s.width s.height s.padding).add p with
    | none => none
    | some (_, .error) => some (docs', .error)
    | some (d, .added) => some (docs' ++ [d], .added)
    | some (_, .notAdded) => some (docs', .notAdded)

/-- How `PlanSet.Init` can end: success, or one of its three error returns (dom/planset.go:85-98). -/
inductive InitResult where
  | ok
  | renderError
  | addError
  | tooBig
deriving Repr, DecidableEq

/-- dom/planset.go:89-99: add the rendered parts of one part. -/
def addRendered (s : Sheet F) : List (SvgDoc F P) → List (RenderedPart F P) →
    Option (List (SvgDoc F P) × InitResult)
  | docs, [] => some (docs, .ok)
  | docs, p :: ps =>
    match addPart s docs p with
    | none => none
    | some (docs', .error) => some (docs', .addError)
    | some (docs', .notAdded) => some (docs', .tooBig)
    | some (docs', .added) => addRendered s docs' ps

/-- dom/planset.go:83-101: the loop over the parts; each element is the result of `RenderPart` (`none`: an error). -/
def initLoop (s : Sheet F) : List (SvgDoc F P) → List (Option (List (RenderedPart F P))) →
    Option (List (SvgDoc F P) × InitResult)
  | docs, [] => some (docs, .ok)
  | docs, none :: _ => some (docs, .renderError)
  | docs, some rendered :: rest =>
    match addRendered s docs rendered with
    | none => none
    | some (docs', .ok) => initLoop s docs' rest
    | some (docs', e) => some (docs', e)

/-- dom/planset.go:75-102 (`Init`). -/
def init (s : Sheet F) (parts : List (Option (List (RenderedPart F P)))) : Option (List (SvgDoc F P) × InitResult) :=
  initLoop s [newSvgDoc s.width s.height s.padding] parts

/-- The SVG transform functions that `render` writes (dom/svg_renderer.go:85-99). -/
inductive SvgTransform (F : Type u) where
  | rotate90 (cx cy : F)
  | translate (tx ty : F)
deriving Repr, DecidableEq

/-- dom/svg_renderer.go:86-99: the list of transforms written for a renderable. (The numbers are printed with three
decimals; that rounding is not part of this definition.) -/
def Renderable.transforms (r : Renderable F P) : List (SvgTransform F) :=
  if r.rotate then
    let translateX := r.x +. r.part.height
    [.rotate90 translateX r.y, .translate translateX r.y]
  else [.translate r.x r.y]

end Verif.PlanSet
