import Verif.Model.Document
import Verif.Model.Xml

/-!
# Model of finding elements by their ids, and of the comparison of elements of SVG files

dom/document.go:84-98, dom/param_lookup.go:469-485, parser/svgparser.go:249-269.
-/

namespace Verif.Dyn

universe u

variable {F : Type u}

/-- `strings.Trim(id, "@")` (dom/document.go:85, 91). -/
def trimAt (s : Text) : Text := ((s.dropWhile fun c => decide (c = '@')).reverse.dropWhile fun c => decide (c = '@')).reverse

/-- dom/document.go:84-88 (`FindElementByID` of a document); the element is given by its map. -/
def Doc.findElement (d : Doc F) (id : Text) : Option (DMap F) := d.elements.lookup (trimAt id)

/-- dom/document.go:90-98 (`FindPartByID`). -/
def Doc.findPart (d : Doc F) (id : Text) : Option (Node F) := d.parts.find? fun p => decide (p.id = trimAt id)

/-- An element with what is above it: a document, a component with its parent, or an element that is neither. A component without a parent is `loose`. -/
inductive Place (F : Type u) where
  | document (d : Doc F)
  | component (n : Node F) (parent : Place F)
  | other (id : Text) (map : DMap F)
  | loose (n : Node F)

/-- dom/param_lookup.go:469-485 (`FindElementByID`). Without a parent the interface is nil, and the call of its method panics. -/
def Place.find (id : Text) : Place F → Res (DMap F)
  | .document d =>
    match d.findElement id with
    | some m => .ok m
    | none => .err
  | .component _ parent => parent.find id
  | .other i m => if i = id then .ok m else .err
  | .loose _ => .panic

end Verif.Dyn

namespace Verif.Xml

open Verif.Dyn

universe u

variable {F : Type u}

/-- parser/svgparser.go:256-261: `v != v1` for the value of an attribute and what the other element has. The attributes of an element are texts
(parser/svgparser.go:240-242); other values are not compared here. -/
def sameText : Val F → Option (Val F) → Bool
  | .str s, some (.str t) => decide (s = t)
  | _, _ => false

mutual

/-- parser/svgparser.go:249-269 (`Compare`). -/
def Element.compare : Element F → Element F → Bool
  | .mk n as cs t, .mk n' as' cs' t' =>
    if n ≠ n' ∨ t ≠ t' ∨ as.length ≠ as'.length ∨ cs.length ≠ cs'.length then false
    else (as.all fun a => sameText a.2 (Dyn.get as' a.1)) && compareAll cs cs'

/-- parser/svgparser.go:263-267: the children; there are as many on both sides. -/
def compareAll : List (Element F) → List (Element F) → Bool
  | c :: cs, d :: ds => c.compare d && compareAll cs ds
  | _, _ => true

end

end Verif.Xml
