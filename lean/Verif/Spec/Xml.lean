import Verif.Model.Xml

/-!
# What decoding and importing SVG should give

Element trees as they are written in a file, the tokens they are written as, and the element each stands for.
-/

namespace Verif.Xml

open Verif.Dyn Verif.Path

universe u

variable {F : Type u}

/-- What is written in a file: elements with what is between their tags, texts, and comments and the like. -/
inductive Node where
  | el (name : Text) (attrs : List (Text × Text)) (inside : List Node)
  | text (t : Text)
  | other

mutual

/-- The tokens of a node. -/
def Node.tokens : Node → List Tok
  | .el name attrs inside => .start name attrs :: (tokensAll inside ++ [.stop name])
  | .text t => [.chars t]
  | .other => [.other]

/-- The tokens of nodes one after the other. -/
def tokensAll : List Node → List Tok
  | [] => []
  | n :: ns => n.tokens ++ tokensAll ns

end

/-- The texts directly between the tags that are not only white space. -/
def texts : List Node → List Text
  | [] => []
  | .text t :: ns => if trimSpace t = [] then texts ns else t :: texts ns
  | _ :: ns => texts ns

/-- The attributes as a map. -/
def attributesOf (attrs : List (Text × Text)) : DMap F := attrs.map fun a => (a.1, .str a.2)

mutual

/-- The element a node stands for, with the last of its texts (none if the node is not an element). -/
def Node.elements : Node → List (Element F)
  | .el name attrs inside => [.mk name (attributesOf attrs) (elementsAll inside) ((texts inside).getLast?.getD [])]
  | .text _ => []
  | .other => []

/-- The elements among nodes, in order. -/
def elementsAll : List Node → List (Element F)
  | [] => []
  | n :: ns => n.elements ++ elementsAll ns

end

mutual

/-- The attributes of every element have different local names. -/
def Node.Unique : Node → Prop
  | .el _ attrs inside => (attrs.map Prod.fst).Nodup ∧ UniqueAll inside
  | .text _ => True
  | .other => True

def UniqueAll : List Node → Prop
  | [] => True
  | n :: ns => n.Unique ∧ UniqueAll ns

end

mutual

/-- No element has more than one text that is not only white space. -/
def Node.OneText : Node → Prop
  | .el _ _ inside => (texts inside).length ≤ 1 ∧ OneTextAll inside
  | .text _ => True
  | .other => True

def OneTextAll : List Node → Prop
  | [] => True
  | n :: ns => n.OneText ∧ OneTextAll ns

end

mutual

/-- The element a node stands for, with all of its texts. -/
def Node.whole : Node → List (Element F)
  | .el name attrs inside => [.mk name (attributesOf attrs) (wholeAll inside) (texts inside).flatten]
  | .text _ => []
  | .other => []

def wholeAll : List Node → List (Element F)
  | [] => []
  | n :: ns => n.whole ++ wholeAll ns

end

end Verif.Xml
