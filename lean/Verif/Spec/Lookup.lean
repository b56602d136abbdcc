import Verif.Model.Lookup
import Verif.Spec.Document
import Verif.Spec.Xml

/-!
# Specification vocabulary for finding elements, and for comparing elements of SVG files
-/

namespace Verif.Dyn

universe u

variable {F : Type u}

/-- The id has no `@` at its ends. -/
def Bald (id : Text) : Prop := id.head? ≠ some '@' ∧ id.getLast? ≠ some '@'

/-- The element is in the document, however deep. -/
inductive Place.Below (d : Doc F) : Place F → Prop
  | top : Place.Below d (.document d)
  | down {p : Place F} (n : Node F) (h : Place.Below d p) : Place.Below d (.component n p)

end Verif.Dyn

namespace Verif.Xml

open Verif.Dyn

universe u

variable {F : Type u}

mutual

/-- The attributes of the element and of those inside are texts, under different names. -/
def Element.Proper : Element F → Prop
  | .mk _ as cs _ => (as.map Prod.fst).Nodup ∧ (∀ a ∈ as, ∃ s, a.2 = .str s) ∧ ProperAll cs

def ProperAll : List (Element F) → Prop
  | [] => True
  | c :: cs => c.Proper ∧ ProperAll cs

end

mutual

/-- The same name and text, the same attributes in any order, and the same children in the same order. -/
def Element.Same : Element F → Element F → Prop
  | .mk n as cs t, .mk n' as' cs' t' => n = n' ∧ t = t' ∧ as.Perm as' ∧ SameAll cs cs'

def SameAll : List (Element F) → List (Element F) → Prop
  | [], [] => True
  | c :: cs, d :: ds => c.Same d ∧ SameAll cs ds
  | _, _ => False

end

end Verif.Xml
