import Verif.Spec.Path
import Verif.Model.Tree

/-!
# Specification: paths whose text draws their strokes, and trees of components
-/

namespace Verif.Spec

open Verif Verif.Path

universe u

variable {F : Type u}

/-- SVG draws exactly the strokes of the path, wherever the pen is before: every line and curve begins where the pen is. -/
def ReadAsDrawn (p : Path F) : Prop := ∀ cur : Pt F, svgStrokes cur p = strokes p

mutual

/-- Every transform of a component and of the components below it satisfies `P` and every gear satisfies `G`, whatever is found during a rendering. -/
def Everywhere (P : TransformMap F → Prop) (G : GearSize F → Prop) : Comp F → Prop
  | .part cs ts => EverywhereIn P G cs ∧ ∀ v c, ∀ m ∈ ts v c, P m
  | .draw _ ts => ∀ v c, ∀ m ∈ ts v c, P m
  | .copies c _ _ ts => Everywhere P G c ∧ ∀ v c, ∀ m ∈ ts v c, P m
  | .group cs ts => EverywhereIn P G cs ∧ ∀ v c, ∀ m ∈ ts v c, P m
  | .repeatEdge c l r _ ts => Everywhere P G c ∧ Everywhere P G l ∧ Everywhere P G r ∧ ∀ v c, ∀ m ∈ ts v c, P m
  | .basicEdge cs _ ts => EverywhereIn P G cs ∧ ∀ v c, ∀ m ∈ ts v c, P m
  | .xIntercept c o _ _ ts => Everywhere P G c ∧ Everywhere P G o ∧ ∀ v c, ∀ m ∈ ts v c, P m
  | .around c _ => Everywhere P G c
  | .gear size ts => (∀ v c, G (size v c)) ∧ ∀ v c, ∀ m ∈ ts v c, P m

/-- The same for a list of components. -/
def EverywhereIn (P : TransformMap F → Prop) (G : GearSize F → Prop) : List (Comp F) → Prop
  | [] => True
  | c :: cs => Everywhere P G c ∧ EverywhereIn P G cs

end

mutual

/-- No component below has an empty list of components, no number of copies around a centre is negative, there is no intercept component, and the
transforms satisfy `P`. A part may be empty. -/
def Sturdy (P : TransformMap F → Prop) : Comp F → Prop
  | .part cs ts => SturdyIn P cs ∧ ∀ v c, ∀ m ∈ ts v c, P m
  | .draw _ ts => ∀ v c, ∀ m ∈ ts v c, P m
  | .copies c _ _ ts => Sturdy P c ∧ ∀ v c, ∀ m ∈ ts v c, P m
  | .group cs ts => cs ≠ [] ∧ SturdyIn P cs ∧ ∀ v c, ∀ m ∈ ts v c, P m
  | .repeatEdge c l r _ ts => Sturdy P c ∧ Sturdy P l ∧ Sturdy P r ∧ ∀ v c, ∀ m ∈ ts v c, P m
  | .basicEdge cs _ ts => cs ≠ [] ∧ SturdyIn P cs ∧ ∀ v c, ∀ m ∈ ts v c, P m
  | .xIntercept _ _ _ _ _ => False
  | .around c attrs => Sturdy P c ∧ ∀ v c, 0 ≤ (attrs v c).num
  | .gear _ ts => ∀ v c, ∀ m ∈ ts v c, P m

/-- The same for a list of components. -/
def SturdyIn (P : TransformMap F → Prop) : List (Comp F) → Prop
  | [] => True
  | c :: cs => Sturdy P c ∧ SturdyIn P cs

end

end Verif.Spec
