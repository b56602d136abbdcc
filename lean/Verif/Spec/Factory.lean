import Verif.Model.Factory
import Verif.Spec.DrawComponent

/-!
# Specification vocabulary for the transform factories
-/

namespace Verif.Spec

open Verif Verif.Path

universe u

/-- The transforms with what they have to be given. -/
def transformNeeds : List (String × List Need) :=
  [("cleanup", []),
   ("rotate", [.number "degrees"]),
   ("reverse", []),
   ("join", []),
   ("offset", [.number "distance"]),
   ("move", [.point "to"]),
   ("trim", []),
   ("matrix", [.number "a", .number "b", .number "c", .number "d", .number "e", .number "f"]),
   ("mirror", []),
   ("scale", []),
   ("slice", [.number "y"]),
   ("rotate_scale", [])]

/-- The map under `transforms` has this. -/
def Has {F : Type u} (m : TransformMap F) : Need → Prop
  | .point k => (m.point k.toList).isSome
  | .number k => (m.number k.toList).isSome
  | .text k => (m.text k.toList).isSome

/-- The map names a transform from the list, and has what it needs. -/
def Makeable {F : Type u} (m : TransformMap F) : Prop := ∃ e ∈ transformNeeds, e.1.toList = m.name ∧ ∀ n ∈ e.2, Has m n

end Verif.Spec
