import Verif.Model.Render

/-!
# Spec: the sheets of a document
-/

set_option linter.unusedSectionVars false

namespace Verif.Render

open Verif Verif.Dyn Verif.Path Verif.PlanSet Verif.Svg Verif.Files

universe u

variable {F : Type u} [Trig F] {O : Type}

/-- The document says that the setting has this value. -/
def Stated (doc : Elem F) (key : String) (x : F) : Prop := doc.original.lookup key.toList = some (.num x)

/-- The setting is nowhere in the document, with the global variables `g`. -/
def Unstated (doc : Elem F) (g : DMap F) (key : String) : Prop :=
  Dyn.get doc.original key.toList = none ∧ Dyn.get doc.allParams key.toList = none ∧ Dyn.get g key.toList = none ∧ Dyn.get doc.defaults key.toList = none

/-- The parts of a document rendered in turn, each with the global variables that the one before it left. -/
inductive InTurn (m : Machine F O) (doc : Elem F) (customs : List (Text × DMap F)) : DMap F → List (Live F) → List (List (RenderedPart F (Drawing F))) → Prop
  | nil (g : DMap F) : InTurn m doc customs g [] []
  | cons {g g' : DMap F} {c : Live F} {cs : List (Live F)} {ps : List (Rendered F)} {rest : List (List (RenderedPart F (Drawing F)))} :
    m.renderPart doc customs c g = .ok (ps, g') → InTurn m doc customs g' cs rest →
      InTurn m doc customs g (c :: cs) ((ps.map fun r => ⟨r.width, r.height, ⟨c.id, r.path, r.label⟩⟩) :: rest)

end Verif.Render
