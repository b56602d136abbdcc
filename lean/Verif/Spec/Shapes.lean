import Verif.Model.Render
import Verif.Spec.Path

/-!
# Documents of outlines, with any kind of numbers

The documents of `Verif/Spec/Outline.lean`, whose numbers are not real ones but of the type that the program computes with.
-/

namespace Verif.Shapes

open Verif Verif.Dyn Verif.Path Verif.PlanSet Verif.Spec

universe u

variable {F : Type u}

/-- A line to a point. -/
def lineMap (q : Pt F) : DMap F :=
  [("command".toList, .str "line".toList), ("to".toList, .map [("x".toList, .num q.1), ("y".toList, .num q.2)])]

/-- A drawing of lines through the points. -/
def drawMap (qs : List (Pt F)) : DMap F := [("type".toList, .str "draw".toList), ("commands".toList, .list (qs.map fun q => .map (lineMap q)))]

/-- An outline: its id and its drawings, each with its points. -/
structure Shape (F : Type u) where
  id : Text
  drawings : List (List (Pt F))

/-- All points of an outline. -/
def Shape.points (o : Shape F) : List (Pt F) := o.drawings.flatten

/-- An outline as a part of a document. -/
def partMap (o : Shape F) : DMap F := [("id".toList, .str o.id), ("components".toList, .list (o.drawings.map fun qs => .map (drawMap qs)))]

/-- A document with sheets of this size and these outlines as parts. -/
def shapeDoc (s : Sheet F) (os : List (Shape F)) : DMap F :=
  [("material_width".toList, .num s.width), ("material_height".toList, .num s.height), ("doc_padding".toList, .num s.padding),
    ("parts".toList, .list (os.map fun o => .map (partMap o)))]

/-- The lines from a point through the others. -/
def polyline : Pt F → List (Pt F) → List (Stroke F)
  | _, [] => []
  | a, b :: qs => .line a b :: polyline b qs

end Verif.Shapes
