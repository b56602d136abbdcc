import Verif.Model.Render
import Verif.Spec.Path
import Verif.Spec.Transform
import Verif.Spec.SvgDoc

/-!
# Specification vocabulary for documents of outlines

A document is written down as in the design files, with a size of the sheets and parts, which are drawings of straight lines:

```
{ "material_width": …, "material_height": …, "doc_padding": …,
  "parts": [ { "id": …, "components": [ { "type": "draw", "commands": [ { "command": "line", "to": { "x": …, "y": … } }, … ] }, … ] }, … ] }
```
-/

namespace Verif.Render

open Verif Verif.Dyn Verif.Path Verif.PlanSet Verif.Svg Verif.Spec

/-- A line to a point. -/
def lineMap (q : Pt ℝ) : DMap (XNum ℝ) :=
  [("command".toList, .str "line".toList), ("to".toList, .map [("x".toList, .num (.fin q.1)), ("y".toList, .num (.fin q.2))])]

/-- A drawing of lines through the points. -/
def drawMap (qs : List (Pt ℝ)) : DMap (XNum ℝ) := [("type".toList, .str "draw".toList), ("commands".toList, .list (qs.map fun q => .map (lineMap q)))]

/-- An outline: its id and its drawings, each with its points. -/
structure Outline where
  id : Text
  drawings : List (List (Pt ℝ))

/-- All points of an outline. -/
def Outline.points (o : Outline) : List (Pt ℝ) := o.drawings.flatten

/-- An outline as a part of a document. -/
def partMap (o : Outline) : DMap (XNum ℝ) := [("id".toList, .str o.id), ("components".toList, .list (o.drawings.map fun qs => .map (drawMap qs)))]

/-- A document with sheets of this size and these outlines as parts. -/
def outlineDoc (s : Sheet ℝ) (os : List Outline) : DMap (XNum ℝ) :=
  [("material_width".toList, .num (.fin s.width)), ("material_height".toList, .num (.fin s.height)), ("doc_padding".toList, .num (.fin s.padding)),
    ("parts".toList, .list (os.map fun o => .map (partMap o)))]

/-- The lines from a point through the others. -/
def polyline : Pt ℝ → List (Pt ℝ) → List (Stroke ℝ)
  | _, [] => []
  | a, b :: qs => .line a b :: polyline b qs

/-- The outline, which begins at the origin, is neither upright nor level. -/
def Outline.Wide (o : Outline) : Prop :=
  (∃ p ∈ (0, 0) :: o.points, ∃ q ∈ (0, 0) :: o.points, p.1 < q.1) ∧ ∃ p ∈ (0, 0) :: o.points, ∃ q ∈ (0, 0) :: o.points, p.2 < q.2

end Verif.Render
