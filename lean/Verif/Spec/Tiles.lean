import Verif.Spec.SeenPart

/-!
# Specification vocabulary for documents of sketches with labels and copies

```
{ "id": …, "components": [ … ], "label": { "text": … }, "repeat": { "total": … } }
```
-/

namespace Verif.Render

open Verif Verif.Dyn Verif.Path Verif.PlanSet Verif.Svg Verif.Spec Verif.Files Verif.Xml

/-- A sketch with a label, which may be empty, and a number of copies. -/
structure Tile where
  sketch : Sketch
  label : Text
  copies : Nat

/-- A tile as a part of a document. -/
def tileMap (o : Tile) : DMap (XNum ℝ) :=
  [("id".toList, .str o.sketch.id), ("components".toList, .list (o.sketch.drawings.map fun cs => .map (penDrawing cs))),
    ("label".toList, .map [("text".toList, .str o.label)]), ("repeat".toList, .map [("total".toList, .num (.fin o.copies))])]

/-- A document with sheets of this size and these tiles as parts. -/
def tileDoc (s : Sheet ℝ) (os : List Tile) : DMap (XNum ℝ) :=
  [("material_width".toList, .num (.fin s.width)), ("material_height".toList, .num (.fin s.height)), ("doc_padding".toList, .num (.fin s.padding)),
    ("parts".toList, .list (os.map fun o => .map (tileMap o)))]

/-- The text is not the name of something in the document, and has no dot. -/
def Inert (t : Text) : Prop :=
  '.' ∉ t ∧ t ∉ ["id".toList, "components".toList, "label".toList, "repeat".toList, "type".toList, "part_index".toList] ∧
    t ∉ ["material_width".toList, "material_height".toList, "doc_padding".toList, "parts".toList]

/-- What a copy is labelled with: if there are several, their labels are numbered from zero. -/
def Tile.labelled (o : Tile) (i : Nat) : Text :=
  match o.label, o.copies with
  | [], _ => []
  | t, 1 => t
  | t, _ => t ++ ':' :: (toString i).toList

/-- All copies of the tiles. -/
def allCopies (os : List Tile) : List (Tile × Nat) := os.flatMap fun o => (List.range o.copies).map fun i => (o, i)

/-- What is seen is the copy: its sketch, moved, up to `e`, and its label. -/
def ShowsCopy (e : ℝ) (c : Tile × Nat) (g : SeenPart) : Prop := ShowsSketch e c.1.sketch g.drawing ∧ g.label = c.1.labelled c.2

/-- When copies of the sizes of the tiles are laid out on sheets, none but squares ever meets a free bin of exactly its padded size on its sheet. -/
def TilesNeverFill (s : Sheet ℝ) (os : List Tile) : Prop :=
  ∀ (parts : List (List (RenderedPart ℝ (Drawing (XNum ℝ))))) (docs : List (SvgDoc ℝ (Drawing (XNum ℝ)))),
    List.Forall₂ (fun o l => l.length = o.copies ∧ ∀ p ∈ l, o.sketch.Sized p.width p.height) os parts → init s (parts.map some) = some (docs, .ok) →
    ∀ d ∈ docs, NoExactFits (newSvgDoc s.width s.height s.padding) d.parts

end Verif.Render
