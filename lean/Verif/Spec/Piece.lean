import Verif.Spec.SeenPart
import Verif.Spec.Document

/-!
# Specification vocabulary for documents whose parts have any components

```
{ "material_width": …, "material_height": …, "doc_padding": …, "parts": [ { "id": …, "components": [ …, … ] }, … ] }
```
-/

namespace Verif.Render

open Verif Verif.Dyn Verif.Path Verif.PlanSet Verif.Svg Verif.Files Verif.Spec

/-- A piece: its id and the maps of its components. -/
structure Piece where
  id : Text
  components : List (DMap (XNum ℝ))

/-- A piece as a part of a document. -/
def pieceMap (o : Piece) : DMap (XNum ℝ) := [("id".toList, .str o.id), ("components".toList, .list (o.components.map .map))]

/-- A document with sheets of this size and these pieces as parts. -/
def pieceDoc (s : Sheet ℝ) (os : List Piece) : DMap (XNum ℝ) :=
  [("material_width".toList, .num (.fin s.width)), ("material_height".toList, .num (.fin s.height)), ("doc_padding".toList, .num (.fin s.padding)),
    ("parts".toList, .list (os.map fun o => .map (pieceMap o)))]

/-- Its maps have every key once and no dots in their keys, as maps that are read from a file. -/
def Piece.Neat (o : Piece) : Prop := ∀ c ∈ o.components, Dyn.Neat (.map c)

/-- The point is on one of the strokes. -/
def Meets (ss : List (Stroke ℝ)) (q : Pt ℝ) : Prop := ∃ s ∈ ss, ∃ t : ℝ, 0 ≤ t ∧ t ≤ 1 ∧ s.at t = q

/-- The strokes are neither upright nor level, and their coordinates are below 2^62. -/
structure Sizeable (ss : List (Stroke ℝ)) : Prop where
  wide : ∃ p q, Meets ss p ∧ Meets ss q ∧ p.1 < q.1
  high : ∃ p q, Meets ss p ∧ Meets ss q ∧ p.2 < q.2
  bounded : ∀ q, Meets ss q → |q.1| < 2 ^ 62 ∧ |q.2| < 2 ^ 62

/-- The size of strokes. -/
def SizeOf (ss : List (Stroke ℝ)) (w h : ℝ) : Prop := ∃ x y, BoxOf (Meets ss) (x, y) (x + w, y + h)

/-- What is seen has this name and no label, and its strokes are these strokes, moved, in their order, up to `e`. -/
def ShowsStrokes (e : ℝ) (id : Text) (ss : List (Stroke ℝ)) (g : SeenPart) : Prop :=
  g.drawing.id = id ∧ g.label = [] ∧ ∃ f : Pt ℝ → Pt ℝ, Rigid f ∧ List.Forall₂ (ShowsStroke e f) ss g.drawing.strokes

/-- When parts of the sizes of these drawings are laid out on sheets, none but squares ever meets a free bin of exactly its padded size on its sheet. -/
def DrawingsNeverFill (s : Sheet ℝ) (sss : List (List (Stroke ℝ))) : Prop :=
  ∀ (parts : List (List (RenderedPart ℝ (Drawing (XNum ℝ))))) (docs : List (SvgDoc ℝ (Drawing (XNum ℝ)))),
    List.Forall₂ (fun ss l => l.length = 1 ∧ ∀ p ∈ l, SizeOf ss p.width p.height) sss parts → init s (parts.map some) = some (docs, .ok) →
    ∀ d ∈ docs, NoExactFits (newSvgDoc s.width s.height s.padding) d.parts

/-- The sheets in the files show the drawings with their names, each of them once, and keep them apart. -/
def SheetsShow (s : Sheet ℝ) (texts : Res (List SheetText)) (os : List (Text × List (Stroke ℝ))) : Prop :=
  ∃ (ts : List SheetText) (seen : List (List SeenPart)) (cs : List (Text × List (Stroke ℝ))), texts = .ok ts ∧
    List.Forall₂ (fun t gs => t.2 = false ∧ SeesPlan s .inch t.1 gs) ts seen ∧ cs.Perm os ∧
    List.Forall₂ (fun o g => ShowsStrokes (1 / 1000) o.1 o.2 g) cs seen.flatten ∧
    (DrawingsNeverFill s (os.map (·.2)) → ∀ gs ∈ seen, (∃ g, gs = [g]) ∨
      ((∀ g ∈ gs, g.drawing.Inside (s.padding - 1 / 1000) s) ∧ gs.Pairwise fun g g' => Seen.Apart (2 * s.padding - 1 / 500) g.drawing g'.drawing))

end Verif.Render
