import Verif.Spec.Piece
import Verif.Spec.Sketch

/-!
# Specification vocabulary for documents of scenes

A scene is a drawing with the pen, or a group of scenes; both can be transformed. Groups can be in groups, as deep as one likes.

```
{ "material_width": …, "material_height": …, "doc_padding": …,
  "parts": [ { "id": …, "components": [ { "type": "group",
    "components": [ { "type": "draw", "commands": […], "transforms": [ { "type": "rotate", "degrees": …, "axis": "$ORIGIN" } ] }, … ],
    "transforms": [ { "type": "scale", "scale_x": …, "scale_y": … }, … ] } ] }, … ] }
```
-/

namespace Verif.Render

open Verif Verif.Dyn Verif.Path Verif.PlanSet Verif.Svg Verif.Spec Verif.Files Verif.Xml

/-- A transform that is the same for all drawings: a matrix, a scaling, a rotation about the origin, a move of the origin. -/
inductive Bend where
  | matrix (a b c d e f : ℝ)
  | scale (x y : ℝ)
  | rotate (degrees : ℝ)
  | move (q : Pt ℝ)

/-- The transform in a document. -/
def bendMap : Bend → DMap (XNum ℝ)
  | .matrix a b c d e f =>
    [("type".toList, .str "matrix".toList), ("a".toList, .num (.fin a)), ("b".toList, .num (.fin b)), ("c".toList, .num (.fin c)),
      ("d".toList, .num (.fin d)), ("e".toList, .num (.fin e)), ("f".toList, .num (.fin f))]
  | .scale x y => [("type".toList, .str "scale".toList), ("scale_x".toList, .num (.fin x)), ("scale_y".toList, .num (.fin y))]
  | .rotate d => [("type".toList, .str "rotate".toList), ("degrees".toList, .num (.fin d)), ("axis".toList, .str "$ORIGIN".toList)]
  | .move q => [("type".toList, .str "move".toList), ("to".toList, pairVal q), ("handle".toList, .str "$ORIGIN".toList)]

/-- What it does to a point. -/
noncomputable def Bend.act : Bend → Pt ℝ → Pt ℝ
  | .matrix a b c d e f, q => (a * q.1 + c * q.2 + e, b * q.1 + d * q.2 + f)
  | .scale x y, q => (x * q.1, y * q.2)
  | .rotate d, q => (q.1 * Real.cos (d * Real.pi / 180) - q.2 * Real.sin (d * Real.pi / 180), q.1 * Real.sin (d * Real.pi / 180) + q.2 * Real.cos (d * Real.pi / 180))
  | .move p, q => q + p

/-- What several do, the first one first. -/
noncomputable def bend : List Bend → Pt ℝ → Pt ℝ
  | [], q => q
  | b :: bs, q => bend bs (b.act q)

/-- A scene. -/
inductive Scene where
  | draw (commands : List PenCmd) (bends : List Bend)
  | group (first : Scene) (rest : List Scene) (bends : List Bend)

/-- The transforms in a document. -/
def bendsVal (bs : List Bend) : Val (XNum ℝ) := .list (bs.map fun b => .map (bendMap b))

mutual

/-- The scene in a document. -/
def Scene.map : Scene → DMap (XNum ℝ)
  | .draw cs bs =>
    [("type".toList, .str "draw".toList), ("commands".toList, .list (cs.map fun c => .map (penMap c))), ("transforms".toList, bendsVal bs)]
  | .group s ss bs => [("type".toList, .str "group".toList), ("components".toList, .list (.map s.map :: Scene.maps ss)), ("transforms".toList, bendsVal bs)]

/-- Several of them. -/
def Scene.maps : List Scene → List (Val (XNum ℝ))
  | [] => []
  | s :: ss => .map s.map :: Scene.maps ss

end

mutual

/-- What a scene that begins at `q` draws, and where it ends: a group draws its scenes one after the other, each of them from where the one before has ended, and
then bends the whole. -/
noncomputable def Scene.draws (q : Pt ℝ) : Scene → List (Stroke ℝ) × Pt ℝ
  | .draw cs bs => ((penDraws ⟨q, none⟩ cs).map (Stroke.map (bend bs)), bend bs (penEnd ⟨q, none⟩ cs).cur)
  | .group s ss bs =>
    let first := s.draws q
    let rest := Scene.drawsAll first.2 ss
    ((first.1 ++ rest.1).map (Stroke.map (bend bs)), bend bs rest.2)

/-- Several of them, one after the other. -/
noncomputable def Scene.drawsAll (q : Pt ℝ) : List Scene → List (Stroke ℝ) × Pt ℝ
  | [] => ([], q)
  | s :: ss =>
    let first := s.draws q
    let rest := Scene.drawsAll first.2 ss
    (first.1 ++ rest.1, rest.2)

end

mutual

/-- How deep the groups are in each other. -/
def Scene.depth : Scene → Nat
  | .draw _ _ => 1
  | .group s ss _ => max s.depth (Scene.depths ss) + 1

/-- The deepest of them. -/
def Scene.depths : List Scene → Nat
  | [] => 0
  | s :: ss => max s.depth (Scene.depths ss)

end

/-- A part of scenes: its id and its scenes. -/
structure Tableau where
  id : Text
  scenes : List Scene

/-- The part as a piece. -/
def Tableau.piece (o : Tableau) : Piece := ⟨o.id, o.scenes.map Scene.map⟩

/-- What it draws. -/
noncomputable def Tableau.draws (o : Tableau) : List (Stroke ℝ) := (Scene.drawsAll (0, 0) o.scenes).1

/-- A document with sheets of this size and these parts. -/
def tableauDoc (s : Sheet ℝ) (os : List Tableau) : DMap (XNum ℝ) := pieceDoc s (os.map Tableau.piece)

/-- The part is well made: it has a name without markup, what it draws is neither upright nor level, and the coordinates are below 2^62. -/
structure Tableau.WellMade (o : Tableau) : Prop where
  name : o.id ≠ [] ∧ Unmarked o.id
  sizeable : Sizeable o.draws

end Verif.Render
