import Verif.Spec.Seen
import Verif.Spec.DrawComponent

/-!
# Specification vocabulary for documents of sketches

As in `Verif/Spec/Outline.lean`, but the parts are drawings with all the commands of a pen: moves, lines and curves, absolute and relative, lines by angle,
rectangles and circles.

```
{ "material_width": …, "material_height": …, "doc_padding": …,
  "parts": [ { "id": …, "components": [ { "type": "draw", "commands": [ { "command": "circle", "radius": … }, … ] }, … ] }, … ] }
```
-/

namespace Verif.Render

open Verif Verif.Dyn Verif.Path Verif.PlanSet Verif.Svg Verif.Spec

/-- A command for the pen. -/
inductive PenCmd where
  | move (q : Pt ℝ)
  | relMove (q : Pt ℝ)
  | line (q : Pt ℝ)
  | relLine (q : Pt ℝ)
  | curve (c d q : Pt ℝ)
  | relCurve (c d q : Pt ℝ)
  | smooth (d q : Pt ℝ)
  | relSmooth (d q : Pt ℝ)
  | angle (length degrees : ℝ)
  | rectangle (width height : ℝ)
  | circle (radius : ℝ)

/-- A point in a document. -/
def pairVal (q : Pt ℝ) : Val (XNum ℝ) := .map [("x".toList, .num (.fin q.1)), ("y".toList, .num (.fin q.2))]

/-- The command in a document. -/
def penMap : PenCmd → DMap (XNum ℝ)
  | .move q => [("command".toList, .str "move".toList), ("to".toList, pairVal q)]
  | .relMove q => [("command".toList, .str "rel_move".toList), ("to".toList, pairVal q)]
  | .line q => [("command".toList, .str "line".toList), ("to".toList, pairVal q)]
  | .relLine q => [("command".toList, .str "rel_line".toList), ("to".toList, pairVal q)]
  | .curve c d q =>
    [("command".toList, .str "curve".toList), ("ctrl_start".toList, pairVal c), ("ctrl_end".toList, pairVal d), ("to".toList, pairVal q)]
  | .relCurve c d q =>
    [("command".toList, .str "rel_curve".toList), ("ctrl_start".toList, pairVal c), ("ctrl_end".toList, pairVal d), ("to".toList, pairVal q)]
  | .smooth d q => [("command".toList, .str "smooth_curve".toList), ("ctrl_end".toList, pairVal d), ("to".toList, pairVal q)]
  | .relSmooth d q => [("command".toList, .str "rel_smooth_curve".toList), ("ctrl_end".toList, pairVal d), ("to".toList, pairVal q)]
  | .angle l a => [("command".toList, .str "line_by_angle".toList), ("length".toList, .num (.fin l)), ("angle".toList, .num (.fin a))]
  | .rectangle w h => [("command".toList, .str "rectangle".toList), ("width".toList, .num (.fin w)), ("height".toList, .num (.fin h))]
  | .circle r => [("command".toList, .str "circle".toList), ("radius".toList, .num (.fin r))]

/-- Where the pen is, and the second control point of the curve that it has just drawn, if it has just drawn one. -/
structure PenAt where
  cur : Pt ℝ
  back : Option (Pt ℝ)

/-- Where a smooth curve leaves: opposite to where the last curve came from. -/
noncomputable def PenAt.leave (s : PenAt) : Pt ℝ :=
  match s.back with
  | some c => (2 * s.cur.1 - c.1, 2 * s.cur.2 - c.2)
  | none => s.cur

/-- Where a line of this length and direction ends. -/
noncomputable def angleEnd (q : Pt ℝ) (l a : ℝ) : Pt ℝ := (q.1 + l * Real.cos (a * Real.pi / 180), q.2 + l * Real.sin (a * Real.pi / 180))

/-- What the pen draws. -/
noncomputable def PenCmd.draws (s : PenAt) : PenCmd → List (Stroke ℝ)
  | .move _ => []
  | .relMove _ => []
  | .line q => [.line s.cur q]
  | .relLine q => [.line s.cur (s.cur + q)]
  | .curve c d q => [.curve s.cur c d q]
  | .relCurve c d q => [.curve s.cur (s.cur + c) (s.cur + d) (s.cur + q)]
  | .smooth d q => [.curve s.cur s.leave d q]
  | .relSmooth d q => [.curve s.cur s.leave (s.cur + d) (s.cur + q)]
  | .angle l a => [.line s.cur (angleEnd s.cur l a)]
  | .rectangle w h => [.line s.cur (s.cur + (w, 0)), .line (s.cur + (w, 0)) (s.cur + (w, h)), .line (s.cur + (w, h)) (s.cur + (0, h)),
      .line (s.cur + (0, h)) s.cur]
  | .circle r =>
    let k := quarterControl * r
    [.curve (s.cur + (r, 0)) (s.cur + (r + k, 0)) (s.cur + (2 * r, r - k)) (s.cur + (2 * r, r)),
     .curve (s.cur + (2 * r, r)) (s.cur + (2 * r, r + k)) (s.cur + (r + k, 2 * r)) (s.cur + (r, 2 * r)),
     .curve (s.cur + (r, 2 * r)) (s.cur + (r - k, 2 * r)) (s.cur + (0, r + k)) (s.cur + (0, r)),
     .curve (s.cur + (0, r)) (s.cur + (0, r - k)) (s.cur + (r - k, 0)) (s.cur + (r, 0))]

/-- Where the pen is then. -/
noncomputable def PenCmd.next (s : PenAt) : PenCmd → PenAt
  | .move q => ⟨q, none⟩
  | .relMove q => ⟨s.cur + q, none⟩
  | .line q => ⟨q, none⟩
  | .relLine q => ⟨s.cur + q, none⟩
  | .curve _ d q => ⟨q, some d⟩
  | .relCurve _ d q => ⟨s.cur + q, some (s.cur + d)⟩
  | .smooth d q => ⟨q, some d⟩
  | .relSmooth d q => ⟨s.cur + q, some (s.cur + d)⟩
  | .angle l a => ⟨angleEnd s.cur l a, none⟩
  | .rectangle _ _ => ⟨s.cur, none⟩
  | .circle r => ⟨s.cur + (r, 0), some (s.cur + (r - quarterControl * r, 0))⟩

/-- What the pen draws with several commands. -/
noncomputable def penDraws : PenAt → List PenCmd → List (Stroke ℝ)
  | _, [] => []
  | s, c :: cs => c.draws s ++ penDraws (c.next s) cs

/-- Where the pen is after them. -/
noncomputable def penEnd : PenAt → List PenCmd → PenAt
  | s, [] => s
  | s, c :: cs => penEnd (c.next s) cs

/-- What the pen draws with several drawings, each of which begins where the one before stopped. -/
noncomputable def sketchFrom : Pt ℝ → List (List PenCmd) → List (Stroke ℝ)
  | _, [] => []
  | q, cs :: ds => penDraws ⟨q, none⟩ cs ++ sketchFrom (penEnd ⟨q, none⟩ cs).cur ds

/-- A drawing in a document. -/
def penDrawing (cs : List PenCmd) : DMap (XNum ℝ) := [("type".toList, .str "draw".toList), ("commands".toList, .list (cs.map fun c => .map (penMap c)))]

/-- A sketch: its id and its drawings, each with its commands. -/
structure Sketch where
  id : Text
  drawings : List (List PenCmd)

/-- The strokes of a sketch, which begins at the origin. -/
noncomputable def Sketch.strokes (o : Sketch) : List (Stroke ℝ) := sketchFrom (0, 0) o.drawings

/-- The points of a sketch. -/
def Sketch.Has (o : Sketch) (q : Pt ℝ) : Prop := ∃ s ∈ o.strokes, ∃ t : ℝ, 0 ≤ t ∧ t ≤ 1 ∧ s.at t = q

/-- The sketch is neither upright nor level. -/
def Sketch.Wide (o : Sketch) : Prop := (∃ p q, o.Has p ∧ o.Has q ∧ p.1 < q.1) ∧ ∃ p q, o.Has p ∧ o.Has q ∧ p.2 < q.2

/-- The coordinates of the sketch are below 2^62. -/
def Sketch.Bounded (o : Sketch) : Prop := ∀ q, o.Has q → |q.1| < 2 ^ 62 ∧ |q.2| < 2 ^ 62

/-- A sketch as a part of a document. -/
def sketchMap (o : Sketch) : DMap (XNum ℝ) := [("id".toList, .str o.id), ("components".toList, .list (o.drawings.map fun cs => .map (penDrawing cs)))]

/-- A document with sheets of this size and these sketches as parts. -/
def sketchDoc (s : Sheet ℝ) (os : List Sketch) : DMap (XNum ℝ) :=
  [("material_width".toList, .num (.fin s.width)), ("material_height".toList, .num (.fin s.height)), ("doc_padding".toList, .num (.fin s.padding)),
    ("parts".toList, .list (os.map fun o => .map (sketchMap o)))]

/-- A stroke is the other one, moved, up to `e`: a line for a line and a curve for a curve, with every end and every control point. -/
inductive ShowsStroke (e : ℝ) (f : Pt ℝ → Pt ℝ) : Stroke ℝ → Stroke ℝ → Prop
  | line {a b a' b' : Pt ℝ} : Within e a' (f a) → Within e b' (f b) → ShowsStroke e f (.line a b) (.line a' b')
  | curve {a c d b a' c' d' b' : Pt ℝ} : Within e a' (f a) → Within e c' (f c) → Within e d' (f d) → Within e b' (f b) →
      ShowsStroke e f (.curve a c d b) (.curve a' c' d' b')

/-- The drawing is the sketch, moved, up to `e`: it has the name of the sketch, and its strokes are the strokes of the sketch, in their order. -/
def ShowsSketch (e : ℝ) (o : Sketch) (g : Seen) : Prop :=
  g.id = o.id ∧ ∃ f : Pt ℝ → Pt ℝ, Rigid f ∧ List.Forall₂ (ShowsStroke e f) o.strokes g.strokes

/-- The size of a sketch. -/
def Sketch.Sized (o : Sketch) (w h : ℝ) : Prop := ∃ x y, BoxOf o.Has (x, y) (x + w, y + h)

/-- When parts of the sizes of the sketches are laid out on sheets, none but squares ever meets a free bin of exactly its padded size on its sheet. -/
def SketchesNeverFill (s : Sheet ℝ) (os : List Sketch) : Prop :=
  ∀ (parts : List (RenderedPart ℝ (Drawing (XNum ℝ)))) (docs : List (SvgDoc ℝ (Drawing (XNum ℝ)))),
    List.Forall₂ (fun o p => o.Sized p.width p.height) os parts → init s (parts.map fun p => some [p]) = some (docs, .ok) →
    ∀ d ∈ docs, NoExactFits (newSvgDoc s.width s.height s.padding) d.parts

end Verif.Render
