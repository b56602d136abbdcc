import Verif.Spec.Outline
import Verif.Spec.Svg

/-!
# Specification vocabulary for what a reader of the written files sees

A reader of XML takes a file apart; the attribute `d` of a path is a list of SVG commands, which draw; the attribute `transform` of the group moves the drawing.
-/

namespace Verif.Render

open Verif Verif.Dyn Verif.Path Verif.PlanSet Verif.Svg Verif.Spec Verif.Files Verif.Xml

/-- A drawing with its name, on a sheet. -/
structure Seen where
  id : Text
  strokes : List (Stroke ℝ)

/-- The group with a path is seen as this drawing. -/
def SeesGroup (e : Element (XNum ℝ)) (g : Seen) : Prop :=
  ∃ (tr d st : Text) (ts : List (SvgTransform ℝ)) (cs : List (SvgCmd ℝ)),
    e = .mk "g".toList [("transform".toList, .str tr)]
      [.mk "path".toList [("id".toList, .str g.id), ("d".toList, .str d), ("style".toList, .str st)] [] []] [] ∧
    SpellsTransforms (transformWords tr) ts ∧ Reads (transformWords d) cs ∧
    g.strokes = (svgDraw .initial cs).map (Stroke.map (applyTransforms ts))

/-- The file is seen as a sheet of this size with these drawings. -/
def SeesSheet (s : Sheet ℝ) (t : Text) (gs : List Seen) : Prop :=
  ∃ (as : DMap (XNum ℝ)) (es : List (Element (XNum ℝ))), Says t [.mk "svg".toList as es []] ∧
    as.lookup "viewBox".toList = some (.str ("0.000 0.000 ".toList ++ Num.fmt 3 s.width ++ ' ' :: Num.fmt 3 s.height)) ∧
    List.Forall₂ SeesGroup es gs

/-- Points that differ by at most `e` in both coordinates. -/
def Within (e : ℝ) (p q : Pt ℝ) : Prop := |p.1 - q.1| ≤ e ∧ |p.2 - q.2| ≤ e

/-- A move of the sheet that keeps distances: a shift, or a quarter turn and a shift. -/
def Rigid (f : Pt ℝ → Pt ℝ) : Prop := ∃ a b : ℝ, f = (fun p => (p.1 + a, p.2 + b)) ∨ f = fun p => (a - p.2, p.1 + b)

/-- The drawing is the outline, moved, up to `e`: it has the name of the outline, and its lines are the lines of the outline, in their order. -/
def ShowsOutline (e : ℝ) (o : Outline) (g : Seen) : Prop :=
  g.id = o.id ∧ ∃ f, Rigid f ∧ List.Forall₂ (fun s t => ∃ a b c d, s = .line a b ∧ t = .line c d ∧ Within e c (f a) ∧ Within e d (f b))
    (polyline (0, 0) o.points) g.strokes

/-- The point is drawn. -/
def Seen.Has (g : Seen) (q : Pt ℝ) : Prop := ∃ s ∈ g.strokes, ∃ t : ℝ, 0 ≤ t ∧ t ≤ 1 ∧ s.at t = q

/-- No point of one drawing is nearer to a point of the other than `e`, horizontally or vertically. -/
def Seen.Apart (e : ℝ) (g g' : Seen) : Prop := ∀ q q', g.Has q → g'.Has q' → e ≤ |q.1 - q'.1| ∨ e ≤ |q.2 - q'.2|

/-- The drawing keeps the distance `e` to the sides of the sheet. -/
def Seen.Inside (e : ℝ) (s : Sheet ℝ) (g : Seen) : Prop := ∀ q, g.Has q → e ≤ q.1 ∧ q.1 ≤ s.width - e ∧ e ≤ q.2 ∧ q.2 ≤ s.height - e

/-- The size of an outline. -/
def Outline.Sized (o : Outline) (w h : ℝ) : Prop :=
  ∃ x y, BoxOf (fun q => ∃ s ∈ polyline (0, 0) o.points, ∃ t : ℝ, 0 ≤ t ∧ t ≤ 1 ∧ s.at t = q) (x, y) (x + w, y + h)

/-- When parts of the sizes of the outlines are laid out on sheets, none but squares ever meets a free bin of exactly its padded size on its sheet. -/
def NeverFills (s : Sheet ℝ) (os : List Outline) : Prop :=
  ∀ (parts : List (RenderedPart ℝ (Drawing (XNum ℝ)))) (docs : List (SvgDoc ℝ (Drawing (XNum ℝ)))),
    List.Forall₂ (fun o p => o.Sized p.width p.height) os parts → init s (parts.map fun p => some [p]) = some (docs, .ok) →
    ∀ d ∈ docs, NoExactFits (newSvgDoc s.width s.height s.padding) d.parts

end Verif.Render
