import Verif.Spec.Shapes
import Verif.Spec.NearSheet
import Verif.Spec.Transform
import Verif.Spec.Xml

/-!
# Specification: what a reader of the files sees of a document of outlines, with doubles
-/

namespace Verif.Shapes

open Verif Verif.Dyn Verif.Path Verif.PlanSet Verif.Svg Verif.Spec Verif.Xml

/-- A drawing with its name, on a sheet. -/
structure Seen where
  id : Text
  strokes : List (Stroke ℚ)

/-- A move of the sheet that keeps distances: a shift, or a quarter turn and a shift. -/
def Rigid (f : Pt ℚ → Pt ℚ) : Prop := ∃ a b : ℚ, f = (fun p => (p.1 + a, p.2 + b)) ∨ f = fun p => (a - p.2, p.1 + b)

/-- The lines of the outline, from the origin through its points. -/
def Shape.lines (o : Shape Double) : List (Stroke ℚ) := polyline (0, 0) (o.points.map valPt)

/-- The drawing is the outline, moved, up to `e`: it has the name of the outline, and its strokes are the lines of the outline, in their order, point for point. -/
def Shows (e : ℚ) (o : Shape Double) (g : Seen) : Prop :=
  g.id = o.id ∧ ∃ f, Rigid f ∧ List.Forall₂ (fun s t => ∀ u : ℚ, 0 ≤ u → u ≤ 1 → NearPt e (t.at u) (f (s.at u))) o.lines g.strokes

/-- The point is drawn. -/
def Seen.Has (g : Seen) (q : Pt ℚ) : Prop := ∃ s ∈ g.strokes, ∃ u : ℚ, 0 ≤ u ∧ u ≤ 1 ∧ s.at u = q

/-- No point of one drawing is nearer to a point of the other than `e`, horizontally or vertically. -/
def Seen.Apart (e : ℚ) (g g' : Seen) : Prop := ∀ q q', g.Has q → g'.Has q' → e ≤ |q.1 - q'.1| ∨ e ≤ |q.2 - q'.2|

/-- The drawing keeps the distance `e` to the sides of the sheet. -/
def Seen.Inside (e : ℚ) (s : Sheet Double) (g : Seen) : Prop := ∀ q, g.Has q → e ≤ q.1 ∧ q.1 ≤ s.width.val - e ∧ e ≤ q.2 ∧ q.2 ≤ s.height.val - e

/-- The outline has a width and a height. -/
def Shape.Wide (o : Shape Double) : Prop :=
  (∃ a ∈ (0, 0) :: o.points.map valPt, ∃ b ∈ (0, 0) :: o.points.map valPt, a.1 ≠ b.1) ∧
  (∃ a ∈ (0, 0) :: o.points.map valPt, ∃ b ∈ (0, 0) :: o.points.map valPt, a.2 ≠ b.2)

/-- The size of an outline, rounded. -/
def Shape.Sized (o : Shape Double) (w h : Double) : Prop :=
  ∃ tl br : Pt ℚ, BoxOf (fun q => ∃ s ∈ o.lines, ∃ u : ℚ, 0 ≤ u ∧ u ≤ 1 ∧ s.at u = q) tl br ∧ w.val = Double.rnd (br.1 - tl.1) ∧ h.val = Double.rnd (br.2 - tl.2)

/-- When parts of the sizes of the outlines are laid out on sheets, none but squares ever meets a free bin of exactly its padded size on its sheet. -/
def NeverFills (s : Sheet Double) (os : List (Shape Double)) : Prop :=
  ∀ (parts : List (RenderedPart Double (Drawing Double))) (docs : List (SvgDoc Double (Drawing Double))),
    List.Forall₂ (fun o p => o.Sized p.width p.height) os parts → init s (parts.map fun p => some [p]) = some (docs, .ok) →
    ∀ d ∈ docs, NoFillings Double.val (newSvgDoc s.width s.height s.padding) d.parts

section
variable [MathLib]

/-- The group with a path is seen as this drawing. -/
def SeesGroup (e : Element Double) (g : Seen) : Prop :=
  ∃ (tr d st : Text) (ts : List (SvgTransform Double)) (p : Path Double),
    e = .mk "g".toList [("transform".toList, .str tr)]
      [.mk "path".toList [("id".toList, .str g.id), ("d".toList, .str d), ("style".toList, .str st)] [] []] [] ∧
    SpellsTransforms (transformWords tr) ts ∧ parsePath d = some p ∧
    g.strokes = (strokes p).map (Stroke.map fun q => PlanSet.applyTransforms (ts.map valTransform) (valPt q))

/-- The file is seen as a sheet of this size with these drawings. -/
def SeesSheet (s : Sheet Double) (t : Text) (gs : List Seen) : Prop :=
  ∃ (as : DMap Double) (es : List (Element Double)), Says t [.mk "svg".toList as es []] ∧
    as.lookup "viewBox".toList = some (.str ("0.000 0.000 ".toList ++ Num.fmt 3 s.width ++ ' ' :: Num.fmt 3 s.height)) ∧
    List.Forall₂ SeesGroup es gs

end

end Verif.Shapes
