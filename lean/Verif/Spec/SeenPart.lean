import Verif.Spec.Sketch
import Verif.Spec.Render

/-!
# Specification vocabulary for what a reader sees of any document
-/

namespace Verif.Render

open Verif Verif.Dyn Verif.Path Verif.PlanSet Verif.Svg Verif.Spec Verif.Files Verif.Xml

/-- A drawing with its name, on a sheet, and the text of its label, which is empty if there is none. -/
structure SeenPart where
  drawing : Seen
  label : Text

/-- The group with a path, and perhaps a text, is seen as this. -/
def SeesPart (e : Element (XNum ℝ)) (g : SeenPart) : Prop :=
  ∃ (tr d st : Text) (ts : List (SvgTransform ℝ)) (cs : List (SvgCmd ℝ)) (ls : List (Element (XNum ℝ))),
    e = .mk "g".toList [("transform".toList, .str tr)]
      (.mk "path".toList [("id".toList, .str g.drawing.id), ("d".toList, .str d), ("style".toList, .str st)] [] [] :: ls) [] ∧
    SpellsTransforms (transformWords tr) ts ∧ Reads (transformWords d) cs ∧
    g.drawing.strokes = (svgDraw .initial cs).map (Stroke.map (applyTransforms ts)) ∧
    ((g.label = [] ∧ ls = []) ∨ (g.label ≠ [] ∧ ∃ x y st' : Text,
      ls = [.mk "text".toList [("x".toList, .str x), ("y".toList, .str y), ("style".toList, .str st')] [] g.label]))

/-- The file is seen as a sheet of this size, in this unit, with these drawings and labels. -/
def SeesPlan (s : Sheet ℝ) (u : Units) (t : Text) (gs : List SeenPart) : Prop :=
  ∃ (as : DMap (XNum ℝ)) (es : List (Element (XNum ℝ))), Says t [.mk "svg".toList as es []] ∧
    as.lookup "width".toList = some (.str (Num.fmt 3 s.width ++ abbreviation u)) ∧
    as.lookup "height".toList = some (.str (Num.fmt 3 s.height ++ abbreviation u)) ∧
    as.lookup "viewBox".toList = some (.str ("0.000 0.000 ".toList ++ Num.fmt 3 s.width ++ ' ' :: Num.fmt 3 s.height)) ∧
    List.Forall₂ SeesPart es gs

/-- The part, as it was rendered, has finite numbers, and a size within which is all that it draws. -/
def Fine (p : RenderedPart (XNum ℝ) (Drawing (XNum ℝ))) : Prop :=
  ∃ (r : Path ℝ) (w h : ℝ), p.payload.path = finPath r ∧ p.width = .fin w ∧ p.height = .fin h ∧ 0 < w ∧ 0 < h ∧
    ∀ q, Drawn r q → 0 ≤ q.1 ∧ q.1 ≤ w ∧ 0 ≤ q.2 ∧ q.2 ≤ h

/-- The texts of the part are without markup; its label, if it has one, has a place and is not of blanks alone. -/
def Printable (p : RenderedPart (XNum ℝ) (Drawing (XNum ℝ))) : Prop :=
  Unmarked p.payload.id ∧ Unmarked p.payload.label.text ∧
    (p.payload.label.text ≠ [] → trimSpace p.payload.label.text ≠ [] ∧ ∃ q, pointAttribute p.payload.label.position p.payload.path = .ok q)

/-- What is seen is the part as it was rendered, moved, up to `e`: with its name and its label, and with its lines and curves in their order. -/
def ShowsPart (e : ℝ) (p : RenderedPart (XNum ℝ) (Drawing (XNum ℝ))) (g : SeenPart) : Prop :=
  g.drawing.id = p.payload.id ∧ g.label = p.payload.label.text ∧
    ∃ (r : Path ℝ) (f : Pt ℝ → Pt ℝ), p.payload.path = finPath r ∧ Rigid f ∧ List.Forall₂ (ShowsStroke e f) (strokes r) g.drawing.strokes

/-- When the parts are laid out on sheets, none but squares ever meets a free bin of exactly its padded size on its sheet. -/
def PartsNeverFill (s : Sheet ℝ) (groups : List (List (RenderedPart (XNum ℝ) (Drawing (XNum ℝ))))) : Prop :=
  ∀ (parts : List (List (RenderedPart ℝ (Drawing (XNum ℝ))))) (docs : List (SvgDoc ℝ (Drawing (XNum ℝ)))),
    List.Forall₂ (List.Forall₂ fun p q => p.width = .fin q.width ∧ p.height = .fin q.height) groups parts →
    init s (parts.map some) = some (docs, .ok) → ∀ d ∈ docs, NoExactFits (newSvgDoc s.width s.height s.padding) d.parts

/-- What the parts of a document are rendered to, part by part, with the ids of the parts. -/
def laidGroups (cs : List (Live (XNum ℝ))) (all : List (List (Rendered (XNum ℝ)))) : List (List (RenderedPart (XNum ℝ) (Drawing (XNum ℝ)))) :=
  List.zipWith (fun c parts => parts.map (Machine.toLayout c.id)) cs all

end Verif.Render
