import Verif.Spec.SeenPart

/-!
# Specification vocabulary for the size of a drawing on paper
-/

namespace Verif.Render

open Verif Verif.Dyn Verif.Path Verif.PlanSet Verif.Svg Verif.Spec Verif.Files Verif.Xml

/-- The units of lengths of SVG (CSS) that are absolute, in millimetres. -/
def cssUnits : List (Text × ℚ) :=
  [("mm".toList, 1), ("cm".toList, 10), ("in".toList, 254 / 10), ("pt".toList, 254 / 720), ("pc".toList, 254 / 60), ("px".toList, 254 / 960)]

/-- The text is a length of this many millimetres. -/
def CssLength (t : Text) (mm : ℝ) : Prop :=
  ∃ (n u : Text) (x : ℝ) (k : ℚ), t = n ++ u ∧ (u, k) ∈ cssUnits ∧ (toFloat n : Option (XNum ℝ)) = some (.fin x) ∧ mm = x * (k : ℝ)

/-- The text is a box with a corner at the origin, and this width and this height. -/
def CssBox (t : Text) (w h : ℝ) : Prop :=
  ∃ a b c d : Text, transformWords t = [a, b, c, d] ∧ (toFloat a : Option (XNum ℝ)) = some (.fin 0) ∧ (toFloat b : Option (XNum ℝ)) = some (.fin 0) ∧
    (toFloat c : Option (XNum ℝ)) = some (.fin w) ∧ (toFloat d : Option (XNum ℝ)) = some (.fin h)

/-- The file is a sheet which on paper is as wide and high as its box says, if a unit of the drawing is `mm` millimetres long; its width and its height are, up to half a
thousandth of that, those of `s`. -/
def OnPaper (mm : ℝ) (s : Sheet ℝ) (t : Text) : Prop :=
  ∃ (as : DMap (XNum ℝ)) (es : List (Element (XNum ℝ))) (tw th tb : Text) (w h : ℝ), Says t [.mk "svg".toList as es []] ∧
    as.lookup "width".toList = some (.str tw) ∧ as.lookup "height".toList = some (.str th) ∧ as.lookup "viewBox".toList = some (.str tb) ∧
    CssLength tw (mm * w) ∧ CssLength th (mm * h) ∧ CssBox tb w h ∧ |w - s.width| ≤ 1 / 2000 ∧ |h - s.height| ≤ 1 / 2000

/-- How long a unit of a drawing is, in millimetres, if the document names its units by this word: units other than millimetres are inches. -/
noncomputable def wordMM (w : Text) : ℝ := if w.map Char.toLower = "mm".toList ∨ w.map Char.toLower = "millimeters".toList then 1 else 254 / 10

end Verif.Render
