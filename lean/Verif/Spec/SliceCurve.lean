import Verif.Spec.Meeting
import Verif.Spec.Knife

/-!
# Specification: drawings with curves, cut at a height
-/

namespace Verif.Spec

open Verif Verif.Path

/-- The control points of every curve are below the numbers with which the search for the box of a curve starts. -/
def CurvesBounded (p : Path ℝ) : Prop :=
  ∀ a c d b : Pt ℝ, Stroke.curve a c d b ∈ strokes p → ∀ q ∈ [a, c, d, b], |q.1| < 2 ^ 63 ∧ |q.2| < 2 ^ 63

/-- The pieces draw the curve once, from its start to its end, and change within `1e-6` of the height `Y`. -/
def CurveCut (Y : ℝ) (c : Bezier.Curve ℝ) (l : List (Stroke ℝ)) : Prop :=
  ∃ ks : List (Bezier.Curve ℝ), l = ks.map curveStroke ∧ Through c (fun t => |(curveAt c t).2 - Y| ≤ 1 / 1000000) 0 1 ks

/-- A stroke in pieces that were cut at the height `Y`. -/
def StrokeCut (Y : ℝ) : Stroke ℝ → List (Stroke ℝ) → Prop
  | .line a b, l => CutAt Y (.line a b) l
  | .curve a c d b, l => CurveCut Y ⟨⟨a.1, a.2⟩, ⟨c.1, c.2⟩, ⟨d.1, d.2⟩, ⟨b.1, b.2⟩⟩ l

end Verif.Spec
