import Verif.Spec.Transform

/-!
# Drawings of rectangles

What it means that a drawing is one closed line around a rectangle with sides along the axes.
-/

namespace Verif.Spec

/-- The straight lines from point to point. -/
def polyline : List (Pt ℝ) → List (Stroke ℝ)
  | a :: b :: l => .line a b :: polyline (b :: l)
  | _ => []

/-- The closed line around the rectangle with the opposite corners `a` and `c`, the horizontal side first. -/
def acrossFirst (a c : Pt ℝ) : List (Stroke ℝ) := polyline [a, (c.1, a.2), c, (a.1, c.2), a]

/-- The closed line around the rectangle with the opposite corners `a` and `c`, the vertical side first. -/
def downFirst (a c : Pt ℝ) : List (Stroke ℝ) := polyline [a, (a.1, c.2), c, (c.1, a.2), a]

/-- `a` and `c` are opposite corners of the rectangle from `x0` to `x1` and from `y0` to `y1`. -/
def Opposite (x0 x1 y0 y1 : ℝ) (a c : Pt ℝ) : Prop :=
  ((a.1 = x0 ∧ c.1 = x1) ∨ (a.1 = x1 ∧ c.1 = x0)) ∧ ((a.2 = y0 ∧ c.2 = y1) ∨ (a.2 = y1 ∧ c.2 = y0))

/-- The drawing is one closed line around the rectangle from `x0` to `x1` and from `y0` to `y1`; it begins at any of the corners and goes
round either way. -/
def Around (x0 x1 y0 y1 : ℝ) (l : List (Stroke ℝ)) : Prop :=
  ∃ a c : Pt ℝ, Opposite x0 x1 y0 y1 a c ∧ (l = acrossFirst a c ∨ l = downFirst a c)

end Verif.Spec
