import Verif.Spec.Parts
import Verif.Model.Components

/-!
# Specification vocabulary for components that place copies
-/

namespace Verif.Spec

open Verif Verif.Path

/-- The point at the distance `r` from the origin in the direction `θ`, counted from the second axis towards the first. -/
noncomputable def polarPt (r θ : ℝ) : Pt ℝ := (r * Real.sin θ, r * Real.cos θ)

/-- The closed polygon through the given corners. -/
def polygon (l : List (Pt ℝ)) : List (Stroke ℝ) := List.zipWith Stroke.line l (l.rotate 1)

/-- The end of a thread that is unwound from the circle of radius `b`, when the part of the thread between the circle and the end has been
wound on an arc of the angle `φ`: from the point of the circle at `φ`, back along the tangent by the length of this arc. -/
noncomputable def involute (b φ : ℝ) : Pt ℝ :=
  (b * Real.sin φ - b * φ * Real.cos φ, b * Real.cos φ + b * φ * Real.sin φ)

/-- The direction in which the involute of the circle of radius `b` is at the distance `d` from the centre. -/
noncomputable def involuteAngle (b d : ℝ) : ℝ := Real.sqrt ((d / b) ^ 2 - 1) - Real.arccos (b / d)

/-- Sizes of a gear as they follow from the number and width of the teeth, the pressure angle (in degrees), the clearance and the backlash. -/
structure GearDims where
  teeth : ℕ
  width : ℝ
  angle : ℝ
  clearance : ℝ
  backlash : ℝ

namespace GearDims

variable (g : GearDims)

/-- The teeth and the gaps, each of half of the width, fill the circumference of the pitch circle. -/
noncomputable def pitch : ℝ := g.width * g.teeth / (2 * Real.pi)
noncomputable def outer : ℝ := g.pitch + g.width / Real.pi - g.clearance
noncomputable def base : ℝ := g.pitch * Real.cos (g.angle * Real.pi / 180)
noncomputable def root : ℝ := g.pitch - g.width / Real.pi
noncomputable def thickness : ℝ := (g.width - g.backlash) / 2

/-- The radii at which the code puts the points of a flank. -/
noncomputable def radius (k : ℕ) : ℝ := (1 - k / 5) * max g.base g.root + k / 5 * g.outer

/-- Where the flank of a tooth is at the distance `d`: on the involute that crosses the pitch circle half a thickness before the middle of the
tooth. -/
noncomputable def flankAt (d : ℝ) : ℝ := involuteAngle g.base d - involuteAngle g.base g.pitch - g.thickness / 2 / g.pitch

/-- The sizes make sense. -/
structure Ok : Prop where
  teeth : 1 ≤ g.teeth
  width : 0 < g.width
  angle : 0 < Real.cos (g.angle * Real.pi / 180)
  clearance : g.clearance ≤ g.width / Real.pi

/-- The corners of a tooth in polar coordinates: two on the root circle, six on the left flank, their mirror images, with the one exception of
the last corner, and the last corner. -/
structure IsTooth (l : List (ℝ × ℝ)) : Prop where
  radii : l.map Prod.fst = [g.root, g.root] ++ (List.range 6).map g.radius ++ ((List.range 6).map g.radius).reverse ++ [g.root, g.root]
  first : l.head? = some (g.root, -(Real.pi / g.teeth))
  foot : l[1]? = some (g.root, if g.root < g.base then -(involuteAngle g.base g.pitch) - g.thickness / 2 / g.pitch else -(Real.pi / g.teeth))
  flank : ∀ k ≤ 5, l[2 + k]? = some (g.radius k, g.flankAt (g.radius k))
  mirror : ∀ j, 1 ≤ j → j ≤ 14 → l[15 - j]? = (l[j]?).map fun c : ℝ × ℝ => (c.1, -c.2)
  last : l.getLast? = some (g.root, 3.142 / (g.teeth : ℝ))

end GearDims

/-- The corners of a regular polygon with `n` corners around `c`, from the left end of the side at the top on (ordinates grow downwards). -/
noncomputable def regularCorner (n : ℕ) (radius : ℝ) (c : Pt ℝ) (i : ℕ) : Pt ℝ :=
  (c.1 + radius * Real.cos ((i - 1 / 2) * (2 * Real.pi / n) - Real.pi / 2), c.2 + radius * Real.sin ((i - 1 / 2) * (2 * Real.pi / n) - Real.pi / 2))

/-- The first and the second point, the third and the fourth, and so on, without the pairs whose distance prints as zero. -/
def rowPairs {F : Type} [Num F] (precision : Int) : List (Point F) → List (Point F × Point F)
  | a :: b :: rest =>
    if precisionEquals (b.x -. a.x) Arith.zero precision then rowPairs precision rest else (a, b) :: rowPairs precision rest
  | _ => []

/-- The heights of the rows: each row is below the one before it by the spacing and by the height of the last copy drawn so far, and the rows
go on as long as the bottom is not passed. `after y h` is the height of the last copy after the row at `y`, if it was `h` before. -/
inductive RowHeights (spacing bottom : ℝ) (after : ℝ → ℝ → ℝ) : ℝ → ℝ → List ℝ → Prop
  | stop (y h : ℝ) (hy : bottom < y) : RowHeights spacing bottom after y h []
  | row (y h : ℝ) (ys : List ℝ) (hy : y ≤ bottom) (rest : RowHeights spacing bottom after (y + after y h + spacing) (after y h) ys) :
      RowHeights spacing bottom after y h (y :: ys)

/-- The height of the last copy after the row at `y`, if it was `h` before; `cuts` gives the intercepts of a row and `height` the height of a
copy between two of them. -/
noncomputable def rowHeight (precision : Int) (cuts : ℝ → List (Point (XNum ℝ))) (height : Point (XNum ℝ) → Point (XNum ℝ) → ℝ) (y h : ℝ) : ℝ :=
  (((rowPairs precision (cuts y)).map fun ab => height ab.1 ab.2).getLast?).getD h

end Verif.Spec
