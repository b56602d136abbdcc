import Verif.Model.Bezier
import Mathlib.Data.Real.Basic

/-!
# Specification: scaling a curve with distances that change along it
-/

namespace Verif.Spec

open Verif Verif.Bezier

/-- The point where the normals at the two ends of a curve meet. -/
def IsCentre (c : Curve ℝ) (o : Point ℝ) : Prop :=
  (o.x - c.p0.x) * (c.p1.x - c.p0.x) + (o.y - c.p0.y) * (c.p1.y - c.p0.y) = 0 ∧
    (o.x - c.p3.x) * (c.p3.x - c.p2.x) + (o.y - c.p3.y) * (c.p3.y - c.p2.y) = 0

/-- The first control point lies on the positive side (left, when y grows upwards) of the line from start to end, or straight behind the start. -/
def BendsPositive (c : Curve ℝ) : Prop :=
  0 < (c.p3.x - c.p0.x) * (c.p1.y - c.p0.y) - (c.p3.y - c.p0.y) * (c.p1.x - c.p0.x) ∨
    ((c.p3.x - c.p0.x) * (c.p1.y - c.p0.y) - (c.p3.y - c.p0.y) * (c.p1.x - c.p0.x) = 0 ∧
      (c.p3.x - c.p0.x) * (c.p1.x - c.p0.x) + (c.p3.y - c.p0.y) * (c.p1.y - c.p0.y) < 0)

/-- `q` is `p` moved by `d` square to the direction `(ex, ey)`, to its left for positive `d`. -/
def MovedSquare (p : Point ℝ) (ex ey d : ℝ) (q : Point ℝ) : Prop :=
  (q.x - p.x) ^ 2 + (q.y - p.y) ^ 2 = d ^ 2 ∧ (q.x - p.x) * ex + (q.y - p.y) * ey = 0 ∧
    (0 < d → 0 < ex * (q.y - p.y) - ey * (q.x - p.x)) ∧ (d < 0 → ex * (q.y - p.y) - ey * (q.x - p.x) < 0)

/-- `q` is `p` moved by `d` along the line from `o`: away from `o` for positive `d`, towards it for negative `d`. -/
def MovedAway (o p : Point ℝ) (d : ℝ) (q : Point ℝ) : Prop :=
  (q.x - p.x) ^ 2 + (q.y - p.y) ^ 2 = d ^ 2 ∧ (q.x - p.x) * (p.y - o.y) = (q.y - p.y) * (p.x - o.x) ∧
    (0 < d → 0 < (q.x - p.x) * (p.x - o.x) + (q.y - p.y) * (p.y - o.y)) ∧ (d < 0 → (q.x - p.x) * (p.x - o.x) + (q.y - p.y) * (p.y - o.y) < 0)

end Verif.Spec
