import Verif.Spec.Meeting
import Verif.Spec.Knife

/-!
# Specification: where two strokes cross
-/

namespace Verif.Spec

open Verif

/-- The point `q` is in the box of `a` and `b`, up to `1/10^n`. -/
def BetweenEnds (n : Nat) (a b q : Pt ℝ) : Prop :=
  min a.1 b.1 - 1 / 10 ^ n ≤ q.1 ∧ q.1 ≤ max a.1 b.1 + 1 / 10 ^ n ∧ min a.2 b.2 - 1 / 10 ^ n ≤ q.2 ∧ q.2 ≤ max a.2 b.2 + 1 / 10 ^ n

/-- The point `q` is where the lines `a`-`b` and `c`-`d` cross: it is on both straight lines, and between their ends up to `1/10^n`. -/
def CrossPoint (n : Nat) (a b c d q : Pt ℝ) : Prop := InLine a b q ∧ InLine c d q ∧ BetweenEnds n a b q ∧ BetweenEnds n c d q

/-- The parameter `x` of the curve `c` is, to five decimals, that of a point which is nearer than `r` to a point of the curve `d` (sum of the
distances in both directions). -/
def NearCurves (r : ℝ) (c d : Bezier.Curve ℝ) (x : ℝ) : Prop :=
  ∃ a b : ℝ, 0 ≤ a ∧ a ≤ 1 ∧ 0 ≤ b ∧ b ≤ 1 ∧ |x - a| ≤ 1 / 200000 ∧
    |(curveAt c a).1 - (curveAt d b).1| + |(curveAt c a).2 - (curveAt d b).2| < r

/-- The stroke is at the height `Y` at the point `q`: for a line up to the precision of the lines, for a curve up to `1e-6`. -/
def AtHeight (n : Nat) (Y : ℝ) (s : Stroke ℝ) (q : Pt ℝ) : Prop :=
  match s with
  | .line a b => Crosses n Y (.line a b) q
  | .curve a c d b => (∃ t : ℝ, 0 ≤ t ∧ t ≤ 1 ∧ Stroke.at (.curve a c d b) t = q) ∧ |q.2 - Y| ≤ 1 / 1000000

/-- No coefficient of the ordinate of the curve, as a polynomial, is tiny without being zero, and the curve does not lie on the height. -/
def CurveGenericAt (Y : ℝ) (a c d b : Pt ℝ) : Prop :=
  (-a.2 + 3 * c.2 - 3 * d.2 + b.2 = 0 ∨ 1 / 1000000 < |-a.2 + 3 * c.2 - 3 * d.2 + b.2|) ∧
    (3 * a.2 - 6 * c.2 + 3 * d.2 = 0 ∨ 1 / 1000000 < |3 * a.2 - 6 * c.2 + 3 * d.2|) ∧
    (-3 * a.2 + 3 * c.2 = 0 ∨ 1 / 1000000 < |-3 * a.2 + 3 * c.2|) ∧
    ∃ t : ℝ, (Stroke.at (.curve a c d b) t).2 ≠ Y

end Verif.Spec
