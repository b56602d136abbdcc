import Verif.Spec.Join
import Verif.Spec.Curve
import Verif.NumClass

/-!
# Specification: where a straight line and a curve meet, and pieces of a curve
-/

namespace Verif.Spec

open Verif

/-- The point `q` is on the straight line through `a` and `b`, which has no ends. -/
def InLine (a b q : Pt ℝ) : Prop := (b.1 - a.1) * (q.2 - a.2) = (b.2 - a.2) * (q.1 - a.1)

/-- The straight line through `a` and `b` meets the curve at the parameter `t`. -/
def MeetsAt (a b : Pt ℝ) (c : Bezier.Curve ℝ) (t : ℝ) : Prop := 0 ≤ t ∧ t ≤ 1 ∧ InLine a b (curveAt c t)

/-- The distance of two points. -/
noncomputable def farness (p q : Pt ℝ) : ℝ := Real.sqrt ((p.1 - q.1) * (p.1 - q.1) + (p.2 - q.2) * (p.2 - q.2))

/-- As printed with seven decimals, the point of the curve at `t` is an end of it, or `t` is 0 or 1. -/
def AtEnd (c : Bezier.Curve ℝ) (t : ℝ) : Prop :=
  PrintsSame 7 (curveAt c t) (c.p0.x, c.p0.y) ∨ PrintsSame 7 (curveAt c t) (c.p3.x, c.p3.y) ∨
    Decimal.fmt 7 t = Decimal.fmt 7 (0 : ℝ) ∨ Decimal.fmt 7 t = Decimal.fmt 7 (1 : ℝ)

/-- The stroke along a curve. -/
def strokeAlong (c : Bezier.Curve ℝ) : Stroke (XNum ℝ) :=
  .curve (.fin c.p0.x, .fin c.p0.y) (.fin c.p1.x, .fin c.p1.y) (.fin c.p2.x, .fin c.p2.y) (.fin c.p3.x, .fin c.p3.y)

/-- The stroke along a curve, over the real numbers. -/
def curveStroke (c : Bezier.Curve ℝ) : Stroke ℝ := .curve (c.p0.x, c.p0.y) (c.p1.x, c.p1.y) (c.p2.x, c.p2.y) (c.p3.x, c.p3.y)

/-- A point of finite numbers. -/
def finPair (p : Pt ℝ) : Pt (XNum ℝ) := (.fin p.1, .fin p.2)

/-- The curves run one after the other through `c` from parameter `s` to parameter `t`; they change at parameters with the property `P`. -/
def Through (c : Bezier.Curve ℝ) (P : ℝ → Prop) : ℝ → ℝ → List (Bezier.Curve ℝ) → Prop
  | _, _, [] => False
  | s, t, [k] => Retraces k c s t
  | s, t, k :: rest => ∃ m, s < m ∧ m < t ∧ P m ∧ Retraces k c s m ∧ Through c P m t rest

/-- The point `q` is within `2e-6` of the straight line through `a` and `b`, and within `1e-6` of the box of the two. -/
def NearKnife (a b q : Pt ℝ) : Prop :=
  |(b.1 - a.1) * (q.2 - a.2) - (b.2 - a.2) * (q.1 - a.1)| ≤ 2 / 1000000 * farness b a ∧
    min a.1 b.1 - 1 / 1000000 ≤ q.1 ∧ q.1 ≤ max a.1 b.1 + 1 / 1000000 ∧
    min a.2 b.2 - 1 / 1000000 ≤ q.2 ∧ q.2 ≤ max a.2 b.2 + 1 / 1000000

end Verif.Spec
