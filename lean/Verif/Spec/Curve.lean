import Verif.Model.Bezier

/-!
# Specification: cubic Bézier curves

The textbook definition, independent of the code: a curve with control points `p0 p1 p2 p3` is at parameter `t` the combination of its
control points with the Bernstein polynomials.
-/

namespace Verif.Spec

open Verif Verif.Bezier

universe u

variable {K : Type u}

/-- The cubic Bernstein polynomial with the given coefficients. -/
def bernstein [Ring K] (a b c d t : K) : K := (1 - t) ^ 3 * a + 3 * (1 - t) ^ 2 * t * b + 3 * (1 - t) * t ^ 2 * c + t ^ 3 * d

/-- The point of a curve at a parameter. -/
def curveAt [Ring K] (c : Curve K) (t : K) : K × K :=
  (bernstein c.p0.x c.p1.x c.p2.x c.p3.x t, bernstein c.p0.y c.p1.y c.p2.y c.p3.y t)

/-- `part` runs through the points of `whole` from parameter `s` to parameter `t`, at constant speed in the parameter. -/
def Retraces [Ring K] (part whole : Curve K) (s t : K) : Prop := ∀ u, curveAt part u = curveAt whole (s + (t - s) * u)

/-- A curve with finite coordinates, seen in extended arithmetic. -/
def finPoint (p : Point K) : Point (XNum K) := ⟨.fin p.x, .fin p.y⟩

def finCurve (c : Curve K) : Curve (XNum K) := ⟨finPoint c.p0, finPoint c.p1, finPoint c.p2, finPoint c.p3⟩

end Verif.Spec
