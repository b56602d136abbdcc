import Verif.Model.Path

/-!
# Specification: what a path draws

Independent of how the code manipulates segments: a path draws strokes (lines and cubic curves in the plane); moves draw nothing.
-/

namespace Verif.Spec

open Verif Verif.Path

universe u

/-- A point of the plane. -/
abbrev Pt (F : Type u) := F × F

/-- The coordinates of a model point. -/
def pt {F : Type u} (p : Point F) : Pt F := (p.x, p.y)

/-- Something drawn: a straight line between two points, or a cubic Bézier curve with its two control points. -/
inductive Stroke (F : Type u) where
  | line (a b : Pt F)
  | curve (a c d b : Pt F)
deriving Repr, DecidableEq

/-- The stroke of a segment; a move draws nothing. -/
def strokeOf {F : Type u} : Segment F → Option (Stroke F)
  | .move _ _ => none
  | .line a b => some (.line (pt a) (pt b))
  | .curve a c d b => some (.curve (pt a) (pt c) (pt d) (pt b))

/-- The strokes of a path in drawing order, each with its own start point. -/
def strokes {F : Type u} (p : Path F) : List (Stroke F) := p.filterMap strokeOf

/-- The strokes of a path as SVG understands it: a command carries only its targets and starts at the current point `cur`. -/
def svgStrokes {F : Type u} (cur : Pt F) : Path F → List (Stroke F)
  | [] => []
  | .move _ b :: rest => svgStrokes (pt b) rest
  | .line _ b :: rest => .line cur (pt b) :: svgStrokes (pt b) rest
  | .curve _ c d b :: rest => .curve cur (pt c) (pt d) (pt b) :: svgStrokes (pt b) rest

/-- Two points are the same place: identical coordinates, or coordinates that Go's `==` calls equal (they differ at most as `0` and
`-0` do). -/
def Meets {F : Type u} [Arith F] (p q : Point F) : Prop := pt p = pt q ∨ p.equals q = true

/-- Each segment starts where the previous one ended, the first one at `cur`. -/
def ConnectedFrom {F : Type u} [Arith F] (cur : Point F) : Path F → Prop
  | [] => True
  | s :: rest => Meets cur s.start ∧ ConnectedFrom s.stop rest

/-- A connected path starting at the origin. -/
def Connected {F : Type u} [Arith F] (p : Path F) : Prop := ConnectedFrom origin p

/-- Each segment starts where the previous one ended; the first one starts anywhere. -/
def Chained {F : Type u} [Arith F] : Path F → Prop
  | [] => True
  | s :: rest => ConnectedFrom s.stop rest

/-- A stroke with every point mapped. -/
def Stroke.map {F : Type u} {G : Type u} (f : Pt F → Pt G) : Stroke F → Stroke G
  | .line a b => .line (f a) (f b)
  | .curve a c d b => .curve (f a) (f c) (f d) (f b)

section Geometry

variable {K : Type u} [Field K]

/-- The point of a stroke at parameter `t`. -/
def Stroke.at : Stroke K → K → Pt K
  | .line a b, t => ((1 - t) * a.1 + t * b.1, (1 - t) * a.2 + t * b.2)
  | .curve a c d b, t =>
    ((1 - t) ^ 3 * a.1 + 3 * (1 - t) ^ 2 * t * c.1 + 3 * (1 - t) * t ^ 2 * d.1 + t ^ 3 * b.1,
     (1 - t) ^ 3 * a.2 + 3 * (1 - t) ^ 2 * t * c.2 + 3 * (1 - t) * t ^ 2 * d.2 + t ^ 3 * b.2)

/-- A point lies on the drawing of a path. -/
def Drawn [LinearOrder K] (p : Path K) (q : Pt K) : Prop :=
  ∃ s ∈ strokes p, ∃ t : K, 0 ≤ t ∧ t ≤ 1 ∧ s.at t = q

end Geometry

end Verif.Spec
