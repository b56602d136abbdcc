import Verif.Double
import Verif.Spec.Curve
import Verif.Model.Transforms
import Verif.Spec.Path

/-!
# Specification: curves and paths with doubles
-/

namespace Verif.Spec

open Verif Verif.Path

/-- The numbers that the coordinates of a curve of doubles stand for. -/
def valPoint (p : Bezier.Point Double) : Bezier.Point ℚ := ⟨p.x.val, p.y.val⟩

def valCurve (c : Bezier.Curve Double) : Bezier.Curve ℚ := ⟨valPoint c.p0, valPoint c.p1, valPoint c.p2, valPoint c.p3⟩

/-- The coordinates are finite doubles up to `B`. -/
def PointUpTo (B : ℚ) (p : Bezier.Point Double) : Prop := p.x.Finite ∧ p.y.Finite ∧ |p.x.val| ≤ B ∧ |p.y.val| ≤ B

def CurveUpTo (B : ℚ) (c : Bezier.Curve Double) : Prop := PointUpTo B c.p0 ∧ PointUpTo B c.p1 ∧ PointUpTo B c.p2 ∧ PointUpTo B c.p3

/-- Two points whose coordinates differ by at most `e`. -/
def NearPt (e : ℚ) (p q : ℚ × ℚ) : Prop := |p.1 - q.1| ≤ e ∧ |p.2 - q.2| ≤ e

/-- Up to `e`, `part` runs through the points of `whole` from parameter `s` to parameter `t`, at constant speed in the parameter. -/
def RetracesNearly (e : ℚ) (part whole : Bezier.Curve ℚ) (s t : ℚ) : Prop :=
  ∀ u, 0 ≤ u → u ≤ 1 → NearPt e (curveAt part u) (curveAt whole (s + (t - s) * u))

/-- The same curve over the real numbers. -/
def realCurve (c : Bezier.Curve Double) : Bezier.Curve ℝ :=
  ⟨⟨c.p0.x.val, c.p0.y.val⟩, ⟨c.p1.x.val, c.p1.y.val⟩, ⟨c.p2.x.val, c.p2.y.val⟩, ⟨c.p3.x.val, c.p3.y.val⟩⟩

/-- The numbers that the coordinates of a point of a path stand for. -/
def valPt (p : Pt Double) : Pt ℚ := (p.1.val, p.2.val)

/-- The coordinates are finite doubles up to `B`. -/
def PtUpTo (B : ℚ) (p : Pt Double) : Prop := p.1.Finite ∧ p.2.Finite ∧ |p.1.val| ≤ B ∧ |p.2.val| ≤ B

def StrokeUpTo (B : ℚ) : Stroke Double → Prop
  | .line a b => PtUpTo B a ∧ PtUpTo B b
  | .curve a c d b => PtUpTo B a ∧ PtUpTo B c ∧ PtUpTo B d ∧ PtUpTo B b

/-- Up to `e`, the second strokes are what `f` makes of the first ones, point for point and in the same order; their coordinates are finite and up to `B`. -/
def StrokesNearly (B e : ℚ) (f : Pt ℚ → Pt ℚ) (l l' : List (Stroke Double)) : Prop :=
  List.Forall₂ (fun s s' => StrokeUpTo B s' ∧ ∀ u, 0 ≤ u → u ≤ 1 → NearPt e ((s'.map valPt).at u) (f ((s.map valPt).at u))) l l'

/-- Up to `e`, the second path draws what `f` makes of the strokes of the first one. -/
def DrawsNearly (B e : ℚ) (f : Pt ℚ → Pt ℚ) (p q : Path Double) : Prop := StrokesNearly B e f (strokes p) (strokes q)

/-- The coordinates that are written for a segment are finite doubles up to `B`. -/
def TargetsUpTo (B : ℚ) : Segment Double → Prop
  | .move _ b => PtUpTo B (pt b)
  | .line _ b => PtUpTo B (pt b)
  | .curve _ c d b => PtUpTo B (pt c) ∧ PtUpTo B (pt d) ∧ PtUpTo B (pt b)

end Verif.Spec
