import Verif.DoubleMath
import Verif.Spec.NearCurve
import Verif.Spec.Transform

/-!
# Specification: boxes and places of drawings with doubles
-/

namespace Verif.Spec

open Verif Verif.Path

/-- The path with the numbers that its coordinates stand for. -/
def valPath (p : Path Double) : Path ℚ := p.map fun s =>
  match s with
  | .move a b => .move ⟨a.x.val, a.y.val, a.t.val⟩ ⟨b.x.val, b.y.val, b.t.val⟩
  | .line a b => .line ⟨a.x.val, a.y.val, a.t.val⟩ ⟨b.x.val, b.y.val, b.t.val⟩
  | .curve a c d b => .curve ⟨a.x.val, a.y.val, a.t.val⟩ ⟨c.x.val, c.y.val, c.t.val⟩ ⟨d.x.val, d.y.val, d.t.val⟩ ⟨b.x.val, b.y.val, b.t.val⟩

/-- A drawing of straight strokes between points with finite coordinates up to `B`. -/
def StraightUpTo (B : ℚ) (p : Path Double) : Prop :=
  ∀ s ∈ strokes p, ∃ a b, s = .line a b ∧ PtUpTo B a ∧ PtUpTo B b

end Verif.Spec
