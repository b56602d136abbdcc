import Verif.Spec.SvgDoc
import Verif.Spec.NearCurve
import Verif.Spec.RoundedSheets
import Verif.DoubleMath

/-!
# Written sheets with doubles
-/

namespace Verif.Svg

open Verif Verif.Path Verif.PlanSet Verif.Spec

/-- The numbers that a transform stands for. -/
def valTransform : SvgTransform Double → SvgTransform ℚ
  | .rotate90 x y => .rotate90 x.val y.val
  | .translate x y => .translate x.val y.val

/-- Where the layout puts a point of the drawing of a part: at the position of the part, and if the part is turned, turned by a quarter, so that the left of the part
is above. -/
def place {P : Type} (r : Renderable Double P) (p : Pt ℚ) : Pt ℚ :=
  if r.rotate then (r.x.val + r.part.height.val - p.2, r.y.val + p.1) else (r.x.val + p.1, r.y.val + p.2)

/-- The position and the height of the part, and what is written of its path, are finite doubles up to `B`. -/
def PartUpTo (B : ℚ) (r : Renderable Double (Drawing Double)) : Prop :=
  PtUpTo B (r.x, r.y) ∧ r.part.height.Finite ∧ |r.part.height.val| ≤ B ∧ ∀ s ∈ r.part.payload.path, TargetsUpTo B s

/-- Every point of the drawing of the part is in the box with the size of the part, up to `δ`. -/
def InBoxUpTo (δ : ℚ) (p : RenderedPart Double (Drawing Double)) : Prop :=
  ∀ s ∈ svgStrokes (Arith.zero, Arith.zero) p.payload.path, ∀ u : ℚ, 0 ≤ u → u ≤ 1 →
    (Rect.grow ⟨0, 0, p.width.val, p.height.val⟩ δ).Mem ((s.map valPt).at u)

section
variable [MathLib]

/-- A point that a reader of the written part sees: a point of the path that the attribute `d` spells, moved by the transforms that the attribute `transform` spells. -/
def Shown (n : Nat) (r : Renderable Double (Drawing Double)) (q : Pt ℚ) : Prop :=
  ∃ ts p, SpellsTransforms (transformWords (joinSpace (r.transforms.map transformText))) ts ∧ parsePath (printPath n r.part.payload.path) = some p ∧
    ∃ s ∈ strokes p, ∃ u, 0 ≤ u ∧ u ≤ 1 ∧ q = applyTransforms (ts.map valTransform) ((s.map valPt).at u)

end

end Verif.Svg
