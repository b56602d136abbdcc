import Verif.Spec.Packing
import Verif.Model.PlanSet

/-!
# Specification vocabulary for plan sets and sheets
-/

namespace Verif.PlanSet

open Verif Verif.BinPacking Verif.Spec

universe u v

/-- The parts on a sheet, in the order in which they are written. -/
def SvgDoc.parts {F : Type u} {P : Type v} (d : SvgDoc F P) : List (RenderedPart F P) :=
  d.renderables.map (·.part)

/-- Adding parts to one sheet, one after the other; parts that are refused are skipped. -/
def SvgDoc.addAll {F : Type u} {P : Type v} [Arith F] (d : SvgDoc F P) : List (RenderedPart F P) → Option (SvgDoc F P)
  | [] => some d
  | p :: ps =>
    match d.add p with
    | none => none
    | some (d', _) => d'.addAll ps

variable {K : Type u} [Field K] [LinearOrder K] {P : Type v}

/-- Meaning of the SVG functions `rotate(90 cx cy)` (SVG 1.1, 7.6: the y axis points down, `(u, v)` is turned to `(-v, u)`
about the centre) and `translate(tx ty)` on a point. -/
def SvgTransform.apply : SvgTransform K → K × K → K × K
  | .rotate90 cx cy, (u, v) => (cx - (v - cy), cy + (u - cx))
  | .translate tx ty, (u, v) => (u + tx, v + ty)

/-- Meaning of a transform list in SVG: the functions are applied from right to left. -/
def applyTransforms (ts : List (SvgTransform K)) (p : K × K) : K × K :=
  ts.foldr SvgTransform.apply p

/-- The point is in the closed rectangle. -/
def _root_.Verif.Spec.Rect.Mem (r : Rect K) (p : K × K) : Prop :=
  r.x ≤ p.1 ∧ p.1 ≤ r.x + r.w ∧ r.y ≤ p.2 ∧ p.2 ≤ r.y + r.h

/-- The area of the sheet that the box of the part covers when it is drawn: the part's own box is `[0, width] x [0, height]`. -/
def Renderable.covers (r : Renderable K P) (q : K × K) : Prop :=
  ∃ p, (Rect.mk 0 0 r.part.width r.part.height).Mem p ∧ applyTransforms r.transforms p = q

/-- The rectangle with corner `(x, y)` and the part's size, turned if the renderable is. -/
def Renderable.drawn (r : Renderable K P) : Rect K :=
  if r.rotate then ⟨r.x, r.y, r.part.height, r.part.width⟩ else ⟨r.x, r.y, r.part.width, r.part.height⟩

/-- With its padding the part fits an empty sheet, upright or turned. -/
def FitsSheet (s : Sheet K) (p : RenderedPart K P) : Prop :=
  Fits ⟨0, 0, s.width, s.height⟩ (p.width + 2 * s.padding) (p.height + 2 * s.padding)

/-- No free bin of the sheet has exactly the padded size of the part, upright or turned. -/
def NoExactFit (d : SvgDoc K P) (p : RenderedPart K P) : Prop :=
  ∀ f ∈ d.container.emptyBins,
    ¬ (f.width = p.width + 2 * d.padding ∧ f.height = p.height + 2 * d.padding) ∧
    ¬ (f.width = p.height + 2 * d.padding ∧ f.height = p.width + 2 * d.padding)

/-- While the parts are added one after the other to the sheet, none but squares ever meets a free bin of exactly its own
padded size. -/
def NoExactFits : SvgDoc K P → List (RenderedPart K P) → Prop
  | _, [] => True
  | d, p :: ps => (p.width = p.height ∨ NoExactFit d p) ∧ ∀ d' res, d.add p = some (d', res) → NoExactFits d' ps

end Verif.PlanSet
