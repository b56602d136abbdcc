import Verif.Spec.Rounded
import Verif.Spec.PlanSet

/-! # Sheets laid out with rounding -/

namespace Verif.PlanSet

open Verif Verif.BinPacking Verif.Spec

universe u v w

variable {F : Type u} [Arith F] {K : Type v} [Field K] [LinearOrder K] {P : Type w}

/-- The settings and the parts are finite numbers in the range: the sheet and its padding are not negative, the parts have positive sides. -/
structure Feasible (fin : F → Prop) (val : F → K) (M ε : K) (s : Sheet F) (ps : List (RenderedPart F P)) : Prop where
  fins : fin s.width ∧ fin s.height ∧ fin s.padding
  width : 0 ≤ val s.width ∧ val s.width + (4 * ps.length + 2) * ε ≤ M
  height : 0 ≤ val s.height ∧ val s.height + (4 * ps.length + 2) * ε ≤ M
  padding : 0 ≤ val s.padding
  parts : ∀ p ∈ ps, fin p.width ∧ fin p.height ∧ 0 < val p.width ∧ 0 < val p.height ∧ val s.padding * 2 + val p.width + ε ≤ M ∧
    val s.padding * 2 + val p.height + ε ≤ M

/-- With its padding (as computed) the part fits an empty sheet, upright or turned. -/
def FitsRounded (val : F → K) (s : Sheet F) (p : RenderedPart F P) : Prop :=
  Fits ⟨0, 0, val s.width, val s.height⟩ (val (s.padding *. Arith.two +. p.width)) (val (s.padding *. Arith.two +. p.height))

/-- The parts of a sheet lie on it, each in a rectangle at its position with its size, upright or turned: the rectangles keep the padding to the sides of the
sheet up to `δ`, and are apart by twice the padding up to `η`. -/
def Laid (val : F → K) (s : Sheet F) (δ η : K) (d : SvgDoc F P) : Prop :=
  (∀ r ∈ d.renderables, FitsRounded val s r.part) ∧
  ∃ foot : List (Rect K),
    List.Forall₂ (fun (r : Renderable F P) (f : Rect K) => f.x = val r.x ∧ f.y = val r.y ∧
      ((f.w = val r.part.width ∧ f.h = val r.part.height) ∨ (f.w = val r.part.height ∧ f.h = val r.part.width))) d.renderables foot ∧
    (∀ f ∈ foot, (f.grow (val s.padding)).Within (Rect.grow ⟨0, 0, val s.width, val s.height⟩ δ)) ∧
    foot.Pairwise fun f g => f.Apart g (val s.padding * 2 - η)

/-- A single part that does not fit, in the corner of its sheet. -/
def Alone (val : F → K) (s : Sheet F) (d : SvgDoc F P) : Prop :=
  ∃ p, d.renderables = [⟨Arith.zero, Arith.zero, p, false⟩] ∧ ¬FitsRounded val s p

/-- The rectangle at the position of the part with its size, turned if the part is drawn turned. -/
def groundOf (val : F → K) (r : Renderable F P) : Rect K :=
  if r.rotate then ⟨val r.x, val r.y, val r.part.height, val r.part.width⟩ else ⟨val r.x, val r.y, val r.part.width, val r.part.height⟩

/-- No free bin of the sheet has exactly the padded size of the part, upright or turned. -/
def NoFilling (val : F → K) (d : SvgDoc F P) (p : RenderedPart F P) : Prop :=
  ∀ f ∈ d.container.emptyBins,
    ¬(val f.width = val (d.padding *. Arith.two +. p.width) ∧ val f.height = val (d.padding *. Arith.two +. p.height)) ∧
    ¬(val f.width = val (d.padding *. Arith.two +. p.height) ∧ val f.height = val (d.padding *. Arith.two +. p.width))

/-- While the parts are added one after the other to the sheet, none but squares ever meets a free bin of exactly its own padded size. -/
def NoFillings (val : F → K) : SvgDoc F P → List (RenderedPart F P) → Prop
  | _, [] => True
  | d, p :: ps => (val p.width = val p.height ∨ NoFilling val d p) ∧ ∀ d' res, d.add p = some (d', res) → NoFillings val d' ps

end Verif.PlanSet
