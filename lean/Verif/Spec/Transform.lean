import Verif.Spec.Path
import Verif.NumClass
import Verif.Model.PathOps
import Mathlib.Data.Real.Basic

/-!
# Specification vocabulary for transforms of paths
-/

namespace Verif.Spec

open Verif Verif.Path

universe u

/-- The same stroke drawn backwards. -/
def Stroke.reverse {F : Type u} : Stroke F → Stroke F
  | .line a b => .line b a
  | .curve a c d b => .curve b d c a

/-- Two points that print the same with `n` decimals. -/
def PrintsSame {F : Type u} [Num F] (n : Nat) (p q : Pt F) : Prop :=
  Num.fmt n p.1 = Num.fmt n q.1 ∧ Num.fmt n p.2 = Num.fmt n q.2

/-- The same stroke, except that the start may have been replaced by another one that prints the same. -/
inductive Aligned {F : Type u} [Num F] (n : Nat) : Stroke F → Stroke F → Prop
  | same (s : Stroke F) : Aligned n s s
  | line (a a' b : Pt F) (h : PrintsSame n a a') : Aligned n (.line a b) (.line a' b)
  | curve (a a' c d b : Pt F) (h : PrintsSame n a a') : Aligned n (.curve a c d b) (.curve a' c d b)

/-- `ys` draws the strokes `xs` in some order, each as it is or backwards. -/
def Rearranged {F : Type u} (xs ys : List (Stroke F)) : Prop :=
  ∃ zs : List (Stroke F), zs.Perm xs ∧ List.Forall₂ (fun z y => y = z ∨ y = z.reverse) zs ys

/-- `-0` replaced by `0`. -/
def unsignedZero {F : Type u} [Arith F] (x : F) : F := if x ==. Arith.zero then Arith.zero else x

/-- `-0` replaced by `0` in both coordinates. -/
def unsignedPt {F : Type u} [Arith F] (p : Pt F) : Pt F := (unsignedZero p.1, unsignedZero p.2)

/-- Go's `==` on numbers is symmetric. -/
def SymmEq (F : Type u) [Arith F] : Prop := ∀ a b : F, (a ==. b) = (b ==. a)

section Boxes

variable {K : Type u} [Field K] [LinearOrder K]

/-- The points `D` fit in the box from `tl` to `br`, and touch each of its four sides. -/
structure BoxOf (D : Pt K → Prop) (tl br : Pt K) : Prop where
  inside : ∀ q, D q → tl.1 ≤ q.1 ∧ q.1 ≤ br.1 ∧ tl.2 ≤ q.2 ∧ q.2 ≤ br.2
  left : ∃ q, D q ∧ q.1 = tl.1
  right : ∃ q, D q ∧ q.1 = br.1
  top : ∃ q, D q ∧ q.2 = tl.2
  bottom : ∃ q, D q ∧ q.2 = br.2

/-- The first and the last segment end in the box (with a move at the start or at the end, this is not so of itself). -/
def EndsInside (p : Path K) (tl br : Pt K) : Prop :=
  ∀ s, p.head? = some s ∨ p.getLast? = some s → tl.1 ≤ s.stop.x ∧ s.stop.x ≤ br.1 ∧ tl.2 ≤ s.stop.y ∧ s.stop.y ≤ br.2

/-- Where a handle of a drawing is: a corner, the middle of a side or the centre of the box of what is drawn, the start of the first
stroke, or the end of the last one. -/
def IsAnchor (p : Path K) (a : Attr) (q : Pt K) : Prop :=
  match a with
  | .topLeft => ∃ tl br, BoxOf (Drawn p) tl br ∧ q = tl
  | .topRight => ∃ tl br, BoxOf (Drawn p) tl br ∧ q = (br.1, tl.2)
  | .topMiddle => ∃ tl br, BoxOf (Drawn p) tl br ∧ q = ((tl.1 + br.1) / 2, tl.2)
  | .bottomLeft => ∃ tl br, BoxOf (Drawn p) tl br ∧ q = (tl.1, br.2)
  | .bottomRight => ∃ tl br, BoxOf (Drawn p) tl br ∧ q = br
  | .bottomMiddle => ∃ tl br, BoxOf (Drawn p) tl br ∧ q = ((tl.1 + br.1) / 2, br.2)
  | .middleLeft => ∃ tl br, BoxOf (Drawn p) tl br ∧ q = (tl.1, (tl.2 + br.2) / 2)
  | .middleRight => ∃ tl br, BoxOf (Drawn p) tl br ∧ q = (br.1, (tl.2 + br.2) / 2)
  | .middleMiddle => ∃ tl br, BoxOf (Drawn p) tl br ∧ q = ((tl.1 + br.1) / 2, (tl.2 + br.2) / 2)
  | .startPoint => ∃ s, (strokes p).head? = some s ∧ q = s.at 0
  | .endPoint => ∃ s, (strokes p).getLast? = some s ∧ q = s.at 1
  | _ => False

/-- The nine points of the box, the start and the end. -/
def handles : List Attr :=
  [.topLeft, .topRight, .topMiddle, .bottomLeft, .bottomRight, .bottomMiddle, .middleLeft, .middleRight, .middleMiddle, .startPoint,
   .endPoint]

/-- The coordinates from which `bezier.Box` starts its search for the minimum bound the curves it works for: every curve starts below
`2^63` in absolute value. -/
def Small (p : Path ℝ) : Prop :=
  ∀ a c d b : Pt ℝ, Stroke.curve a c d b ∈ strokes p → |a.1| < 2 ^ 63 ∧ |a.2| < 2 ^ 63

/-- A point with finite coordinates, seen in extended arithmetic. -/
def finPt (p : Point K) : Point (XNum K) := ⟨.fin p.x, .fin p.y, .fin p.t⟩

def finSeg : Segment K → Segment (XNum K)
  | .move a b => .move (finPt a) (finPt b)
  | .line a b => .line (finPt a) (finPt b)
  | .curve a c d b => .curve (finPt a) (finPt c) (finPt d) (finPt b)

/-- A path with finite coordinates, seen in extended arithmetic. -/
def finPath (p : Path K) : Path (XNum K) := p.map finSeg

end Boxes

end Verif.Spec
