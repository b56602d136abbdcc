import Verif.Spec.Transform
import Verif.Model.Parts
import Mathlib.Algebra.Order.Floor.Semiring

/-!
# Specification of repeats, splitting and layers
-/

namespace Verif.Spec

universe u

open Verif Verif.Path

/-- The number of copies that fit: as many as fit into a positive maximum, and one if there is no maximum. -/
noncomputable def copies (max size : ℝ) : ℕ := if 0 < max then ⌊max / size⌋₊ else 1

/-- The conversion of the Go compiler from numbers to `int` gives every whole number in the range of `int64`; nothing is said about the
others. -/
def Faithful (toInt : XNum ℝ → Int) : Prop := ∀ n : ℤ, |n| < 2 ^ 63 → toInt (.fin (n : ℝ)) = n

/-- A path begins with a move from the origin, as every path does that the code builds from segments. -/
def StartsAtOrigin (p : Path ℝ) : Prop := ∃ (z b : Point ℝ) (rest : Path ℝ), p = .move z b :: rest ∧ z.x = 0 ∧ z.y = 0

/-- The length of the line from `a` to `b`. -/
noncomputable def lengthOf (a b : Pt ℝ) : ℝ := Real.sqrt ((b.1 - a.1) ^ 2 + (b.2 - a.2) ^ 2)

/-- The rigid map that lays the horizontal axis on the line from `a` to `b`, with the origin at `a`. -/
noncomputable def along (a b q : Pt ℝ) : Pt ℝ :=
  (a.1 + (q.1 * (b.1 - a.1) - q.2 * (b.2 - a.2)) / lengthOf a b, a.2 + (q.1 * (b.2 - a.2) + q.2 * (b.1 - a.1)) / lengthOf a b)

/-- A part fits the maximum in one of its two positions. -/
def FitsWithin (maxWidth maxHeight w h : ℝ) : Prop := (w ≤ maxWidth ∧ h ≤ maxHeight) ∨ (h ≤ maxWidth ∧ w ≤ maxHeight)

/-- The heights at which the lathe looks: from `y` in steps of `t`, as long as `last` is not passed. -/
noncomputable def heights (y last t : ℝ) : List ℝ := (List.range (⌊(last - y) / t⌋ + 1).toNat).map fun k : ℕ => y + k * t

/-- The layers: at each height with at least two intercepts whose distance does not print as zero, the first two intercepts. -/
def sections {F : Type u} [Num F] (precision : Int) (cuts : F → List (Point F)) (hs : List F) : List (Point F × Point F) :=
  hs.filterMap fun y => match cuts y with
    | a :: b :: _ => if precisionEquals (b.x -. a.x) Arith.zero precision then none else some (a, b)
    | _ => none

end Verif.Spec
