import Verif.Spec.Transform

/-!
# Specification vocabulary for joining paths and strokes
-/

namespace Verif.Spec

open Verif Verif.Path

universe u

/-- A drawing in one go: a single move at the head, then strokes only. -/
def OneRun {F : Type u} (p : Path F) : Prop := p = [] ∨ ∃ a b run, p = .move a b :: run ∧ ∀ s ∈ run, s.isMove = false

/-- Two strokes that print the same with `n` decimals. -/
def PrintsAs {F : Type u} [Num F] (n : Nat) : Stroke F → Stroke F → Prop
  | .line a b, .line a' b' => PrintsSame n a a' ∧ PrintsSame n b b'
  | .curve a c d b, .curve a' c' d' b' => PrintsSame n a a' ∧ PrintsSame n c c' ∧ PrintsSame n d d' ∧ PrintsSame n b b'
  | _, _ => False

/-- No stroke goes back over the stroke before it, as printed with `n` decimals. -/
def NoRetrace {F : Type u} [Num F] (n : Nat) (l : List (Stroke F)) : Prop := List.IsChain (fun u v => ¬ PrintsAs n v u.reverse) l

/-- Where a stroke begins. -/
def Stroke.first {F : Type u} : Stroke F → Pt F
  | .line a _ => a
  | .curve a _ _ _ => a

/-- Where a stroke ends. -/
def Stroke.last {F : Type u} : Stroke F → Pt F
  | .line _ b => b
  | .curve _ _ _ b => b

/-- The drawing ends where it begins. -/
def Closed {F : Type u} (l : List (Stroke F)) : Prop := ∃ s t, l.head? = some s ∧ l.getLast? = some t ∧ t.last = s.first

/-- Each stroke begins where the one before it ended. -/
def Unbroken {F : Type u} (l : List (Stroke F)) : Prop := List.IsChain (fun s t => s.last = t.first) l

/-- The strokes begin at `a` and end at `b`. -/
def FromTo {F : Type u} (l : List (Stroke F)) (a b : Pt F) : Prop := (l.head?.map Stroke.first) = some a ∧ (l.getLast?.map Stroke.last) = some b

/-- The line `a'`-`b'` is `a`-`b` displaced at right angles by `d`, to the side of `(-dy, dx)` for `d > 0`. -/
def ParallelAt (d : ℝ) (a b a' b' : Point ℝ) : Prop :=
  b'.x - a'.x = b.x - a.x ∧ b'.y - a'.y = b.y - a.y ∧ (a'.x - a.x) * (b.x - a.x) + (a'.y - a.y) * (b.y - a.y) = 0 ∧
    (b.x - a.x) * (a'.y - a.y) - (b.y - a.y) * (a'.x - a.x) = d * Real.sqrt ((b.x - a.x) ^ 2 + (b.y - a.y) ^ 2)

end Verif.Spec
