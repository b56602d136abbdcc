import Verif.Spec.Join

/-!
# Specification vocabulary for cutting paths
-/

namespace Verif.Spec

open Verif Verif.Path

universe u

/-- Segments one after the other from `a` to `b`, each beginning where the one before it ended. -/
def Leads {F : Type u} (a b : Pt F) : List (Segment F) → Prop
  | [] => False
  | [s] => pt s.start = a ∧ pt s.stop = b
  | s :: t :: rest => pt s.start = a ∧ Leads (pt s.stop) b (t :: rest)

/-- Where the knife of a horizontal cut begins: at the start of the first segment, but not to the right of zero. -/
noncomputable def leftEdge : Path ℝ → ℝ
  | [] => 0
  | s :: _ => min 0 s.start.x

/-- There are no curves. -/
def Straight {F : Type u} (p : Path F) : Prop := ∀ s ∈ p, ∃ a b, s = .move a b ∨ s = .line a b

/-- An end of the stroke is above the height `Y` (ordinates grow downwards), and that can be seen with `n` decimals. -/
def Rises (n : Nat) (Y : ℝ) (s : Stroke ℝ) : Prop :=
  s.first.2 < Y ∧ Num.fmt n s.first.2 ≠ Num.fmt n Y ∨ s.last.2 < Y ∧ Num.fmt n s.last.2 ≠ Num.fmt n Y

/-- A line left whole or cut in pieces at the height `Y`; the third form has two cuts, both at this height. -/
def CutAt (Y : ℝ) (s : Stroke ℝ) (l : List (Stroke ℝ)) : Prop :=
  l = [s] ∨ (∃ c : Pt ℝ, c.2 = Y ∧ l = [.line s.first c, .line c s.last]) ∨
    ∃ c d : Pt ℝ, c.2 = Y ∧ d.2 = Y ∧ l = [.line s.first c, .line c d, .line d s.last]

/-- The line from `a` to `b` rises by more than `1/10^n` for one to the side. -/
def Steep (n : Nat) (a b : Pt ℝ) : Prop := |b.1 - a.1| / 10 ^ n < |b.2 - a.2|

/-- The line `t` crosses the height `Y` at `q`, up to the precision: `q` is on the straight line through its ends (or at its start, if it
is as good as vertical), and in its box. -/
def Crosses (n : Nat) (Y : ℝ) (t : Stroke ℝ) (q : Pt ℝ) : Prop :=
  q.2 = Y ∧
    ((∃ k : ℝ, q.1 = t.first.1 + k * (t.last.1 - t.first.1) ∧ q.2 = t.first.2 + k * (t.last.2 - t.first.2)) ∨
      |t.last.1 - t.first.1| ≤ 1 / 10 ^ n ∧ q.1 = t.first.1) ∧
    min t.first.1 t.last.1 - 1 / 10 ^ n ≤ q.1 ∧ q.1 ≤ max t.first.1 t.last.1 + 1 / 10 ^ n ∧
    min t.first.2 t.last.2 - 1 / 10 ^ n ≤ q.2 ∧ q.2 ≤ max t.first.2 t.last.2 + 1 / 10 ^ n

end Verif.Spec
