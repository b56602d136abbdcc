import Verif.Spec.Parts
import Verif.Model.DrawComponent

/-!
# Specification of finger joints

The pieces of the shipped designs designs/joints/finger_joint_plug.hfd and designs/joints/finger_joint_socket.hfd, and the outline that the
edges made of them have to have.
-/

namespace Verif.Spec

open Verif Verif.Path

/-- A command that has only a point `to`. -/
noncomputable def toCommand (name : Text) (x y : XNum ℝ) : Command (XNum ℝ) where
  name := name
  point k := if k = "to".toList then some (newPoint x y) else none
  number _ := none
  text _ := none
  flag _ := none

/-- `{"command": "move", "to": {"x": …, "y": …}}`. -/
noncomputable def moveCommand (x y : XNum ℝ) : Command (XNum ℝ) := toCommand "move".toList x y

/-- `{"command": "rel_line", "to": {"x": …, "y": …}}`. -/
noncomputable def relLineCommand (x y : XNum ℝ) : Command (XNum ℝ) := toCommand "rel_line".toList x y

/-- designs/joints/finger_joint_plug.hfd:32-78: the finger, of the width `w` and the height `h`, with the space `s`. -/
noncomputable def plugFinger (w h s : ℝ) : List (Command (XNum ℝ)) :=
  [moveCommand (.fin 0) (.fin h), relLineCommand (.fin (s / 2)) (.fin 0), relLineCommand (.fin 0) (.fin (0 - h)), relLineCommand (.fin w) (.fin 0),
   relLineCommand (.fin 0) (.fin h), relLineCommand (.fin (s / 2)) (.fin 0)]

/-- designs/joints/finger_joint_plug.hfd:79-116: the ends; `rest` is `left_width` or `right_width`. -/
noncomputable def plugEnd (h : ℝ) (rest : XNum ℝ) : List (Command (XNum ℝ)) := [moveCommand (.fin 0) (.fin h), relLineCommand rest (.fin 0)]

/-- designs/joints/finger_joint_socket.hfd:32-71: the notch. -/
noncomputable def socketNotch (w h s : ℝ) : List (Command (XNum ℝ)) :=
  [relLineCommand (.fin (s / 2)) (.fin 0), relLineCommand (.fin 0) (.fin h), relLineCommand (.fin w) (.fin 0),
   relLineCommand (.fin 0) (.fin (0 - h)), relLineCommand (.fin (s / 2)) (.fin 0)]

/-- designs/joints/finger_joint_socket.hfd:72-109: the ends. -/
noncomputable def socketEnd (rest : XNum ℝ) : List (Command (XNum ℝ)) := [moveCommand (.fin 0) (.fin 0), relLineCommand rest (.fin 0)]

/-- `{"command": "rel_move", "to": {"x": …, "y": …}}`. -/
noncomputable def relMoveCommand (x y : XNum ℝ) : Command (XNum ℝ) := toCommand "rel_move".toList x y

/-- `{"command": "rectangle", "width": …, "height": …}`. -/
noncomputable def rectCommand (w h : XNum ℝ) : Command (XNum ℝ) where
  name := "rectangle".toList
  point _ := none
  number k := if k = "width".toList then some w else if k = "height".toList then some h else none
  text _ := none
  flag _ := none

/-- designs/joints/finger_joint_holes.hfd:27-50: the hole, of the width `w` and the height `d`. -/
noncomputable def holePiece (w d s : ℝ) : List (Command (XNum ℝ)) :=
  [moveCommand (.fin (s / 2)) (.fin 0), rectCommand (.fin w) (.fin d), relMoveCommand (.fin (w + s / 2)) (.fin 0)]

/-- designs/joints/finger_joint_holes.hfd:51-88: the ends, which draw nothing. -/
noncomputable def holeEnd (rest : XNum ℝ) : List (Command (XNum ℝ)) := [moveCommand (.fin 0) (.fin 0), relMoveCommand rest (.fin 0)]

/-- A rectangle of the width `w` and the height `d` with a corner at `(x, 0)`. -/
noncomputable def holeAt (w d x : ℝ) : List (Stroke ℝ) :=
  [.line (x, 0) (x + w, 0), .line (x + w, 0) (x + w, d), .line (x + w, d) (x, d), .line (x, d) (x, 0)]

/-- One tooth: from the height `base` to the height `tip` and back, in the middle of the cell that begins at `x`. -/
noncomputable def tooth (base tip w s x : ℝ) : List (Stroke ℝ) :=
  [.line (x, base) (x + s / 2, base), .line (x + s / 2, base) (x + s / 2, tip), .line (x + s / 2, tip) (x + s / 2 + w, tip),
   .line (x + s / 2 + w, tip) (x + s / 2 + w, base), .line (x + s / 2 + w, base) (x + (s + w), base)]

/-- The outline of an edge of the length `L` with `n` teeth, the first of which begins at `l`. -/
noncomputable def comb (base tip w s l : ℝ) (n : ℕ) (L : ℝ) : List (Stroke ℝ) :=
  .line (0, base) (l, base) :: (List.range n).flatMap (fun k : ℕ => tooth base tip w s (l + k * (s + w))) ++
    [.line (l + n * (s + w), base) (L, base)]

/-- A point is on one of the strokes. -/
def OnComb (ss : List (Stroke ℝ)) (q : Pt ℝ) : Prop := ∃ st ∈ ss, ∃ t : ℝ, 0 ≤ t ∧ t ≤ 1 ∧ st.at t = q

/-- The place `x` on the edge is inside a tooth. -/
def InTooth (w s l : ℝ) (n : ℕ) (x : ℝ) : Prop := ∃ k < n, l + k * (s + w) + s / 2 < x ∧ x < l + k * (s + w) + s / 2 + w

/-- The place `x` is at the side of a tooth. -/
def AtSide (w s l : ℝ) (n : ℕ) (x : ℝ) : Prop := ∃ k < n, x = l + k * (s + w) + s / 2 ∨ x = l + k * (s + w) + s / 2 + w

/-- The teeth on an edge of the length `L`: as many as fit between the paddings. -/
noncomputable def teeth (w s padL padR L : ℝ) : ℕ := copies (L - (padL + padR)) (s + w)

/-- Where the first tooth begins: what is left over is divided evenly. -/
noncomputable def teethStart (w s padL padR L : ℝ) : ℝ := (L - (padL + padR) - teeth w s padL padR L * (s + w)) / 2 + padL

end Verif.Spec
