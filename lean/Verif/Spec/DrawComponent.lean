import Verif.Model.DrawComponent
import Verif.Spec.Affine

/-!
# Specification vocabulary for draw components
-/

namespace Verif.Spec

open Verif Verif.Path

universe u

/-- Something that a drawing command has to be given: a point, a number or a text with a name. -/
inductive Need where
  | point (name : String)
  | number (name : String)
  | text (name : String)
deriving Repr, DecidableEq

/-- The drawing commands with what they have to be given. -/
def commandNeeds : List (String × List Need) :=
  [("move", [.point "to"]),
   ("rel_move", [.point "to"]),
   ("line_by_angle", [.number "length", .number "angle"]),
   ("line", [.point "to"]),
   ("rel_line", [.point "to"]),
   ("curve", [.point "to", .point "ctrl_start", .point "ctrl_end"]),
   ("rel_curve", [.point "to", .point "ctrl_start", .point "ctrl_end"]),
   ("smooth_curve", [.point "to", .point "ctrl_end"]),
   ("rel_smooth_curve", [.point "to", .point "ctrl_end"]),
   ("circle", [.number "radius"]),
   ("rectangle", [.number "width", .number "height"]),
   ("round_corner", [.number "radius", .point "to", .point "corner"]),
   ("rel_round_corner", [.number "radius", .point "to", .point "corner"]),
   ("svg", [.text "svg"]),
   ("svg_scale_to", [.text "svg", .point "to"]),
   ("rel_svg_scale_to", [.text "svg", .point "to"]),
   ("svg_connect_to", [.text "svg", .point "to"]),
   ("rel_svg_connect_to", [.text "svg", .point "to"])]

/-- The command is given this. -/
def Given {F : Type u} (c : Command F) : Need → Prop
  | .point k => (c.point k.toList).isSome
  | .number k => (c.number k.toList).isSome
  | .text k => (c.text k.toList).isSome

/-- The command has a name from the list, and is given what this name needs. -/
def Complete {F : Type u} (c : Command F) : Prop := ∃ e ∈ commandNeeds, e.1.toList = c.name ∧ ∀ n ∈ e.2, Given c n

/-- Every svg text that the command is given can be read. -/
def Readable {F : Type u} [Trig F] (c : Command F) : Prop := ∀ s, c.text "svg".toList = some s → (parsePath s : Option (Path F)).isSome

/-- The command only draws: its name does not ask for an svg text to be fitted between two points. -/
def Plain {F : Type u} (c : Command F) : Prop :=
  c.name ∉ ["svg_scale_to".toList, "rel_svg_scale_to".toList, "svg_connect_to".toList, "rel_svg_connect_to".toList]

/-- The relative commands with their absolute counterparts. -/
def relativeCommands : List (String × String) :=
  [("rel_move", "move"), ("rel_line", "line"), ("rel_curve", "curve"), ("rel_smooth_curve", "smooth_curve"), ("rel_round_corner", "round_corner"),
   ("rel_svg_scale_to", "svg_scale_to"), ("rel_svg_connect_to", "svg_connect_to")]

/-- Where a smooth curve that begins at `cur` leaves: opposite to where the last stroke came from, if this was a curve. -/
noncomputable def smoothStart (cur : Pt ℝ) : Option (Segment ℝ) → Pt ℝ
  | some (.curve _ _ c _) => (2 * cur.1 - c.x, 2 * cur.2 - c.y)
  | _ => cur

/-- The distance of two points. -/
noncomputable def wayLength (a b : Pt ℝ) : ℝ := Real.sqrt ((b.1 - a.1) ^ 2 + (b.2 - a.2) ^ 2)

/-- The point on the way from `a` to `b` at distance `d` from `a`. -/
noncomputable def onWay (a b : Pt ℝ) (d : ℝ) : Pt ℝ := (a.1 + d * ((b.1 - a.1) / wayLength a b), a.2 + d * ((b.2 - a.2) / wayLength a b))

/-- The part of the radius between the end of a quarter of a circle and the control point. -/
noncomputable def quarterControl : ℝ := 4 * (Real.sqrt 2 - 1) / 3

/-- A corner at `k` on the way from `s` to `t`, rounded with radius `r`: both legs end at the distance `r` from the corner, the control points
of the curve between them lie on the legs. -/
noncomputable def roundedCorner (s k t : Pt ℝ) (r : ℝ) : List (Stroke ℝ) :=
  [.line s (onWay k s r),
   .curve (onWay k s r) (onWay k s (r - quarterControl * r)) (onWay k t (r - quarterControl * r)) (onWay k t r),
   .line (onWay k t r) t]

/-- A way along one of the axes, longer than 0.001. -/
def AlongAxis (a b : Pt ℝ) : Prop := (a.1 = b.1 ∧ 1 / 1000 < |a.2 - b.2|) ∨ (a.2 = b.2 ∧ 1 / 1000 < |a.1 - b.1|)

/-- A way up or down, left or right, or slanting to the right. -/
def GoodWay (a b : Pt ℝ) : Prop :=
  (a.1 = b.1 ∧ a.2 ≠ b.2) ∨ (a.2 = b.2 ∧ 1 / 1000 < |a.1 - b.1|) ∨ (1 / 1000 < b.1 - a.1 ∧ 1 / 1000 < |a.2 - b.2|)

/-- A way that goes neither along nor nearly along an axis. -/
def Slanted (a b : Pt ℝ) : Prop := 1 / 1000 < |a.1 - b.1| ∧ 1 / 1000 < |a.2 - b.2|

end Verif.Spec
