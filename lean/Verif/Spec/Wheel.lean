import Verif.Spec.Components
import Verif.Spec.Piece

/-!
# Specification vocabulary for gears in documents

```
{ "type": "gear", "teeth": …, "tooth_width": …, "pressure_angle": …, "clearance": …, "backlash": … }
```

Each of the five numbers may be left out.
-/

namespace Verif.Render

open Verif Verif.Dyn Verif.Path Verif.PlanSet Verif.Svg Verif.Spec Verif.Files Verif.Xml

/-- A gear as a document asks for it. -/
structure Wheel where
  teeth : Option ℕ
  width : Option ℝ
  angle : Option ℝ
  clearance : Option ℝ
  backlash : Option ℝ

/-- A number in a document, if there is one. -/
def entryOf (key : Text) : Option ℝ → DMap (XNum ℝ)
  | none => []
  | some x => [(key, .num (.fin x))]

/-- The gear in a document. -/
def Wheel.map (o : Wheel) : DMap (XNum ℝ) :=
  ("type".toList, .str "gear".toList) :: (entryOf "teeth".toList (o.teeth.map Nat.cast) ++ entryOf "tooth_width".toList o.width ++ entryOf "pressure_angle".toList o.angle ++
    entryOf "clearance".toList o.clearance ++ entryOf "backlash".toList o.backlash)

/-- The gear that is meant: ten teeth of half a unit, an angle of 20 degrees, a hundredth of clearance and of backlash, if nothing else is said. -/
noncomputable def Wheel.dims (o : Wheel) : GearDims :=
  ⟨o.teeth.getD 10, o.width.getD (1 / 2), o.angle.getD 20, o.clearance.getD (1 / 100), o.backlash.getD (1 / 100)⟩

/-- The corners of one tooth in polar coordinates: two on the root circle, six on each flank, two on the root circle; of the latter the last one with 3.142 for π. -/
noncomputable def toothCorners (g : GearDims) : List (ℝ × ℝ) :=
  let foot := if g.root < g.base then -(involuteAngle g.base g.pitch) - g.thickness / 2 / g.pitch else -(Real.pi / g.teeth)
  [(g.root, -(Real.pi / g.teeth)), (g.root, foot)] ++ ([0, 1, 2, 3, 4, 5].map fun k => (g.radius k, g.flankAt (g.radius k))) ++
    ([5, 4, 3, 2, 1, 0].map fun k => (g.radius k, -g.flankAt (g.radius k))) ++ [(g.root, -foot), (g.root, 3.142 / (g.teeth : ℝ))]

/-- What it draws: the closed polygon through the corners of all teeth, each turned by one pitch from the one before. -/
noncomputable def Wheel.draws (o : Wheel) : List (Stroke ℝ) :=
  polygon ((List.range o.dims.teeth).flatMap fun i : ℕ => (toothCorners o.dims).map fun c => polarPt c.1 (c.2 + i * (2 * Real.pi / o.dims.teeth)))

/-- The sizes make sense, and the teeth can be counted. -/
structure Wheel.Fits (o : Wheel) : Prop where
  ok : o.dims.Ok
  count : o.dims.teeth < 2 ^ 63

end Verif.Render
